import Verif.Proofs.BigData
/-! # The first round on the big-endian machine (see `Proofs/BigData`) -/
namespace LESS
namespace BigRun
open ToyRun (of_returns stale seeds g0 salt msg storage')

theorem Q0_eq : Machine.monomialSeedExpandSaltRnd .big 100 ⟨Vector.replicate _ 0, Vector.replicate _ 0⟩ (seg tree (toy.seedLen * (toy.numLeaves - 1) + 0 * toy.seedLen) toy.seedLen) salt 0 = .ok Q0 := of_returns (by decide +kernel)

theorem M0_eq : generatorMonomialMul (Vector.replicate toy.K (Vector.replicate toy.N 0)) G Q0 = .ok M0 := of_returns (by decide +kernel)

theorem R0_eq : generatorRREF M0 (Vector.replicate toy.N 0) = .ok (1, R0, piv0) := of_returns (by decide +kernel)

theorem U0_eq : ToyRun.columnLoop stale.norm stale.act' Q0 R0 piv0 = .ok (U0, act0, 2, 132) := of_returns (by decide +kernel)

theorem U0_bytes : ∀ i < toy.K, ∀ j < toy.N - toy.K, g2 U0 i j < 256 := by decide +kernel

theorem U0_perm : (colsOf U0).Perm (colsOf V0) := by decide +kernel

theorem V0_sorted : (colsOf V0).IsChain (· ≤ ·) := by decide +kernel

theorem V0_eq : prepareDigestInput stale.norm stale.act' G Q0 = .ok (V0, act0, 1) :=
  ToyRun.prepare_eq M0_eq R0_eq U0_eq U0_bytes U0_perm V0_sorted

theorem h1_eq : hashAbsorb toy hashInit (normBytes V0) = h1 := by decide +kernel

theorem h2_eq : hashAbsorb toy h1 (normBytes ToyRun.V1) = h2 := by decide +kernel

end BigRun
end LESS
