import Verif.Proofs.BigData
/-! # The last round on the big-endian machine (see `Proofs/BigData`) -/
namespace LESS
namespace BigRun
open ToyRun (of_returns stale seeds g0 salt msg storage')

theorem Q2_eq : Machine.monomialSeedExpandSaltRnd .big 100 ⟨Vector.replicate _ 0, Vector.replicate _ 0⟩ (seg tree (toy.seedLen * (toy.numLeaves - 1) + 2 * toy.seedLen) toy.seedLen) salt 2 = .ok Q2 := of_returns (by decide +kernel)

theorem M2_eq : generatorMonomialMul (Vector.replicate toy.K (Vector.replicate toy.N 0)) G Q2 = .ok M2 := of_returns (by decide +kernel)

theorem R2_eq : generatorRREF M2 (Vector.replicate toy.N 0) = .ok (1, R2, piv2) := of_returns (by decide +kernel)

theorem U2_eq : ToyRun.columnLoop stale.norm stale.act' Q2 R2 piv2 = .ok (U2, act2, 2, 132) := of_returns (by decide +kernel)

theorem U2_bytes : ∀ i < toy.K, ∀ j < toy.N - toy.K, g2 U2 i j < 256 := by decide +kernel

theorem U2_perm : (colsOf U2).Perm (colsOf V2) := by decide +kernel

theorem V2_sorted : (colsOf V2).IsChain (· ≤ ·) := by decide +kernel

theorem V2_eq : prepareDigestInput stale.norm stale.act' G Q2 = .ok (V2, act2, 1) :=
  ToyRun.prepare_eq M2_eq R2_eq U2_eq U2_bytes U2_perm V2_sorted

theorem h3_eq : hashAbsorb toy h2 (normBytes V2) = h3 := by decide +kernel

theorem h4_eq : hashAbsorb toy h3 msg = h4 := by decide +kernel

theorem h5_eq : hashAbsorb toy h4 salt = h5 := by decide +kernel

theorem digest_eq : hashFinalize toy h5 = digest := by decide +kernel

end BigRun
end LESS
