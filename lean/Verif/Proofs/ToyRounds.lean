import Verif.Proofs.ToyData
/-! # The signing rounds of the small run (see `Proofs/ToyData`) -/
namespace LESS
namespace ToyRun

theorem ephem_eq : csprngBytes toy toy.seedLen rng2 = (ephem, rng3) :=
  by decide +kernel

theorem salt_eq : csprngBytes toy toy.hashLen rng3 = (salt, rng4) :=
  by decide +kernel

theorem tree_eq : generateSeedTree (p := toy) (Vector.replicate _ 0) ephem salt = .ok tree := of_returns (by decide +kernel)

theorem leaf0_eq : slice tree (toy.seedLen * (toy.numLeaves - 1) + 0 * toy.seedLen) toy.seedLen = .ok (seg tree (toy.seedLen * (toy.numLeaves - 1) + 0 * toy.seedLen) toy.seedLen) := of_returns (by decide +kernel)

theorem Q0_eq : monomialSeedExpandSaltRnd 100 stale.mono (seg tree (toy.seedLen * (toy.numLeaves - 1) + 0 * toy.seedLen) toy.seedLen) salt 0 = .ok Q0 := of_returns (by decide +kernel)

theorem M0_eq : generatorMonomialMul (Vector.replicate toy.K (Vector.replicate toy.N 0)) G0 Q0 = .ok M0 := of_returns (by decide +kernel)

theorem R0_eq : generatorRREF M0 (Vector.replicate toy.N 0) = .ok (1, R0, piv0) := of_returns (by decide +kernel)

theorem U0_eq : columnLoop stale.norm stale.act' Q0 R0 piv0 = .ok (U0, act0, 2, 132) := of_returns (by decide +kernel)

theorem U0_bytes : ∀ i < toy.K, ∀ j < toy.N - toy.K, g2 U0 i j < 256 := by decide +kernel

theorem U0_perm : (colsOf U0).Perm (colsOf V0) := by decide +kernel

theorem V0_sorted : (colsOf V0).IsChain (· ≤ ·) := by decide +kernel

theorem V0_eq : prepareDigestInput stale.norm stale.act' G0 Q0 = .ok (V0, act0, 1) :=
  prepare_eq M0_eq R0_eq U0_eq U0_bytes U0_perm V0_sorted

theorem h1_eq : hashAbsorb toy hashInit (normBytes V0) = h1 :=
  by decide +kernel

theorem leaf1_eq : slice tree (toy.seedLen * (toy.numLeaves - 1) + 1 * toy.seedLen) toy.seedLen = .ok (seg tree (toy.seedLen * (toy.numLeaves - 1) + 1 * toy.seedLen) toy.seedLen) := of_returns (by decide +kernel)

theorem Q1_eq : monomialSeedExpandSaltRnd 100 stale.mono (seg tree (toy.seedLen * (toy.numLeaves - 1) + 1 * toy.seedLen) toy.seedLen) salt 1 = .ok Q1 := of_returns (by decide +kernel)

theorem M1_eq : generatorMonomialMul (Vector.replicate toy.K (Vector.replicate toy.N 0)) G0 Q1 = .ok M1 := of_returns (by decide +kernel)

theorem R1_eq : generatorRREF M1 (Vector.replicate toy.N 0) = .ok (1, R1, piv1) := of_returns (by decide +kernel)

theorem U1_eq : columnLoop stale.norm stale.act' Q1 R1 piv1 = .ok (U1, act1, 2, 132) := of_returns (by decide +kernel)

theorem U1_bytes : ∀ i < toy.K, ∀ j < toy.N - toy.K, g2 U1 i j < 256 := by decide +kernel

theorem U1_perm : (colsOf U1).Perm (colsOf V1) := by decide +kernel

theorem V1_sorted : (colsOf V1).IsChain (· ≤ ·) := by decide +kernel

theorem V1_eq : prepareDigestInput stale.norm stale.act' G0 Q1 = .ok (V1, act1, 1) :=
  prepare_eq M1_eq R1_eq U1_eq U1_bytes U1_perm V1_sorted

theorem h2_eq : hashAbsorb toy h1 (normBytes V1) = h2 :=
  by decide +kernel

theorem leaf2_eq : slice tree (toy.seedLen * (toy.numLeaves - 1) + 2 * toy.seedLen) toy.seedLen = .ok (seg tree (toy.seedLen * (toy.numLeaves - 1) + 2 * toy.seedLen) toy.seedLen) := of_returns (by decide +kernel)

theorem Q2_eq : monomialSeedExpandSaltRnd 100 stale.mono (seg tree (toy.seedLen * (toy.numLeaves - 1) + 2 * toy.seedLen) toy.seedLen) salt 2 = .ok Q2 := of_returns (by decide +kernel)

theorem M2_eq : generatorMonomialMul (Vector.replicate toy.K (Vector.replicate toy.N 0)) G0 Q2 = .ok M2 := of_returns (by decide +kernel)

theorem R2_eq : generatorRREF M2 (Vector.replicate toy.N 0) = .ok (1, R2, piv2) := of_returns (by decide +kernel)

theorem U2_eq : columnLoop stale.norm stale.act' Q2 R2 piv2 = .ok (U2, act2, 2, 132) := of_returns (by decide +kernel)

theorem U2_bytes : ∀ i < toy.K, ∀ j < toy.N - toy.K, g2 U2 i j < 256 := by decide +kernel

theorem U2_perm : (colsOf U2).Perm (colsOf V2) := by decide +kernel

theorem V2_sorted : (colsOf V2).IsChain (· ≤ ·) := by decide +kernel

theorem V2_eq : prepareDigestInput stale.norm stale.act' G0 Q2 = .ok (V2, act2, 1) :=
  prepare_eq M2_eq R2_eq U2_eq U2_bytes U2_perm V2_sorted

theorem h3_eq : hashAbsorb toy h2 (normBytes V2) = h3 :=
  by decide +kernel

theorem h4_eq : hashAbsorb toy h3 msg = h4 :=
  by decide +kernel

theorem h5_eq : hashAbsorb toy h4 salt = h5 :=
  by decide +kernel

theorem digest_eq : hashFinalize toy h5 = digest :=
  by decide +kernel

theorem fws_eq : expandDigest (p := toy) 100 (Vector.replicate toy.T 0) digest = .ok fws := of_returns (by decide +kernel)

end ToyRun
end LESS
