import Verif.Proofs.TightData
/-! # The signing rounds of the run of `Proofs/TightData` -/
namespace LESS
namespace TightRun
open ToyRun (of_returns seed msg rng0 rng1 rng2 rng3 rng4 sk g0 ephem salt h1 h2 h3 h4 h5 digest num okk forUp_zero forUp_succ)

theorem ephem_eq : csprngBytes tight tight.seedLen rng2 = (ephem, rng3) := (congrFun (congrFun csprng_same _) _).trans ToyRun.ephem_eq

theorem salt_eq : csprngBytes tight tight.hashLen rng3 = (salt, rng4) := (congrFun (congrFun csprng_same _) _).trans ToyRun.salt_eq

theorem tree_eq : generateSeedTree (p := tight) (Vector.replicate _ 0) ephem salt = .ok tree := (congrFun (congrFun (congrFun tree_same _) _) _).trans ToyRun.tree_eq

theorem leaf0_eq : slice tree (tight.seedLen * (tight.numLeaves - 1) + 0 * tight.seedLen) tight.seedLen = .ok (seg tree (tight.seedLen * (tight.numLeaves - 1) + 0 * tight.seedLen) tight.seedLen) := of_returns (by decide +kernel)

theorem Q0_eq : monomialSeedExpandSaltRnd 100 stale.mono (seg tree (tight.seedLen * (tight.numLeaves - 1) + 0 * tight.seedLen) tight.seedLen) salt 0 = .ok Q0 := expandSalt_same ToyRun.Q0_eq

theorem M0_eq : generatorMonomialMul (Vector.replicate tight.K (Vector.replicate tight.N 0)) G0 Q0 = .ok M0 := (mul_same _ _ _ _).trans ToyRun.M0_eq

theorem R0_eq : generatorRREF M0 (Vector.replicate tight.N 0) = .ok (1, R0, piv0) := of_returns (by decide +kernel)

theorem U0_eq : columnLoop stale.norm stale.act' Q0 R0 piv0 = .ok (U0, act0, 2, 132) := of_returns (by decide +kernel)

theorem U0_bytes : ∀ i < tight.K, ∀ j < tight.N - tight.K, g2 U0 i j < 256 := ToyRun.U0_bytes

theorem U0_perm : (colsOf U0).Perm (colsOf V0) := ToyRun.U0_perm

theorem V0_sorted : (colsOf V0).IsChain (· ≤ ·) := ToyRun.V0_sorted

theorem V0_eq : prepareDigestInput stale.norm stale.act' G0 Q0 = .ok (V0, act0, 1) :=
  prepare_eq M0_eq R0_eq U0_eq U0_bytes U0_perm V0_sorted

theorem h1_eq : hashAbsorb tight hashInit (normBytes V0) = h1 := (congrFun (congrFun absorb_same _) _).trans ToyRun.h1_eq

theorem leaf1_eq : slice tree (tight.seedLen * (tight.numLeaves - 1) + 1 * tight.seedLen) tight.seedLen = .ok (seg tree (tight.seedLen * (tight.numLeaves - 1) + 1 * tight.seedLen) tight.seedLen) := of_returns (by decide +kernel)

theorem Q1_eq : monomialSeedExpandSaltRnd 100 stale.mono (seg tree (tight.seedLen * (tight.numLeaves - 1) + 1 * tight.seedLen) tight.seedLen) salt 1 = .ok Q1 := expandSalt_same ToyRun.Q1_eq

theorem M1_eq : generatorMonomialMul (Vector.replicate tight.K (Vector.replicate tight.N 0)) G0 Q1 = .ok M1 := (mul_same _ _ _ _).trans ToyRun.M1_eq

theorem R1_eq : generatorRREF M1 (Vector.replicate tight.N 0) = .ok (1, R1, piv1) := of_returns (by decide +kernel)

theorem U1_eq : columnLoop stale.norm stale.act' Q1 R1 piv1 = .ok (U1, act1, 2, 132) := of_returns (by decide +kernel)

theorem U1_bytes : ∀ i < tight.K, ∀ j < tight.N - tight.K, g2 U1 i j < 256 := ToyRun.U1_bytes

theorem U1_perm : (colsOf U1).Perm (colsOf V1) := ToyRun.U1_perm

theorem V1_sorted : (colsOf V1).IsChain (· ≤ ·) := ToyRun.V1_sorted

theorem V1_eq : prepareDigestInput stale.norm stale.act' G0 Q1 = .ok (V1, act1, 1) :=
  prepare_eq M1_eq R1_eq U1_eq U1_bytes U1_perm V1_sorted

theorem h2_eq : hashAbsorb tight h1 (normBytes V1) = h2 := (congrFun (congrFun absorb_same _) _).trans ToyRun.h2_eq

theorem leaf2_eq : slice tree (tight.seedLen * (tight.numLeaves - 1) + 2 * tight.seedLen) tight.seedLen = .ok (seg tree (tight.seedLen * (tight.numLeaves - 1) + 2 * tight.seedLen) tight.seedLen) := of_returns (by decide +kernel)

theorem Q2_eq : monomialSeedExpandSaltRnd 100 stale.mono (seg tree (tight.seedLen * (tight.numLeaves - 1) + 2 * tight.seedLen) tight.seedLen) salt 2 = .ok Q2 := expandSalt_same ToyRun.Q2_eq

theorem M2_eq : generatorMonomialMul (Vector.replicate tight.K (Vector.replicate tight.N 0)) G0 Q2 = .ok M2 := (mul_same _ _ _ _).trans ToyRun.M2_eq

theorem R2_eq : generatorRREF M2 (Vector.replicate tight.N 0) = .ok (1, R2, piv2) := of_returns (by decide +kernel)

theorem U2_eq : columnLoop stale.norm stale.act' Q2 R2 piv2 = .ok (U2, act2, 2, 132) := of_returns (by decide +kernel)

theorem U2_bytes : ∀ i < tight.K, ∀ j < tight.N - tight.K, g2 U2 i j < 256 := ToyRun.U2_bytes

theorem U2_perm : (colsOf U2).Perm (colsOf V2) := ToyRun.U2_perm

theorem V2_sorted : (colsOf V2).IsChain (· ≤ ·) := ToyRun.V2_sorted

theorem V2_eq : prepareDigestInput stale.norm stale.act' G0 Q2 = .ok (V2, act2, 1) :=
  prepare_eq M2_eq R2_eq U2_eq U2_bytes U2_perm V2_sorted

theorem h3_eq : hashAbsorb tight h2 (normBytes V2) = h3 := (congrFun (congrFun absorb_same _) _).trans ToyRun.h3_eq

theorem h4_eq : hashAbsorb tight h3 msg = h4 := (congrFun (congrFun absorb_same _) _).trans ToyRun.h4_eq

theorem h5_eq : hashAbsorb tight h4 salt = h5 := (congrFun (congrFun absorb_same _) _).trans ToyRun.h5_eq

theorem digest_eq : hashFinalize tight h5 = digest := (congrFun finalize_same _).trans ToyRun.digest_eq

theorem fws_eq : expandDigest (p := tight) 100 (Vector.replicate tight.T 0) digest = .ok fws := of_returns (by decide +kernel)

end TightRun
end LESS
