import Verif.Props.Sets
import Verif.Props.Cases
/-!
# Cases for C97

Three small parameter sets that differ as the sets of a category do: `tight` has less room for seeds than `toy`, `toy3` has one key pair
more.
-/
namespace LESS
open Spec
namespace ToyRun

/-- A monomial to be overwritten. -/
def mono3 : Monomial toy3 := ⟨.replicate _ 99, .replicate _ 99⟩

theorem toy_toy3 : SameCodes toy toy3 := ⟨rfl, rfl, rfl⟩
theorem toy_tight : SameCodes toy tight := ⟨rfl, rfl, rfl⟩

/-- The second private monomial of the private key of the run. -/
theorem toy3_second : ((privateSeeds toy3 sk >>= fun seeds => monomialSeedExpandPrikey (p := toy3) 100 mono3 (g seeds 1).toList).toBool) = true := by
  decide +kernel

theorem toy3_secret : ∃ M, IsSecret toy3 100 sk 1 M := by
  have h := toy3_second
  obtain ⟨seeds, hs, hg⟩ := (privateSeeds_wp (p := toy3) (F := False) sk).exists_ok
  rw [hs, Kat.ok_bind] at h
  cases hm : monomialSeedExpandPrikey (p := toy3) 100 mono3 (g seeds 1).toList with
  | error x => rw [hm] at h; cases h
  | ok m =>
    unfold monomialSeedExpandPrikey at hm
    cases hst : monomialFromState (p := toy3) 100 mono3 (initCsprng toy3 (g seeds 1).toList) with
    | error x => rw [hst] at hm; cases hm
    | ok r =>
      have := ((monomialFromState_stream (p := toy3) 100 mono3 _ _ (by decide) (by decide) (xof_at toy3 (g seeds 1).toList)).of_ok hst).2.1
      rw [hg 1 (by decide)] at this
      exact ⟨_, this⟩

/-- Key generation with the set of three key pairs returns, from the state of the run. -/
theorem toy3_keypair (sl : Nat → Stale toy3) : ∃ pk sk r, cryptoSignKeypair (p := toy3) 100 sl rng0 = .ok (pk, sk, r) := by
  obtain ⟨s, hs⟩ := exists_stream toy rng0 rng0_ok
  have h1 := ((lessKeygen_wp toy_WF 100 _ rng0 s hs).of_ok keygen_eq)
  have hf := h1.2.1.fits toy_WF
  have hsec : (skOf toy s).secret = sk := (congrArg SK.secret h1.1).symm.trans sk_list
  have h3 := toy_toy3
  have hf3 : KeyFits toy3 100 (skOf toy3 s) := by
    refine ⟨hf.1, fun i hi => ?_⟩
    have : i = 0 ∨ i = 1 := by
      have e : toy3.numKeypairs - 1 = 2 := rfl
      omega
    rcases this with rfl | rfl
    · exact hf.2 0 (by decide)
    · rw [← (skOf_same h3 s).1, hsec]
      exact toy3_secret
  obtain ⟨⟨pk, sk, r⟩, e, -⟩ := ((cryptoSignKeypair_wp toy3_WF 100 sl rng0 s (streamAt_same h3 hs)).monoF (fun x => x hf3)).exists_ok
  exact ⟨pk, sk, r, e⟩

/-- The set with three key pairs makes the private key of the run, and a public key that begins with the public key of the run. -/
example (sl : Nat → Stale toy3) : ∃ (pk : Vector UInt8 toy3.pkLen) (sk : Vector UInt8 toy3.skLen) (r : Inc),
    cryptoSignKeypair (p := toy3) 100 sl rng0 = .ok (pk, sk, r) ∧ skBuf.toList = sk.toList ∧ pkBuf.toList <+: pk.toList := by
  obtain ⟨pk, sk, r, e⟩ := toy3_keypair sl
  exact ⟨pk, sk, r, e, C97_fails_prefix toy_toy3 toy_WF toy3_WF (by decide) rng0_ok keypair_eq e⟩

/-- The first set signs with the private key of the third, and opens under the start of its public key. -/
example (sl : Nat → Stale toy3) : ∃ (pk : Vector UInt8 toy3.pkLen) (sk : Vector UInt8 toy3.skLen) (r : Inc),
    cryptoSignKeypair (p := toy3) 100 sl rng0 = .ok (pk, sk, r) ∧
    cryptoSign 100 (fun _ => stale) rng2 smBuf msg (toVec toy.skLen sk.toList) = .ok (signed, signedLen, rng4) ∧
    ∀ sl', cryptoSignOpen 100 sl' 33 (firstBytes signed signedLen) (toVec toy.pkLen (pk.toList.take toy.pkLen)) = .ok (0, some msg) := by
  obtain ⟨pk, sk, r, e⟩ := toy3_keypair sl
  have h := (C97_fails_prefix toy_toy3 toy_WF toy3_WF (by decide) rng0_ok keypair_eq e).1
  have hs : cryptoSign 100 (fun _ => stale) rng2 smBuf msg (toVec toy.skLen sk.toList) = .ok (signed, signedLen, rng4) := by
    rw [← h, toVec_of_toList]
    exact cryptoSign_eq
  exact ⟨pk, sk, r, e, hs, fun sl' => C97_fails_signs toy_toy3 toy_WF toy3_WF (by decide) rng0_ok e (Nat.le_refl _) (Nat.le_refl _)
    rng2_ok (Nat.le_refl _) (by decide) hs sl' (by decide) (by decide +kernel)⟩

/-- The sets `toy` and `tight` make the same keys. -/
example : skBuf.toList = TightRun.skBuf.toList ∧ pkBuf.toList <+: TightRun.pkBuf.toList :=
  C97_fails_prefix toy_tight toy_WF tight_WF (Nat.le_refl _) rng0_ok keypair_eq TightRun.keypair_eq

/-- The three sets of category 1. -/
example : SameCodes .cat1Balanced .cat1Intermediate ∧ SameCodes .cat1Intermediate .cat1ShortSig ∧
    Params.cat1Balanced.numKeypairs < Params.cat1Intermediate.numKeypairs ∧
    Params.cat1Intermediate.numKeypairs < Params.cat1ShortSig.numKeypairs := by
  unfold SameCodes
  decide

end ToyRun
end LESS
