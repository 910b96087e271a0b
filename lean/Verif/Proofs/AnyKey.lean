import Verif.Proofs.Overread
/-!
# Verification under an arbitrary public key
-/
namespace LESS
open Spec

variable {p : Params}

/-- `LESS_verify` decides acceptance unless it meets an oversized code, and then it accesses memory out of bounds. -/
theorem lessVerify_any (hp : p.WF) (hK : 2 ≤ p.K) {n : Nat} (fuel : Nat) (sl : Nat → Stale p) (pk : PubKey p) (m : Bytes)
    (sig : SignT p n) (hkey : ∀ j < p.numKeypairs - 1, GoodCode p (pk.spec.codes j) ∨ Oversized p (pk.spec.codes j))
    (hn : ∀ v, IsChallenge p fuel (xof p sig.spec.digest) v → pubCount p (hides v) * p.seedLen ≤ n) :
    Wq (¬ VerifierFits p fuel pk.spec sig.spec) (MeetsOversized p fuel pk.spec sig.spec) (lessVerify fuel sl pk m sig) (fun r =>
      ¬ MeetsOversized p fuel pk.spec sig.spec ∧
      ((r = 1 ∧ Accepts p fuel pk.spec m sig.spec) ∨ (r = 0 ∧ ∀ B, ¬ Accepts p B pk.spec m sig.spec))) := by
  unfold lessVerify
  rw [Wq.bind_iff]
  refine (Wq.of_wp ((expandDigest_spec hp fuel sig.digest.toList).monoF ?_)).mono ?_
  · rintro hno ⟨-, v, hv, -⟩; exact hno ⟨v, hv⟩
  intro fws hch
  have hch' : IsChallenge p fuel (xof p sig.spec.digest) (g fws) := hch
  rw [Wq.bind_iff]
  refine (Wq.of_wp (indicesToPublish_hides fws)).mono ?_
  rintro ind ⟨hind1, hind2⟩
  rw [Wq.bind_iff]
  refine (Wq.of_wp (rebuildSeedTreeLeaves_wp hp _ ind sig.seedStorage sig.treeSalt.toList hind1
    (by rw [hind2]; exact hidden_exists hp hch.weight) (by rw [hind2]; exact hn _ hch))).mono ?_
  rintro ⟨tree, used⟩ ⟨-, htree⟩
  rw [hind2, expandH_eq] at htree
  dsimp only at htree ⊢
  have htree' : ∀ j < p.T, g fws j = 0 → nodeSeg tree (p.numLeaves - 1 + j) = rebuiltLeaf p sig.spec (g fws) j := by
    intro j hj h0
    have hT := hp.T_lt_leaves
    refine htree _ (by unfold Params.numNodes; omega) ?_
    rw [covers_leaf_iff (Nat.le_of_lt hT) j (by omega)]
    rintro ⟨-, h⟩
    simp [hides, h0] at h
  rw [Wq.bind_iff]
  refine (Wq.of_wp ((generatorSFSeedExpand_wp fuel (sl 0).rref pk.G0seed.toList hp).monoF ?_)).mono ?_
  · rintro hno ⟨h, -⟩; exact hno h
  rintro G0 ⟨A, hG0⟩
  rw [Wq.bind_iff]
  have hrange : ∀ i, g fws i ≠ 0 → g fws i - 1 < p.numKeypairs - 1 := by
    intro i h0
    have := (hch.range (by have := hp.numKeypairs_ge; omega) i).1
    omega
  -- the rounds decide whether an oversized code is met
  have hmeet : ∀ i < p.T, (∀ j < i, g fws j ≠ 0 → ¬ Oversized p (pk.spec.codes (g fws j - 1))) →
      (i = p.T ∨ (g fws i ≠ 0 ∧ ¬ Oversized p (pk.spec.codes (g fws i - 1)) ∧
        ¬ (Spec.decodeAction p (sig.spec.responses (responsesBefore (g fws) i))).Valid)) →
      ¬ MeetsOversized p fuel pk.spec sig.spec := by
    rintro i hi hlow h ⟨v, hv, k, hk, hk0, hko, hkv⟩
    obtain rfl := hv.unique hch'
    rcases h with h | ⟨h1, h2, h3⟩
    · omega
    · rcases Nat.lt_trichotomy k i with h | rfl | h
      · exact hlow k h hk0 hko
      · exact h2 hko
      · exact h3 (hkv i h h1)
  refine Wq.forRet (fun i s => RoundsDone p fuel pk.spec sig.spec (g fws) i s ∧
      ∀ j < i, g fws j ≠ 0 → ¬ Oversized p (pk.spec.codes (g fws j - 1)))
    (fun r => ¬ MeetsOversized p fuel pk.spec sig.spec ∧ r = 0 ∧ ∀ B, ¬ Accepts p B pk.spec m sig.spec)
    ⟨⟨rfl, fun _ => [], by simp, by
      unfold hashAbsorb
      rw [incAbsorb_eq_foldl _ _ _ (hashRate_pos p)]; rfl⟩, by simp⟩ ?_ ?_ ?_
  · rintro i s hi ⟨hI, hlow⟩
    by_cases hover : g fws i ≠ 0 ∧ Oversized p (pk.spec.codes (g fws i - 1))
    · obtain ⟨hx, hov⟩ := hover
      have hM : MeetsOversized p fuel pk.spec sig.spec := by
        obtain ⟨-, coms, hcoms, -⟩ := hI
        exact ⟨_, hch', i, hi, hx, hov, fun j hj h0 => (hcoms j hj).response h0⟩
      obtain ⟨h, employed⟩ := s
      unfold verifyRound
      dsimp only
      rw [Wq.bind_iff]
      refine Wq.of_wp (Wp.rd_iff.2 ⟨hi, ?_⟩)
      rw [if_neg hx, Wq.bind_iff]
      refine Wq.rd hM fun _ => ?_
      rw [Wq.bind_iff]
      refine Wq.rd hM fun _ => ?_
      rw [Wq.bind_iff]
      refine Wq.of_oob hM ?_
      unfold verifyResponse
      rw [expandToRref_overread hp hK _ (g pk.SFG (g fws i - 1)) hov]
      rfl
    · have hgood : g fws i ≠ 0 → GoodCode p (pk.spec.codes (g fws i - 1)) := fun hx =>
        (hkey _ (hrange i hx)).resolve_right fun h => hover ⟨hx, h⟩
      refine (Wq.of_wp (verifyRound_wp hp fuel (sl (i + 1)) pk sig fws tree G0 i s hi hch' hG0 htree' hgood hI)).mono ?_
      rintro (r | s) ho
      · refine ⟨hmeet i hi hlow (Or.inr ⟨ho.2.1, fun h => hover ⟨ho.2.1, h⟩, ho.2.2⟩), ho.1, fun B => ?_⟩
        rintro ⟨v, coms, hv, hr, -⟩
        obtain rfl := hv.unique hch'
        exact ho.2.2 ((hr i hi).response ho.2.1)
      · refine ⟨ho, fun j hj h0 => ?_⟩
        rcases Nat.lt_succ_iff_lt_or_eq.1 hj with h | rfl
        · exact hlow j h h0
        · exact fun h => hover ⟨h0, h⟩
  · rintro r ⟨h1, h2⟩
    exact ⟨h1, Or.inr h2⟩
  · rintro ⟨h, e⟩ ⟨hI, hlow⟩
    have hM : ¬ MeetsOversized p fuel pk.spec sig.spec := by
      rintro ⟨v, hv, k, hk, hk0, hko, -⟩
      obtain rfl := hv.unique hch'
      exact hlow k hk hk0 hko
    refine (Wq.of_wp (final_wp fuel pk m sig hch' hI)).mono fun r hr => ⟨hM, hr⟩

end LESS
