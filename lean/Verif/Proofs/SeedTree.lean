import Verif.Model.SeedTree
import Verif.Proofs.Params
import Verif.Proofs.Sponge
import Verif.Proofs.Tree
/-!
# The seed tree code
-/
namespace LESS

variable {p : Params} {F : Prop}

/-- Which leaves are hidden. -/
def hiddenOf {T : Nat} (ind : Vector Nat T) : Nat → Bool := fun k => decide (g ind k = 1)

/-- The seeds of the two children (seedtree.c:41-49). -/
def expandH (p : Params) (salt : Bytes) (seed : Bytes) : Bytes × Bytes :=
  let out := (csprngBytes p (2 * p.seedLen) (initCsprng p (salt ++ seed))).1
  (out.take p.seedLen, out.drop p.seedLen)

namespace Params.WF
theorem T_pos (hp : p.WF) : 0 < p.T := by have := hp.W_pos; have := hp.W_le_T; omega
theorem T_lt_leaves (hp : p.WF) : p.T < p.numLeaves := (bits_spec hp.T_pos hp.T_lt).2.2.2
theorem leaves_le (hp : p.WF) : p.numLeaves ≤ 65536 := by
  have := (bits_spec hp.T_pos hp.T_lt).2.1
  exact Nat.pow_le_pow_right (show 0 < 2 by decide) this
end Params.WF

theorem leaves_pos (p : Params) : 0 < p.numLeaves := Nat.two_pow_pos _

theorem leftChild_eq {i : Nat} (h : i < 65536) : leftChild i = 2 * i + 1 := by unfold leftChild u32; omega
theorem rightChild_eq {i : Nat} (h : i < 65536) : rightChild i = 2 * i + 2 := by unfold rightChild u32; omega
theorem parent_eq {i : Nat} (h0 : 0 < i) (h : i < 4294967296) : parent i = (i - 1) / 2 := by unfold parent u32; omega

theorem copyLeafFlags_wp (hp : p.WF) (ind : Vector Nat p.T) :
    Wp F (copyLeafFlags (Vector.replicate p.numNodes 0) ind) fun f => ∀ j, j < p.numNodes →
      g f j = if p.numLeaves - 1 ≤ j ∧ j < p.numLeaves - 1 + p.T then g ind (j - (p.numLeaves - 1)) else 0 := by
  have hT := hp.T_lt_leaves
  unfold copyLeafFlags
  refine Wp.forUp (fun k f => ∀ j, j < p.numNodes →
    g f j = if p.numLeaves - 1 ≤ j ∧ j < p.numLeaves - 1 + k then g ind (j - (p.numLeaves - 1)) else 0) ?_ ?_
    (fun s h => h)
  · intro j hj
    rw [g_replicate _ _ hj, if_neg (by omega)]
  · intro k f hk hI
    have hb : p.numLeaves - 1 + k < p.numNodes := by unfold Params.numNodes; omega
    simp only [Wp.bind_iff, Wp.rd_iff, Wp.wr_iff]
    refine ⟨hk, hb, ?_⟩
    intro j hj
    rw [g_upd _ _ _ _ hb]
    by_cases e : p.numLeaves - 1 + k = j
    · rw [if_pos e, if_pos (by omega), ← e, Nat.add_sub_cancel_left]
    · rw [if_neg e, hI j hj]
      by_cases h : p.numLeaves - 1 ≤ j ∧ j < p.numLeaves - 1 + k
      · rw [if_pos h, if_pos (by omega)]
      · rw [if_neg h, if_neg (by omega)]

/-- The flag of a node is 1 iff it has a hidden leaf at or below it. -/
theorem computeSeedsToPublish_wp (hp : p.WF) (ind : Vector Nat p.T) (hi : ∀ k, k < p.T → g ind k ≤ 1) :
    Wp F (computeSeedsToPublish (Vector.replicate p.numNodes 0) ind) fun f => ∀ i, i < p.numNodes →
      g f i = if Spec.Covers p.numLeaves p.T (hiddenOf ind) i then 1 else 0 := by
  have hT := hp.T_lt_leaves
  have hL := hp.leaves_le
  unfold computeSeedsToPublish
  rw [Wp.bind_iff]
  refine (copyLeafFlags_wp hp ind).mono ?_
  intro f0 h0
  refine Wp.forUp (fun k f => ∀ i, i < p.numNodes → p.numLeaves - 1 - k ≤ i →
    g f i = if Spec.Covers p.numLeaves p.T (hiddenOf ind) i then 1 else 0) ?_ ?_ ?_
  · intro i hi1 hi2
    rw [h0 i hi1]
    unfold Params.numNodes at hi1
    obtain ⟨k, rfl⟩ := Nat.exists_eq_add_of_le (show p.numLeaves - 1 ≤ i by omega)
    have hiff := Spec.covers_leaf_iff (hidden := hiddenOf ind) (show p.T ≤ p.numLeaves by omega) k (by omega)
    by_cases hk : k < p.T
    · rw [if_pos (by omega), Nat.add_sub_cancel_left]
      have := hi k hk
      by_cases h1 : g ind k = 1
      · rw [if_pos (hiff.mpr ⟨hk, by simp [hiddenOf, h1]⟩), h1]
      · rw [if_neg (fun h => h1 (by simpa [hiddenOf] using (hiff.mp h).2))]; omega
    · rw [if_neg (by omega), if_neg (fun h => hk (hiff.mp h).1)]
  · intro k f hk hI
    have e : p.numLeaves - 1 - (k + 1) = p.numLeaves - 2 - k := by omega
    generalize hidef : p.numLeaves - 2 - k = i at *
    have hiL : i < p.numLeaves - 1 := by omega
    simp only [Wp.bind_iff, Wp.rd_iff, Wp.wr_iff]
    rw [leftChild_eq (by omega), rightChild_eq (by omega)]
    have b1 : 2 * i + 1 < p.numNodes := by unfold Params.numNodes; omega
    have b2 : 2 * i + 2 < p.numNodes := by unfold Params.numNodes; omega
    refine ⟨b1, b2, by omega, ?_⟩
    intro j hj1 hj2
    rw [g_upd _ _ _ _ (by omega)]
    by_cases hij : i = j
    · subst hij
      rw [if_pos rfl, hI _ b1 (by omega), hI _ b2 (by omega)]
      have := Spec.covers_inner (T := p.T) (hidden := hiddenOf ind) i hiL
      by_cases c1 : Spec.Covers p.numLeaves p.T (hiddenOf ind) (2 * i + 1)
      · rw [if_pos c1, if_pos (this.mpr (Or.inl c1))]; simp [b2n]
      · by_cases c2 : Spec.Covers p.numLeaves p.T (hiddenOf ind) (2 * i + 2)
        · rw [if_pos c2, if_pos (this.mpr (Or.inr c2))]; simp [b2n]
        · rw [if_neg c1, if_neg c2, if_neg (fun h => (this.mp h).elim c1 c2)]; rfl
    · rw [if_neg hij]; exact hI j hj1 (by omega)
  · intro f hI i hi'
    exact hI i hi' (by omega)

/-- What is known of the flags. -/
def FlagsOk (p : Params) (hidden : Nat → Bool) (f : FlagTree p) : Prop :=
  ∀ i, i < p.numNodes → g f i = if Spec.Covers p.numLeaves p.T hidden i then 1 else 0

theorem isPublished_wp (hp : p.WF) {hidden : Nat → Bool} (hr : ∃ k < p.T, hidden k = true) (f : FlagTree p)
    (hf : FlagsOk p hidden f) (i : Nat) (hi : i < p.numNodes) :
    Wp F (isPublished f i) fun b => b = decide (Spec.Published p.numLeaves p.T hidden i) := by
  have hL := hp.leaves_le
  have hi' := hi
  unfold Params.numNodes at hi'
  unfold isPublished
  simp only [Wp.bind_iff, Wp.rd_iff, Wp.ite_iff, Wp.pure_iff]
  refine ⟨hi, ?_, ?_⟩
  · intro h0
    have hn : ¬ Spec.Covers p.numLeaves p.T hidden i := by
      intro hc; rw [hf i hi, if_pos hc] at h0; omega
    have hpos : 0 < i := by
      rcases Nat.eq_zero_or_pos i with h | h
      · subst h; exact absurd (Spec.covers_root hr) hn
      · exact h
    rw [parent_eq hpos (by omega)]
    have hb : (i - 1) / 2 < p.numNodes := by omega
    refine ⟨hb, ?_⟩
    rw [hf _ hb]
    by_cases hc : Spec.Covers p.numLeaves p.T hidden ((i - 1) / 2)
    · rw [if_pos hc]; simp [Spec.Published, hpos, hi', hn, hc]
    · rw [if_neg hc]; simp [Spec.Published, hc]
  · intro h0
    have hc : Spec.Covers p.numLeaves p.T hidden i := by
      apply Classical.byContradiction
      intro hn; exact h0 (by rw [hf i hi, if_neg hn])
    simp [Spec.Published, hc]

/-- Seed of a node in a tree buffer. -/
abbrev nodeSeg (t : TreeBuf p) (i : Nat) : Bytes := seg t (i * p.seedLen) p.seedLen

theorem mul_bound {a b c : Nat} (h : a < b) : a * c + c ≤ b * c := by
  have := Nat.mul_le_mul_right c (show a + 1 ≤ b from h)
  rwa [Nat.succ_mul] at this

theorem nodeSeg_blit_ne (t : TreeBuf p) (i j : Nat) (b : Bytes) (hb : b.length = p.seedLen) (hj : j < p.numNodes)
    (hne : j ≠ i) : nodeSeg (blitV t (i * p.seedLen) b) j = nodeSeg t j := by
  apply seg_blitV_disj
  · exact mul_bound hj
  · rcases Nat.lt_or_gt_of_ne hne with h | h
    · left; exact mul_bound h
    · right; rw [hb]; exact mul_bound h

theorem nodeSeg_blit_self (t : TreeBuf p) (i : Nat) (b : Bytes) (hb : b.length = p.seedLen) (hi : i < p.numNodes) :
    nodeSeg (blitV t (i * p.seedLen) b) i = b := seg_blitV_same _ _ _ _ hb (mul_bound hi)

theorem expandChildren_wp (hp : p.WF) (salt : Bytes) (i : Nat) (t : TreeBuf p) (hi : i < p.numLeaves - 1) :
    Wp F (expandChildren salt i t) fun t' =>
      nodeSeg t' (2 * i + 1) = (expandH p salt (nodeSeg t i)).1 ∧
      nodeSeg t' (2 * i + 2) = (expandH p salt (nodeSeg t i)).2 ∧
      ∀ j, j < p.numNodes → j ≠ 2 * i + 1 → j ≠ 2 * i + 2 → nodeSeg t' j = nodeSeg t j := by
  have hL := hp.leaves_le
  have b0 : i < p.numNodes := by unfold Params.numNodes; omega
  have b2 : 2 * i + 2 < p.numNodes := by unfold Params.numNodes; omega
  unfold expandChildren
  simp only [Wp.bind_iff, Wp.slice_iff, Wp.blit_iff]
  rw [leftChild_eq (by omega)]
  generalize hout : csprngBytes p (2 * p.seedLen) (initCsprng p (salt ++ seg t (i * p.seedLen) p.seedLen)) = out
  have hlen : out.1.length = 2 * p.seedLen := by rw [← hout]; exact csprngBytes_length _ _ _ (initCsprng_ok _ _)
  have e2 : (2 * i + 2) * p.seedLen = (2 * i + 1) * p.seedLen + p.seedLen := by
    rw [show 2 * i + 2 = (2 * i + 1) + 1 by omega, Nat.succ_mul]
  have hb2 := mul_bound (c := p.seedLen) b2
  refine ⟨mul_bound b0, by rw [hlen]; omega, ?_⟩
  have hboth : seg (blitV t ((2 * i + 1) * p.seedLen) out.1) ((2 * i + 1) * p.seedLen) (p.seedLen + p.seedLen) = out.1 :=
    seg_blitV_same _ _ _ _ (by omega) (by omega)
  rw [seg_append] at hboth
  refine ⟨?_, ?_, ?_⟩
  · simp only [expandH, nodeSeg, hout]
    rw [← hboth, List.take_left' (seg_length _ _ _)]
    simp only [hboth]
  · simp only [expandH, nodeSeg, hout]
    rw [e2]
    rw [← hboth, List.drop_left' (seg_length _ _ _)]
    simp only [hboth]
  · intro j hj h1 h2
    apply seg_blitV_disj
    · exact mul_bound hj
    · rw [hlen]
      rcases Nat.lt_or_gt_of_ne h1 with h | h
      · left; exact mul_bound h
      · right
        have := mul_bound (c := p.seedLen) (show 2 * i + 2 < j by omega)
        omega

/-- `generate_seed_tree_from_root` computes the seed of every node. -/
theorem generateSeedTree_wp (hp : p.WF) (t : TreeBuf p) (root salt : Bytes) (hroot : root.length = p.seedLen) :
    Wp F (generateSeedTree t root salt) fun t' => ∀ i, i < p.numNodes →
      nodeSeg t' i = Spec.nodeSeed (expandH p salt) root i := by
  have hLp := leaves_pos p
  have hn0 : 0 < p.numNodes := by unfold Params.numNodes; omega
  unfold generateSeedTree
  rw [Wp.bind_iff, Wp.blit_iff]
  have := mul_bound (c := p.seedLen) hn0
  refine ⟨by omega, ?_⟩
  refine Wp.forUp (fun i t => ∀ j, j < p.numNodes → j < 2 * i + 1 →
    nodeSeg t j = Spec.nodeSeed (expandH p salt) root j) ?_ ?_ ?_
  · intro j _ h
    obtain rfl : j = 0 := by omega
    rw [Spec.nodeSeed]
    have := nodeSeg_blit_self t 0 root hroot hn0
    simpa using this
  · intro i t hi hI
    refine (expandChildren_wp hp salt i t hi).mono ?_
    rintro t' ⟨h1, h2, h3⟩ j hj hj'
    have hi0 : i < p.numNodes := by unfold Params.numNodes; omega
    by_cases e1 : j = 2 * i + 1
    · subst e1
      rw [h1, hI i hi0 (by omega), Spec.nodeSeed, if_pos (by omega), show 2 * i / 2 = i by omega]
    · by_cases e2 : j = 2 * i + 2
      · subst e2
        rw [h2, hI i hi0 (by omega), Spec.nodeSeed, if_neg (by omega), show (2 * i + 1) / 2 = i by omega]
      · rw [h3 j hj e1 e2]; exact hI j hj (by omega)
  · intro t hI i hi
    exact hI i hi (by unfold Params.numNodes at hi; omega)

/-- The number of published seeds. -/
def pubCount (p : Params) (hidden : Nat → Bool) : Nat := (Spec.publishedNodes p.numLeaves p.T hidden).length

theorem rank_lt_pubCount {hidden : Nat → Bool} {i : Nat} (h : Spec.Published p.numLeaves p.T hidden i) :
    Spec.rank p.numLeaves p.T hidden i < pubCount p hidden := by
  have h1 := Spec.rank_mono (L := p.numLeaves) (T := p.T) (hidden := hidden) (show i + 1 ≤ 2 * p.numLeaves - 1 from h.2.1)
  rw [Spec.rank_succ, if_pos h] at h1
  unfold pubCount
  rw [← Spec.rank_total]
  omega

theorem rank_le_pubCount {hidden : Nat → Bool} {i : Nat} (h : i ≤ p.numNodes) :
    Spec.rank p.numLeaves p.T hidden i ≤ pubCount p hidden := by
  unfold pubCount; rw [← Spec.rank_total]; exact Spec.rank_mono h

/-- `seed_tree_path` stores the seeds of the published nodes one after the other, and nothing else. -/
theorem seedTreePath_wp (hp : p.WF) {n : Nat} (t : TreeBuf p) (ind : Vector Nat p.T) (st : Vector UInt8 n)
    (hi : ∀ k, k < p.T → g ind k ≤ 1) (hr : ∃ k < p.T, hiddenOf ind k = true)
    (hn : pubCount p (hiddenOf ind) * p.seedLen ≤ n) :
    Wp F (seedTreePath t ind st) fun r =>
      r.2 = pubCount p (hiddenOf ind) ∧
      (∀ i, Spec.Published p.numLeaves p.T (hiddenOf ind) i →
        seg r.1 (Spec.rank p.numLeaves p.T (hiddenOf ind) i * p.seedLen) p.seedLen = nodeSeg t i) ∧
      ∀ j, j < n → r.2 * p.seedLen ≤ j → g r.1 j = g st j := by
  unfold seedTreePath
  rw [Wp.bind_iff]
  refine (computeSeedsToPublish_wp hp ind hi).mono ?_
  intro f hf
  refine Wp.forUp (fun i (s : Vector UInt8 n × Nat) => s.2 = Spec.rank p.numLeaves p.T (hiddenOf ind) i ∧
      (∀ j, j < i → Spec.Published p.numLeaves p.T (hiddenOf ind) j →
        seg s.1 (Spec.rank p.numLeaves p.T (hiddenOf ind) j * p.seedLen) p.seedLen = nodeSeg t j) ∧
      ∀ j, j < n → s.2 * p.seedLen ≤ j → g s.1 j = g st j) ?_ ?_ ?_
  · exact ⟨rfl, fun j hj => absurd hj (by omega), fun _ _ _ => rfl⟩
  · rintro i ⟨s, num⟩ hil ⟨h1, h2, h3⟩
    have hil' : i < p.numNodes := hil
    dsimp only at h1 h2 h3 ⊢
    rw [Wp.bind_iff]
    refine (isPublished_wp hp hr f hf i hil').mono ?_
    rintro b rfl
    have hrs := Spec.rank_succ (L := p.numLeaves) (T := p.T) (hidden := hiddenOf ind) i
    by_cases hP : Spec.Published p.numLeaves p.T (hiddenOf ind) i
    · rw [if_pos hP] at hrs
      have hlt := rank_lt_pubCount hP
      have hb := mul_bound (c := p.seedLen) hlt
      simp only [hP, decide_true, if_true, Wp.bind_iff, Wp.slice_iff, Wp.blit_iff, Wp.pure_iff]
      refine ⟨mul_bound hil', by rw [seg_length, h1]; omega, by omega, ?_, ?_⟩
      · intro j hj hPj
        by_cases e : j = i
        · subst e
          rw [h1]
          exact seg_blitV_same _ _ _ _ (seg_length _ _ _) (by omega)
        · have hlt2 : Spec.rank p.numLeaves p.T (hiddenOf ind) j < Spec.rank p.numLeaves p.T (hiddenOf ind) i := by
            have h4 := Spec.rank_mono (L := p.numLeaves) (T := p.T) (hidden := hiddenOf ind) (show j + 1 ≤ i by omega)
            rw [Spec.rank_succ, if_pos hPj] at h4
            omega
          have hb2 := mul_bound (c := p.seedLen) hlt2
          rw [seg_blitV_disj _ _ _ _ _ (by omega) (by left; rw [h1]; exact hb2)]
          exact h2 j (by omega) hPj
      · intro j hj hj'
        rw [Nat.succ_mul] at hj'
        rw [g_blitV _ _ _ _ hj, if_neg (by rw [seg_length]; omega)]
        exact h3 j hj (by omega)
    · rw [if_neg hP] at hrs
      simp only [hP, decide_false, Bool.false_eq_true, if_false, Wp.pure_iff]
      refine ⟨by omega, ?_, h3⟩
      intro j hj hPj
      by_cases e : j = i
      · subst e; exact absurd hPj hP
      · exact h2 j (by omega) hPj
  · rintro ⟨s, num⟩ ⟨h1, h2, h3⟩
    exact ⟨h1, fun i hP => h2 i hP.2.1 hP, h3⟩

/-- `rebuild_seed_tree_leaves` on any stored seeds: the seeds of the nodes without hidden leaves are derived from
the stored ones. -/
theorem rebuildSeedTreeLeaves_wp (hp : p.WF) {n : Nat} (t : TreeBuf p) (ind : Vector Nat p.T) (st : Vector UInt8 n)
    (salt : Bytes) (hi : ∀ k, k < p.T → g ind k ≤ 1) (hr : ∃ k < p.T, hiddenOf ind k = true)
    (hn : pubCount p (hiddenOf ind) * p.seedLen ≤ n) :
    Wp F (rebuildSeedTreeLeaves t ind st salt) fun r =>
      r.2 = pubCount p (hiddenOf ind) ∧
      ∀ i, i < p.numNodes → ¬ Spec.Covers p.numLeaves p.T (hiddenOf ind) i →
        nodeSeg r.1 i = Spec.rebuiltSeed (expandH p salt) p.numLeaves p.T (hiddenOf ind)
          (fun k => seg st (p.seedLen * k) p.seedLen) i := by
  unfold rebuildSeedTreeLeaves
  rw [Wp.bind_iff]
  refine (computeSeedsToPublish_wp hp ind hi).mono ?_
  intro f hf
  have hL := hp.leaves_le
  generalize hS : Spec.rebuiltSeed (expandH p salt) p.numLeaves p.T (hiddenOf ind)
          (fun k => seg st (p.seedLen * k) p.seedLen) = S
  refine Wp.forUp (fun i (s : TreeBuf p × Nat) => s.2 = Spec.rank p.numLeaves p.T (hiddenOf ind) i ∧
      ∀ j, j < p.numNodes → ¬ Spec.Covers p.numLeaves p.T (hiddenOf ind) j →
        (j < i ∨ (0 < j ∧ (j - 1) / 2 < i ∧ ¬ Spec.Covers p.numLeaves p.T (hiddenOf ind) ((j - 1) / 2))) →
        nodeSeg s.1 j = S j) ?_ ?_ ?_
  · exact ⟨rfl, fun j _ _ h => by omega⟩
  · rintro i ⟨t, used⟩ hil ⟨h1, h2⟩
    dsimp only at h1 h2 ⊢
    have hil2 := hil
    unfold Params.numNodes at hil2
    have hrs := Spec.rank_succ (L := p.numLeaves) (T := p.T) (hidden := hiddenOf ind) i
    rw [Wp.bind_iff, Wp.rd_iff]
    refine ⟨hil, ?_⟩
    by_cases hc : Spec.Covers p.numLeaves p.T (hiddenOf ind) i
    · rw [hf i hil, if_pos hc, if_neg (by decide), Wp.pure_iff]
      rw [if_neg (fun h : Spec.Published _ _ _ _ => h.2.2.1 hc)] at hrs
      refine ⟨by dsimp only; omega, ?_⟩
      intro j hj hnj hor
      apply h2 j hj hnj
      rcases hor with h | ⟨h3, h4, h5⟩
      · left
        rcases Nat.lt_succ_iff_lt_or_eq.mp h with h | h
        · exact h
        · subst h; exact absurd hc hnj
      · right
        refine ⟨h3, ?_, h5⟩
        rcases Nat.lt_succ_iff_lt_or_eq.mp h4 with h | h
        · exact h
        · rw [h] at h5; exact absurd hc h5
    · rw [hf i hil, if_neg hc, if_pos rfl]
      have hpos : 0 < i := by
        rcases Nat.eq_zero_or_pos i with h | h
        · subst h; exact absurd (Spec.covers_root hr) hc
        · exact h
      have hpar : (i - 1) / 2 < p.numNodes := by omega
      rw [Wp.bind_iff, Wp.rd_iff, parent_eq hpos (by omega)]
      refine ⟨hpar, ?_⟩
      -- after the first part node `i` holds the right seed
      suffices hmid : ∀ t' : TreeBuf p, ∀ used', used' = Spec.rank p.numLeaves p.T (hiddenOf ind) (i + 1) →
          nodeSeg t' i = S i → (∀ j, j < p.numNodes → j ≠ i → nodeSeg t' j = nodeSeg t j) →
          Wp F (if i < p.numLeaves - 1 then do
              let tree ← expandChildren salt i t'
              pure (tree, used')
            else pure (t', used')) (fun s => s.2 = Spec.rank p.numLeaves p.T (hiddenOf ind) (i + 1) ∧
            ∀ j, j < p.numNodes → ¬ Spec.Covers p.numLeaves p.T (hiddenOf ind) j →
            (j < i + 1 ∨ (0 < j ∧ (j - 1) / 2 < i + 1 ∧ ¬ Spec.Covers p.numLeaves p.T (hiddenOf ind) ((j - 1) / 2))) →
            nodeSeg s.1 j = S j) by
        rw [hf _ hpar]
        by_cases hcp : Spec.Covers p.numLeaves p.T (hiddenOf ind) ((i - 1) / 2)
        · have hP : Spec.Published p.numLeaves p.T (hiddenOf ind) i := ⟨hpos, hil2, hc, hcp⟩
          rw [if_pos hP] at hrs
          have hlt := rank_lt_pubCount hP
          have hb := mul_bound (c := p.seedLen) hlt
          rw [Nat.mul_comm] at hb
          rw [if_pos hcp]
          simp only [if_true, bind_assoc, pure_bind]
          rw [Wp.bind_iff, Wp.slice_iff]
          refine ⟨by rw [h1]; omega, ?_⟩
          rw [Wp.bind_iff, Wp.blit_iff]
          have hb3 := mul_bound (c := p.seedLen) hil
          rw [Nat.mul_comm p.seedLen i]
          refine ⟨by rw [seg_length]; exact hb3, ?_⟩
          apply hmid
          · omega
          · rw [nodeSeg_blit_self _ _ _ (seg_length _ _ _) hil, ← hS]
            obtain ⟨i', rfl⟩ : ∃ i', i = i' + 1 := ⟨i - 1, by omega⟩
            rw [Spec.rebuiltSeed, if_pos hP, h1]
          · intro j hj hne
            exact nodeSeg_blit_ne _ _ _ _ (seg_length _ _ _) hj hne
        · have hP : ¬ Spec.Published p.numLeaves p.T (hiddenOf ind) i := fun h => hcp h.2.2.2
          rw [if_neg hP] at hrs
          rw [if_neg hcp]
          simp only [Nat.zero_ne_one, if_false, pure_bind]
          apply hmid
          · omega
          · exact h2 i hil hc (Or.inr ⟨hpos, by omega, hcp⟩)
          · intro j _ _; rfl
      intro t' used' hu hti hne
      have hold : ∀ j, j < p.numNodes → ¬ Spec.Covers p.numLeaves p.T (hiddenOf ind) j →
          (j < i + 1 ∨ (0 < j ∧ (j - 1) / 2 < i ∧ ¬ Spec.Covers p.numLeaves p.T (hiddenOf ind) ((j - 1) / 2))) →
            nodeSeg t' j = S j := by
        intro j hj hnj hor
        by_cases e : j = i
        · subst e; exact hti
        · rw [hne j hj e]; exact h2 j hj hnj (by rcases hor with h | h <;> [left; right] <;> first | omega | exact h)
      by_cases hin : i < p.numLeaves - 1
      · rw [if_pos hin, Wp.bind_iff]
        refine (expandChildren_wp hp salt i t' hin).mono ?_
        rintro t'' ⟨g1, g2, g3⟩
        rw [Wp.pure_iff]
        refine ⟨hu, ?_⟩
        dsimp only
        intro j hj hnj hor
        by_cases e1 : j = 2 * i + 1
        · subst e1
          rw [g1, hti, ← hS, Spec.rebuiltSeed, if_neg, if_pos (by omega), show 2 * i / 2 = i by omega]
          intro h; have := h.2.2.2
          rw [show (2 * i + 1 - 1) / 2 = i by omega] at this; exact hc this
        · by_cases e2 : j = 2 * i + 2
          · subst e2
            rw [g2, hti, ← hS, Spec.rebuiltSeed, if_neg, if_neg (by omega), show (2 * i + 1) / 2 = i by omega]
            intro h; have := h.2.2.2
            rw [show (2 * i + 1 + 1 - 1) / 2 = i by omega] at this; exact hc this
          · rw [g3 j hj e1 e2]
            apply hold j hj hnj
            rcases hor with h | ⟨h3, h4, h5⟩
            · exact Or.inl h
            · exact Or.inr ⟨h3, by omega, h5⟩
      · rw [if_neg hin, Wp.pure_iff]
        refine ⟨hu, ?_⟩
        dsimp only
        intro j hj hnj hor
        apply hold j hj hnj
        unfold Params.numNodes at hj
        rcases hor with h | ⟨h3, h4, h5⟩
        · exact Or.inl h
        · exact Or.inr ⟨h3, by omega, h5⟩
  · rintro ⟨t, used⟩ ⟨h1, h2⟩
    refine ⟨h1, ?_⟩
    intro i hi' hni
    exact h2 i hi' hni (Or.inl hi')

/-- The number of seeds published never exceeds the computed maximum. -/
theorem pubCount_le_worst (hp : p.WF) (hidden : Nat → Bool) (hW : (Spec.hiddenSet p.T hidden).card = p.W) :
    pubCount p hidden ≤ p.worstSeeds := by
  have hr : ∃ k < p.T, hidden k = true := by
    have : 0 < (Spec.hiddenSet p.T hidden).card := by rw [hW]; exact hp.W_pos
    obtain ⟨k, hk⟩ := Finset.card_pos.mp this
    simp only [Spec.hiddenSet, Finset.mem_filter, Finset.mem_range] at hk
    exact ⟨k, hk.1, hk.2⟩
  have hT := hp.T_lt_leaves
  have h := Spec.publishedNodes_length (d := bitsToRepresent p.T) (T := p.T) (hidden := hidden) (Nat.le_of_lt hT) hr
  have hle : ∑ l ∈ Finset.range (bitsToRepresent p.T), Spec.levelCount (bitsToRepresent p.T) p.T hidden l ≤
      ((List.range (bitsToRepresent p.T)).map fun l =>
        min p.W ((p.T + 2 ^ (bitsToRepresent p.T - l) - 1) / 2 ^ (bitsToRepresent p.T - l))).sum := by
    have hconv : ∀ (f : Nat → Nat) n, ((List.range n).map f).sum = ∑ l ∈ Finset.range n, f l := by
      intro f n
      induction n with
      | zero => rfl
      | succ n ih => rw [List.range_succ, List.map_append, List.sum_append, ih, Finset.sum_range_succ]; simp
    rw [hconv]
    apply Finset.sum_le_sum
    intro l _
    rw [← hW]
    exact Spec.levelCount_le l
  unfold pubCount Params.worstSeeds Params.numLeaves
  dsimp only
  rw [hW] at h
  omega

end LESS
