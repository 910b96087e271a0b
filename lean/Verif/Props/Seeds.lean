import Verif.Proofs.Overread
import Verif.Props.Toy
/-!
# Properties of the seed tree and of the challenge

An index vector `ind` has a 1 for every withheld leaf and a 0 for every released one.  `leafOf tree k` is the seed
of leaf `k`.
-/
namespace LESS

open Spec

variable {p : Params}

/-- The seed of leaf `k` in a tree array. -/
def leafOf (t : TreeBuf p) (k : Nat) : Bytes := seg t ((p.numLeaves - 1 + k) * p.seedLen) p.seedLen

/-- The number of published nodes for an index vector. -/
def published (p : Params) (ind : Vector Nat p.T) : Nat :=
  (publishedNodes p.numLeaves p.T fun k => decide (g ind k = 1)).length

/-- The number of withheld indices. -/
def withheld {T : Nat} (ind : Vector Nat T) : Nat := ((List.range T).filter fun k => decide (g ind k = 1)).length

theorem withheld_eq {T : Nat} (ind : Vector Nat T) : withheld ind = (hiddenSet T (hiddenOf ind)).card := by
  unfold withheld hiddenSet hiddenOf
  rw [← List.toFinset_card_of_nodup (List.Nodup.filter _ (List.nodup_range))]
  congr 1
  ext k; simp

theorem exists_withheld {T : Nat} {ind : Vector Nat T} (h : 0 < withheld ind) : ∃ k < T, hiddenOf ind k = true := by
  unfold withheld at h
  obtain ⟨k, hk⟩ := List.exists_mem_of_length_pos h
  rw [List.mem_filter, List.mem_range] at hk
  exact ⟨k, hk.1, hk.2⟩

theorem exists_withheld' {T : Nat} {ind : Vector Nat T} (h : ∃ k < T, g ind k = 1) : ∃ k < T, hiddenOf ind k = true := by
  obtain ⟨k, hk, h1⟩ := h
  exact ⟨k, hk, by simp [hiddenOf, h1]⟩

/-! ## C13 -/

/-- The three functions succeed, and every released leaf is rebuilt. -/
theorem C13_released_leaves_rebuilt (hp : p.WF) {n : Nat} (t t' : TreeBuf p) (st : Vector UInt8 n) (root salt : Bytes)
    (hroot : root.length = p.seedLen) (ind : Vector Nat p.T) (hind : ∀ k < p.T, g ind k ≤ 1) (hw : ∃ k < p.T, g ind k = 1)
    (hn : published p ind * p.seedLen ≤ n) :
    ∃ tree st' num tree' num', generateSeedTree t root salt = .ok tree ∧ seedTreePath tree ind st = .ok (st', num) ∧
      rebuildSeedTreeLeaves t' ind st' salt = .ok (tree', num') ∧
      ∀ k < p.T, g ind k = 0 → leafOf tree' k = leafOf tree k := by
  have hr := exists_withheld' hw
  obtain ⟨tree, e1, h1⟩ := (generateSeedTree_wp (F := False) hp t root salt hroot).exists_ok
  obtain ⟨⟨st', num⟩, e2, -, h2, -⟩ := (seedTreePath_wp (F := False) hp tree ind st hind hr hn).exists_ok
  obtain ⟨⟨tree', num'⟩, e3, -, h3⟩ := (rebuildSeedTreeLeaves_wp (F := False) hp t' ind st' salt hind hr hn).exists_ok
  refine ⟨tree, st', num, tree', num', e1, e2, e3, fun k hk hz => ?_⟩
  have hL := hp.T_lt_leaves
  have hlt : p.numLeaves - 1 + k < p.numNodes := by unfold Params.numNodes; omega
  have hnc : ¬ Covers p.numLeaves p.T (hiddenOf ind) (p.numLeaves - 1 + k) := by
    rw [covers_leaf_iff (by omega) k (by omega)]
    simp [hiddenOf, hz]
  show nodeSeg tree' _ = nodeSeg tree _
  rw [h3 _ hlt hnc, h1 _ hlt]
  refine rebuilt_eq_nodeSeed _ root _ hr ?_ _ hlt hnc
  intro i hi
  rw [Nat.mul_comm, h2 i hi, h1 i hi.2.1]

/-- A concrete case: the second of three leaves is withheld. -/
example (t t' : TreeBuf toy) (st : Vector UInt8 64) (salt : Bytes) :=
  C13_released_leaves_rebuilt toy_WF t t' st (List.replicate 16 7) salt rfl #v[0, 1, 0] (by decide) (by decide) (by decide +kernel)

/-! ## C14 -/

/-- What can be computed from a set of nodes by expanding children: the nodes themselves and everything below. -/
inductive Derivable (P : Nat → Prop) : Nat → Prop where
  | known {i : Nat} : P i → Derivable P i
  | left {i : Nat} : Derivable P i → Derivable P (2 * i + 1)
  | right {i : Nat} : Derivable P i → Derivable P (2 * i + 2)

/-- The storage holds exactly the seeds of the nodes in a list `l` of distinct nodes.  None of them is a withheld
leaf or an ancestor of one, no withheld leaf is derivable from them, and every released leaf lies below exactly
one of them. -/
theorem C14_withheld_not_derivable (hp : p.WF) {n : Nat} (t : TreeBuf p) (st : Vector UInt8 n) (root salt : Bytes)
    (hroot : root.length = p.seedLen) (ind : Vector Nat p.T) (hind : ∀ k < p.T, g ind k ≤ 1) (hw : ∃ k < p.T, g ind k = 1)
    (hn : published p ind * p.seedLen ≤ n) :
    ∃ tree st' num, generateSeedTree t root salt = .ok tree ∧ seedTreePath tree ind st = .ok (st', num) ∧
      ∃ l : List Nat, l.length = num ∧ l.Nodup ∧
        (∀ i ∈ l, ∃ s < num, seg st' (s * p.seedLen) p.seedLen = seg tree (i * p.seedLen) p.seedLen) ∧
        (∀ j < n, num * p.seedLen ≤ j → g st' j = g st j) ∧
        (∀ i ∈ l, ∀ k < p.T, g ind k = 1 → ¬ IsAncestor i (p.numLeaves - 1 + k)) ∧
        (∀ k < p.T, g ind k = 1 → ¬ Derivable (· ∈ l) (p.numLeaves - 1 + k)) ∧
        (∀ k < p.T, g ind k = 0 → ∃ i ∈ l, IsAncestor i (p.numLeaves - 1 + k) ∧
          ∀ i' ∈ l, IsAncestor i' (p.numLeaves - 1 + k) → i' = i) := by
  have hr := exists_withheld' hw
  obtain ⟨tree, e1, h1⟩ := (generateSeedTree_wp (F := False) hp t root salt hroot).exists_ok
  obtain ⟨⟨st', num⟩, e2, h2, h3, h4⟩ := (seedTreePath_wp (F := False) hp tree ind st hind hr hn).exists_ok
  have hmem : ∀ i, i ∈ publishedNodes p.numLeaves p.T (hiddenOf ind) ↔ Published p.numLeaves p.T (hiddenOf ind) i := by
    intro i
    unfold publishedNodes
    rw [List.mem_filter, List.mem_range, decide_eq_true_eq]
    exact ⟨fun h => h.2, fun h => ⟨h.2.1, h⟩⟩
  have hanc : ∀ i ∈ publishedNodes p.numLeaves p.T (hiddenOf ind), ∀ k < p.T, g ind k = 1 →
      ¬ IsAncestor i (p.numLeaves - 1 + k) := fun i hi k hk h =>
    published_not_above ((hmem i).1 hi) hk (by simp [hiddenOf, h])
  have hder : ∀ j, Derivable (· ∈ publishedNodes p.numLeaves p.T (hiddenOf ind)) j →
      ∃ i ∈ publishedNodes p.numLeaves p.T (hiddenOf ind), IsAncestor i j := by
    intro j hj
    induction hj with
    | known h => exact ⟨_, h, IsAncestor.refl _⟩
    | @left i _ ih =>
      obtain ⟨a, ha, h⟩ := ih
      refine ⟨a, ha, h.trans ?_⟩
      have := isAncestor_parent (2 * i + 1) (by omega)
      rwa [show (2 * i + 1 - 1) / 2 = i by omega] at this
    | @right i _ ih =>
      obtain ⟨a, ha, h⟩ := ih
      refine ⟨a, ha, h.trans ?_⟩
      have := isAncestor_parent (2 * i + 2) (by omega)
      rwa [show (2 * i + 2 - 1) / 2 = i by omega] at this
  refine ⟨tree, st', num, e1, e2, publishedNodes p.numLeaves p.T (hiddenOf ind), h2.symm,
    List.Nodup.filter _ List.nodup_range, ?_, h4, hanc, ?_, ?_⟩
  · intro i hi
    exact ⟨rank p.numLeaves p.T (hiddenOf ind) i, by rw [show num = _ from h2]; exact rank_lt_pubCount ((hmem i).1 hi),
      h3 i ((hmem i).1 hi)⟩
  · intro k hk h hd
    obtain ⟨i, hi, ha⟩ := hder _ hd
    exact hanc i hi k hk h ha
  · intro k hk h
    have hL := hp.T_lt_leaves
    have hnc : ¬ Covers p.numLeaves p.T (hiddenOf ind) (p.numLeaves - 1 + k) := by
      rw [covers_leaf_iff (by omega) k (by omega)]
      simp [hiddenOf, h]
    obtain ⟨i, ⟨hi, ha⟩, hu⟩ := published_unique_above hr (by omega) hnc
    exact ⟨i, (hmem i).2 hi, ha, fun i' hi' h' => hu i' ((hmem i').1 hi') h'⟩

example (t : TreeBuf toy) (st : Vector UInt8 64) (salt : Bytes) :=
  C14_withheld_not_derivable toy_WF t st (List.replicate 16 7) salt rfl #v[0, 1, 0] (by decide) (by decide) (by decide +kernel)

/-! ## C15, C03 -/

/-- For every index vector of weight `W`, publishing succeeds in a storage of `SEED_TREE_MAX_PUBLISHED_BYTES` bytes,
publishes at most `MAX_PUBLISHED_SEEDS` seeds, and leaves room for the count byte, which can represent the count. -/
theorem C15_storage_never_overflows (hp : p.WF) (tree : TreeBuf p) (st : Vector UInt8 p.storageLen) (ind : Vector Nat p.T)
    (hind : ∀ k < p.T, g ind k ≤ 1) (hw : withheld ind = p.W) :
    ∃ st' num, seedTreePath tree ind st = .ok (st', num) ∧ num ≤ p.maxPublishedSeeds ∧
      num * p.seedLen + 1 ≤ p.storageLen ∧ num < 256 := by
  have hr := exists_withheld (ind := ind) (by have := hp.W_pos; omega)
  have hle := pubCount_le_worst hp (hiddenOf ind) (by rw [← withheld_eq, hw])
  have hs := hp.storage
  have hs2 := hp.storage_dvd
  have hs3 := hp.storage_le
  have hmul : pubCount p (hiddenOf ind) * p.seedLen ≤ p.maxPublishedBytes := by
    rw [hs2]; exact Nat.mul_le_mul_right _ (hle.trans hs)
  have hst : p.storageLen = p.maxPublishedBytes + 1 := rfl
  obtain ⟨⟨st', num⟩, e2, h2, -⟩ := (seedTreePath_wp (F := False) hp tree ind st hind hr (by omega)).exists_ok
  dsimp only at h2
  refine ⟨st', num, e2, by omega, ?_, by omega⟩
  rw [h2]; omega

/-- The same for the seven parameter sets by name, so that it also rests on their constants. -/
theorem C15_parameter_sets : ∀ p ∈ Params.all, ∀ (tree : TreeBuf p) (st : Vector UInt8 p.storageLen) (ind : Vector Nat p.T),
    (∀ k < p.T, g ind k ≤ 1) → withheld ind = p.W →
    ∃ st' num, seedTreePath tree ind st = .ok (st', num) ∧ num ≤ p.maxPublishedSeeds ∧
      num * p.seedLen + 1 ≤ p.storageLen ∧ num < 256 :=
  fun p hp tree st ind hind hw => C15_storage_never_overflows (Params.all_WF p hp) tree st ind hind hw

/-- The index vector that withholds the leaves satisfying `f`. -/
def indexVector (T : Nat) (f : Nat → Bool) : Vector Nat T := Vector.ofFn fun k => if f k.val then 1 else 0

theorem g_indexVector {T : Nat} (f : Nat → Bool) {k : Nat} (hk : k < T) : g (indexVector T f) k = if f k then 1 else 0 := by
  unfold indexVector; rw [g_ofFn _ _ hk]

theorem indexVector_le {T : Nat} (f : Nat → Bool) : ∀ k < T, g (indexVector T f) k ≤ 1 := by
  intro k hk
  rw [g_indexVector f hk]
  split <;> omega

theorem hiddenSet_indexVector (T : Nat) (f : Nat → Bool) : hiddenSet T (hiddenOf (indexVector T f)) = hiddenSet T f := by
  unfold hiddenSet
  apply Finset.filter_congr
  intro k hk
  unfold hiddenOf
  rw [g_indexVector f (Finset.mem_range.1 hk)]
  cases f k <;> simp

theorem withheld_indexVector (T : Nat) (f : Nat → Bool) : withheld (indexVector T f) = ((List.range T).filter f).length := by
  rw [withheld_eq, hiddenSet_indexVector]
  unfold hiddenSet
  rw [← List.toFinset_card_of_nodup (List.Nodup.filter _ (List.nodup_range))]
  congr 1
  ext k; simp

/-- Every eighth leaf except leaf 8: weight 30 for category 1, balanced. -/
def worstBalanced (k : Nat) : Bool := k % 8 == 0 && k != 8

/-- Weight 20 for category 1, intermediate. -/
def worstIntermediate (k : Nat) : Bool := k % 16 == 0 || (k % 16 == 8 && decide (k < 64))

example (tree : TreeBuf .cat1Balanced) (st) :=
  C15_storage_never_overflows cat1Balanced_WF tree st (indexVector _ worstBalanced) (indexVector_le _)
    (by rw [withheld_indexVector]; decide +kernel)

/-- For five of the parameter sets the bound is strict: fewer seeds are published than `crypto_sign_open` refuses.
The two other sets, for which this fails, are excluded by the hypothesis. -/
theorem C03_published_below_bound_partial (hp : p.WF) (hstrict : p.worstSeeds < p.maxPublishedSeeds) (tree : TreeBuf p)
    (st : Vector UInt8 p.storageLen) (ind : Vector Nat p.T) (hind : ∀ k < p.T, g ind k ≤ 1) (hw : withheld ind = p.W) :
    ∃ st' num, seedTreePath tree ind st = .ok (st', num) ∧ num < p.maxPublishedSeeds := by
  have hr := exists_withheld (ind := ind) (by have := hp.W_pos; omega)
  have hle := pubCount_le_worst hp (hiddenOf ind) (by rw [← withheld_eq, hw])
  obtain ⟨st', num, e, -⟩ := C15_storage_never_overflows hp tree st ind hind hw
  refine ⟨st', num, e, ?_⟩
  have hmul : pubCount p (hiddenOf ind) * p.seedLen ≤ p.maxPublishedBytes := by
    rw [hp.storage_dvd]; exact Nat.mul_le_mul_right _ (by omega)
  have hst : p.storageLen = p.maxPublishedBytes + 1 := rfl
  have := ((seedTreePath_wp (F := False) hp tree ind st hind hr (by omega)).of_ok e).1
  dsimp only at this
  omega

/-- The five sets to which `C03_published_below_bound_partial` applies. -/
theorem C03_strict_sets : ∀ p ∈ Params.all, p.worstSeeds < p.maxPublishedSeeds ↔
    p ≠ .cat1Balanced ∧ p ≠ .cat1Intermediate := by decide

theorem pubCount_level {d : Nat} (hd : p.numLeaves = 2 ^ d) (hp : p.WF) (hidden : Nat → Bool) (hr : ∃ k < p.T, hidden k = true) :
    pubCount p hidden + (hiddenSet p.T hidden).card = ∑ l ∈ Finset.range d, levelCount d p.T hidden l + 1 := by
  unfold pubCount
  rw [hd]
  exact publishedNodes_length (by rw [← hd]; exact hp.T_lt_leaves.le) hr

theorem seedTreePath_count (hp : p.WF) (tree : TreeBuf p) (st : Vector UInt8 p.storageLen) (ind : Vector Nat p.T)
    (hind : ∀ k < p.T, g ind k ≤ 1) (hw : withheld ind = p.W) : ∃ st', seedTreePath tree ind st = .ok (st', published p ind) := by
  obtain ⟨st', num, e, -⟩ := C15_storage_never_overflows hp tree st ind hind hw
  have hr := exists_withheld (ind := ind) (by have := hp.W_pos; omega)
  have hmul : pubCount p (hiddenOf ind) * p.seedLen ≤ p.maxPublishedBytes := by
    rw [hp.storage_dvd]
    exact Nat.mul_le_mul_right _ ((pubCount_le_worst hp (hiddenOf ind) (by rw [← withheld_eq, hw])).trans hp.storage)
  have hst : p.storageLen = p.maxPublishedBytes + 1 := rfl
  have := ((seedTreePath_wp (F := False) hp tree ind st hind hr (by omega)).of_ok e).1
  dsimp only at this
  exact ⟨st', by rw [e, this]; rfl⟩

theorem published_indexVector (hp : p.WF) {d : Nat} (hd : p.numLeaves = 2 ^ d) (f : Nat → Bool)
    (hw : withheld (indexVector p.T f) = p.W) :
    published p (indexVector p.T f) + p.W =
      ∑ l ∈ Finset.range d, (((List.range p.T).filter f).map fun k => k / 2 ^ (d - l)).dedup.length + 1 := by
  have hr := exists_withheld (ind := indexVector p.T f) (by have := hp.W_pos; omega)
  have hc := pubCount_level hd hp (hiddenOf (indexVector p.T f)) hr
  rw [← withheld_eq, hw] at hc
  show pubCount p (hiddenOf (indexVector p.T f)) + p.W = _
  rw [hc]
  congr 1
  refine Finset.sum_congr rfl fun l _ => ?_
  unfold levelCount
  rw [hiddenSet_indexVector, ← List.toFinset_card_of_nodup (List.nodup_dedup _)]
  congr 1
  ext t
  simp [hiddenSet, and_assoc]

/-- Category 1, balanced: an index vector of weight `W = 30` for which 92 = `MAX_PUBLISHED_SEEDS` seeds are
published; `crypto_sign_open` refuses that count. -/
theorem C03_fails_cat1Balanced : ∃ ind : Vector Nat Params.cat1Balanced.T, (∀ k < 247, g ind k ≤ 1) ∧
    withheld ind = Params.cat1Balanced.W ∧
    ∀ (tree : TreeBuf .cat1Balanced) (st : Vector UInt8 Params.cat1Balanced.storageLen),
      ∃ st', seedTreePath tree ind st = .ok (st', Params.cat1Balanced.maxPublishedSeeds) := by
  have h2 : withheld (indexVector Params.cat1Balanced.T worstBalanced) = Params.cat1Balanced.W := by
    rw [withheld_indexVector]; decide +kernel
  refine ⟨indexVector _ worstBalanced, indexVector_le _, h2, fun tree st => ?_⟩
  obtain ⟨st', e⟩ := seedTreePath_count cat1Balanced_WF tree st _ (indexVector_le _) h2
  refine ⟨st', ?_⟩
  have hc := published_indexVector cat1Balanced_WF (d := 8) rfl worstBalanced h2
  have h3 : ∑ l ∈ Finset.range 8, (((List.range Params.cat1Balanced.T).filter worstBalanced).map
      fun k => k / 2 ^ (8 - l)).dedup.length = 121 := by decide +kernel
  have h4 : Params.cat1Balanced.W = 30 := rfl
  rw [h3, h4] at hc
  rw [e, show published .cat1Balanced (indexVector Params.cat1Balanced.T worstBalanced) = 92 by omega]
  rfl

/-- Category 1, intermediate: the same with weight 20 and 72 seeds. -/
theorem C03_fails_cat1Intermediate : ∃ ind : Vector Nat Params.cat1Intermediate.T, (∀ k < 244, g ind k ≤ 1) ∧
    withheld ind = Params.cat1Intermediate.W ∧
    ∀ (tree : TreeBuf .cat1Intermediate) (st : Vector UInt8 Params.cat1Intermediate.storageLen),
      ∃ st', seedTreePath tree ind st = .ok (st', Params.cat1Intermediate.maxPublishedSeeds) := by
  have h2 : withheld (indexVector Params.cat1Intermediate.T worstIntermediate) = Params.cat1Intermediate.W := by
    rw [withheld_indexVector]; decide +kernel
  refine ⟨indexVector _ worstIntermediate, indexVector_le _, h2, fun tree st => ?_⟩
  obtain ⟨st', e⟩ := seedTreePath_count cat1Intermediate_WF tree st _ (indexVector_le _) h2
  refine ⟨st', ?_⟩
  have hc := published_indexVector cat1Intermediate_WF (d := 8) rfl worstIntermediate h2
  have h3 : ∑ l ∈ Finset.range 8, (((List.range Params.cat1Intermediate.T).filter worstIntermediate).map
      fun k => k / 2 ^ (8 - l)).dedup.length = 91 := by decide +kernel
  have h4 : Params.cat1Intermediate.W = 20 := rfl
  rw [h3, h4] at hc
  rw [e, show published .cat1Intermediate (indexVector Params.cat1Intermediate.T worstIntermediate) = 72 by omega]
  rfl

example (tree : TreeBuf .cat5Balanced) (st) :=
  C03_published_below_bound_partial cat5Balanced_WF (by decide) tree st
    (indexVector _ fun k => k % 34 == 3) (indexVector_le _) (by rw [withheld_indexVector]; decide +kernel)

/-! ## C16 -/

/-- Rebuilding from what was published uses exactly the published number of seeds.  It succeeds if just these bytes
are present, and otherwise reads out of bounds. -/
theorem C16_counts_agree (hp : p.WF) {n n' : Nat} (tree t' : TreeBuf p) (st : Vector UInt8 n) (stored : Vector UInt8 n')
    (salt : Bytes) (ind : Vector Nat p.T) (hind : ∀ k < p.T, g ind k ≤ 1) (hw : ∃ k < p.T, g ind k = 1)
    {st' : Vector UInt8 n} {num : Nat} (hn : published p ind * p.seedLen ≤ n) (h : seedTreePath tree ind st = .ok (st', num)) :
    (num * p.seedLen ≤ n' → ∃ tree', rebuildSeedTreeLeaves t' ind stored salt = .ok (tree', num)) ∧
    (n' < num * p.seedLen → rebuildSeedTreeLeaves t' ind stored salt = .error .oob) := by
  have hr := exists_withheld' hw
  have h2 := ((seedTreePath_wp (F := False) hp tree ind st hind hr hn).of_ok h).1
  dsimp only at h2
  constructor
  · intro hn'
    obtain ⟨⟨t, c⟩, e, h3, -⟩ := (rebuildSeedTreeLeaves_wp (F := False) hp t' ind stored salt hind hr (by rw [← h2]; exact hn')).exists_ok
    dsimp only at h3
    exact ⟨t, by rw [e, h3, h2]⟩
  · intro hn'
    refine Wq.eq_oob (O := True) ((rebuildSeedTreeLeaves_wq trivial hp t' ind stored salt hind hr).mono ?_)
    intro _ hc
    rw [← h2] at hc
    omega

example (tree t' : TreeBuf toy) (st : Vector UInt8 64) (stored : Vector UInt8 48) (salt : Bytes) {st' num} :=
  C16_counts_agree toy_WF tree t' st stored salt #v[0, 1, 0] (by decide) (by decide) (st' := st') (num := num) (by decide +kernel)

/-! ## C17 -/

/-- A challenge that was expanded has exactly `W` non-zero entries, all below the number of key pairs, and is the
one the specification reads off the stream of the digest.  It does not depend on the bound. -/
theorem C17_challenge_weight_and_range (hp : p.WF) {fuel : Nat} {digest : Bytes} {fws : Vector Nat p.T}
    (h : expandDigest fuel (Vector.replicate p.T 0) digest = .ok fws) :
    ((List.range p.T).filter fun k => g fws k ≠ 0).length = p.W ∧ (∀ k < p.T, g fws k < p.numKeypairs) ∧
      (∃ n ≤ fuel, g fws = challengeAfter p (xof p digest) n) ∧
      ∀ fuel' fws', expandDigest fuel' (Vector.replicate p.T 0) digest = .ok fws' → fws' = fws := by
  have hc := (expandDigest_spec hp fuel digest).of_ok h
  refine ⟨hc.weight, fun k _ => (hc.range (by have := hp.numKeypairs_ge; omega) k).1, ?_, ?_⟩
  · obtain ⟨n, hn, e, -⟩ := hc
    exact ⟨n, hn, e⟩
  · intro fuel' fws' h'
    have hc' := (expandDigest_spec hp fuel' digest).of_ok h'
    exact vec_ext fun i _ => congrFun (hc'.unique hc) i

/-- It is expanded without access out of bounds, and within a bound that suffices for the specification. -/
theorem C17_challenge_returns (hp : p.WF) (fuel : Nat) (digest : Bytes) :
    expandDigest fuel (Vector.replicate p.T 0) digest ≠ .error .oob ∧
    ((∃ v, IsChallenge p fuel (xof p digest) v) → ∃ fws, expandDigest fuel (Vector.replicate p.T 0) digest = .ok fws) := by
  have h := expandDigest_spec hp fuel digest
  constructor
  · intro e; rw [e] at h; exact h
  · intro hv
    obtain ⟨fws, e, -⟩ := (h.monoF fun hF => hF hv).exists_ok
    exact ⟨fws, e⟩

end LESS
