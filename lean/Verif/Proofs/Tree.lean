import Verif.Spec.SeedTree
import Mathlib.Algebra.BigOperators.Group.Finset.Basic
import Mathlib.Algebra.Order.BigOperators.Group.Finset
import Mathlib.Data.Finset.Card
import Mathlib.Tactic.Linarith
import Mathlib.Algebra.BigOperators.Ring.Finset
/-!
# Combinatorics of the seed tree
-/
namespace LESS.Spec

theorem IsAncestor.refl (i : Nat) : IsAncestor i i := ⟨0, by simp⟩

theorem IsAncestor.trans {i j k : Nat} (h : IsAncestor i j) (h' : IsAncestor j k) : IsAncestor i k := by
  obtain ⟨e, h⟩ := h
  obtain ⟨e', h'⟩ := h'
  refine ⟨e' + e, ?_⟩
  rw [Nat.pow_add, ← Nat.div_div_eq_div_mul, h', h]

theorem isAncestor_parent (i : Nat) (h : 0 < i) : IsAncestor ((i - 1) / 2) i := ⟨1, by omega⟩

theorem IsAncestor.le {i j : Nat} (h : IsAncestor i j) : i ≤ j := by
  obtain ⟨e, h⟩ := h
  have := Nat.div_le_self (j + 1) (2 ^ e)
  omega

/-- A node is an ancestor of the nodes below its children, and of itself. -/
theorem isAncestor_children (i j : Nat) :
    IsAncestor i j ↔ j = i ∨ IsAncestor (2 * i + 1) j ∨ IsAncestor (2 * i + 2) j := by
  constructor
  · rintro ⟨e, h⟩
    cases e with
    | zero => left; simpa using h
    | succ e =>
      right
      rw [Nat.pow_succ, ← Nat.div_div_eq_div_mul] at h
      rcases (by omega : (j + 1) / 2 ^ e = 2 * i + 1 + 1 ∨ (j + 1) / 2 ^ e = 2 * i + 2 + 1) with h | h
      · exact Or.inl ⟨e, h⟩
      · exact Or.inr ⟨e, h⟩
  · rintro (rfl | h | h)
    · exact IsAncestor.refl _
    · exact IsAncestor.trans (by have := isAncestor_parent (2 * i + 1) (by omega); rwa [show (2 * i + 1 - 1) / 2 = i by omega] at this) h
    · exact IsAncestor.trans (by have := isAncestor_parent (2 * i + 2) (by omega); rwa [show (2 * i + 2 - 1) / 2 = i by omega] at this) h

/-- Two ancestors of a node are comparable. -/
theorem IsAncestor.comparable {i j k : Nat} (h : IsAncestor i k) (h' : IsAncestor j k) :
    IsAncestor i j ∨ IsAncestor j i := by
  obtain ⟨e, h⟩ := h
  obtain ⟨e', h'⟩ := h'
  rcases Nat.le_total e e' with he | he
  · right
    obtain ⟨c, rfl⟩ := Nat.exists_eq_add_of_le he
    rw [Nat.pow_add, ← Nat.div_div_eq_div_mul, h] at h'
    exact ⟨c, h'⟩
  · left
    obtain ⟨c, rfl⟩ := Nat.exists_eq_add_of_le he
    rw [Nat.pow_add, ← Nat.div_div_eq_div_mul, h'] at h
    exact ⟨c, h⟩

/-- A proper ancestor is an ancestor of the parent. -/
theorem IsAncestor.parent_of_ne {i j : Nat} (h : IsAncestor i j) (hne : i ≠ j) :
    0 < j ∧ IsAncestor i ((j - 1) / 2) := by
  have hlt : i < j := Nat.lt_of_le_of_ne h.le hne
  obtain ⟨e, h⟩ := h
  cases e with
  | zero => simp at h; omega
  | succ e =>
    refine ⟨by omega, e, ?_⟩
    rw [Nat.pow_succ, Nat.mul_comm, ← Nat.div_div_eq_div_mul] at h
    rwa [show (j - 1) / 2 + 1 = (j + 1) / 2 by omega]

theorem isAncestor_root (j : Nat) : IsAncestor 0 j := by
  induction j using Nat.strongRecOn with
  | _ j ih =>
    by_cases h : j = 0
    · subst h; exact IsAncestor.refl _
    · exact IsAncestor.trans (ih ((j - 1) / 2) (by omega)) (isAncestor_parent j (by omega))

section
variable {L T : Nat} {hidden : Nat → Bool}

theorem Covers.up {i j : Nat} (h : Covers L T hidden j) (hij : IsAncestor i j) : Covers L T hidden i := by
  obtain ⟨k, h1, h2, h3⟩ := h
  exact ⟨k, h1, h2, hij.trans h3⟩

theorem Covers.parent {i : Nat} (h : Covers L T hidden i) (hi : 0 < i) : Covers L T hidden ((i - 1) / 2) :=
  h.up (isAncestor_parent i hi)

theorem covers_root (h : ∃ k < T, hidden k = true) : Covers L T hidden 0 := by
  obtain ⟨k, h1, h2⟩ := h
  exact ⟨k, h1, h2, isAncestor_root _⟩

theorem covers_leaf (k : Nat) (hk : k < T) : Covers L T hidden (L - 1 + k) ↔ hidden k = true ∨
    ∃ k' < T, hidden k' = true ∧ k' ≠ k ∧ IsAncestor (L - 1 + k) (L - 1 + k') := by
  constructor
  · rintro ⟨k', h1, h2, h3⟩
    by_cases h : k' = k
    · subst h; exact Or.inl h2
    · exact Or.inr ⟨k', h1, h2, h, h3⟩
  · rintro (h | ⟨k', h1, h2, _, h3⟩)
    · exact ⟨k, hk, h, IsAncestor.refl _⟩
    · exact ⟨k', h1, h2, h3⟩

/-- A leaf is not an ancestor of another leaf. -/
theorem leaf_anc (k k' : Nat) (hk : k < L) (hk' : k' < L) (h : IsAncestor (L - 1 + k) (L - 1 + k')) : k = k' := by
  obtain ⟨e, h⟩ := h
  cases e with
  | zero => simp at h; omega
  | succ e =>
    have : (L - 1 + k' + 1) / 2 ^ (e + 1) ≤ (L - 1 + k' + 1) / 2 := by
      apply Nat.div_le_div_left _ (by decide)
      have := Nat.pow_le_pow_right (show 0 < 2 by decide) (show 1 ≤ e + 1 by omega)
      simpa using this
    omega

theorem covers_leaf_iff (hT : T ≤ L) (k : Nat) (hk : k < L) :
    Covers L T hidden (L - 1 + k) ↔ k < T ∧ hidden k = true := by
  constructor
  · rintro ⟨k', h1, h2, h3⟩
    have := leaf_anc k k' hk (by omega) h3
    subst this; exact ⟨h1, h2⟩
  · rintro ⟨h1, h2⟩; exact ⟨k, h1, h2, IsAncestor.refl _⟩

theorem covers_inner (i : Nat) (hi : i < L - 1) :
    Covers L T hidden i ↔ Covers L T hidden (2 * i + 1) ∨ Covers L T hidden (2 * i + 2) := by
  constructor
  · rintro ⟨k, h1, h2, h3⟩
    rcases (isAncestor_children _ _).mp h3 with h | h | h
    · omega
    · exact Or.inl ⟨k, h1, h2, h⟩
    · exact Or.inr ⟨k, h1, h2, h⟩
  · rintro (⟨k, h1, h2, h3⟩ | ⟨k, h1, h2, h3⟩)
    · exact ⟨k, h1, h2, (isAncestor_children _ _).mpr (Or.inr (Or.inl h3))⟩
    · exact ⟨k, h1, h2, (isAncestor_children _ _).mpr (Or.inr (Or.inr h3))⟩

/-- No published node is at or above a hidden leaf. -/
theorem published_not_above {i k : Nat} (h : Published L T hidden i) (hk : k < T) (hh : hidden k = true) :
    ¬ IsAncestor i (L - 1 + k) := fun ha => h.2.2.1 ⟨k, hk, hh, ha⟩

/-- Every node with nothing hidden below it has exactly one published ancestor. -/
theorem published_unique_above {j : Nat} (hr : ∃ k < T, hidden k = true) (hj : j < 2 * L - 1)
    (hn : ¬ Covers L T hidden j) : ∃ i, (Published L T hidden i ∧ IsAncestor i j) ∧
      ∀ i', Published L T hidden i' → IsAncestor i' j → i' = i := by
  have hex : ∃ i, Published L T hidden i ∧ IsAncestor i j := by
    induction j using Nat.strongRecOn with
    | _ j ih =>
      have h0 : 0 < j := by
        rcases Nat.eq_zero_or_pos j with h | h
        · subst h; exact absurd (covers_root hr) hn
        · exact h
      by_cases hp : Covers L T hidden ((j - 1) / 2)
      · exact ⟨j, ⟨h0, hj, hn, hp⟩, IsAncestor.refl _⟩
      · obtain ⟨i, h1, h2⟩ := ih _ (by omega) (by omega) hp
        exact ⟨i, h1, h2.trans (isAncestor_parent j h0)⟩
  obtain ⟨i, h1, h2⟩ := hex
  refine ⟨i, ⟨h1, h2⟩, ?_⟩
  intro i' h3 h4
  apply Classical.byContradiction
  intro hne
  rcases h2.comparable h4 with h | h
  · obtain ⟨_, h5⟩ := h.parent_of_ne (fun e => hne e.symm)
    exact h1.2.2.1 (h3.2.2.2.up h5)
  · obtain ⟨_, h5⟩ := h.parent_of_ne hne
    exact h3.2.2.1 (h1.2.2.2.up h5)

/-- The seeds handed out allow to rebuild every seed with nothing hidden below. -/
theorem rebuilt_eq_nodeSeed (H : List UInt8 → List UInt8 × List UInt8) (root : List UInt8) (stored : Nat → List UInt8)
    (hr : ∃ k < T, hidden k = true)
    (hs : ∀ i, Published L T hidden i → stored (rank L T hidden i) = nodeSeed H root i) (i : Nat)
    (hi : i < 2 * L - 1) (hn : ¬ Covers L T hidden i) : rebuiltSeed H L T hidden stored i = nodeSeed H root i := by
  induction i using Nat.strongRecOn with
  | _ i ih =>
    match i with
    | 0 => exact absurd (covers_root hr) hn
    | i + 1 =>
      rw [rebuiltSeed]
      by_cases hp : Published L T hidden (i + 1)
      · rw [if_pos hp]; exact hs _ hp
      · rw [if_neg hp]
        have hpn : ¬ Covers L T hidden (i / 2) := fun hc => hp ⟨by omega, hi, hn, by simpa using hc⟩
        rw [ih (i / 2) (by omega) (by omega) hpn, nodeSeed]

theorem rank_succ (i : Nat) : rank L T hidden (i + 1) =
    rank L T hidden i + if Published L T hidden i then 1 else 0 := by
  unfold rank
  rw [List.range_succ, List.filter_append, List.length_append]
  by_cases h : Published L T hidden i <;> simp [h]

theorem rank_mono {i j : Nat} (h : i ≤ j) : rank L T hidden i ≤ rank L T hidden j := by
  obtain ⟨c, rfl⟩ := Nat.exists_eq_add_of_le h
  induction c with
  | zero => simp
  | succ c ih => rw [← Nat.add_assoc, rank_succ]; have := ih (by omega); omega

theorem rank_total : rank L T hidden (2 * L - 1) = (publishedNodes L T hidden).length := rfl

end

/-! ## Counting -/

/-- The node `t` of level `l` is above leaf `k` iff `k / 2^(d-l) = t`. -/
theorem anc_level {d l t k : Nat} (hl : l ≤ d) (ht : t < 2 ^ l) (hk : k < 2 ^ d) :
    IsAncestor (2 ^ l - 1 + t) (2 ^ d - 1 + k) ↔ k / 2 ^ (d - l) = t := by
  have hd0 := Nat.two_pow_pos d
  have hl0 := Nat.two_pow_pos l
  have e1 : 2 ^ d - 1 + k + 1 = 2 ^ d + k := by omega
  have e2 : 2 ^ l - 1 + t + 1 = 2 ^ l + t := by omega
  have key : ∀ e, e ≤ d → (2 ^ d + k) / 2 ^ e = 2 ^ (d - e) + k / 2 ^ e := by
    intro e he
    have : 2 ^ d = 2 ^ e * 2 ^ (d - e) := by rw [← Nat.pow_add, show e + (d - e) = d by omega]
    rw [this, Nat.mul_add_div (Nat.two_pow_pos e)]
  constructor
  · rintro ⟨e, h⟩
    rw [e1, e2] at h
    by_cases he : e ≤ d
    · rw [key e he] at h
      have hlt : k / 2 ^ e < 2 ^ (d - e) := by
        apply Nat.div_lt_of_lt_mul
        rw [← Nat.pow_add, show e + (d - e) = d by omega]; exact hk
      have : d - e = l := by
        rcases Nat.lt_trichotomy (d - e) l with h1 | h1 | h1
        · have := Nat.pow_le_pow_right (show 0 < 2 by decide) (show d - e + 1 ≤ l from h1)
          rw [Nat.pow_succ] at this
          generalize k / 2 ^ e = z at *
          generalize 2 ^ (d - e) = x at *
          generalize 2 ^ l = y at *
          omega
        · exact h1
        · have := Nat.pow_le_pow_right (show 0 < 2 by decide) (show l + 1 ≤ d - e from h1)
          rw [Nat.pow_succ] at this
          generalize k / 2 ^ e = z at *
          generalize 2 ^ (d - e) = x at *
          generalize 2 ^ l = y at *
          omega
      rw [← this, show d - (d - e) = e by omega]
      rw [this] at h; omega
    · have : 2 ^ d + k < 2 ^ e := by
        have := Nat.pow_le_pow_right (show 0 < 2 by decide) (show d + 1 ≤ e by omega)
        rw [Nat.pow_succ] at this; omega
      rw [Nat.div_eq_of_lt this] at h; omega
  · intro h
    refine ⟨d - l, ?_⟩
    rw [e1, e2, key _ (by omega), h, show d - (d - l) = l by omega]

/-- The hidden leaves. -/
def hiddenSet (T : Nat) (hidden : Nat → Bool) : Finset Nat := (Finset.range T).filter fun k => hidden k = true

/-- Number of nodes of level `l` (of a tree of depth `d`) above hidden leaves. -/
def levelCount (d T : Nat) (hidden : Nat → Bool) (l : Nat) : Nat :=
  ((hiddenSet T hidden).image fun k => k / 2 ^ (d - l)).card

theorem levelCount_eq {d T : Nat} {hidden : Nat → Bool} (hT : T ≤ 2 ^ d) {l : Nat} (hl : l ≤ d) :
    levelCount d T hidden l =
      ∑ t ∈ Finset.range (2 ^ l), if Covers (2 ^ d) T hidden (2 ^ l - 1 + t) then 1 else 0 := by
  rw [← Finset.card_filter]
  unfold levelCount
  congr 1
  ext t
  simp only [Finset.mem_image, hiddenSet, Finset.mem_filter, Finset.mem_range]
  constructor
  · rintro ⟨k, ⟨h1, h2⟩, h3⟩
    have ht : t < 2 ^ l := by
      rw [← h3]; apply Nat.div_lt_of_lt_mul
      rw [← Nat.pow_add, show d - l + l = d by omega]; omega
    exact ⟨ht, k, h1, h2, (anc_level hl ht (by omega)).mpr h3⟩
  · rintro ⟨ht, k, h1, h2, h3⟩
    exact ⟨k, ⟨h1, h2⟩, (anc_level hl ht (by omega)).mp h3⟩

theorem sum_pairs (f : Nat → Nat) (n : Nat) :
    ∑ t ∈ Finset.range (2 * n), f t = ∑ t ∈ Finset.range n, (f (2 * t) + f (2 * t + 1)) := by
  induction n with
  | zero => simp
  | succ n ih =>
    rw [show 2 * (n + 1) = 2 * n + 1 + 1 by omega, Finset.sum_range_succ, Finset.sum_range_succ, ih,
      Finset.sum_range_succ]
    omega

/-- Published nodes and covered nodes of a level. -/
theorem level_published {d T : Nat} {hidden : Nat → Bool} (hT : T ≤ 2 ^ d) {l : Nat} (hl : l < d) :
    (∑ t ∈ Finset.range (2 ^ (l + 1)), if Published (2 ^ d) T hidden (2 ^ (l + 1) - 1 + t) then 1 else 0) +
      levelCount d T hidden (l + 1) = 2 * levelCount d T hidden l := by
  rw [levelCount_eq hT (by omega), levelCount_eq hT (by omega), ← Finset.sum_add_distrib, Nat.pow_succ,
    Nat.mul_comm (2 ^ l) 2, sum_pairs, Finset.mul_sum]
  apply Finset.sum_congr rfl
  intro t ht
  rw [Finset.mem_range] at ht
  have hl0 := Nat.two_pow_pos l
  have hlt := Nat.pow_le_pow_right (show 0 < 2 by decide) (show l + 1 ≤ d from hl)
  rw [Nat.pow_succ] at hlt
  have key : ∀ i, 0 < i → i < 2 * 2 ^ d - 1 → (i - 1) / 2 = 2 ^ l - 1 + t →
      (if Published (2 ^ d) T hidden i then 1 else 0) + (if Covers (2 ^ d) T hidden i then 1 else 0) =
        if Covers (2 ^ d) T hidden (2 ^ l - 1 + t) then 1 else 0 := by
    intro i h0 h1 h2
    by_cases hc : Covers (2 ^ d) T hidden i
    · have := hc.parent h0
      rw [h2] at this
      rw [if_pos hc, if_pos this, if_neg (fun h => h.2.2.1 hc)]
    · by_cases hp : Covers (2 ^ d) T hidden (2 ^ l - 1 + t)
      · rw [if_neg hc, if_pos hp, if_pos ⟨h0, h1, hc, by rw [h2]; exact hp⟩]
      · rw [if_neg hc, if_neg hp, if_neg (fun h => hp (by have := h.2.2.2; rwa [h2] at this))]
  have a := key (2 * 2 ^ l - 1 + 2 * t) (by omega) (by omega) (by omega)
  have b := key (2 * 2 ^ l - 1 + (2 * t + 1)) (by omega) (by omega) (by omega)
  omega

theorem rank_eq_sum {L T : Nat} {hidden : Nat → Bool} (i : Nat) :
    rank L T hidden i = ∑ j ∈ Finset.range i, if Published L T hidden j then 1 else 0 := by
  induction i with
  | zero => rfl
  | succ i ih => rw [rank_succ, Finset.sum_range_succ, ih]

/-- The number of published nodes in terms of the level counts. -/
theorem count_levels {d T : Nat} {hidden : Nat → Bool} (hT : T ≤ 2 ^ d) (m : Nat) (hm : m ≤ d) :
    rank (2 ^ d) T hidden (2 ^ (m + 1) - 1) + levelCount d T hidden m =
      ∑ l ∈ Finset.range m, levelCount d T hidden l + levelCount d T hidden 0 := by
  induction m with
  | zero =>
    have : rank (2 ^ d) T hidden (2 ^ (0 + 1) - 1) = 0 := by
      show rank (2 ^ d) T hidden 1 = 0
      rw [rank_succ, if_neg (fun h => absurd h.1 (by decide))]; rfl
    rw [this]; simp
  | succ m ih =>
    have h1 := ih (by omega)
    have h2 := level_published hT (hidden := hidden) (show m < d by omega)
    have h3 : rank (2 ^ d) T hidden (2 ^ (m + 1 + 1) - 1) = rank (2 ^ d) T hidden (2 ^ (m + 1) - 1) +
        ∑ t ∈ Finset.range (2 ^ (m + 1)), if Published (2 ^ d) T hidden (2 ^ (m + 1) - 1 + t) then 1 else 0 := by
      have e : 2 ^ (m + 1 + 1) - 1 = (2 ^ (m + 1) - 1) + 2 ^ (m + 1) := by
        have := Nat.two_pow_pos (m + 1)
        rw [Nat.pow_succ 2 (m + 1)]; omega
      rw [rank_eq_sum, rank_eq_sum, e, Finset.sum_range_add]
    rw [Finset.sum_range_succ]
    omega

theorem levelCount_zero {d T : Nat} {hidden : Nat → Bool} (hT : T ≤ 2 ^ d) (h : ∃ k < T, hidden k = true) :
    levelCount d T hidden 0 = 1 := by
  rw [levelCount_eq hT (by omega)]
  rw [Nat.pow_zero, Finset.sum_range_one, if_pos]
  exact covers_root h

theorem levelCount_leaf {d T : Nat} {hidden : Nat → Bool} : levelCount d T hidden d = (hiddenSet T hidden).card := by
  unfold levelCount; simp

theorem levelCount_le {d T : Nat} {hidden : Nat → Bool} (l : Nat) :
    levelCount d T hidden l ≤ min (hiddenSet T hidden).card ((T + 2 ^ (d - l) - 1) / 2 ^ (d - l)) := by
  refine le_min Finset.card_image_le ?_
  have : ((hiddenSet T hidden).image fun k => k / 2 ^ (d - l)) ⊆
      Finset.range ((T + 2 ^ (d - l) - 1) / 2 ^ (d - l)) := by
    intro t ht
    simp only [Finset.mem_image, hiddenSet, Finset.mem_filter, Finset.mem_range] at ht ⊢
    obtain ⟨k, ⟨h1, _⟩, rfl⟩ := ht
    have hp := Nat.two_pow_pos (d - l)
    rw [Nat.lt_iff_add_one_le, Nat.le_div_iff_mul_le hp, Nat.succ_mul]
    have := Nat.div_mul_le_self k (2 ^ (d - l))
    omega
  have := Finset.card_le_card this
  rwa [Finset.card_range] at this

/-- Exact number of published nodes. -/
theorem publishedNodes_length {d T : Nat} {hidden : Nat → Bool} (hT : T ≤ 2 ^ d) (h : ∃ k < T, hidden k = true) :
    (publishedNodes (2 ^ d) T hidden).length + (hiddenSet T hidden).card =
      ∑ l ∈ Finset.range d, levelCount d T hidden l + 1 := by
  have := count_levels hT (hidden := hidden) d (Nat.le_refl d)
  rw [levelCount_zero hT h, levelCount_leaf] at this
  rw [← this, ← rank_total]
  rw [Nat.pow_succ, Nat.mul_comm (2 ^ d) 2]

end LESS.Spec
