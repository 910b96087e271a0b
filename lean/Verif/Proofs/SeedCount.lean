import Mathlib.Algebra.BigOperators.Ring.Finset
import Mathlib.Algebra.Order.BigOperators.Group.Finset
import Mathlib.Data.Finset.Powerset
import Mathlib.Tactic.Ring
import Verif.Proofs.Tree
/-!
# How many sets of withheld leaves publish how many seeds

The numbers are read off a number: the sum of `Q ^ (2 ^ d * |H| + nodes above H)` over all sets `H` of leaves has these
counts as its digits in base `Q`, and it satisfies a recursion over the tree.
-/
namespace LESS
open Spec

/-- Number of inner nodes of a tree of depth `d` above the leaves in `H`. -/
def nodesAbove (d : Nat) (H : Finset Nat) : Nat := ∑ l ∈ Finset.range d, (H.image fun k => k / 2 ^ (d - l)).card

/-- The recursion over the tree with the first `c` leaves. -/
def treeGen (X Y : Nat) : Nat → Nat → Nat
  | 0, c => if c = 0 then 1 else 1 + X
  | d + 1, c => Y * (treeGen X Y d (min c (2 ^ d)) * treeGen X Y d (c - 2 ^ d) - 1) + 1

/-- The digit for `W` leaves with `x` inner nodes above them. -/
def seedDist (d T W x : Nat) : Nat :=
  let Q := 2 ^ (T + 1)
  treeGen (Q ^ 2 ^ d) Q d T / Q ^ (2 ^ d * W + x) % Q

/-! ## The recursion -/

/-- The set with the left part `A` and the right part `B`. -/
def joinSets (m : Nat) (A B : Finset Nat) : Finset Nat := A ∪ B.image (· + m)

theorem mem_joinSets {m : Nat} {A B : Finset Nat} {k : Nat} : k ∈ joinSets m A B ↔ k ∈ A ∨ ∃ b ∈ B, b + m = k := by
  simp [joinSets]

theorem card_joinSets {m : Nat} {A B : Finset Nat} (hA : ∀ k ∈ A, k < m) : (joinSets m A B).card = A.card + B.card := by
  unfold joinSets
  rw [Finset.card_union_of_disjoint, Finset.card_image_of_injective _ (add_left_injective m)]
  rw [Finset.disjoint_left]
  intro k hk hk'
  obtain ⟨b, _, rfl⟩ := Finset.mem_image.mp hk'
  have := hA _ hk
  omega

theorem card_image_joinSets {m n : Nat} (hn : n ∣ m) (hn0 : 0 < n) {A B : Finset Nat} (hA : ∀ k ∈ A, k < m) :
    ((joinSets m A B).image (· / n)).card = (A.image (· / n)).card + (B.image (· / n)).card := by
  obtain ⟨q, rfl⟩ := hn
  have h : (joinSets (n * q) A B).image (· / n) = joinSets q (A.image (· / n)) (B.image (· / n)) := by
    ext k
    simp only [Finset.mem_image, mem_joinSets]
    constructor
    · rintro ⟨x, hx | ⟨b, hb, rfl⟩, rfl⟩
      · exact .inl ⟨x, hx, rfl⟩
      · exact .inr ⟨b / n, ⟨b, hb, rfl⟩, by rw [Nat.add_mul_div_left _ _ hn0]⟩
    · rintro (⟨x, hx, rfl⟩ | ⟨_, ⟨b, hb, rfl⟩, rfl⟩)
      · exact ⟨x, .inl hx, rfl⟩
      · exact ⟨b + n * q, .inr ⟨b, hb, rfl⟩, by rw [Nat.add_mul_div_left _ _ hn0]⟩
  rw [h, card_joinSets]
  intro k hk
  obtain ⟨x, hx, rfl⟩ := Finset.mem_image.mp hk
  exact (Nat.div_lt_iff_lt_mul hn0).2 (by rw [Nat.mul_comm]; exact hA x hx)

theorem nodesAbove_empty (d : Nat) : nodesAbove d ∅ = 0 := by simp [nodesAbove]

theorem nodesAbove_join {d : Nat} {A B : Finset Nat} (hA : ∀ k ∈ A, k < 2 ^ d) (hB : ∀ k ∈ B, k < 2 ^ d)
    (hne : A.Nonempty ∨ B.Nonempty) :
    nodesAbove (d + 1) (joinSets (2 ^ d) A B) = nodesAbove d A + nodesAbove d B + 1 := by
  unfold nodesAbove
  rw [Finset.sum_range_succ', ← Finset.sum_add_distrib]
  congr 1
  · apply Finset.sum_congr rfl
    intro l hl
    rw [Finset.mem_range] at hl
    rw [show d + 1 - (l + 1) = d - l by omega]
    exact card_image_joinSets (pow_dvd_pow 2 (by omega)) (Nat.two_pow_pos _) hA
  · rw [Finset.card_eq_one]
    refine ⟨0, ?_⟩
    have hlt : ∀ k ∈ joinSets (2 ^ d) A B, k / 2 ^ (d + 1 - 0) = 0 := by
      intro k hk
      apply Nat.div_eq_of_lt
      rw [Nat.sub_zero, Nat.pow_succ]
      rcases mem_joinSets.mp hk with h | ⟨b, hb, rfl⟩
      · have := hA k h; omega
      · have := hB b hb; omega
    ext k
    simp only [Finset.mem_image, Finset.mem_singleton]
    constructor
    · rintro ⟨x, hx, rfl⟩; exact hlt x hx
    · rintro rfl
      rcases hne with ⟨a, ha⟩ | ⟨b, hb⟩
      · exact ⟨a, mem_joinSets.mpr (.inl ha), hlt _ (mem_joinSets.mpr (.inl ha))⟩
      · exact ⟨b + 2 ^ d, mem_joinSets.mpr (.inr ⟨b, hb, rfl⟩), hlt _ (mem_joinSets.mpr (.inr ⟨b, hb, rfl⟩))⟩

/-- Subsets of the first `c` leaves are pairs of subsets of the two halves. -/
theorem sum_powerset_join (m c : Nat) (f : Finset Nat → Nat) :
    ∑ H ∈ (Finset.range c).powerset, f H =
      ∑ A ∈ (Finset.range (min c m)).powerset, ∑ B ∈ (Finset.range (c - m)).powerset, f (joinSets m A B) := by
  rw [← Finset.sum_product']
  symm
  refine Finset.sum_nbij' (fun AB => joinSets m AB.1 AB.2)
    (fun H => (H.filter (· < m), (H.filter (m ≤ ·)).image (· - m))) ?_ ?_ ?_ ?_ (fun _ _ => rfl)
  · rintro ⟨A, B⟩ h
    simp only [Finset.mem_product, Finset.mem_powerset] at h
    rw [Finset.mem_powerset]
    intro k hk
    rw [Finset.mem_range]
    rcases mem_joinSets.mp hk with hk | ⟨b, hb, rfl⟩
    · have := Finset.mem_range.mp (h.1 hk); omega
    · have := Finset.mem_range.mp (h.2 hb); omega
  · intro H h
    rw [Finset.mem_powerset] at h
    simp only [Finset.mem_product, Finset.mem_powerset]
    constructor
    · intro k hk
      obtain ⟨h1, h2⟩ := Finset.mem_filter.mp hk
      have := Finset.mem_range.mp (h h1)
      rw [Finset.mem_range]; omega
    · intro k hk
      obtain ⟨x, hx, rfl⟩ := Finset.mem_image.mp hk
      obtain ⟨h1, h2⟩ := Finset.mem_filter.mp hx
      have := Finset.mem_range.mp (h h1)
      rw [Finset.mem_range]; omega
  · rintro ⟨A, B⟩ h
    simp only [Finset.mem_product, Finset.mem_powerset] at h
    have hA : ∀ k ∈ A, k < m := fun k hk => by have := Finset.mem_range.mp (h.1 hk); omega
    apply Prod.ext
    · ext k
      simp only [Finset.mem_filter, mem_joinSets]
      constructor
      · rintro ⟨hk | ⟨b, _, rfl⟩, hlt⟩
        · exact hk
        · omega
      · exact fun hk => ⟨.inl hk, hA k hk⟩
    · ext k
      simp only [Finset.mem_image, Finset.mem_filter, mem_joinSets]
      constructor
      · rintro ⟨x, ⟨hx | ⟨b, hb, rfl⟩, hge⟩, rfl⟩
        · have := hA x hx; omega
        · rwa [Nat.add_sub_cancel]
      · exact fun hk => ⟨k + m, ⟨.inr ⟨k, hk, rfl⟩, by omega⟩, by omega⟩
  · intro H h
    ext k
    simp only [mem_joinSets, Finset.mem_image, Finset.mem_filter]
    constructor
    · rintro (⟨hk, _⟩ | ⟨b, ⟨x, ⟨hx, hge⟩, rfl⟩, rfl⟩)
      · exact hk
      · rwa [Nat.sub_add_cancel hge]
    · intro hk
      by_cases hlt : k < m
      · exact .inl ⟨hk, hlt⟩
      · exact .inr ⟨k - m, ⟨k, ⟨hk, by omega⟩, rfl⟩, by omega⟩

theorem treeGen_pos (X Y d c : Nat) : 1 ≤ treeGen X Y d c := by
  cases d with
  | zero => unfold treeGen; split <;> omega
  | succ d => unfold treeGen; omega

theorem treeGen_eq (X Y d : Nat) : ∀ c, c ≤ 2 ^ d →
    ∑ H ∈ (Finset.range c).powerset, X ^ H.card * Y ^ nodesAbove d H = treeGen X Y d c := by
  induction d with
  | zero =>
    intro c hc
    unfold treeGen nodesAbove
    rcases (show c = 0 ∨ c = 1 by simpa using Nat.le_one_iff_eq_zero_or_eq_one.mp (by simpa using hc)) with rfl | rfl
    · simp
    · rw [if_neg (by decide), show (Finset.range 1).powerset = {∅, {0}} by decide]
      simp
  | succ d ih =>
    intro c hc
    rw [Nat.pow_succ] at hc
    rw [sum_powerset_join (2 ^ d)]
    unfold treeGen
    rw [← ih (min c (2 ^ d)) (Nat.min_le_right _ _), ← ih (c - 2 ^ d) (by omega)]
    have hpos : 1 ≤ (∑ H ∈ (Finset.range (min c (2 ^ d))).powerset, X ^ H.card * Y ^ nodesAbove d H) *
        ∑ H ∈ (Finset.range (c - 2 ^ d)).powerset, X ^ H.card * Y ^ nodesAbove d H := by
      rw [ih _ (Nat.min_le_right _ _), ih _ (by omega)]
      exact Nat.mul_le_mul (treeGen_pos _ _ _ _) (treeGen_pos _ _ _ _)
    have key : (∑ A ∈ (Finset.range (min c (2 ^ d))).powerset, ∑ B ∈ (Finset.range (c - 2 ^ d)).powerset,
        X ^ (joinSets (2 ^ d) A B).card * Y ^ nodesAbove (d + 1) (joinSets (2 ^ d) A B)) + Y =
        Y * ((∑ H ∈ (Finset.range (min c (2 ^ d))).powerset, X ^ H.card * Y ^ nodesAbove d H) *
          ∑ H ∈ (Finset.range (c - 2 ^ d)).powerset, X ^ H.card * Y ^ nodesAbove d H) + 1 := by
      have hY : Y = ∑ A ∈ (Finset.range (min c (2 ^ d))).powerset, ∑ B ∈ (Finset.range (c - 2 ^ d)).powerset,
          if A = ∅ ∧ B = ∅ then Y else 0 := by
        rw [Finset.sum_eq_single ∅, Finset.sum_eq_single ∅]
        · simp
        · intro B _ hB; simp [hB]
        · intro h; exact absurd (Finset.empty_mem_powerset _) h
        · intro A _ hA; simp [hA]
        · intro h; exact absurd (Finset.empty_mem_powerset _) h
      have h1 : 1 = ∑ A ∈ (Finset.range (min c (2 ^ d))).powerset, ∑ B ∈ (Finset.range (c - 2 ^ d)).powerset,
          if A = ∅ ∧ B = ∅ then 1 else 0 := by
        rw [Finset.sum_eq_single ∅, Finset.sum_eq_single ∅]
        · simp
        · intro B _ hB; simp [hB]
        · intro h; exact absurd (Finset.empty_mem_powerset _) h
        · intro A _ hA; simp [hA]
        · intro h; exact absurd (Finset.empty_mem_powerset _) h
      refine (congrArg₂ (· + ·) rfl hY).trans ((?_ : _ = _).trans (congrArg₂ (· + ·) rfl h1.symm))
      rw [Finset.sum_mul_sum, Finset.mul_sum, ← Finset.sum_add_distrib, ← Finset.sum_add_distrib]
      apply Finset.sum_congr rfl
      intro A hA
      rw [Finset.mul_sum, ← Finset.sum_add_distrib, ← Finset.sum_add_distrib]
      apply Finset.sum_congr rfl
      intro B hB
      have hA' : ∀ k ∈ A, k < 2 ^ d := fun k hk => by
        have := Finset.mem_range.mp (Finset.mem_powerset.mp hA hk); omega
      have hB' : ∀ k ∈ B, k < 2 ^ d := fun k hk => by
        have := Finset.mem_range.mp (Finset.mem_powerset.mp hB hk); omega
      by_cases he : A = ∅ ∧ B = ∅
      · obtain ⟨rfl, rfl⟩ := he
        simp [joinSets, nodesAbove_empty]
        omega
      · rw [if_neg he, if_neg he, card_joinSets hA', nodesAbove_join hA' hB' (by
          rcases Finset.eq_empty_or_nonempty A with h | h
          · exact .inr (Finset.nonempty_iff_ne_empty.mpr fun h' => he ⟨h, h'⟩)
          · exact .inl h)]
        ring
    generalize (∑ H ∈ (Finset.range (min c (2 ^ d))).powerset, X ^ H.card * Y ^ nodesAbove d H) *
      ∑ H ∈ (Finset.range (c - 2 ^ d)).powerset, X ^ H.card * Y ^ nodesAbove d H = M at hpos key ⊢
    rw [Nat.mul_sub, Nat.mul_one]
    have : Y ≤ Y * M := Nat.le_mul_of_pos_right _ hpos
    omega

/-! ## Reading the digits -/

theorem digit_count {α : Type} [DecidableEq α] (P : Finset α) (e : α → Nat) (Q t : Nat) (hQ : P.card < Q) :
    (∑ a ∈ P, Q ^ e a) / Q ^ t % Q = (P.filter fun a => e a = t).card := by
  have hQ0 : 0 < Q := by omega
  have hlow : ∑ a ∈ P.filter (fun a => e a < t), Q ^ e a < Q ^ t := by
    rcases Nat.eq_zero_or_pos t with rfl | ht
    · simp
    · refine lt_of_le_of_lt (Finset.sum_le_card_nsmul _ _ (Q ^ (t - 1)) fun a ha => ?_) ?_
      · exact Nat.pow_le_pow_right hQ0 (by have := (Finset.mem_filter.mp ha).2; omega)
      · rw [nsmul_eq_mul, Nat.cast_id]
        obtain ⟨s, rfl⟩ : ∃ s, t = s + 1 := ⟨t - 1, by omega⟩
        rw [Nat.add_sub_cancel, Nat.pow_succ, Nat.mul_comm]
        exact Nat.mul_lt_mul_of_pos_left (lt_of_le_of_lt (Finset.card_filter_le _ _) hQ) (Nat.pow_pos hQ0)
  have hhigh : ∃ M, ∑ a ∈ P.filter (fun a => ¬ e a ≤ t), Q ^ e a = Q ^ t * (Q * M) := by
    refine ⟨∑ a ∈ P.filter (fun a => ¬ e a ≤ t), Q ^ (e a - t - 1), ?_⟩
    rw [Finset.mul_sum, Finset.mul_sum]
    apply Finset.sum_congr rfl
    intro a ha
    have := (Finset.mem_filter.mp ha).2
    rw [← Nat.pow_succ', ← Nat.pow_add]
    congr 1
    omega
  obtain ⟨M, hM⟩ := hhigh
  have hmid : ∑ a ∈ P.filter (fun a => e a = t), Q ^ e a = Q ^ t * (P.filter fun a => e a = t).card := by
    rw [Finset.sum_congr rfl (g := fun _ => Q ^ t) (fun a ha => by rw [(Finset.mem_filter.mp ha).2]), Finset.sum_const,
      nsmul_eq_mul, Nat.cast_id, Nat.mul_comm]
  have hsum : ∑ a ∈ P, Q ^ e a = ∑ a ∈ P.filter (fun a => e a < t), Q ^ e a +
      Q ^ t * ((P.filter fun a => e a = t).card + Q * M) := by
    rw [Nat.mul_add, ← hM, ← hmid, ← Finset.sum_filter_add_sum_filter_not P (fun a => e a ≤ t), ← Nat.add_assoc]
    congr 1
    rw [← Finset.sum_filter_add_sum_filter_not (P.filter fun a => e a ≤ t) (fun a => e a < t), Finset.filter_filter,
      Finset.filter_filter]
    congr 1
    · apply Finset.sum_congr _ fun _ _ => rfl
      ext a; simp only [Finset.mem_filter]
      constructor
      · rintro ⟨h, _, h2⟩; exact ⟨h, h2⟩
      · rintro ⟨h, h2⟩; exact ⟨h, by omega, h2⟩
    · apply Finset.sum_congr _ fun _ _ => rfl
      ext a; simp only [Finset.mem_filter]
      constructor
      · rintro ⟨h, h1, h2⟩; exact ⟨h, by omega⟩
      · rintro ⟨h, h2⟩; exact ⟨h, by omega, by omega⟩
  have hlt : (P.filter fun a => e a = t).card < Q := lt_of_le_of_lt (Finset.card_filter_le _ _) hQ
  rw [hsum, Nat.add_mul_div_left _ _ (Nat.pow_pos hQ0), Nat.div_eq_of_lt hlow, Nat.zero_add, Nat.add_mul_mod_self_left,
    Nat.mod_eq_of_lt hlt]

theorem nodesAbove_lt (d : Nat) (H : Finset Nat) (hH : ∀ k ∈ H, k < 2 ^ d) : nodesAbove d H < 2 ^ d := by
  induction d generalizing H with
  | zero => simp [nodesAbove]
  | succ d ih =>
    by_cases he : H = ∅
    · rw [he, nodesAbove_empty]; exact Nat.two_pow_pos _
    · have hj : H = joinSets (2 ^ d) (H.filter (· < 2 ^ d)) ((H.filter (2 ^ d ≤ ·)).image (· - 2 ^ d)) := by
        ext k
        simp only [mem_joinSets, Finset.mem_image, Finset.mem_filter]
        constructor
        · intro hk
          by_cases hlt : k < 2 ^ d
          · exact .inl ⟨hk, hlt⟩
          · exact .inr ⟨k - 2 ^ d, ⟨k, ⟨hk, by omega⟩, rfl⟩, by omega⟩
        · rintro (⟨hk, _⟩ | ⟨b, ⟨x, ⟨hx, hge⟩, rfl⟩, rfl⟩)
          · exact hk
          · rwa [Nat.sub_add_cancel hge]
      have hA : ∀ k ∈ H.filter (· < 2 ^ d), k < 2 ^ d := fun k hk => (Finset.mem_filter.mp hk).2
      have hB : ∀ k ∈ (H.filter (2 ^ d ≤ ·)).image (· - 2 ^ d), k < 2 ^ d := fun k hk => by
        obtain ⟨x, hx, rfl⟩ := Finset.mem_image.mp hk
        have h1 := hH x (Finset.mem_filter.mp hx).1
        have h2 := (Finset.mem_filter.mp hx).2
        rw [Nat.pow_succ] at h1
        omega
      have hne : (H.filter (· < 2 ^ d)).Nonempty ∨ ((H.filter (2 ^ d ≤ ·)).image (· - 2 ^ d)).Nonempty := by
        by_contra hcon
        rw [not_or, Finset.not_nonempty_iff_eq_empty, Finset.not_nonempty_iff_eq_empty] at hcon
        rw [hj, hcon.1, hcon.2] at he
        exact he rfl
      rw [hj, nodesAbove_join hA hB hne, Nat.pow_succ]
      have := ih _ hA
      have := ih _ hB
      omega

/-- The digits of `treeGen` count the sets of leaves. -/
theorem seedDist_eq {d T : Nat} (hT : T ≤ 2 ^ d) (W x : Nat) (hx : x < 2 ^ d) :
    ((Finset.range T).powersetCard W |>.filter fun H => nodesAbove d H = x).card = seedDist d T W x := by
  unfold seedDist
  dsimp only
  rw [← treeGen_eq _ _ d T hT]
  have h1 : ∀ H ∈ (Finset.range T).powerset, ((2 ^ (T + 1)) ^ 2 ^ d) ^ H.card * (2 ^ (T + 1)) ^ nodesAbove d H =
      (2 ^ (T + 1)) ^ (2 ^ d * H.card + nodesAbove d H) := by
    intro H _
    rw [← pow_mul, ← pow_add]
  rw [Finset.sum_congr rfl h1, digit_count _ (fun H => 2 ^ d * H.card + nodesAbove d H)]
  · congr 1
    ext H
    simp only [Finset.mem_filter, Finset.mem_powersetCard, Finset.mem_powerset]
    constructor
    · rintro ⟨⟨h1, rfl⟩, rfl⟩; exact ⟨h1, rfl⟩
    · rintro ⟨h1, h2⟩
      have hlt := nodesAbove_lt d H fun k hk => by have := Finset.mem_range.mp (h1 hk); omega
      have e1 := congrArg (· / 2 ^ d) h2
      have e2 := congrArg (· % 2 ^ d) h2
      rw [Nat.mul_add_div (Nat.two_pow_pos _), Nat.mul_add_div (Nat.two_pow_pos _), Nat.div_eq_of_lt hlt,
        Nat.div_eq_of_lt hx] at e1
      rw [Nat.mul_add_mod, Nat.mul_add_mod, Nat.mod_eq_of_lt hlt, Nat.mod_eq_of_lt hx] at e2
      exact ⟨⟨h1, by simpa using e1⟩, e2⟩
  · rw [Finset.card_powerset, Finset.card_range, Nat.pow_succ]
    have := Nat.two_pow_pos T
    omega

end LESS
