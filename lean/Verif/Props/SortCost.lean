import Verif.Proofs.SortCost
import Verif.Proofs.RrefPack
import Verif.Proofs.Monomial
import Verif.Props.Toy
/-!
# C87: the sort takes bounded time and stack
-/
namespace LESS

variable {p : Params}

namespace Spec

/-- Column `x` comes before column `y`: at the first row in which they differ it has the smaller entry. -/
def Before {r c : Nat} (V : Vector (Vector Nat c) r) (x y : Nat) : Prop :=
  ∃ i, i < r ∧ (∀ k, k < i → g2 V k x = g2 V k y) ∧ g2 V i x < g2 V i y

/-- The first entry of the column other than 0 is 1. -/
def Scaled {r c : Nat} (V : Vector (Vector Nat c) r) (x : Nat) : Prop :=
  ∃ i, i < r ∧ (∀ k, k < i → g2 V k x = 0) ∧ g2 V i x = 1

end Spec

theorem colOf_lt_of_before {r c : Nat} {V : Vector (Vector Nat c) r} {x y : Nat} (h : Spec.Before V x y) :
    colOf V x < colOf V y := by
  obtain ⟨i, hi, h1, h2⟩ := h
  refine lt_of_first_diff i (by simpa using hi) (by simpa using hi) (fun j hj => ?_) ?_
  · rw [getElem_colOf, getElem_colOf, h1 j hj]
  · rw [getElem_colOf, getElem_colOf]; exact h2

/-- C87: counting the work does not change the sort. -/
theorem C87_same (V : NormIS p) : (lexSortColsN V >>= fun r => pure r.1) = lexSortCols V :=
  colLexQuicksortN_fst _ _ _ _

/-- C87: for all columns: the recursive function is called `2 n - 1` times for `n` columns, at most `n` of these
calls are active at a time, at most `(n - 1) (n + 6) / 2` comparisons are made, and every exchange of two columns
comes with two comparisons, as does every partition. -/
theorem C87_bounds (hp : p.WF) (V : NormIS p) (hV : ∀ i j, i < p.K → j < p.N - p.K → g2 V i j < 256) :
    ∃ R cost, lexSortColsN V = .ok (R, cost) ∧ lexSortCols V = .ok R ∧
      cost.calls = 2 * (p.N - p.K) - 1 ∧ cost.depth ≤ p.N - p.K ∧
      cost.compares ≤ (p.N - p.K - 1) * (p.N - p.K + 6) / 2 ∧
      2 * (cost.swaps + (p.N - p.K - 1)) ≤ cost.compares := by
  have h1 := hp.N_lt
  have h2 := hp.K_lt_N
  obtain ⟨⟨R, cost⟩, e, _, b1, b2, b3, b4⟩ := (colLexQuicksortN_wp (p := p) (by omega) (p.N - p.K + 1) V 0 (p.N - p.K - 1)
    (by omega) (by omega) (by omega) hV).exists_ok
  have e' : lexSortColsN V = .ok (R, cost) := e
  refine ⟨R, cost, e', ?_, ?_, ?_, ?_, ?_⟩
  · rw [← C87_same, e']; rfl
  · simp only at b3; omega
  · simp only at b4; omega
  · simp only [Nat.sub_zero] at b1
    rw [show p.N - p.K - 1 + 7 = p.N - p.K + 6 by omega] at b1
    omega
  · simp only at b2; omega

/-- C87: columns that are already in order take `n` nested calls and a quadratic number of comparisons. -/
theorem C87_in_order (hp : p.WF) (V : NormIS p) (hV : ∀ x y, x < y → y < p.N - p.K → Spec.Before V x y) :
    ∃ cost, lexSortColsN V = .ok (V, cost) ∧ cost.depth = p.N - p.K ∧ cost.swaps = 0 ∧
      cost.compares = (p.N - p.K - 1) * (p.N - p.K + 4) / 2 := by
  have h1 := hp.N_lt
  have h2 := hp.K_lt_N
  obtain ⟨⟨R, cost⟩, e, b0, b1, b2, b3⟩ := (colLexQuicksortN_sorted (p := p) (by omega) (p.N - p.K + 1) V 0
    (p.N - p.K - 1) (by omega) (by omega) (by omega)
    (fun x y _ hxy hy => colOf_lt_of_before (hV x y hxy (by omega)))).exists_ok
  simp only at b0 b1 b2 b3
  subst b0
  refine ⟨cost, e, by omega, b2, ?_⟩
  simp only [Nat.sub_zero] at b1
  rw [show p.N - p.K - 1 + 5 = p.N - p.K + 4 by omega] at b1
  omega

/-- Columns in order whose first entry is 1. -/
def orderedCols (p : Params) : NormIS p :=
  Vector.ofFn fun i => Vector.ofFn fun j => if i.val = 0 then 1 else if i.val = 1 then j.val / 127 else j.val % 127

theorem g2_orderedCols (i j : Nat) (hi : i < p.K) (hj : j < p.N - p.K) :
    g2 (orderedCols p) i j = if i = 0 then 1 else if i = 1 then j / 127 else j % 127 :=
  g2_ofFn (fun i j => if i.val = 0 then 1 else if i.val = 1 then j.val / 127 else j.val % 127) i j hi hj

theorem orderedCols_before (hK : 3 ≤ p.K) (x y : Nat) (hxy : x < y) (hy : y < p.N - p.K) :
    Spec.Before (orderedCols p) x y := by
  by_cases e : x / 127 = y / 127
  · refine ⟨2, by omega, fun k hk => ?_, ?_⟩
    · rw [g2_orderedCols k x (by omega) (by omega), g2_orderedCols k y (by omega) hy]
      rcases (show k = 0 ∨ k = 1 by omega) with rfl | rfl
      · rfl
      · simpa using e
    · rw [g2_orderedCols 2 x (by omega) (by omega), g2_orderedCols 2 y (by omega) hy]
      simp only [show ¬ (2 = 0) by decide, show ¬ (2 = 1) by decide, if_false]
      omega
  · refine ⟨1, by omega, fun k hk => ?_, ?_⟩
    · rw [g2_orderedCols k x (by omega) (by omega), g2_orderedCols k y (by omega) hy]
      rw [show k = 0 by omega]; rfl
    · rw [g2_orderedCols 1 x (by omega) (by omega), g2_orderedCols 1 y (by omega) hy]
      simp only [show ¬ (1 = 0) by decide, if_false, if_true]
      omega

/-- C87: the bound on the nested calls is attained by reduced columns scaled like those of a commitment, so no
smaller one holds. -/
theorem C87_attained (hp : p.WF) (hK : 3 ≤ p.K) (hn : p.N - p.K ≤ 16129) :
    ∃ V : NormIS p, Reduced V ∧ (∀ x, x < p.N - p.K → Spec.Scaled V x) ∧
      ∃ cost, lexSortColsN V = .ok (V, cost) ∧ cost.depth = p.N - p.K ∧
        cost.compares = (p.N - p.K - 1) * (p.N - p.K + 4) / 2 := by
  refine ⟨orderedCols p, fun i j hi hj => ?_, fun x hx => ⟨0, by omega, by simp, ?_⟩, ?_⟩
  · rw [g2_orderedCols i j hi hj]
    split
    · omega
    · split <;> omega
  · rw [g2_orderedCols 0 x (by omega) hx]; rfl
  · obtain ⟨cost, e, h1, _, h3⟩ := C87_in_order hp (orderedCols p) (orderedCols_before hK)
    exact ⟨cost, e, h1, h3⟩

/-! ## Cases -/

/-- 126 columns: 126 nested calls and 8125 comparisons. -/
example : ∃ V : NormIS Params.cat1Balanced, ∃ cost, lexSortColsN V = .ok (V, cost) ∧ cost.depth = 126 ∧
    cost.compares = 8125 := by
  obtain ⟨V, _, _, cost, e, h1, h2⟩ := C87_attained cat1Balanced_WF (by decide) (by decide)
  exact ⟨V, cost, e, h1, h2⟩

/-- 126 columns, whatever they are: at most 8250 comparisons. -/
example (V : NormIS Params.cat1Balanced) (hV : ∀ i j, i < 126 → j < 126 → g2 V i j < 256) :
    ∃ R cost, lexSortColsN V = .ok (R, cost) ∧ cost.calls = 251 ∧ cost.depth ≤ 126 ∧ cost.compares ≤ 8250 := by
  obtain ⟨R, cost, e, _, h1, h2, h3, _⟩ := C87_bounds cat1Balanced_WF V hV
  exact ⟨R, cost, e, h1, h2, h3⟩

/-- 274 columns: 274 nested calls. -/
example : ∃ V : NormIS Params.cat5Balanced, ∃ cost, lexSortColsN V = .ok (V, cost) ∧ cost.depth = 274 := by
  obtain ⟨V, _, _, cost, e, h1, _⟩ := C87_attained cat5Balanced_WF (by decide) (by decide)
  exact ⟨V, cost, e, h1⟩

end LESS
