import Verif.Proofs.Oracle
import Mathlib.Algebra.Order.BigOperators.Ring.Finset
import Mathlib.Algebra.Order.Field.Rat
import Mathlib.Algebra.BigOperators.Field
import Mathlib.Tactic.Positivity
import Mathlib.Tactic.Linarith
import Mathlib.Tactic.FieldSimp
/-!
# Average over the answers

For a program that asks no question twice, the part of the tables on which its result has a property is the average over
the tree of its answers.
-/
namespace LESS
open Spec Spec.Asks

variable {Pt : Type} {Ans : Pt → Type} {α : Type} [∀ x, Fintype (Ans x)]

/-- The mean of a function. -/
def mean {A : Type} [Fintype A] (f : A → ℚ) : ℚ := (∑ a, f a) / Fintype.card A

section
variable {A B : Type} [Fintype A] [Fintype B]

theorem mean_nonneg {f : A → ℚ} (h : ∀ a, 0 ≤ f a) : 0 ≤ mean f :=
  div_nonneg (Finset.sum_nonneg fun a _ => h a) (Nat.cast_nonneg _)

theorem mean_mono {f f' : A → ℚ} (h : ∀ a, f a ≤ f' a) : mean f ≤ mean f' :=
  div_le_div_of_nonneg_right (Finset.sum_le_sum fun a _ => h a) (Nat.cast_nonneg _)

theorem mean_const_le {b : ℚ} (hb : 0 ≤ b) : mean (fun _ : A => b) ≤ b := by
  unfold mean
  rw [Finset.sum_const, Finset.card_univ, nsmul_eq_mul]
  by_cases h : Fintype.card A = 0
  · rw [h]; simpa using hb
  · rw [mul_comm, mul_div_assoc, div_self (Nat.cast_ne_zero.2 h), mul_one]

theorem mean_le {f : A → ℚ} {b : ℚ} (hb : 0 ≤ b) (h : ∀ a, f a ≤ b) : mean f ≤ b := (mean_mono h).trans (mean_const_le hb)

theorem mean_add (f f' : A → ℚ) : mean (fun a => f a + f' a) = mean f + mean f' := by
  unfold mean
  rw [Finset.sum_add_distrib, add_div]

theorem mean_comp (e : A ≃ A) (f : A → ℚ) : mean (fun a => f (e a)) = mean f := by
  unfold mean
  rw [Equiv.sum_comp e f]

theorem mean_swap (f : A → B → ℚ) : mean (fun a => mean (f a)) = mean (fun b => mean fun a => f a b) := by
  unfold mean
  simp only [Finset.sum_div]
  rw [Finset.sum_comm]
  refine Finset.sum_congr rfl fun b _ => ?_
  exact Finset.sum_congr rfl fun a _ => div_right_comm _ _ _

theorem mean_prod (f : A × B → ℚ) : mean f = mean fun a => mean fun b => f (a, b) := by
  unfold mean
  rw [Fintype.sum_prod_type, Fintype.card_prod, Finset.sum_div, Finset.sum_div]
  refine Finset.sum_congr rfl fun a _ => ?_
  rw [Nat.cast_mul, div_div, mul_comm]

/-- If few arguments are bad, then the mean is hardly larger than the bound for the others. -/
theorem mean_bad {bad : A → Prop} [DecidablePred bad] {f : A → ℚ} {N : Nat} (hN : 0 < N) {b : ℚ} (hb : 0 ≤ b)
    (hbad : N * (Finset.univ.filter bad).card ≤ Fintype.card A) (h1 : ∀ a, f a ≤ 1) (h : ∀ a, ¬ bad a → f a ≤ b) :
    mean f ≤ 1 / N + b := by
  have h2 : mean f ≤ mean fun a => (if bad a then 1 else 0) + b := by
    refine mean_mono fun a => ?_
    split
    · linarith [h1 a]
    · rename_i hn
      linarith [h a hn]
  refine h2.trans ?_
  rw [mean_add]
  refine add_le_add ?_ (mean_const_le hb)
  unfold mean
  rw [Finset.sum_ite, Finset.sum_const_zero, add_zero, Finset.sum_const, nsmul_eq_mul, mul_one]
  have hN' : (0 : ℚ) < N := Nat.cast_pos.2 hN
  by_cases hc : Fintype.card A = 0
  · rw [hc]
    simp
  · rw [div_le_div_iff₀ (Nat.cast_pos.2 (Nat.pos_of_ne_zero hc)) hN', one_mul, mul_comm]
    exact_mod_cast hbad

end

open Classical in
/-- The part of the answers on which the result has the property `E`. -/
noncomputable def avg (E : α → Prop) : Asks Pt Ans α → ℚ
  | .done a => if E a then 1 else 0
  | .ask _ next => mean fun a => avg E (next a)

/-- No question is asked twice, and none of `hist` again. -/
def NoRepeat : List Pt → Asks Pt Ans α → Prop
  | _, .done _ => True
  | hist, .ask x next => x ∉ hist ∧ ∀ a, NoRepeat (x :: hist) (next a)

/-- A possible result. -/
def Outcome : Asks Pt Ans α → α → Prop
  | .done a, b => a = b
  | .ask _ next, b => ∃ a, Outcome (next a) b

theorem avg_nonneg (E : α → Prop) (c : Asks Pt Ans α) : 0 ≤ avg E c := by
  induction c with
  | done a => unfold avg; split <;> norm_num
  | ask x next ih => exact mean_nonneg ih

theorem avg_le_one (E : α → Prop) (c : Asks Pt Ans α) : avg E c ≤ 1 := by
  induction c with
  | done a => unfold avg; split <;> norm_num
  | ask x next ih => exact mean_le zero_le_one ih

omit [∀ x, Fintype (Ans x)] in
/-- Tables that agree on the questions asked give the same result. -/
theorem run_congr {c : Asks Pt Ans α} : ∀ {hist : List Pt} {O O' : ∀ x, Ans x}, NoRepeat hist c → (∀ x, x ∉ hist → O x = O' x) →
    c.run O = c.run O' := by
  induction c with
  | done a => intros; rfl
  | ask x next ih =>
    intro hist O O' h e
    unfold run
    rw [e x h.1]
    exact ih (O' x) (h.2 _) fun y hy => e y fun hm => hy (List.mem_cons_of_mem _ hm)

omit [∀ x, Fintype (Ans x)] in
open Classical in
/-- Every possible result is the result for some table. -/
theorem outcome_run (base : ∀ x, Ans x) {c : Asks Pt Ans α} : ∀ {hist : List Pt} {b : α}, NoRepeat hist c → Outcome c b → ∃ O, c.run O = b := by
  induction c with
  | done a => exact fun _ h => ⟨base, h⟩
  | ask x next ih =>
    intro hist b hn ⟨a, h⟩
    obtain ⟨O, hO⟩ := ih a (hn.2 a) h
    refine ⟨Function.update O x a, ?_⟩
    unfold run
    rw [Function.update_self, ← hO]
    refine run_congr (hn.2 a) fun y hy => Function.update_of_ne ?_ _ _
    rintro rfl
    exact hy List.mem_cons_self

section
variable {X : Finset Pt} {base : ∀ x, Ans x}
open Classical

theorem count_avg (E : α → Prop) (c : Asks Pt Ans α) : ∀ (hist : List Pt) (t₀ : ∀ x : {x // x ∈ X}, Ans x.1), NoRepeat hist c → c.Within X →
    (((agreeing hist t₀).filter fun t => E (c.run (table base t))).card : ℚ) = avg E c * (agreeing hist t₀).card := by
  induction c with
  | done a =>
    intro hist t₀ _ _
    unfold avg run
    split
    · rename_i h; simp [h]
    · rename_i h; simp [h]
  | ask x next ih =>
    intro hist t₀ hn hX
    obtain ⟨ext, c, hmem, hc, hdisj, htotal⟩ := agreeing_split base hist t₀ hX.1 hn.1
    have hone : ∀ a, (((agreeing (x :: hist) (ext a)).filter fun t => E ((Asks.ask x next).run (table base t))).card : ℚ) =
        avg E (next a) * c := by
      intro a
      rw [← hc a, ← ih a (x :: hist) (ext a) (hn.2 a) (hX.2 a)]
      congr 2
      apply Finset.filter_congr
      intro t ht
      have e : table base t x = a := by rw [table_in t hX.1, ((hmem a t).1 ht).2]
      rw [← e]
      rfl
    rw [hdisj, htotal, Nat.cast_sum, Nat.cast_mul]
    simp only [hone]
    rw [← Finset.sum_mul]
    show _ = (∑ a, avg E (next a)) / Fintype.card (Ans x) * _
    have hne : Nonempty (Ans x) := ⟨base x⟩
    have : (Fintype.card (Ans x) : ℚ) ≠ 0 := Nat.cast_ne_zero.2 Fintype.card_ne_zero
    field_simp

theorem card_avg (E : α → Prop) {c : Asks Pt Ans α} (hn : NoRepeat [] c) (hX : c.Within X) :
    (Nat.card {t : ∀ x : {x // x ∈ X}, Ans x.1 // E (c.run (table base t))} : ℚ) = avg E c * Nat.card (∀ x : {x // x ∈ X}, Ans x.1) := by
  have e : ∀ t₀ : ∀ x : {x // x ∈ X}, Ans x.1, agreeing [] t₀ = Finset.univ := by
    intro t₀
    unfold agreeing
    rw [Finset.filter_eq_self]
    intro t _ y hy hm
    cases hm
  have := count_avg (base := base) E c [] (fun x => base x.1) hn hX
  rw [e] at this
  rw [Nat.card_eq_fintype_card, Nat.card_eq_fintype_card, Fintype.card_subtype]
  exact this

end

end LESS
