import Verif.Spec.Rewind
import Verif.Proofs.Average
import Mathlib.Algebra.Order.Chebyshev
import Mathlib.Tactic.Ring
/-!
# The chance of a program that is run twice
-/
namespace LESS
open Spec Spec.Asks

variable {Pt : Type} {Ans : Pt → Type} {α : Type} [∀ x, Fintype (Ans x)]

instance : ∀ x : Pt ⊕ Pt, Fintype (Twice Ans x)
  | .inl x => inferInstanceAs (Fintype (Ans x))
  | .inr x => inferInstanceAs (Fintype (Ans x))

section
variable {A : Type} [Fintype A]

theorem mean_mul_left (b : ℚ) (f : A → ℚ) : mean (fun a => b * f a) = b * mean f := by
  unfold mean
  rw [← Finset.mul_sum, mul_div_assoc]

theorem mean_mul_right (b : ℚ) (f : A → ℚ) : mean (fun a => f a * b) = mean f * b := by
  unfold mean
  rw [← Finset.sum_mul, div_mul_eq_mul_div]

theorem mean_sub (f f' : A → ℚ) : mean (fun a => f a - f' a) = mean f - mean f' := by
  unfold mean
  rw [Finset.sum_sub_distrib, sub_div]

theorem sq_mean_le (f : A → ℚ) : mean f ^ 2 ≤ mean fun a => f a ^ 2 := by
  unfold mean
  by_cases hc : Fintype.card A = 0
  · rw [hc]; simp
  · have hpos : (0 : ℚ) < Fintype.card A := Nat.cast_pos.2 (Nat.pos_of_ne_zero hc)
    rw [div_pow, div_le_div_iff₀ (by positivity) hpos]
    have := sq_sum_le_card_mul_sum_sq (s := (Finset.univ : Finset A)) (f := f)
    rw [Finset.card_univ] at this
    nlinarith

/-- Leaving out a few arguments hardly changes the mean. -/
theorem mean_without {bad : A → Prop} [DecidablePred bad] {f : A → ℚ} {N : Nat} (hN : 0 < N) (hbad : N * (Finset.univ.filter bad).card ≤ Fintype.card A)
    (h1 : ∀ a, f a ≤ 1) : mean f - 1 / N ≤ mean fun a => if bad a then 0 else f a := by
  have h2 : (mean fun a => if bad a then f a else 0) ≤ 1 / N + 0 := by
    refine mean_bad (bad := bad) hN le_rfl hbad (fun a => ?_) (fun a ha => by rw [if_neg ha])
    split
    · exact h1 a
    · exact zero_le_one
  have h3 : mean f = (mean fun a => if bad a then 0 else f a) + mean fun a => if bad a then f a else 0 := by
    rw [← mean_add]
    congr 1
    funext a
    split <;> simp
  linarith

end

/-- The expected value of a function of the result. -/
noncomputable def ev (v : α → ℚ) : Asks Pt Ans α → ℚ
  | .done a => v a
  | .ask _ next => mean fun a => ev v (next a)

open Classical in
theorem avg_eq_ev (E : α → Prop) (c : Asks Pt Ans α) : avg E c = ev (fun a => if E a then 1 else 0) c := by
  induction c with
  | done a => rfl
  | ask x next ih =>
    show mean _ = mean _
    congr 1
    funext a
    exact ih a

theorem ev_add (v w : α → ℚ) (c : Asks Pt Ans α) : ev (fun a => v a + w a) c = ev v c + ev w c := by
  induction c with
  | done a => rfl
  | ask x next ih =>
    show mean _ = mean _ + mean _
    rw [← mean_add]
    congr 1
    funext a
    exact ih a

theorem ev_mul_right (v : α → ℚ) (b : ℚ) (c : Asks Pt Ans α) : ev (fun a => v a * b) c = ev v c * b := by
  induction c with
  | done a => rfl
  | ask x next ih =>
    show mean _ = mean _ * b
    rw [← mean_mul_right]
    congr 1
    funext a
    exact ih a

theorem ev_mono {v w : α → ℚ} {c : Asks Pt Ans α} (h : ∀ a, Outcome c a → v a ≤ w a) : ev v c ≤ ev w c := by
  induction c with
  | done a => exact h a rfl
  | ask x next ih => exact mean_mono fun a => ih a fun b hb => h b ⟨a, hb⟩

theorem ev_nonneg {v : α → ℚ} {c : Asks Pt Ans α} (h : ∀ a, 0 ≤ v a) : 0 ≤ ev v c := by
  induction c with
  | done a => exact h a
  | ask x next ih => exact mean_nonneg fun a => ih a

open Classical in
theorem avg_mono {E E' : α → Prop} {c : Asks Pt Ans α} (h : ∀ a, Outcome c a → E a → E' a) : avg E c ≤ avg E' c := by
  rw [avg_eq_ev, avg_eq_ev]
  refine ev_mono fun a ha => ?_
  by_cases hE : E a
  · rw [if_pos hE, if_pos (h a ha hE)]
  · rw [if_neg hE]
    split <;> norm_num

open Classical in
theorem avg_or_le (E E' : α → Prop) (c : Asks Pt Ans α) : avg (fun a => E a ∨ E' a) c ≤ avg E c + avg E' c := by
  rw [avg_eq_ev, avg_eq_ev, avg_eq_ev, ← ev_add]
  refine ev_mono fun a _ => ?_
  by_cases h : E a <;> by_cases h' : E' a <;> simp [h, h']

/-! ## Two runs -/

section
variable (G : List Pt → Pt → α → Prop) (E : α → α → Prop)

/-- The part of the answers for which the result points to one of the questions asked.  `G hist x r`: the result `r` points to the question `x`, asked after those in `hist`. -/
noncomputable def pointed : List Pt → Asks Pt Ans α → ℚ
  | _, .done _ => 0
  | hist, .ask x next => mean fun a => avg (G hist x) (next a) + pointed (x :: hist) (next a)

open Classical in
/-- What the second run adds, if the first one points to `e`. -/
noncomputable def again (hist : List Pt) (e : Point Pt Ans α) (r : α) : ℚ :=
  if G hist e.question r then mean fun a => avg (E r) (e.next a) else 0

/-- The chance that the second run starts at one of the questions of the program, and the two results fit. -/
noncomputable def both : List Pt → Asks Pt Ans α → ℚ
  | _, .done _ => 0
  | hist, .ask x next => mean fun a => ev (again G E hist ⟨x, next⟩) (next a) + both (x :: hist) (next a)

/-- Two results that point to the same question fit, but for few answers to it. -/
def Splits (N : Nat) : List Pt → Asks Pt Ans α → Prop
  | _, .done _ => True
  | hist, .ask x next => (∀ a, ∃ bad : Ans x → Prop, (∃ _ : DecidablePred bad, N * (Finset.univ.filter bad).card ≤ Fintype.card (Ans x)) ∧
      ∀ a', ¬bad a' → ∀ r r', Outcome (next a) r → Outcome (next a') r' → G hist x r → G hist x r' → E r r') ∧
    ∀ a, Splits N (x :: hist) (next a)

/-- What the points passed so far add. -/
noncomputable def gain : List (List Pt × Point Pt Ans α) → α → ℚ
  | [], _ => 0
  | e :: path, r => again G E e.1 e.2 r + gain path r

end

variable {G : List Pt → Pt → α → Prop} {E : α → α → Prop}

theorem again_nonneg (hist : List Pt) (e : Point Pt Ans α) (r : α) : 0 ≤ again G E hist e r := by
  unfold again
  split
  · exact mean_nonneg fun a => avg_nonneg _ _
  · exact le_rfl

theorem pointed_nonneg (c : Asks Pt Ans α) : ∀ hist, 0 ≤ pointed G hist c := by
  induction c with
  | done a => exact fun _ => le_rfl
  | ask x next ih => exact fun hist => mean_nonneg fun a => add_nonneg (avg_nonneg _ _) (ih a _)

open Classical in
/-- At one question. -/
theorem again_le {N : Nat} (hN : 0 < N) {hist : List Pt} {x : Pt} {next : Ans x → Asks Pt Ans α} (h : Splits G E N hist (.ask x next)) :
    (mean fun a => avg (G hist x) (next a)) * ((mean fun a => avg (G hist x) (next a)) - 1 / N) ≤ mean fun a => ev (again G E hist ⟨x, next⟩) (next a) := by
  rw [← mean_mul_right]
  refine mean_mono fun a => ?_
  obtain ⟨bad, ⟨hd, hb⟩, hfit⟩ := h.1 a
  rw [avg_eq_ev, ← ev_mul_right]
  refine ev_mono fun r hr => ?_
  unfold again
  by_cases hG : G hist x r
  · rw [if_pos hG, if_pos hG, one_mul]
    refine (mean_without hN hb fun a' => avg_le_one _ _).trans (mean_mono fun a' => ?_)
    split
    · exact avg_nonneg _ _
    · rename_i hna
      exact avg_mono fun r' hr' hG' => hfit a' hna r r' hr hr' hG hG'
  · rw [if_neg hG, if_neg hG, zero_mul]

/-- The forking lemma for one program: if it asks at most `q` questions. -/
theorem both_ge {N : Nat} (hN : 0 < N) (c : Asks Pt Ans α) : ∀ (q : Nat) (hist : List Pt), c.AtMost q → Splits G E N hist c →
    pointed G hist c ^ 2 / q - pointed G hist c / N ≤ both G E hist c := by
  induction c with
  | done a =>
    intro q hist _ _
    show (0 : ℚ) ^ 2 / q - 0 / N ≤ 0
    simp
  | ask x next ih =>
    intro q hist hq hs
    cases q with
    | zero => exact hq.elim
    | succ q =>
      have hN' : (0 : ℚ) < N := Nat.cast_pos.2 hN
      obtain ⟨m, hm⟩ : ∃ m, m = mean fun a => avg (G hist x) (next a) := ⟨_, rfl⟩
      obtain ⟨b, hb⟩ : ∃ b, b = mean fun a => pointed G (x :: hist) (next a) := ⟨_, rfl⟩
      have h1 : pointed G hist (.ask x next) = m + b := by
        rw [hm, hb, ← mean_add]
        rfl
      have h2 : both G E hist (.ask x next) = (mean fun a => ev (again G E hist ⟨x, next⟩) (next a)) + mean fun a => both G E (x :: hist) (next a) := by
        rw [← mean_add]
        rfl
      have h3 := again_le hN hs
      rw [← hm] at h3
      have h4 : b ^ 2 / q - b / N ≤ mean fun a => both G E (x :: hist) (next a) := by
        refine le_trans ?_ (mean_mono fun a => ih a q (x :: hist) (hq a) (hs.2 a))
        rw [mean_sub]
        have e1 : (mean fun a => pointed G (x :: hist) (next a) ^ 2 / (q : ℚ)) = (mean fun a => pointed G (x :: hist) (next a) ^ 2) / q := by
          simp only [div_eq_mul_inv]
          exact mean_mul_right _ _
        have e2 : (mean fun a => pointed G (x :: hist) (next a) / (N : ℚ)) = b / N := by
          simp only [div_eq_mul_inv]
          rw [hb]
          exact mean_mul_right _ _
        rw [e1, e2, hb]
        exact sub_le_sub_right (div_le_div_of_nonneg_right (sq_mean_le _) (Nat.cast_nonneg q)) _
      rw [h1, h2]
      refine le_trans ?_ (add_le_add h3 h4)
      have key : (m + b) ^ 2 / ((q + 1 : Nat) : ℚ) ≤ m ^ 2 + b ^ 2 / q := by
        cases q with
        | zero =>
          have hb0 : b = 0 := by
            rw [hb]
            have : (fun a => pointed G (x :: hist) (next a)) = fun _ => 0 := by
              funext a
              have := hq a
              cases e : next a with
              | done r => rfl
              | ask y n => rw [e] at this; exact this.elim
            rw [this]
            unfold mean
            simp
          rw [hb0]
          simp
        | succ q =>
          have hq0 : (0 : ℚ) < ((q + 1 : Nat) : ℚ) := Nat.cast_pos.2 (Nat.succ_pos q)
          have hq1 : (0 : ℚ) < ((q + 1 + 1 : Nat) : ℚ) := Nat.cast_pos.2 (Nat.succ_pos _)
          rw [div_le_iff₀ hq1]
          have : (m ^ 2 + b ^ 2 / ((q + 1 : Nat) : ℚ)) * ((q + 1 + 1 : Nat) : ℚ) - (m + b) ^ 2 = (((q + 1 : Nat) : ℚ) * m - b) ^ 2 / ((q + 1 : Nat) : ℚ) := by
            field_simp
            push_cast
            ring
          have h5 : 0 ≤ (((q + 1 : Nat) : ℚ) * m - b) ^ 2 / ((q + 1 : Nat) : ℚ) := by positivity
          linarith
      have : m * (m - 1 / N) + (b ^ 2 / q - b / N) = (m ^ 2 + b ^ 2 / q) - (m + b) / N := by
        ring
      rw [this]
      linarith

/-! ## The program that runs it twice -/

/-- The two results fit. -/
def Fit (E : α → α → Prop) : Option (α × α) → Prop
  | none => False
  | some (r, r') => E r r'

omit [∀ x, Fintype (Ans x)] in
theorem avg_secondRun [∀ x, Fintype (Ans x)] (r : α) (c : Asks Pt Ans α) : avg (Fit E) (secondRun r c) = avg (E r) c := by
  induction c with
  | done r' => rfl
  | ask x next ih =>
    show mean (A := Ans x) _ = mean _
    congr 1
    funext a
    exact ih a

/-- The points passed, as the program remembers them. -/
def points (path : List (List Pt × Point Pt Ans α)) : List (Point Pt Ans α) := path.map Prod.snd

theorem gain_le [DecidableEq Pt] {names : α → Option Pt} (hG : ∀ hist x r, G hist x r → names r = some x) {r : α} :
    ∀ {path : List (List Pt × Point Pt Ans α)}, (path.map fun e => e.2.question).Nodup →
      gain G E path r ≤ avg (Fit E) (rewind names (points path) (.done r)) := by
  have hnone : ∀ path : List (List Pt × Point Pt Ans α), (∀ e ∈ path, names r ≠ some e.2.question) → gain G E path r = 0 := by
    intro path
    induction path with
    | nil => exact fun _ => rfl
    | cons e path ih =>
      intro h
      show again G E e.1 e.2 r + gain G E path r = 0
      rw [ih fun e' he' => h e' (List.mem_cons_of_mem _ he')]
      unfold again
      rw [if_neg fun hg => h e List.mem_cons_self (hG _ _ _ hg), add_zero]
  intro path
  induction path with
  | nil => exact fun _ => avg_nonneg _ _
  | cons e path ih =>
    intro hnd
    rw [List.map_cons, List.nodup_cons] at hnd
    show again G E e.1 e.2 r + gain G E path r ≤ _
    by_cases hn : names r = some e.2.question
    · rw [hnone path fun e' he' heq => hnd.1 (by rw [hn] at heq; rw [Option.some.inj heq]; exact List.mem_map_of_mem he'), add_zero]
      have hfind : (names r).bind (fun x => (points (e :: path)).find? fun e => decide (e.question = x)) = some e.2 := by
        rw [hn]
        rw [Option.bind_some, points, List.map_cons, List.find?_cons_of_pos (by simp)]
      unfold rewind
      rw [hfind]
      have : again G E e.1 e.2 r ≤ mean fun a => avg (E r) (e.2.next a) := by
        unfold again
        split
        · exact le_rfl
        · exact mean_nonneg fun a => avg_nonneg _ _
      refine this.trans (le_of_eq ?_)
      show _ = mean (A := Ans e.2.question) _
      congr 1
      funext a
      exact (avg_secondRun r _).symm
    · have h0 : again G E e.1 e.2 r = 0 := by
        unfold again
        rw [if_neg fun hg => hn (hG _ _ _ hg)]
      rw [h0, zero_add]
      refine (ih hnd.2).trans (le_of_eq ?_)
      have hfind : (names r).bind (fun x => (points (e :: path)).find? fun e => decide (e.question = x)) =
          (names r).bind (fun x => (points path).find? fun e => decide (e.question = x)) := by
        cases hnr : names r with
        | none => rfl
        | some x =>
          rw [Option.bind_some, Option.bind_some, points, List.map_cons, List.find?_cons_of_neg]
          · rfl
          simp only [decide_eq_true_eq]
          rintro rfl
          exact hn hnr
      unfold rewind
      rw [hfind]

theorem both_le_rewind [DecidableEq Pt] {names : α → Option Pt} (hG : ∀ hist x r, G hist x r → names r = some x) (c : Asks Pt Ans α) :
    ∀ (hist : List Pt) (path : List (List Pt × Point Pt Ans α)), (path.map fun e => e.2.question).Nodup → (∀ e ∈ path, e.2.question ∈ hist) → NoRepeat hist c →
      ev (gain G E path) c + both G E hist c ≤ avg (Fit E) (rewind names (points path) c) := by
  induction c with
  | done r =>
    intro hist path hnd _ _
    show gain G E path r + 0 ≤ _
    rw [add_zero]
    exact gain_le hG hnd
  | ask x next ih =>
    intro hist path hnd hsub hnr
    show (mean fun a => ev (gain G E path) (next a)) + (mean fun a => ev (again G E hist ⟨x, next⟩) (next a) + both G E (x :: hist) (next a)) ≤ mean (A := Ans x) _
    rw [← mean_add]
    refine mean_mono fun a => ?_
    refine le_trans (le_of_eq ?_) (ih a (x :: hist) ((hist, ⟨x, next⟩) :: path) ?_ ?_ (hnr.2 a))
    · have : gain G E ((hist, ⟨x, next⟩) :: path) = fun r => again G E hist ⟨x, next⟩ r + gain G E path r := rfl
      rw [this, ev_add]
      ring
    · rw [List.map_cons, List.nodup_cons]
      refine ⟨fun hm => ?_, hnd⟩
      obtain ⟨e, he, heq⟩ := List.mem_map.1 hm
      have heq' : e.2.question = x := heq
      exact hnr.1 (heq' ▸ hsub e he)
    · intro e he
      rcases List.mem_cons.1 he with rfl | he
      · exact List.mem_cons_self
      · exact List.mem_cons_of_mem _ (hsub e he)

/-- The forking lemma: if the results of a program that asks at most `q` questions point to one of them with chance `a`, and results that
point to the same question fit but for one in `N` answers, then running it twice gives fitting results with chance at least `a²/q - a/N`. -/
theorem rewind_ge [DecidableEq Pt] {names : α → Option Pt} (hG : ∀ hist x r, G hist x r → names r = some x) {N : Nat} (hN : 0 < N) {c : Asks Pt Ans α} {q : Nat}
    (hq : c.AtMost q) (hs : Splits G E N [] c) (hnr : NoRepeat [] c) :
    pointed G [] c ^ 2 / q - pointed G [] c / N ≤ avg (Fit E) (rewind names [] c) := by
  refine (both_ge hN c q [] hq hs).trans ?_
  have h := both_le_rewind (E := E) hG c [] [] List.nodup_nil (by simp) hnr
  have h0 : 0 ≤ ev (gain G E ([] : List (List Pt × Point Pt Ans α))) c := ev_nonneg fun _ => le_rfl
  show _ ≤ avg (Fit E) (rewind names (points []) c)
  linarith

omit [∀ x, Fintype (Ans x)] in
theorem noRepeat_secondRun (r : α) {c : Asks Pt Ans α} : ∀ {hist : List Pt} {hist' : List (Pt ⊕ Pt)}, (∀ x, .inr x ∈ hist' → x ∈ hist) → NoRepeat hist c →
    NoRepeat hist' (secondRun r c) := by
  induction c with
  | done r' => intros; trivial
  | ask x next ih =>
    intro hist hist' hsub h
    refine ⟨fun hm => h.1 (hsub x hm), fun a => ih a (hist := x :: hist) (fun y hy => ?_) (h.2 a)⟩
    rcases List.mem_cons.1 hy with e | hy
    · cases e; exact List.mem_cons_self
    · exact List.mem_cons_of_mem _ (hsub y hy)

omit [∀ x, Fintype (Ans x)] in
theorem noRepeat_rewind [DecidableEq Pt] {names : α → Option Pt} (c : Asks Pt Ans α) : ∀ {hist : List Pt} {path : List (Point Pt Ans α)} {hist' : List (Pt ⊕ Pt)},
    (∀ x, .inr x ∉ hist') → (∀ x, .inl x ∈ hist' → x ∈ hist) → (∀ e ∈ path, ∃ h, e.question ∉ h ∧ ∀ a, NoRepeat (e.question :: h) (e.next a)) →
    NoRepeat hist c → NoRepeat hist' (rewind names path c) := by
  induction c with
  | done r =>
    intro hist path hist' h1 h2 h3 _
    unfold rewind
    split
    · trivial
    · rename_i e he
      obtain ⟨x, -, hx⟩ := Option.bind_eq_some_iff.1 he
      obtain ⟨h, hh1, hh2⟩ := h3 e (List.mem_of_find?_eq_some hx)
      refine ⟨h1 _, fun a => noRepeat_secondRun r (hist := e.question :: h) (fun y hy => ?_) (hh2 a)⟩
      rcases List.mem_cons.1 hy with e' | hy
      · cases e'; exact List.mem_cons_self
      · exact absurd hy (h1 y)
  | ask x next ih =>
    intro hist path hist' h1 h2 h3 hnr
    refine ⟨fun hm => hnr.1 (h2 x hm), fun a => ih a (hist := x :: hist) (fun y hy => ?_) (fun y hy => ?_) (fun e he => ?_) (hnr.2 a)⟩
    · rcases List.mem_cons.1 hy with e | hy
      · cases e
      · exact h1 y hy
    · rcases List.mem_cons.1 hy with e | hy
      · cases e; exact List.mem_cons_self
      · exact List.mem_cons_of_mem _ (h2 y hy)
    · rcases List.mem_cons.1 he with rfl | he
      · exact ⟨hist, hnr.1, hnr.2⟩
      · exact h3 e he

end LESS
