import Mathlib.Data.Fintype.Pi
import Mathlib.Data.Fintype.BigOperators
import Mathlib.Algebra.Order.BigOperators.Group.Finset
import Mathlib.Algebra.BigOperators.Ring.Finset
import Mathlib.Tactic.Ring
import Mathlib.SetTheory.Cardinal.Finite
import Verif.Spec.Oracle
/-!
# How likely it is that an answer falls into a small set

For every question there is a set of answers, which may depend on the questions and answers before; if all these sets
are small then for most tables no answer falls into its set.
-/
namespace LESS
open Spec Spec.Asks

variable {Pt : Type} {Ans : Pt → Type} {α β : Type}

/-- Some answer to a question not asked before falls into its set; `hist` are the questions asked so far. -/
def Hits (bad : List Pt → (∀ x, Ans x) → (x : Pt) → Ans x → Prop) (O : ∀ x, Ans x) : List Pt → Asks Pt Ans α → Prop
  | _, .done _ => False
  | hist, .ask x next => (x ∉ hist ∧ bad hist O x (O x)) ∨ Hits bad O (x :: hist) (next (O x))

theorem run_bind (O : ∀ x, Ans x) (c : Asks Pt Ans α) (f : α → Asks Pt Ans β) : (c.bind f).run O = (f (c.run O)).run O := by
  induction c with
  | done a => rfl
  | ask x next ih => exact ih (O x)

theorem asked_bind (O : ∀ x, Ans x) (c : Asks Pt Ans α) (f : α → Asks Pt Ans β) (hist : List Pt) :
    asked O hist (c.bind f) = asked O (asked O hist c) (f (c.run O)) := by
  induction c generalizing hist with
  | done a => rfl
  | ask x next ih => exact ih (O x) _

theorem asked_mono (O : ∀ x, Ans x) (c : Asks Pt Ans α) (hist : List Pt) {x : Pt} (h : x ∈ hist) : x ∈ asked O hist c := by
  induction c generalizing hist with
  | done a => exact h
  | ask y next ih => exact ih (O y) _ (List.mem_cons_of_mem _ h)

theorem asked_card (O : ∀ x, Ans x) (c : Asks Pt Ans α) (hist : List Pt) : different hist ≤ different (asked O hist c) := by
  classical
  apply Finset.card_le_card
  intro x hx
  rw [List.mem_toFinset] at hx ⊢
  exact asked_mono O c hist hx

theorem different_nil : different ([] : List α) = 0 := rfl

theorem asked_atMost (O : ∀ x, Ans x) (c : Asks Pt Ans α) {q : Nat} (h : c.AtMost q) (hist : List Pt) :
    different (asked O hist c) ≤ different hist + q := by
  induction c generalizing q hist with
  | done a => exact Nat.le_add_right _ _
  | ask x next ih =>
    cases q with
    | zero => exact h.elim
    | succ q =>
      have h1 := ih (O x) (h (O x)) (x :: hist)
      have h2 : different (x :: hist) ≤ different hist + 1 := by
        classical
        unfold different
        rw [List.toFinset_cons]
        exact Finset.card_insert_le _ _
      unfold asked
      omega

theorem questions_atMost (O : ∀ x, Ans x) {c : Asks Pt Ans α} {q : Nat} (h : c.AtMost q) : c.questions O ≤ q := by
  have := asked_atMost O c h []
  rw [different_nil, Nat.zero_add] at this
  exact this

theorem different_le_two {l : List α} {a b : α} (h : ∀ x ∈ l, x = a ∨ x = b) : different l ≤ 2 := by
  classical
  refine (Finset.card_le_card (t := {a, b}) fun x hx => ?_).trans Finset.card_le_two
  rw [Finset.mem_insert, Finset.mem_singleton]
  exact h x (List.mem_toFinset.1 hx)

theorem atMost_bind {c : Asks Pt Ans α} {f : α → Asks Pt Ans β} {q r : Nat} (hc : c.AtMost q) (hf : ∀ a, (f a).AtMost r) :
    (c.bind f).AtMost (q + r) := by
  have hmono : ∀ {c : Asks Pt Ans β} {r s : Nat}, c.AtMost r → r ≤ s → c.AtMost s := by
    intro c
    induction c with
    | done a => intros; unfold Asks.AtMost; trivial
    | ask x next ih =>
      intro r s h hs
      cases r with
      | zero => exact h.elim
      | succ r =>
        cases s with
        | zero => omega
        | succ s => exact fun a => ih a (h a) (by omega)
  induction c generalizing q with
  | done a => exact hmono (hf a) (by omega)
  | ask x next ih =>
    cases q with
    | zero => exact hc.elim
    | succ q =>
      rw [Nat.add_right_comm]
      exact fun a => ih a (hc a)

theorem hits_ask {bad : List Pt → (∀ x, Ans x) → (x : Pt) → Ans x → Prop} {O : ∀ x, Ans x} {hist : List Pt} {x : Pt}
    {next : Ans x → Asks Pt Ans α} : Hits bad O hist (.ask x next) ↔
      (x ∉ hist ∧ bad hist O x (O x)) ∨ Hits bad O (x :: hist) (next (O x)) := Iff.rfl

theorem table_in {X : Finset Pt} {base : ∀ x, Ans x} (t : ∀ x : {x // x ∈ X}, Ans x.1) {x : Pt} (h : x ∈ X) :
    table base t x = t ⟨x, h⟩ := by
  unfold table
  rw [dif_pos h]

section
variable {X : Finset Pt} {base : ∀ x, Ans x} [∀ x, Fintype (Ans x)]
open Classical

/-- The tables that answer the questions `hist` as `t₀` does. -/
noncomputable def agreeing (hist : List Pt) (t₀ : ∀ x : {x // x ∈ X}, Ans x.1) : Finset (∀ x : {x // x ∈ X}, Ans x.1) :=
  Finset.univ.filter fun t => ∀ y, ∀ h : y ∈ X, y ∈ hist → t ⟨y, h⟩ = t₀ ⟨y, h⟩

/-- The tables that agree on `hist` fall into equally large parts, one for each answer to a new question. -/
theorem agreeing_split (base : ∀ x, Ans x) (hist : List Pt) (t₀ : ∀ x : {x // x ∈ X}, Ans x.1) {x : Pt} (hxX : x ∈ X) (hx : x ∉ hist) :
    ∃ (ext : Ans x → (∀ x : {x // x ∈ X}, Ans x.1)) (c : Nat),
      (∀ a t, t ∈ agreeing (x :: hist) (ext a) ↔ t ∈ agreeing hist t₀ ∧ t ⟨x, hxX⟩ = a) ∧
      (∀ a, (agreeing (x :: hist) (ext a)).card = c) ∧
      (∀ P : (∀ x : {x // x ∈ X}, Ans x.1) → Prop, ((agreeing hist t₀).filter P).card = ∑ a, ((agreeing (x :: hist) (ext a)).filter P).card) ∧
      (agreeing hist t₀).card = Fintype.card (Ans x) * c := by
  let ext : Ans x → (∀ x : {x // x ∈ X}, Ans x.1) := fun a => Function.update t₀ ⟨x, hxX⟩ a
  have hext : ∀ a, ext a ⟨x, hxX⟩ = a := fun a => Function.update_self _ _ _
  have hext' : ∀ a y (h : y ∈ X), y ≠ x → ext a ⟨y, h⟩ = t₀ ⟨y, h⟩ := fun a y h hne =>
    Function.update_of_ne (by intro e; exact hne (congrArg Subtype.val e)) _ _
  have hmem : ∀ a t, t ∈ agreeing (x :: hist) (ext a) ↔ t ∈ agreeing hist t₀ ∧ t ⟨x, hxX⟩ = a := by
    intro a t
    unfold agreeing
    simp only [Finset.mem_filter, Finset.mem_univ, true_and]
    constructor
    · intro h
      refine ⟨fun y hy hm => ?_, ?_⟩
      · rw [h y hy (List.mem_cons_of_mem _ hm)]
        exact hext' a y hy (by rintro rfl; exact hx hm)
      · rw [h x hxX List.mem_cons_self, hext]
    · rintro ⟨h, ha⟩ y hy hm
      by_cases hyx : y = x
      · subst hyx; rw [ha, hext]
      · rw [hext' a y hy hyx]
        rcases List.mem_cons.1 hm with h' | hm
        · exact absurd h' hyx
        · exact h y hy hm
  -- all answers are equally frequent
  have hcard : ∀ a b, (agreeing (x :: hist) (ext a)).card = (agreeing (x :: hist) (ext b)).card := by
    have hle : ∀ a b, (agreeing (x :: hist) (ext a)).card ≤ (agreeing (x :: hist) (ext b)).card := by
      intro a b
      refine Finset.card_le_card_of_injOn (fun t => Function.update t ⟨x, hxX⟩ b) ?_ ?_
      · intro t ht
        rw [Finset.mem_coe, hmem] at ht ⊢
        refine ⟨?_, Function.update_self _ _ _⟩
        have h := ht.1
        unfold agreeing at h ⊢
        rw [Finset.mem_filter] at h ⊢
        refine ⟨Finset.mem_univ _, fun y hy hm => ?_⟩
        refine (Function.update_of_ne (fun e => hx ?_) _ _).trans (h.2 y hy hm)
        have e : y = x := congrArg Subtype.val e
        rw [← e]
        exact hm
      · intro t ht t' ht' e
        rw [Finset.mem_coe, hmem] at ht ht'
        funext y
        by_cases hy : y = ⟨x, hxX⟩
        · subst hy; rw [ht.2, ht'.2]
        · have := congrFun e y
          simpa [Function.update_of_ne hy] using this
    exact fun a b => Nat.le_antisymm (hle a b) (hle b a)
  obtain ⟨c, hc⟩ : ∃ c, ∀ a, (agreeing (x :: hist) (ext a)).card = c := ⟨_, fun a => hcard a (base x)⟩
  have hdisj : ∀ (P : (∀ x : {x // x ∈ X}, Ans x.1) → Prop), ((agreeing hist t₀).filter P).card =
      ∑ a, ((agreeing (x :: hist) (ext a)).filter P).card := by
    intro P
    rw [Finset.card_eq_sum_card_fiberwise (f := fun t => t ⟨x, hxX⟩) (t := Finset.univ) (by intro t _; exact Finset.mem_coe.2 (Finset.mem_univ _))]
    apply Finset.sum_congr rfl
    intro a _
    congr 1
    ext t
    simp only [Finset.mem_filter, hmem]
    tauto
  have htotal : (agreeing hist t₀).card = Fintype.card (Ans x) * c := by
    have := hdisj (fun _ => True)
    simp only [Finset.filter_true, hc] at this
    rw [this, Finset.sum_const, Finset.card_univ, nsmul_eq_mul, Nat.cast_id]
  exact ⟨ext, c, hmem, hc, hdisj, htotal⟩

theorem hits_count {bad : List Pt → (∀ x, Ans x) → (x : Pt) → Ans x → Prop}
    (hlocal : ∀ hist (O O' : ∀ x, Ans x), (∀ y ∈ hist, O y = O' y) → ∀ x a, bad hist O x a → bad hist O' x a) {N L : Nat}
    (hsmall : ∀ (hist : List Pt) (O : ∀ x, Ans x) x, different hist < L → x ∉ hist →
      N * (Finset.univ.filter fun a => bad hist O x a).card ≤ Fintype.card (Ans x)) (c : Asks Pt Ans α) :
    ∀ (q : Nat) (hist : List Pt) (t₀ : ∀ x : {x // x ∈ X}, Ans x.1), (∀ t ∈ agreeing hist t₀, different (asked (table base t) hist c) ≤ different hist + q) →
      c.Within X → (∀ y ∈ hist, y ∈ X) → different hist + q ≤ L →
      N * ((agreeing hist t₀).filter fun t => Hits bad (table base t) hist c).card ≤ q * (agreeing hist t₀).card := by
  induction c with
  | done a =>
    intro q hist t₀ _ _ _ _
    have : ((agreeing hist t₀).filter fun t => Hits bad (table base t) hist (.done a)) = ∅ := Finset.filter_eq_empty_iff.2 fun _ _ h => h
    rw [this, Finset.card_empty, Nat.mul_zero]
    exact Nat.zero_le _
  | ask x next ih =>
    intro q hist t₀ hq hX hh hL
    obtain ⟨hxX, hX⟩ := hX
    have hh' : ∀ y ∈ x :: hist, y ∈ X := by
      intro y hy
      rcases List.mem_cons.1 hy with rfl | hy
      · exact hxX
      · exact hh y hy
    have hself : t₀ ∈ agreeing hist t₀ := Finset.mem_filter.2 ⟨Finset.mem_univ _, fun _ _ _ => rfl⟩
    by_cases hx : x ∈ hist
    · -- asked before
      have e : agreeing (x :: hist) t₀ = agreeing hist t₀ := by
        unfold agreeing
        apply Finset.filter_congr
        intro t _
        constructor
        · intro h y hy hm; exact h y hy (List.mem_cons_of_mem _ hm)
        · intro h y hy hm
          rcases List.mem_cons.1 hm with rfl | hm
          · exact h _ hy hx
          · exact h _ hy hm
      have es : different (x :: hist) = different hist := by
        unfold different
        congr 1
        rw [List.toFinset_cons]
        exact Finset.insert_eq_of_mem (List.mem_toFinset.2 hx)
      have := ih (t₀ ⟨x, hxX⟩) q (x :: hist) t₀ (fun t ht => by
        rw [e] at ht
        have h := hq t ht
        have ht := (Finset.mem_filter.1 ht).2 x hxX hx
        unfold asked at h
        rw [table_in t hxX, ht] at h
        rw [es]
        exact h) (hX _) hh' (by rw [es]; exact hL)
      rw [e] at this
      have e2 : ((agreeing hist t₀).filter fun t => Hits bad (table base t) hist (.ask x next)) =
          ((agreeing hist t₀).filter fun t => Hits bad (table base t) (x :: hist) (next (t₀ ⟨x, hxX⟩))) := by
        apply Finset.filter_congr
        intro t ht
        have ht := (Finset.mem_filter.1 ht).2 x hxX hx
        rw [hits_ask, table_in t hxX, ht]
        constructor
        · rintro (⟨h, -⟩ | h)
          · exact absurd hx h
          · exact h
        · exact .inr
      rw [e2]
      exact this
    · -- a new question
      have es : different (x :: hist) = different hist + 1 := by
        unfold different
        rw [List.toFinset_cons]
        exact Finset.card_insert_of_notMem fun h => hx (List.mem_toFinset.1 h)
      obtain ⟨q, rfl⟩ : ∃ q', q = q' + 1 := by
        have h1 := hq t₀ hself
        have h2 := asked_card (table base t₀) (next (table base t₀ x)) (x :: hist)
        unfold asked at h1
        exact ⟨q - 1, by omega⟩
      obtain ⟨ext, c, hmem, hc, hdisj, htotal⟩ := agreeing_split (base := base) hist t₀ hxX hx
      have hbad : ∀ a t, t ∈ agreeing (x :: hist) (ext a) → bad hist (table base t) x a → bad hist (table base t₀) x a := by
        intro a t ht
        refine hlocal _ _ _ (fun y hy => ?_) x a
        rw [table_in t (hh y hy), table_in t₀ (hh y hy)]
        exact (Finset.mem_filter.1 ((hmem a t).1 ht).1).2 y (hh y hy) hy
      have hone : ∀ a, N * ((agreeing (x :: hist) (ext a)).filter fun t => Hits bad (table base t) hist (.ask x next)).card ≤
          N * (if bad hist (table base t₀) x a then c else 0) + q * c := by
        intro a
        have h1 := ih a q (x :: hist) (ext a) (fun t ht => by
          have h := hq t ((hmem a t).1 ht).1
          unfold asked at h
          rw [table_in t hxX, ((hmem a t).1 ht).2] at h
          omega) (hX a) hh' (by omega)
        rw [hc] at h1
        have h2 : ((agreeing (x :: hist) (ext a)).filter fun t => Hits bad (table base t) hist (.ask x next)).card ≤
            (if bad hist (table base t₀) x a then c else 0) +
              ((agreeing (x :: hist) (ext a)).filter fun t => Hits bad (table base t) (x :: hist) (next a)).card := by
          by_cases hb : bad hist (table base t₀) x a
          · rw [if_pos hb, ← hc a]
            exact (Finset.card_filter_le _ _).trans (Nat.le_add_right _ _)
          · rw [if_neg hb, Nat.zero_add]
            apply Finset.card_le_card
            intro t ht
            rw [Finset.mem_filter] at ht ⊢
            refine ⟨ht.1, ?_⟩
            have hta := ((hmem a t).1 ht.1).2
            have hh := ht.2
            rw [hits_ask, table_in t hxX, hta] at hh
            rcases hh with ⟨-, h⟩ | h
            · exact absurd (hbad a t ht.1 h) hb
            · exact h
        calc _ ≤ N * _ := Nat.mul_le_mul_left _ h2
          _ = _ := Nat.mul_add _ _ _
          _ ≤ _ := Nat.add_le_add_left h1 _
      rw [hdisj, Finset.mul_sum]
      refine (Finset.sum_le_sum fun a _ => hone a).trans ?_
      rw [Finset.sum_add_distrib, ← Finset.mul_sum, Finset.sum_ite, Finset.sum_const, Finset.sum_const_zero, Nat.add_zero,
        Finset.sum_const, Finset.card_univ, nsmul_eq_mul, nsmul_eq_mul, Nat.cast_id, Nat.cast_id, htotal]
      have := hsmall hist (table base t₀) x (by omega) hx
      calc _ ≤ Fintype.card (Ans x) * c + Fintype.card (Ans x) * (q * c) := by
            apply Nat.add_le_add_right
            rw [← Nat.mul_assoc]
            exact Nat.mul_le_mul_right _ this
        _ = _ := by ring

/-- The bound for a whole run. -/
theorem hits_le {bad : List Pt → (∀ x, Ans x) → (x : Pt) → Ans x → Prop}
    (hlocal : ∀ hist (O O' : ∀ x, Ans x), (∀ y ∈ hist, O y = O' y) → ∀ x a, bad hist O x a → bad hist O' x a) {N q : Nat}
    (hsmall : ∀ (hist : List Pt) (O : ∀ x, Ans x) x, different hist < q → x ∉ hist →
      N * (Finset.univ.filter fun a => bad hist O x a).card ≤ Fintype.card (Ans x)) {c : Asks Pt Ans α}
    (hq : ∀ t : (∀ x : {x // x ∈ X}, Ans x.1), c.questions (table base t) ≤ q) (hX : c.Within X) :
    N * Nat.card {t : ∀ x : {x // x ∈ X}, Ans x.1 // Hits bad (table base t) [] c} ≤
      q * Nat.card (∀ x : {x // x ∈ X}, Ans x.1) := by
  have e : ∀ t₀ : ∀ x : {x // x ∈ X}, Ans x.1, agreeing [] t₀ = Finset.univ := by
    intro t₀
    unfold agreeing
    rw [Finset.filter_eq_self]
    intro t _ y hy hm
    cases hm
  have := hits_count (base := base) hlocal hsmall c q [] (fun x => base x.1) (fun t _ => (hq t).trans (Nat.le_add_left _ _))
    hX (by simp) (by rw [different_nil, Nat.zero_add])
  rw [e] at this
  rw [Nat.card_eq_fintype_card, Nat.card_eq_fintype_card, Fintype.card_subtype]
  exact this

end

end LESS
