import Mathlib.SetTheory.Cardinal.Finite
import Mathlib.Data.Finite.Sigma
import Mathlib.Data.Finite.Sum
import Mathlib.Data.Finite.Prod
import Mathlib.Algebra.BigOperators.Fin
import Mathlib.Algebra.Order.BigOperators.Group.Finset
import Mathlib.Tactic.Ring
import Mathlib.Tactic.Linarith
import Verif.Spec.SeedGame
import Verif.Proofs.Tree
import Verif.Proofs.Oracle
/-!
# Seeds expanded from a root and seeds drawn one by one

The tables and seeds of the two games correspond to each other (`swap`), and the games go the same way until somebody asks for
the expansion of a seed not shown.  That is unlikely because such a seed could have been any other (`card_guess`).
-/
namespace LESS
open Spec Spec.Asks

/-! ## Counting -/

section
variable {Ω B : Type} {get : Ω → B} {put : Ω → B → Ω}

/-- A part `B` of `Ω` can be chosen independently of the rest. -/
structure Part (get : Ω → B) (put : Ω → B → Ω) : Prop where
  get_put : ∀ ω b, get (put ω b) = b
  put_get : ∀ ω, put ω (get ω) = ω
  put_put : ∀ ω b b', put (put ω b) b' = put ω b'

theorem card_part (h : Part get put) (P : B → Prop) :
    Nat.card {ω // P (get ω)} * Nat.card B = Nat.card {b // P b} * Nat.card Ω := by
  rw [← Nat.card_prod, ← Nat.card_prod]
  refine Nat.card_congr ⟨fun x => (⟨get x.1.1, x.1.2⟩, put x.1.1 x.2),
    fun y => (⟨put y.2 y.1.1, by rw [h.get_put]; exact y.1.2⟩, get y.2), ?_, ?_⟩
  · rintro ⟨⟨ω, hω⟩, b⟩
    simp [h.get_put, h.put_get, h.put_put]
  · rintro ⟨⟨b, hb⟩, ω⟩
    simp [h.get_put, h.put_get, h.put_put]

theorem card_mem_le {S : Type} (l : List S) : Nat.card {s // s ∈ l} ≤ l.length := by
  have := Nat.card_le_card_of_surjective (fun i : Fin l.length => (⟨l[i], List.getElem_mem _⟩ : {s // s ∈ l})) (by
    rintro ⟨s, hs⟩
    obtain ⟨i, hi, rfl⟩ := List.mem_iff_getElem.1 hs
    exact ⟨⟨i, hi⟩, rfl⟩)
  simpa using this

/-- A part that does not matter for the guesses is rarely guessed. -/
theorem card_guess [Fintype Ω] (h : Part get put) (f : Ω → List B) (hf : ∀ ω b, f (put ω b) = f ω) :
    Nat.card {ω // get ω ∈ f ω} * Nat.card B ≤ ∑ ω, (f ω).length := by
  have hfin : ∀ l : List B, Finite {s // s ∈ l} := fun l =>
    Finite.of_surjective (fun i : Fin l.length => (⟨l[i], List.getElem_mem _⟩ : {s // s ∈ l})) (by
      rintro ⟨s, hs⟩
      obtain ⟨i, hi, rfl⟩ := List.mem_iff_getElem.1 hs
      exact ⟨⟨i, hi⟩, rfl⟩)
  rw [← Nat.card_prod]
  refine le_trans (Nat.card_le_card_of_injective (β := Σ ω, {s // s ∈ f ω})
    (fun x => ⟨put x.1.1 x.2, ⟨get x.1.1, by rw [hf]; exact x.1.2⟩⟩) ?_) ?_
  · rintro ⟨⟨ω, hω⟩, b⟩ ⟨⟨ω', hω'⟩, b'⟩ heq
    simp only [Sigma.mk.injEq] at heq
    obtain ⟨h1, h2⟩ := heq
    have hb : b = b' := by rw [← h.get_put ω b, h1, h.get_put]
    have hg : get ω = get ω' := by
      have : ∀ (a a' : Ω) (x : {s // s ∈ f a}) (x' : {s // s ∈ f a'}), a = a' → HEq x x' → x.1 = x'.1 := by
        rintro a _ x x' rfl hx
        rw [eq_of_heq hx]
      exact this _ _ _ _ h1 h2
    have : ω = ω' := by
      rw [← h.put_get ω, ← h.put_put ω b (get ω), h1, hg, h.put_put, h.put_get]
    subst this
    rw [hb]
  · rw [Nat.card_sigma]
    exact Finset.sum_le_sum fun ω _ => card_mem_le _

theorem card_exists_le [Finite Ω] {ι : Type} [Fintype ι] (P : ι → Ω → Prop) :
    Nat.card {ω // ∃ i, P i ω} ≤ ∑ i, Nat.card {ω // P i ω} := by
  rw [← Nat.card_sigma]
  refine Nat.card_le_card_of_surjective (fun x : Σ i, {ω // P i ω} => ⟨x.2.1, x.1, x.2.2⟩) ?_
  rintro ⟨ω, i, hi⟩
  exact ⟨⟨i, ω, hi⟩, rfl⟩

theorem card_le_add [Finite Ω] {P Q R : Ω → Prop} (h : ∀ ω, P ω → Q ω ∨ R ω) :
    Nat.card {ω // P ω} ≤ Nat.card {ω // Q ω} + Nat.card {ω // R ω} := by
  classical
  rw [← Nat.card_sum]
  refine Nat.card_le_card_of_injective (fun x : {ω // P ω} => if hq : Q x.1 then Sum.inl (⟨x.1, hq⟩ : {ω // Q ω})
    else Sum.inr (⟨x.1, (h x.1 x.2).resolve_left hq⟩ : {ω // R ω})) ?_
  rintro ⟨x, hx⟩ ⟨y, hy⟩ he
  by_cases h1 : Q x <;> by_cases h2 : Q y <;> simp [h1, h2] at he <;> simpa using he

/-- If `Φ` carries the good elements of one game one to one to elements of another with the same outcome, the outcomes differ at most by the others. -/
theorem card_coupled [Finite Ω] {Φ : Ω → Ω} {good P Q : Ω → Prop} (hinj : ∀ ω ω', good ω → good ω' → Φ ω = Φ ω' → ω = ω')
    (hpq : ∀ ω, good ω → (P (Φ ω) ↔ Q ω)) :
    Nat.card {ω // Q ω} ≤ Nat.card {ω // P ω} + Nat.card {ω // ¬ good ω} ∧
      Nat.card {ω // P ω} ≤ Nat.card {ω // Q ω} + Nat.card {ω // ¬ good ω} := by
  classical
  have key : ∀ {P Q : Ω → Prop}, (∀ ω, good ω → Q ω → P (Φ ω)) →
      Nat.card {ω // Q ω} ≤ Nat.card {ω // P ω} + Nat.card {ω // ¬ good ω} := by
    intro P Q hh
    refine le_trans (card_le_add (Q := fun ω => good ω ∧ Q ω) (R := fun ω => ¬ good ω) fun ω hω => ?_) ?_
    · by_cases h : good ω
      · exact Or.inl ⟨h, hω⟩
      · exact Or.inr h
    · refine Nat.add_le_add_right (Nat.card_le_card_of_injective (fun x => ⟨Φ x.1, hh _ x.2.1 x.2.2⟩) ?_) _
      rintro ⟨x, hx⟩ ⟨y, hy⟩ he
      exact Subtype.ext (hinj x y hx.1 hy.1 (congrArg Subtype.val he))
  have hc : ∀ R : Ω → Prop, Nat.card {ω // R ω} + Nat.card {ω // ¬ R ω} = Nat.card Ω := by
    intro R
    rw [← Nat.card_sum]
    exact Nat.card_congr (Equiv.sumCompl R)
  refine ⟨key fun ω h hq => (hpq ω h).2 hq, ?_⟩
  have h1 := key (P := fun ω => ¬ P ω) (Q := fun ω => ¬ Q ω) fun ω h hq hp => hq ((hpq ω h).1 hp)
  have h2 := hc P
  have h3 := hc Q
  omega

end

/-! ## The two games -/

variable {n T L : Nat} {S X α : Type} [Inhabited S] [DecidableEq S]

instance [Finite S] [Finite X] : Finite (Expansions n T S X) :=
  Finite.of_injective (fun t => (t.node, t.round)) fun a b h => by
    cases a; cases b; simp only [Prod.mk.injEq] at h; rw [h.1, h.2]

instance [Finite S] [Finite X] : Finite (SeedDraw n T L S X) :=
  Finite.of_injective (fun t => (t.seed, t.stream)) fun a b h => by
    cases a; cases b; simp only [Prod.mk.injEq] at h; rw [h.1, h.2]

omit [DecidableEq S] in
theorem seedOf_lt (d : SeedDraw n T L S X) (j : Fin n) {v : Nat} (h : v < 2 * L - 1) : d.seedOf j v = d.seed j ⟨v, h⟩ := dif_pos h

omit [Inhabited S] in
theorem nodeWith_some {seeds : Nat → S} {ok : Nat → Bool} {s : S} {v : Nat} (h : nodeWith L seeds ok s = some v) :
    v < L - 1 ∧ ok v = true ∧ seeds v = s := by
  have h1 := List.mem_of_find?_eq_some h
  have h2 := List.find?_some h
  simp only [Bool.and_eq_true, decide_eq_true_eq] at h2
  exact ⟨List.mem_range.1 h1, h2.1, h2.2⟩

omit [Inhabited S] in
theorem nodeWith_none {seeds : Nat → S} {ok : Nat → Bool} {s : S} (h : nodeWith L seeds ok s = none) {v : Nat} (hv : v < L - 1)
    (ho : ok v = true) : seeds v ≠ s := by
  intro hs
  have := List.find?_eq_none.1 h v (List.mem_range.2 hv)
  simp [ho, hs] at this

omit [Inhabited S] in
theorem nodeWith_congr {seeds seeds' : Nat → S} {ok : Nat → Bool} {s : S} (h : ∀ v < L - 1, ok v = true → seeds v = seeds' v) :
    nodeWith L seeds ok s = nodeWith L seeds' ok s := by
  have : ∀ l : List Nat, (∀ v ∈ l, v < L - 1) →
      l.find? (fun v => ok v && decide (seeds v = s)) = l.find? (fun v => ok v && decide (seeds' v = s)) := by
    intro l
    induction l with
    | nil => intro _; rfl
    | cons a l ih =>
      intro hl
      have ha : (ok a && decide (seeds a = s)) = (ok a && decide (seeds' a = s)) := by
        cases ho : ok a with
        | false => rfl
        | true => rw [h a (hl a List.mem_cons_self) ho]
      rw [List.find?_cons, List.find?_cons, ha, ih fun v hv => hl v (List.mem_cons_of_mem _ hv)]
  exact this _ fun v hv => List.mem_range.1 hv

/-- Inner nodes have different seeds. -/
def SeedsApart (d : SeedDraw n T L S X) : Prop := ∀ j, ∀ u < L - 1, ∀ v < L - 1, d.seedOf j u = d.seedOf j v → u = v

theorem nodeWith_apart {d : SeedDraw n T L S X} (h : SeedsApart d) {ok : Nat → Bool} (j : Fin n) {v : Nat} (hv : v < L - 1) (ho : ok v = true) :
    nodeWith L (d.seedOf j) ok (d.seedOf j v) = some v := by
  cases he : nodeWith L (d.seedOf j) ok (d.seedOf j v) with
  | none => exact absurd rfl (nodeWith_none he hv ho)
  | some u =>
    obtain ⟨h1, -, h3⟩ := nodeWith_some he
    rw [h j u h1 v hv h3]

/-- The tables that agree with all drawn seeds and streams; what they held before takes the place of these. -/
def swap (ω : Expansions n T S X × SeedDraw n T L S X) : Expansions n T S X × SeedDraw n T L S X :=
  (⟨fun j s => match nodeWith L (ω.2.seedOf j) (fun _ => true) s with
      | some v => (ω.2.seedOf j (2 * v + 1), ω.2.seedOf j (2 * v + 2))
      | none => ω.1.node j s,
    fun j i s => if ω.2.seedOf j (L - 1 + i) = s then ω.2.stream j i else ω.1.round j i s⟩,
   ⟨fun j v => if v.val = 0 then ω.2.seed j v
      else if v.val % 2 = 1 then (ω.1.node j (ω.2.seedOf j ((v.val - 1) / 2))).1 else (ω.1.node j (ω.2.seedOf j ((v.val - 1) / 2))).2,
    fun j i => ω.1.round j i (ω.2.seedOf j (L - 1 + i))⟩)

/-- The roots among the drawn seeds. -/
def rootsOf (d : SeedDraw n T L S X) : Fin n → S := fun j => d.seedOf j 0

theorem swap_root (ω : Expansions n T S X × SeedDraw n T L S X) : rootsOf (swap ω).2 = rootsOf ω.2 := by
  funext j
  unfold rootsOf SeedDraw.seedOf swap
  split <;> simp

theorem swap_node {ω : Expansions n T S X × SeedDraw n T L S X} (h : SeedsApart ω.2) (j : Fin n) {v : Nat} (hv : v < L - 1) :
    (swap ω).1.node j (ω.2.seedOf j v) = (ω.2.seedOf j (2 * v + 1), ω.2.seedOf j (2 * v + 2)) := by
  show (match nodeWith L (ω.2.seedOf j) (fun _ => true) (ω.2.seedOf j v) with | some v => _ | none => _) = _
  rw [nodeWith_apart h j hv rfl]

/-- In the corresponding tables the tree expanded from the root has the drawn seeds. -/
theorem swap_seedAt {ω : Expansions n T S X × SeedDraw n T L S X} (h : SeedsApart ω.2) (j : Fin n) :
    ∀ v < 2 * L - 1, seedAt ((swap ω).1.node j) (ω.2.seedOf j 0) v = ω.2.seedOf j v := by
  intro v
  induction v using Nat.strongRecOn with
  | ind v ih =>
    intro hv
    cases v with
    | zero => unfold seedAt; rfl
    | succ i =>
      unfold seedAt
      rw [ih (i / 2) (by omega) (by omega), swap_node h j (by omega)]
      split
      · rw [show 2 * (i / 2) + 1 = i + 1 by omega]
      · rw [show 2 * (i / 2) + 2 = i + 1 by omega]

theorem swap_inj {ω ω' : Expansions n T S X × SeedDraw n T L S X} (hT : T ≤ L) (h : SeedsApart ω.2) (h' : SeedsApart ω'.2) (he : swap ω = swap ω') : ω = ω' := by
  have hroot : ∀ j, ω.2.seedOf j 0 = ω'.2.seedOf j 0 := fun j => by
    have := congrFun (congrArg (fun z => rootsOf z.2) he) j
    simp only [swap_root] at this
    exact this
  have hseed : ∀ j, ∀ v < 2 * L - 1, ω.2.seedOf j v = ω'.2.seedOf j v := by
    intro j v hv
    rw [← swap_seedAt h j v hv, ← swap_seedAt h' j v hv, he, hroot]
  have hs : ω.2.seed = ω'.2.seed := by
    funext j v
    have := hseed j v.1 v.2
    rwa [seedOf_lt _ _ v.2, seedOf_lt _ _ v.2] at this
  have hstream : ω.2.stream = ω'.2.stream := by
    funext j i
    have h1 : (swap ω).1.round j i (ω.2.seedOf j (L - 1 + i)) = ω.2.stream j i := if_pos rfl
    have h2 : (swap ω').1.round j i (ω'.2.seedOf j (L - 1 + i)) = ω'.2.stream j i := if_pos rfl
    rw [← h1, ← h2, he, hseed j _ (by have := i.2; omega)]
  have hnode : ω.1.node = ω'.1.node := by
    funext j s
    by_cases hx : ∃ v < L - 1, ω.2.seedOf j v = s
    · obtain ⟨v, hv, rfl⟩ := hx
      have e : ∀ ω : Expansions n T S X × SeedDraw n T L S X, ((swap ω).2.seedOf j (2 * v + 1), (swap ω).2.seedOf j (2 * v + 2)) =
          ω.1.node j (ω.2.seedOf j v) := by
        intro ω
        rw [seedOf_lt _ _ (show 2 * v + 1 < 2 * L - 1 by omega), seedOf_lt _ _ (show 2 * v + 2 < 2 * L - 1 by omega)]
        unfold swap
        simp only [Nat.add_eq_zero_iff, OfNat.ofNat_ne_zero, and_false, if_false, show (2 * v + 1) % 2 = 1 by omega, show (2 * v + 2) % 2 = 0 by omega,
          show (2 * v + 1 - 1) / 2 = v by omega, show (2 * v + 2 - 1) / 2 = v by omega, if_true, one_ne_zero]
        simp
      have e1 := e ω
      have e2 := e ω'
      rw [he, e2] at e1
      rw [← e1, hseed j v (by omega)]
    · push Not at hx
      have e : ∀ ω : Expansions n T S X × SeedDraw n T L S X, (∀ v < L - 1, ω.2.seedOf j v ≠ s) → (swap ω).1.node j s = ω.1.node j s := by
        intro ω hω
        show (match nodeWith L (ω.2.seedOf j) (fun _ => true) s with | some v => _ | none => _) = _
        cases hn : nodeWith L (ω.2.seedOf j) (fun _ => true) s with
        | none => rfl
        | some u => exact absurd (nodeWith_some hn).2.2 (hω u (nodeWith_some hn).1)
      rw [← e ω hx, ← e ω' fun v hv => by rw [← hseed j v (by omega)]; exact hx v hv, he]
  have hround : ω.1.round = ω'.1.round := by
    funext j i s
    have hl := hseed j (L - 1 + i) (by have := i.2; omega)
    by_cases hx : ω.2.seedOf j (L - 1 + i) = s
    · subst hx
      have e1 : (swap ω).2.stream j i = ω.1.round j i (ω.2.seedOf j (L - 1 + i)) := rfl
      have e2 : (swap ω').2.stream j i = ω'.1.round j i (ω'.2.seedOf j (L - 1 + i)) := rfl
      rw [← e1, hl, ← e2, he]
    · have e1 : (swap ω).1.round j i s = ω.1.round j i s := if_neg hx
      have e2 : (swap ω').1.round j i s = ω'.1.round j i s := if_neg (by rw [← hl]; exact hx)
      rw [← e1, ← e2, he]
  obtain ⟨⟨a, b⟩, ⟨c, d⟩⟩ := ω
  obtain ⟨⟨a', b'⟩, ⟨c', d'⟩⟩ := ω'
  simp only at hs hstream hnode hround
  rw [hs, hstream, hnode, hround]

/-! ## Guessed seeds -/

omit [Inhabited S] [DecidableEq S] in
theorem shown_mono {ch : Hidings n} {j : Fin n} {v : Nat} (h : shown L T ch j v = true) (q : SeedQuestion n T S) :
    shown L T (hideRounds ch q) j v = true := by
  cases q with
  | reveal j' hidden =>
    show shown L T (if (ch j').isNone then Function.update ch j' (some hidden) else ch) j v = true
    split
    · rename_i hn
      by_cases hj : j = j'
      · subst hj
        unfold shown at h
        rw [Option.isNone_iff_eq_none.1 hn] at h
        cases h
      · unfold shown at h ⊢
        rwa [Function.update_of_ne hj]
    · exact h
  | node => exact h
  | round => exact h
  | streams => exact h

omit [Inhabited S] [DecidableEq S] in
theorem shown_child {ch : Hidings n} {j : Fin n} {u v : Nat} (h : shown L T ch j u = true) (hv : 0 < v) (hu : (v - 1) / 2 = u) :
    shown L T ch j v = true := by
  unfold shown at h ⊢
  cases hc : ch j with
  | none => rw [hc] at h; cases h
  | some hidden =>
    rw [hc] at h
    simp only [Bool.not_eq_true', decide_eq_false_iff_not] at h ⊢
    exact fun hh => h (hu ▸ hh.parent hv)

/-- The seeds a question guesses for node `v`. -/
def guesses (L : Nat) (j : Fin n) (v : Nat) : SeedQuestion n T S → List S
  | .node j' s => if j' = j ∧ v < L - 1 then [s] else []
  | .round j' i s => if j' = j ∧ v = L - 1 + i then [s] else []
  | .streams _ => []
  | .reveal _ _ => []

/-- The seeds guessed for node `v` before it is shown. -/
def early (t : Expansions n T S X) (d : SeedDraw n T L S X) (j : Fin n) (v : Nat) :
    Hidings n → Asks (SeedQuestion n T S) (SeedAnswer n T S X) α → List S
  | _, .done _ => []
  | ch, .ask q next => if shown L T ch j v = true then []
    else guesses L j v q ++ early t d j v (hideRounds ch q) (next (drawnAnswer L t d ch q))

theorem early_shown {t : Expansions n T S X} {d : SeedDraw n T L S X} {j : Fin n} {v : Nat} {ch : Hidings n} (h : shown L T ch j v = true)
    (c : Asks (SeedQuestion n T S) (SeedAnswer n T S X) α) : early t d j v ch c = [] := by
  cases c with
  | done a => rfl
  | ask q next => exact if_pos h

theorem treeAnswer_swap {t : Expansions n T S X} {d : SeedDraw n T L S X} (hT : T ≤ L) (ha : SeedsApart d) {ch : Hidings n} {q : SeedQuestion n T S}
    (hq : ∀ j, ∀ v < 2 * L - 1, shown L T ch j v = false → d.seedOf j v ∉ guesses L j v q) :
    treeAnswer L (swap (t, d)).1 (rootsOf d) ch q = drawnAnswer L t d ch q := by
  cases q with
  | node j s =>
    show (match nodeWith L (d.seedOf j) (fun _ => true) s with
        | some v => (d.seedOf j (2 * v + 1), d.seedOf j (2 * v + 2)) | none => t.node j s) =
      (match nodeWith L (d.seedOf j) (shown L T ch j) s with
        | some v => (d.seedOf j (2 * v + 1), d.seedOf j (2 * v + 2)) | none => t.node j s)
    cases hn : nodeWith L (d.seedOf j) (fun _ => true) s with
    | none =>
      cases hn' : nodeWith L (d.seedOf j) (shown L T ch j) s with
      | none => rfl
      | some u => exact absurd (nodeWith_some hn').2.2 (nodeWith_none hn (nodeWith_some hn').1 rfl)
    | some v =>
      obtain ⟨h1, -, rfl⟩ := nodeWith_some hn
      cases hs : shown L T ch j v with
      | true => rw [nodeWith_apart ha j h1 hs]
      | false =>
        refine absurd ?_ (hq j v (by omega) hs)
        show _ ∈ (if j = j ∧ v < L - 1 then [d.seedOf j v] else [])
        rw [if_pos ⟨rfl, h1⟩]
        exact List.mem_singleton_self _
  | round j i s =>
    show (if d.seedOf j (L - 1 + i) = s then d.stream j i else t.round j i s) =
      (if shown L T ch j (L - 1 + i) = true ∧ d.seedOf j (L - 1 + i) = s then d.stream j i else t.round j i s)
    by_cases hs : d.seedOf j (L - 1 + i) = s
    · cases hh : shown L T ch j (L - 1 + i) with
      | true => simp [hs]
      | false =>
        refine absurd ?_ (hq j (L - 1 + i) (by have := i.2; omega) hh)
        show _ ∈ (if j = j ∧ L - 1 + i.val = L - 1 + i.val then [s] else [])
        rw [if_pos ⟨rfl, rfl⟩, hs]
        exact List.mem_singleton_self _
    · simp [hs]
  | streams j =>
    refine funext fun i => ?_
    show (swap (t, d)).1.round j i (seedAt ((swap (t, d)).1.node j) (d.seedOf j 0) (L - 1 + i)) = d.stream j i
    rw [swap_seedAt (ω := (t, d)) ha j _ (by have := i.2; omega)]
    exact if_pos rfl
  | reveal j hidden =>
    show (if (ch j).isNone then (publishedNodes L T hidden).map (seedAt ((swap (t, d)).1.node j) (d.seedOf j 0)) else []) =
      (if (ch j).isNone then (publishedNodes L T hidden).map (d.seedOf j) else [])
    congr 1
    refine List.map_congr_left fun v hv => swap_seedAt (ω := (t, d)) ha j _ ?_
    exact List.mem_range.1 (List.mem_filter.1 hv).1

/-- The two games go the same way as long as no seed is guessed that is not shown. -/
theorem treePlay_swap {t : Expansions n T S X} {d : SeedDraw n T L S X} (hT : T ≤ L) (ha : SeedsApart d) (c : Asks (SeedQuestion n T S) (SeedAnswer n T S X) α) :
    ∀ {ch : Hidings n}, (∀ j, ∀ v < 2 * L - 1, d.seedOf j v ∉ early t d j v ch c) →
      treePlay L (swap (t, d)).1 (rootsOf d) ch c = drawnPlay L t d ch c := by
  induction c with
  | done a => intro ch _; rfl
  | ask q next ih =>
    intro ch h
    have hq : ∀ j, ∀ v < 2 * L - 1, shown L T ch j v = false → d.seedOf j v ∉ guesses L j v q := by
      intro j v hv hs hm
      refine h j v hv ?_
      unfold early
      rw [if_neg (by rw [hs]; decide)]
      exact List.mem_append_left _ hm
    have hans : treeAnswer L (swap (t, d)).1 (rootsOf d) ch q = drawnAnswer L t d ch q := treeAnswer_swap hT ha hq
    show treePlay L _ _ (hideRounds ch q) (next _) = drawnPlay L t d (hideRounds ch q) (next _)
    rw [hans]
    refine ih _ fun j v hv hm => ?_
    cases hs : shown L T ch j v with
    | true =>
      rw [early_shown (shown_mono hs q)] at hm
      cases hm
    | false =>
      refine h j v hv ?_
      unfold early
      rw [if_neg (by rw [hs]; decide)]
      exact List.mem_append_right _ hm

/-- Another seed for node `v`. -/
def _root_.LESS.Spec.SeedDraw.setSeed (d : SeedDraw n T L S X) (j : Fin n) (v : Fin (2 * L - 1)) (s : S) : SeedDraw n T L S X :=
  ⟨fun j' v' => if j' = j ∧ v' = v then s else d.seed j' v', d.stream⟩

omit [DecidableEq S] in
theorem seedOf_setSeed (d : SeedDraw n T L S X) (j : Fin n) (v : Fin (2 * L - 1)) (s : S) (j' : Fin n) (v' : Nat) :
    (d.setSeed j v s).seedOf j' v' = if j' = j ∧ v' = v.val then s else d.seedOf j' v' := by
  unfold SeedDraw.seedOf SeedDraw.setSeed
  by_cases h : v' < 2 * L - 1
  · simp only [h, dif_pos, Fin.ext_iff]
  · have : v' ≠ v.val := fun e => h (e ▸ v.2)
    simp [h, this]

theorem drawnAnswer_setSeed (t : Expansions n T S X) (d : SeedDraw n T L S X) (j : Fin n) (v : Fin (2 * L - 1)) (s : S) (ch : Hidings n)
    (q : SeedQuestion n T S) (h : shown L T (hideRounds ch q) j v = false) : drawnAnswer L t (d.setSeed j v s) ch q = drawnAnswer L t d ch q := by
  have hch : shown L T ch j v = false := by
    cases hs : shown L T ch j v with
    | false => rfl
    | true => rw [shown_mono hs q] at h; cases h
  have hne : ∀ j' u, shown L T ch j' u = true → (d.setSeed j v s).seedOf j' u = d.seedOf j' u := by
    intro j' u hu
    rw [seedOf_setSeed, if_neg]
    rintro ⟨rfl, rfl⟩
    rw [hu] at hch
    cases hch
  cases q with
  | node j' s' =>
    show (match nodeWith L ((d.setSeed j v s).seedOf j') (shown L T ch j') s' with
        | some v' => ((d.setSeed j v s).seedOf j' (2 * v' + 1), (d.setSeed j v s).seedOf j' (2 * v' + 2)) | none => t.node j' s') =
      (match nodeWith L (d.seedOf j') (shown L T ch j') s' with
        | some v' => (d.seedOf j' (2 * v' + 1), d.seedOf j' (2 * v' + 2)) | none => t.node j' s')
    rw [nodeWith_congr fun u _ hu => hne j' u hu]
    cases hn : nodeWith L (d.seedOf j') (shown L T ch j') s' with
    | none => rfl
    | some u =>
      have hu := (nodeWith_some hn).2.1
      show (_, _) = (_, _)
      rw [hne j' (2 * u + 1) (shown_child hu (by omega) (by omega)), hne j' (2 * u + 2) (shown_child hu (by omega) (by omega))]
  | round j' i s' =>
    show (if shown L T ch j' (L - 1 + i) = true ∧ (d.setSeed j v s).seedOf j' (L - 1 + i) = s' then d.stream j' i else t.round j' i s') =
      (if shown L T ch j' (L - 1 + i) = true ∧ d.seedOf j' (L - 1 + i) = s' then d.stream j' i else t.round j' i s')
    by_cases hs : shown L T ch j' (L - 1 + i) = true
    · rw [hne j' _ hs]
    · simp [hs]
  | streams j' => rfl
  | reveal j' hidden =>
    show (if (ch j').isNone then (publishedNodes L T hidden).map ((d.setSeed j v s).seedOf j') else []) =
      (if (ch j').isNone then (publishedNodes L T hidden).map (d.seedOf j') else [])
    by_cases hn : (ch j').isNone = true
    · rw [if_pos hn, if_pos hn]
      refine List.map_congr_left fun u hu => ?_
      rw [seedOf_setSeed, if_neg]
      rintro ⟨rfl, rfl⟩
      have hp : Published L T hidden v.val := of_decide_eq_true (List.mem_filter.1 hu).2
      have h : shown L T (if (ch j').isNone then Function.update ch j' (some hidden) else ch) j' v.val = false := h
      rw [if_pos hn] at h
      unfold shown at h
      rw [Function.update_self] at h
      simp only [Bool.not_eq_false', decide_eq_true_eq] at h
      exact hp.2.2.1 h
    · rw [if_neg hn, if_neg hn]

/-- The guesses for a node before it is shown do not depend on its seed. -/
theorem early_setSeed (t : Expansions n T S X) (d : SeedDraw n T L S X) (j : Fin n) (v : Fin (2 * L - 1)) (s : S)
    (c : Asks (SeedQuestion n T S) (SeedAnswer n T S X) α) : ∀ ch : Hidings n, early t (d.setSeed j v s) j v ch c = early t d j v ch c := by
  induction c with
  | done a => intro ch; rfl
  | ask q next ih =>
    intro ch
    unfold early
    by_cases hs : shown L T ch j v = true
    · rw [if_pos hs, if_pos hs]
    · rw [if_neg hs, if_neg hs]
      congr 1
      cases hs' : shown L T (hideRounds ch q) j v with
      | true => rw [early_shown hs', early_shown hs']
      | false => rw [drawnAnswer_setSeed t d j v s ch q hs', ih]

omit [Inhabited S] [DecidableEq S] in
theorem sum_guesses_le (hL : 2 ≤ L) (q : SeedQuestion n T S) : ∑ x : Fin n × Fin (2 * L - 1), (guesses L x.1 x.2 q).length ≤ L - 1 := by
  have key : ∀ (j : Fin n) (m : Nat) (f : Nat → Prop) [DecidablePred f], (∀ v, f v → v < m) →
      ∑ x : Fin n × Fin (2 * L - 1), (if j = x.1 ∧ f x.2 then 1 else 0) ≤ m := by
    intro j m f _ hf
    rw [Finset.sum_boole]
    simp only [Nat.cast_id]
    refine le_trans (Finset.card_le_card_of_injOn (fun x => x.2.val) (t := Finset.range m) ?_ ?_) (Finset.card_range m).le
    · intro x hx
      simp only [Finset.coe_filter, Finset.mem_univ, true_and, Set.mem_ofPred_eq] at hx
      simpa using hf _ hx.2
    · intro x hx y hy hxy
      simp only [Finset.coe_filter, Finset.mem_univ, true_and, Set.mem_ofPred_eq] at hx hy
      exact Prod.ext (hx.1.symm.trans hy.1) (Fin.ext hxy)
  cases q with
  | node j s =>
    refine le_trans (Finset.sum_le_sum fun x _ => ?_) (key j (L - 1) (fun v => v < L - 1) fun v h => h)
    show (if j = x.1 ∧ x.2.val < L - 1 then [s] else []).length ≤ _
    split <;> simp
  | round j i s =>
    have : ∑ x : Fin n × Fin (2 * L - 1), (if j = x.1 ∧ x.2.val = L - 1 + i.val then 1 else 0) ≤ 1 := by
      rw [Finset.sum_boole]
      simp only [Nat.cast_id]
      refine Finset.card_le_one.2 fun x hx y hy => ?_
      simp only [Finset.mem_filter, Finset.mem_univ, true_and] at hx hy
      exact Prod.ext (hx.1.symm.trans hy.1) (Fin.ext (hx.2.trans hy.2.symm))
    refine le_trans (Finset.sum_le_sum fun x _ => ?_) (this.trans (by omega))
    show (if j = x.1 ∧ x.2.val = L - 1 + i.val then [s] else []).length ≤ _
    split <;> simp
  | streams j => simp [guesses]
  | reveal j hidden => simp [guesses]

theorem sum_early_le (hL : 2 ≤ L) (t : Expansions n T S X) (d : SeedDraw n T L S X) (c : Asks (SeedQuestion n T S) (SeedAnswer n T S X) α) :
    ∀ {q : Nat} (ch : Hidings n), c.AtMost q → ∑ x : Fin n × Fin (2 * L - 1), (early t d x.1 x.2 ch c).length ≤ q * (L - 1) := by
  induction c with
  | done a => intro q ch _; simp [early]
  | ask x next ih =>
    intro q ch h
    cases q with
    | zero => exact h.elim
    | succ q =>
      have e : (q + 1) * (L - 1) = L - 1 + q * (L - 1) := by ring
      rw [e]
      refine le_trans ?_ (Nat.add_le_add (sum_guesses_le hL x) (ih (drawnAnswer L t d ch x) (hideRounds ch x) (h _)))
      rw [← Finset.sum_add_distrib]
      refine Finset.sum_le_sum fun y _ => ?_
      have he : early t d y.1 y.2 ch (ask x next) = if shown L T ch y.1 y.2 = true then []
          else guesses L y.1 y.2 x ++ early t d y.1 y.2 (hideRounds ch x) (next (drawnAnswer L t d ch x)) := rfl
      rw [he]
      split
      · simp
      · rw [List.length_append]

/-! ## The bound -/

omit [DecidableEq S] in
theorem part_seed (j : Fin n) (v : Fin (2 * L - 1)) :
    Part (Ω := Expansions n T S X × SeedDraw n T L S X) (fun ω => ω.2.seedOf j v) (fun ω s => (ω.1, ω.2.setSeed j v s)) where
  get_put ω s := by
    show (ω.2.setSeed j v s).seedOf j v = s
    rw [seedOf_setSeed, if_pos ⟨rfl, rfl⟩]
  put_get ω := by
    refine Prod.ext rfl ?_
    show (⟨_, _⟩ : SeedDraw n T L S X) = ω.2
    have : (fun j' v' => if j' = j ∧ v' = v then ω.2.seedOf j v else ω.2.seed j' v') = ω.2.seed := by
      funext j' v'
      split
      · rename_i h
        rw [h.1, h.2, seedOf_lt _ _ v.2]
      · rfl
    rw [this]
  put_put ω s s' := by
    refine Prod.ext rfl ?_
    show (⟨_, _⟩ : SeedDraw n T L S X) = ⟨_, _⟩
    congr 1
    funext j' v'
    simp only [SeedDraw.setSeed]
    split <;> rfl

/-- Nothing goes wrong. -/
def Unguessed (c : Asks (SeedQuestion n T S) (SeedAnswer n T S X) α) (ω : Expansions n T S X × SeedDraw n T L S X) : Prop :=
  SeedsApart ω.2 ∧ ∀ j, ∀ v < 2 * L - 1, ω.2.seedOf j v ∉ early ω.1 ω.2 j v (fun _ => none) c

theorem card_guessed_le [Finite S] [Finite X] (hL : 2 ≤ L) {q : Nat} (c : Asks (SeedQuestion n T S) (SeedAnswer n T S X) α) (hc : c.AtMost q) :
    Nat.card {ω : Expansions n T S X × SeedDraw n T L S X // ¬ Unguessed c ω} * Nat.card S ≤
      (L - 1) * (q + n * (L - 1)) * Nat.card (Expansions n T S X × SeedDraw n T L S X) := by
  classical
  let _ : Fintype (Expansions n T S X × SeedDraw n T L S X) := Fintype.ofFinite _
  let P : (Fin n × Fin (L - 1) × Fin (L - 1)) ⊕ (Fin n × Fin (2 * L - 1)) → Expansions n T S X × SeedDraw n T L S X → Prop
    | .inl (j, u, v), ω => ω.2.seedOf j v ∈ (if u = v then [] else [ω.2.seedOf j u])
    | .inr (j, v), ω => ω.2.seedOf j v ∈ early ω.1 ω.2 j v (fun _ => none) c
  have h1 : Nat.card {ω : Expansions n T S X × SeedDraw n T L S X // ¬ Unguessed c ω} ≤ ∑ i, Nat.card {ω // P i ω} := by
    refine le_trans ?_ (card_exists_le P)
    refine Nat.card_le_card_of_injective (fun x => ⟨x.1, ?_⟩) fun a b h => Subtype.ext (congrArg (fun z => z.1) h)
    obtain ⟨ω, hω⟩ := x
    unfold Unguessed at hω
    rw [not_and_or] at hω
    rcases hω with hω | hω
    · unfold SeedsApart at hω
      push Not at hω
      obtain ⟨j, u, hu, v, hv, he, hne⟩ := hω
      refine ⟨.inl (j, ⟨u, hu⟩, ⟨v, hv⟩), ?_⟩
      show ω.2.seedOf j v ∈ (if (⟨u, hu⟩ : Fin (L - 1)) = ⟨v, hv⟩ then [] else [ω.2.seedOf j u])
      rw [if_neg (by simpa using hne), he]
      exact List.mem_singleton_self _
    · push Not at hω
      obtain ⟨j, v, hv, hm⟩ := hω
      exact ⟨.inr (j, ⟨v, hv⟩), hm⟩
  have h2 : ∀ j u v, Nat.card {ω // P (.inl (j, u, v)) ω} * Nat.card S ≤ Nat.card (Expansions n T S X × SeedDraw n T L S X) := by
    intro j u v
    refine le_trans (card_guess (part_seed j ⟨v.val, by have := v.2; omega⟩) (fun ω => if u = v then [] else [ω.2.seedOf j u]) ?_) ?_
    · intro ω s
      split
      · rfl
      · rename_i hne
        rw [seedOf_setSeed, if_neg]
        rintro ⟨-, h⟩
        exact hne (Fin.ext h)
    · refine le_trans (Finset.sum_le_sum (g := fun _ => 1) fun ω _ => ?_) ?_
      · split <;> simp
      · simp
  have h3 : ∑ x : Fin n × Fin (2 * L - 1), Nat.card {ω // P (.inr x) ω} * Nat.card S ≤
      q * (L - 1) * Nat.card (Expansions n T S X × SeedDraw n T L S X) := by
    refine le_trans (Finset.sum_le_sum fun x _ => card_guess (part_seed x.1 x.2) (fun ω => early ω.1 ω.2 x.1 x.2 (fun _ => none) c)
      fun ω s => early_setSeed _ _ _ _ _ c _) ?_
    rw [Finset.sum_comm]
    refine le_trans (Finset.sum_le_sum fun ω _ => sum_early_le hL ω.1 ω.2 c (fun _ => none) hc) ?_
    simp [Nat.mul_comm]
  refine le_trans (Nat.mul_le_mul_right _ h1) ?_
  rw [Fintype.sum_sum_type, Nat.add_mul, Finset.sum_mul, Finset.sum_mul]
  refine le_trans (Nat.add_le_add (Finset.sum_le_sum (g := fun _ => Nat.card (Expansions n T S X × SeedDraw n T L S X)) fun x _ => h2 x.1 x.2.1 x.2.2) h3) (le_of_eq ?_)
  rw [Finset.sum_const, Finset.card_univ, Fintype.card_prod, Fintype.card_prod, Fintype.card_fin, Fintype.card_fin, smul_eq_mul]
  ring

omit [DecidableEq S] in
theorem part_roots (hL : 1 ≤ L) :
    Part (Ω := Expansions n T S X × SeedDraw n T L S X) (fun ω => (ω.1, rootsOf ω.2))
      (fun ω b => (b.1, ⟨fun j v => if v.val = 0 then b.2 j else ω.2.seed j v, ω.2.stream⟩)) where
  get_put ω b := by
    refine Prod.ext rfl (funext fun j => ?_)
    show SeedDraw.seedOf _ j 0 = b.2 j
    rw [seedOf_lt _ _ (show 0 < 2 * L - 1 by omega)]
    simp
  put_get ω := by
    refine Prod.ext rfl ?_
    show (⟨_, _⟩ : SeedDraw n T L S X) = ω.2
    have : (fun j (v : Fin (2 * L - 1)) => if v.val = 0 then rootsOf ω.2 j else ω.2.seed j v) = ω.2.seed := by
      funext j v
      split
      · rename_i h
        unfold rootsOf
        rw [seedOf_lt _ _ (show 0 < 2 * L - 1 by omega)]
        congr 1
        exact Fin.ext h.symm
      · rfl
    rw [this]
  put_put ω b b' := by
    refine Prod.ext rfl ?_
    show (⟨_, _⟩ : SeedDraw n T L S X) = ⟨_, _⟩
    congr 1
    funext j v
    split
    · rfl
    · rename_i h
      exact if_neg h

/-- The chance of an outcome with seeds expanded from a root, and with seeds drawn one by one. -/
theorem tree_vs_drawn [Finite S] [Finite X] [Nonempty X] (hL : 2 ≤ L) (hT : T ≤ L) {q : Nat} (c : Asks (SeedQuestion n T S) (SeedAnswer n T S X) α)
    (hc : c.AtMost q) (win : α → Prop) :
    |(Nat.card {x : Expansions n T S X × (Fin n → S) // win (treePlay L x.1 x.2 (fun _ => none) c)} : ℚ) / Nat.card (Expansions n T S X × (Fin n → S)) -
      Nat.card {x : Expansions n T S X × SeedDraw n T L S X // win (drawnPlay L x.1 x.2 (fun _ => none) c)} /
        Nat.card (Expansions n T S X × SeedDraw n T L S X)| ≤ (L - 1 : Nat) * (q + n * (L - 1 : Nat)) / Nat.card S := by
  have hne : Nonempty (Expansions n T S X) := ⟨⟨fun _ _ => (default, default), fun _ _ _ => Classical.arbitrary X⟩⟩
  have hne' : Nonempty (SeedDraw n T L S X) := ⟨⟨fun _ _ => default, fun _ _ => Classical.arbitrary X⟩⟩
  have hΩ : (0 : ℚ) < Nat.card (Expansions n T S X × SeedDraw n T L S X) := Nat.cast_pos.2 Nat.card_pos
  have hB : (0 : ℚ) < Nat.card (Expansions n T S X × (Fin n → S)) := Nat.cast_pos.2 Nat.card_pos
  have hS : (0 : ℚ) < Nat.card S := Nat.cast_pos.2 Nat.card_pos
  have h1 := card_part (part_roots (n := n) (T := T) (S := S) (X := X) (show 1 ≤ L by omega)) fun b => win (treePlay L b.1 b.2 (fun _ => none) c)
  have h2 := card_coupled (Φ := swap) (good := Unguessed c) (P := fun ω : Expansions n T S X × SeedDraw n T L S X => win (treePlay L ω.1 (rootsOf ω.2) (fun _ => none) c))
    (Q := fun ω => win (drawnPlay L ω.1 ω.2 (fun _ => none) c)) (fun ω ω' h h' he => swap_inj hT h.1 h'.1 he)
    (fun ω h => by
      show win (treePlay L (swap ω).1 (rootsOf (swap ω).2) (fun _ => none) c) ↔ _
      rw [swap_root, treePlay_swap (t := ω.1) (d := ω.2) hT h.1 c h.2])
  have h3 := card_guessed_le (n := n) (T := T) (S := S) (X := X) hL c hc
  generalize hw : Nat.card {x : Expansions n T S X × (Fin n → S) // win (treePlay L x.1 x.2 (fun _ => none) c)} = w at h1 ⊢
  generalize Nat.card {x : Expansions n T S X × SeedDraw n T L S X // win (drawnPlay L x.1 x.2 (fun _ => none) c)} = d at h2 ⊢
  generalize Nat.card {ω : Expansions n T S X × SeedDraw n T L S X // ¬ Unguessed c ω} = b at h2 h3
  generalize Nat.card {ω : Expansions n T S X × SeedDraw n T L S X // win (treePlay L ω.1 (rootsOf ω.2) (fun _ => none) c)} = r at h1 h2
  generalize Nat.card (Expansions n T S X × SeedDraw n T L S X) = Ω at *
  generalize Nat.card (Expansions n T S X × (Fin n → S)) = B at *
  have e : (w : ℚ) / B = r / Ω := by
    rw [div_eq_div_iff hB.ne' hΩ.ne']
    exact_mod_cast h1.symm
  have hb : (b : ℚ) / Ω ≤ (L - 1 : Nat) * (q + n * (L - 1 : Nat)) / Nat.card S := by
    rw [div_le_div_iff₀ hΩ hS]
    exact_mod_cast h3
  refine le_trans ?_ hb
  rw [e, ← sub_div, abs_le]
  have a1 : (d : ℚ) ≤ r + b := by exact_mod_cast h2.1
  have a2 : (r : ℚ) ≤ d + b := by exact_mod_cast h2.2
  constructor
  · rw [← neg_div]
    exact div_le_div_of_nonneg_right (by linarith) hΩ.le
  · exact div_le_div_of_nonneg_right (by linarith) hΩ.le

/-! ## Finding a seed -/

/-- The result is tried as a seed. -/
def tryOut (r : Fin n × Fin T × S) : Asks (SeedQuestion n T S) (SeedAnswer n T S X) Unit :=
  .ask (.round r.1 r.2.1 r.2.2) fun _ => .done ()

/-- If no seed is guessed that is not shown, the result is not such a seed. -/
theorem not_found_swap {t : Expansions n T S X} {d : SeedDraw n T L S X} (hT : T ≤ L) (ha : SeedsApart d)
    (c : Asks (SeedQuestion n T S) (SeedAnswer n T S X) (Fin n × Fin T × S)) :
    ∀ {ch : Hidings n}, (∀ j, ∀ v < 2 * L - 1, d.seedOf j v ∉ early t d j v ch (c.bind tryOut)) →
      ∀ r, treePlay L (swap (t, d)).1 (rootsOf d) ch c = r →
        shown L T (treeEnd L (swap (t, d)).1 (rootsOf d) ch c) r.1 (L - 1 + r.2.1) = false → d.seedOf r.1 (L - 1 + r.2.1) ≠ r.2.2 := by
  induction c with
  | done a =>
    intro ch h r hr hs he
    have hr : a = r := hr
    subst hr
    have hs : shown L T ch a.1 (L - 1 + a.2.1) = false := hs
    refine h a.1 (L - 1 + a.2.1) (by have := a.2.1.2; omega) ?_
    show _ ∈ (if shown L T ch a.1 (L - 1 + a.2.1) = true then []
      else (if a.1 = a.1 ∧ L - 1 + a.2.1.val = L - 1 + a.2.1.val then [a.2.2] else []) ++ _)
    rw [if_neg (by rw [hs]; decide), if_pos ⟨rfl, rfl⟩, he]
    exact List.mem_append_left _ (List.mem_singleton_self _)
  | ask q next ih =>
    intro ch h r hr hs
    have hq : ∀ j, ∀ v < 2 * L - 1, shown L T ch j v = false → d.seedOf j v ∉ guesses L j v q := by
      intro j v hv hs hm
      refine h j v hv ?_
      show _ ∈ (if shown L T ch j v = true then [] else guesses L j v q ++ _)
      rw [if_neg (by rw [hs]; decide)]
      exact List.mem_append_left _ hm
    have hans : treeAnswer L (swap (t, d)).1 (rootsOf d) ch q = drawnAnswer L t d ch q := treeAnswer_swap hT ha hq
    have hr : treePlay L (swap (t, d)).1 (rootsOf d) (hideRounds ch q) (next (treeAnswer L (swap (t, d)).1 (rootsOf d) ch q)) = r := hr
    have hs : shown L T (treeEnd L (swap (t, d)).1 (rootsOf d) (hideRounds ch q) (next (treeAnswer L (swap (t, d)).1 (rootsOf d) ch q)))
      r.1 (L - 1 + r.2.1) = false := hs
    rw [hans] at hr hs
    refine ih _ (fun j v hv hm => ?_) r hr hs
    cases hs : shown L T ch j v with
    | true =>
      rw [early_shown (shown_mono hs q)] at hm
      cases hm
    | false =>
      refine h j v hv ?_
      show _ ∈ (if shown L T ch j v = true then [] else guesses L j v q ++ early t d j v (hideRounds ch q) ((next (drawnAnswer L t d ch q)).bind tryOut))
      rw [if_neg (by rw [hs]; decide)]
      exact List.mem_append_right _ hm

omit [Inhabited S] [DecidableEq S] in
theorem shown_leaf (hT : T ≤ L) {ch : Hidings n} {j : Fin n} {i : Fin T} (h : ∀ hidden, ch j = some hidden → hidden i = true) :
    shown L T ch j (L - 1 + i) = false := by
  unfold shown
  cases hc : ch j with
  | none => rfl
  | some hidden =>
    have := (covers_leaf_iff (hidden := hidden) hT i.val (by have := i.2; omega)).2 ⟨i.2, h hidden hc⟩
    simp [this]

/-- The chance to find the seed of a round that is not shown. -/
theorem card_finds_le [Finite S] [Finite X] [Nonempty X] (hL : 2 ≤ L) (hT : T ≤ L) {q : Nat}
    (c : Asks (SeedQuestion n T S) (SeedAnswer n T S X) (Fin n × Fin T × S)) (hc : c.AtMost q) :
    (Nat.card {x : Expansions n T S X × (Fin n → S) // FindsSeed L x.1 x.2 c} : ℚ) / Nat.card (Expansions n T S X × (Fin n → S)) ≤
      (L - 1 : Nat) * (q + 1 + n * (L - 1 : Nat)) / Nat.card S := by
  have hne : Nonempty (Expansions n T S X) := ⟨⟨fun _ _ => (default, default), fun _ _ _ => Classical.arbitrary X⟩⟩
  have hne' : Nonempty (SeedDraw n T L S X) := ⟨⟨fun _ _ => default, fun _ _ => Classical.arbitrary X⟩⟩
  have hΩ : (0 : ℚ) < Nat.card (Expansions n T S X × SeedDraw n T L S X) := Nat.cast_pos.2 Nat.card_pos
  have hB : (0 : ℚ) < Nat.card (Expansions n T S X × (Fin n → S)) := Nat.cast_pos.2 Nat.card_pos
  have hS : (0 : ℚ) < Nat.card S := Nat.cast_pos.2 Nat.card_pos
  have h1 := card_part (part_roots (n := n) (T := T) (S := S) (X := X) (show 1 ≤ L by omega)) fun b => FindsSeed L b.1 b.2 c
  have h2 := card_coupled (Φ := swap) (good := Unguessed (c.bind tryOut)) (P := fun ω : Expansions n T S X × SeedDraw n T L S X => FindsSeed L ω.1 (rootsOf ω.2) c)
    (Q := fun _ => False) (fun ω ω' h h' he => swap_inj hT h.1 h'.1 he)
    (fun ω h => by
      show FindsSeed L (swap ω).1 (rootsOf (swap ω).2) c ↔ False
      rw [swap_root, iff_false]
      rintro ⟨hs, he⟩
      refine not_found_swap (t := ω.1) (d := ω.2) hT h.1 c h.2 _ rfl (shown_leaf hT hs) ?_
      have hv : ∀ i : Fin T, L - 1 + i.val < 2 * L - 1 := fun i => by have := i.2; omega
      rw [← swap_seedAt (ω := ω) h.1 _ _ (hv _)]
      exact he)
  have h3 := card_guessed_le (n := n) (T := T) (S := S) (X := X) hL (c.bind tryOut) (q := q + 1)
    (atMost_bind hc fun r => by unfold tryOut; exact fun _ => trivial)
  have hz : Nat.card {ω : Expansions n T S X × SeedDraw n T L S X // False} = 0 := Nat.card_eq_zero.2 (.inl ⟨fun x => x.2⟩)
  rw [hz] at h2
  have e : (Nat.card {x : Expansions n T S X × (Fin n → S) // FindsSeed L x.1 x.2 c} : ℚ) / Nat.card (Expansions n T S X × (Fin n → S)) =
      Nat.card {ω : Expansions n T S X × SeedDraw n T L S X // FindsSeed L ω.1 (rootsOf ω.2) c} / Nat.card (Expansions n T S X × SeedDraw n T L S X) := by
    rw [div_eq_div_iff hB.ne' hΩ.ne']
    exact_mod_cast h1.symm
  rw [e, div_le_div_iff₀ hΩ hS]
  refine le_trans (mul_le_mul_of_nonneg_right (c := (Nat.card {ω : Expansions n T S X × SeedDraw n T L S X // ¬ Unguessed (c.bind tryOut) ω} : ℚ)) ?_ hS.le) ?_
  · have := h2.2
    rw [Nat.zero_add] at this
    exact_mod_cast this
  · exact_mod_cast h3

end LESS
