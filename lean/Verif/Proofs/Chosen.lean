import Verif.Spec.Chosen
import Verif.Proofs.Average
import Verif.Props.Forger
/-!
# Attackers who see signatures: from the signer to the simulator, and from the simulator to a guess
-/
namespace LESS
open Spec Spec.Asks

variable {p : Params} {k : Nat} {R V : Type}

noncomputable instance (C : Type) [Fintype C] (x : GameQuestion p) : Fintype (GameAnswer p k C x) :=
  match x with
  | .inl x => inferInstanceAs (Fintype (AnswerTo p k x))
  | .inr _ => inferInstanceAs (Fintype C)

noncomputable instance : Fintype (Digest p) := Fintype.ofEquiv _ (digestEquiv p).symm

noncomputable instance : Fintype (Words 16 k) := Fintype.ofEquiv _ (Words.equiv 16 k).symm

/-! ## Memory -/

theorem recall_mem {α β : Type} [DecidableEq α] {l : List (α × β)} {x : α} {b : β} (h : recall l x = some b) : (x, b) ∈ l := by
  induction l with
  | nil => cases h
  | cons c l ih =>
    obtain ⟨a, b'⟩ := c
    unfold recall at h
    split at h
    · rename_i e
      cases h
      rw [e]
      exact List.mem_cons_self
    · exact List.mem_cons_of_mem _ (ih h)

theorem recall_self {α β : Type} [DecidableEq α] (l : List (α × β)) (x : α) (b : β) : recall ((x, b) :: l) x = some b := by
  unfold recall
  rw [if_pos rfl]

theorem recall_ne {α β : Type} [DecidableEq α] (l : List (α × β)) {x y : α} (b : β) (h : y ≠ x) : recall ((x, b) :: l) y = recall l y := by
  conv_lhs => unfold recall
  rw [if_neg h]

/-- Something known stays known. -/
theorem recall_cons_ne_none {α β : Type} [DecidableEq α] (l : List (α × β)) {x y : α} (b : β) (h : recall l y ≠ none) :
    recall ((x, b) :: l) y ≠ none := by
  by_cases e : y = x
  · subst e; rw [recall_self]; exact Option.some_ne_none _
  · rwa [recall_ne l b e]

/-! ## The game with the signer, with memory -/

/-- The game with the signer in which no question is asked twice. -/
def realMemo (S : Signer p R V) : Nat → List (List UInt8) → Fixed p k → Asks (Inquiry p) (ReplyTo p k V) (Option (Forged p)) →
    Asks (GameQuestion p) (GameAnswer p k (Digest p × R)) (Option (Forged p))
  | _, signed, _, .done o => .done (o.filter fun o => o.msg ∉ signed)
  | n, signed, f, .ask (.inl (.inl x)) next => askDigest f x fun d f => realMemo S n signed f (next d)
  | n, signed, f, .ask (.inl (.inr d)) next => askNumbers f d fun ws f => realMemo S n signed f (next ws)
  | n, signed, f, .ask (.inr m) next => .ask (.inr n) fun (r : Digest p × R) =>
      askDigest f (S.com r.2 ++ m ++ r.1.toList) fun d f => askNumbers f d fun ws f =>
        realMemo S (n + 1) (m :: signed) f (next (⟨r.1, d, S.view (challengeOf p ws) r.2⟩ : Shown p V))

/-- The table agrees with what is fixed. -/
def Agrees {C : Type} (O : ∀ x, GameAnswer p k C x) (f : Fixed p k) : Prop :=
  (∀ x d, recall f.digests x = some d → O (.inl (.inl x)) = d) ∧ ∀ d ws, recall f.numbers d = some ws → O (.inl (.inr d)) = ws

theorem run_askDigest {α C : Type} {O : ∀ x, GameAnswer p k C x} {f : Fixed p k} (h : Agrees O f) (x : List UInt8)
    (next : Digest p → Fixed p k → Asks (GameQuestion p) (GameAnswer p k C) α) :
    ∃ f', Agrees O f' ∧ (askDigest f x next).run O = (next (O (.inl (.inl x))) f').run O := by
  unfold askDigest
  cases e : recall f.digests x with
  | some d => exact ⟨f, h, by rw [h.1 x d e]⟩
  | none =>
    refine ⟨⟨(x, O (.inl (.inl x))) :: f.digests, f.numbers⟩, ⟨fun y d hd => ?_, h.2⟩, rfl⟩
    dsimp only at hd
    by_cases hy : y = x
    · subst hy
      exact Option.some.inj ((recall_self f.digests y (O (.inl (.inl y)) : Digest p)).symm.trans hd)
    · exact h.1 y d ((recall_ne f.digests (O (.inl (.inl x)) : Digest p) hy).symm.trans hd)

theorem run_askNumbers {α C : Type} {O : ∀ x, GameAnswer p k C x} {f : Fixed p k} (h : Agrees O f) (x : Digest p)
    (next : Words 16 k → Fixed p k → Asks (GameQuestion p) (GameAnswer p k C) α) :
    ∃ f', Agrees O f' ∧ (askNumbers f x next).run O = (next (O (.inl (.inr x))) f').run O := by
  unfold askNumbers
  cases e : recall f.numbers x with
  | some d => exact ⟨f, h, by rw [h.2 x d e]⟩
  | none =>
    refine ⟨⟨f.digests, (x, O (.inl (.inr x))) :: f.numbers⟩, ⟨h.1, fun y d hd => ?_⟩, rfl⟩
    dsimp only at hd
    by_cases hy : y = x
    · subst hy
      exact Option.some.inj ((recall_self f.numbers y (O (.inl (.inr y)) : Words 16 k)).symm.trans hd)
    · exact h.2 y d ((recall_ne f.numbers (O (.inl (.inr x)) : Words 16 k) hy).symm.trans hd)

theorem run_realMemo (S : Signer p R V) {O : ∀ x, GameAnswer p k (Digest p × R) x} (F : Asks (Inquiry p) (ReplyTo p k V) (Option (Forged p))) :
    ∀ n signed f, Agrees O f → (realMemo S n signed f F).run O = (realGame S n signed F).run O := by
  induction F with
  | done o => intros; rfl
  | ask x next ih =>
    intro n signed f h
    rcases x with (x | d) | m
    · obtain ⟨f', h', e⟩ := run_askDigest h x fun d f => realMemo S n signed f (next d)
      exact e.trans (ih _ n signed f' h')
    · obtain ⟨f', h', e⟩ := run_askNumbers h d fun ws f => realMemo S n signed f (next ws)
      exact e.trans (ih _ n signed f' h')
    · obtain ⟨f', h', e⟩ := run_askDigest h (S.com (O (.inr n) : Digest p × R).2 ++ m ++ (O (.inr n) : Digest p × R).1.toList) fun d f =>
        askNumbers f d fun ws f => realMemo S (n + 1) (m :: signed) f
          (next (⟨(O (.inr n) : Digest p × R).1, d, S.view (challengeOf p ws) (O (.inr n) : Digest p × R).2⟩ : Shown p V))
      refine Eq.trans e ?_
      obtain ⟨f'', h'', e'⟩ := run_askNumbers h' (O (.inl (.inl (S.com (O (.inr n) : Digest p × R).2 ++ m ++ (O (.inr n) : Digest p × R).1.toList))))
        fun ws f => realMemo S (n + 1) (m :: signed) f (next (⟨(O (.inr n) : Digest p × R).1,
          O (.inl (.inl (S.com (O (.inr n) : Digest p × R).2 ++ m ++ (O (.inr n) : Digest p × R).1.toList))),
          S.view (challengeOf p ws) (O (.inr n) : Digest p × R).2⟩ : Shown p V))
      exact e'.trans (ih _ (n + 1) (m :: signed) f'' h'')

theorem within_askDigest {α C : Type} {X : Finset (GameQuestion p)} (f : Fixed p k) {x : List UInt8}
    {next : Digest p → Fixed p k → Asks (GameQuestion p) (GameAnswer p k C) α} (hx : .inl (.inl x) ∈ X)
    (h : ∀ d f, (next d f).Within X) : (askDigest f x next).Within X := by
  unfold askDigest
  split
  · exact h _ _
  · exact ⟨hx, fun d => h _ _⟩

theorem within_askNumbers {α C : Type} {X : Finset (GameQuestion p)} (f : Fixed p k) {x : Digest p}
    {next : Words 16 k → Fixed p k → Asks (GameQuestion p) (GameAnswer p k C) α} (hx : .inl (.inr x) ∈ X)
    (h : ∀ d f, (next d f).Within X) : (askNumbers f x next).Within X := by
  unfold askNumbers
  split
  · exact h _ _
  · exact ⟨hx, fun d => h _ _⟩

theorem within_realMemo (S : Signer p R V) {X : Finset (GameQuestion p)} (F : Asks (Inquiry p) (ReplyTo p k V) (Option (Forged p))) :
    ∀ n signed f, (realGame S n signed F).Within X → (realMemo S n signed f F).Within X := by
  induction F with
  | done o => intros; trivial
  | ask x next ih =>
    intro n signed f h
    rcases x with (x | d) | m
    · exact within_askDigest f h.1 fun d f => ih d n signed f (h.2 d)
    · exact within_askNumbers f h.1 fun ws f => ih ws n signed f (h.2 ws)
    · refine ⟨h.1, fun r => within_askDigest f (h.2 r).1 fun d f => within_askNumbers f ((h.2 r).2 d).1 fun ws f => ?_⟩
      exact ih _ (n + 1) (m :: signed) f (((h.2 r).2 d).2 ws)

/-! ## No question is repeated -/

/-- Everything that was asked is fixed. -/
def Remembered (n : Nat) (hist : List (GameQuestion p)) (f : Fixed p k) : Prop :=
  (∀ x, .inl (.inl x) ∈ hist → recall f.digests x ≠ none) ∧ (∀ d, .inl (.inr d) ∈ hist → recall f.numbers d ≠ none) ∧
    ∀ j, .inr j ∈ hist → j < n

theorem Remembered.coin {n : Nat} {hist : List (GameQuestion p)} {f : Fixed p k} (h : Remembered n hist f) :
    Remembered (n + 1) (.inr n :: hist) f := by
  refine ⟨fun x hx => ?_, fun d hd => ?_, fun j hj => ?_⟩
  · rcases List.mem_cons.1 hx with e | hx
    · cases e
    · exact h.1 x hx
  · rcases List.mem_cons.1 hd with e | hd
    · cases e
    · exact h.2.1 d hd
  · rcases List.mem_cons.1 hj with e | hj
    · cases e; omega
    · exact (h.2.2 j hj).trans (Nat.lt_succ_self n)

theorem Remembered.digest {n : Nat} {hist : List (GameQuestion p)} {f : Fixed p k} (h : Remembered n hist f) (x : List UInt8) (d : Digest p) :
    Remembered n (.inl (.inl x) :: hist) ⟨(x, d) :: f.digests, f.numbers⟩ := by
  refine ⟨fun y hy => ?_, fun d hd => ?_, fun j hj => ?_⟩
  · rcases List.mem_cons.1 hy with e | hy
    · cases e
      rw [recall_self]
      exact Option.some_ne_none _
    · exact recall_cons_ne_none _ _ (h.1 y hy)
  · rcases List.mem_cons.1 hd with e | hd
    · cases e
    · exact h.2.1 d hd
  · rcases List.mem_cons.1 hj with e | hj
    · cases e
    · exact h.2.2 j hj

theorem Remembered.number {n : Nat} {hist : List (GameQuestion p)} {f : Fixed p k} (h : Remembered n hist f) (d : Digest p) (ws : Words 16 k) :
    Remembered n (.inl (.inr d) :: hist) ⟨f.digests, (d, ws) :: f.numbers⟩ := by
  refine ⟨fun y hy => ?_, fun y hy => ?_, fun j hj => ?_⟩
  · rcases List.mem_cons.1 hy with e | hy
    · cases e
    · exact h.1 y hy
  · rcases List.mem_cons.1 hy with e | hy
    · cases e
      rw [recall_self]
      exact Option.some_ne_none _
    · exact recall_cons_ne_none _ _ (h.2.1 y hy)
  · rcases List.mem_cons.1 hj with e | hj
    · cases e
    · exact h.2.2 j hj

theorem Remembered.add {n : Nat} {hist : List (GameQuestion p)} {f : Fixed p k} (h : Remembered n hist f) (x : List UInt8) (d : Digest p)
    (ws : Words 16 k) : Remembered n hist (f.add x d ws) :=
  ⟨fun y hy => recall_cons_ne_none _ _ (h.1 y hy), fun y hy => recall_cons_ne_none _ _ (h.2.1 y hy), h.2.2⟩

theorem noRepeat_askDigest {α C : Type} {n : Nat} {hist : List (GameQuestion p)} {f : Fixed p k} (h : Remembered n hist f) {x : List UInt8}
    {next : Digest p → Fixed p k → Asks (GameQuestion p) (GameAnswer p k C) α}
    (hnext : ∀ d hist f, Remembered n hist f → NoRepeat hist (next d f)) : NoRepeat hist (askDigest f x next) := by
  unfold askDigest
  split
  · exact hnext _ _ _ h
  · rename_i e
    exact ⟨fun hm => h.1 x hm e, fun d => hnext _ _ _ (h.digest x d)⟩

theorem noRepeat_askNumbers {α C : Type} {n : Nat} {hist : List (GameQuestion p)} {f : Fixed p k} (h : Remembered n hist f) {x : Digest p}
    {next : Words 16 k → Fixed p k → Asks (GameQuestion p) (GameAnswer p k C) α}
    (hnext : ∀ d hist f, Remembered n hist f → NoRepeat hist (next d f)) : NoRepeat hist (askNumbers f x next) := by
  unfold askNumbers
  split
  · exact hnext _ _ _ h
  · rename_i e
    exact ⟨fun hm => h.2.1 x hm e, fun d => hnext _ _ _ (h.number x d)⟩

theorem noRepeat_realMemo (S : Signer p R V) (F : Asks (Inquiry p) (ReplyTo p k V) (Option (Forged p))) :
    ∀ n signed f hist, Remembered n hist f → NoRepeat hist (realMemo S n signed f F) := by
  induction F with
  | done o => intros; trivial
  | ask x next ih =>
    intro n signed f hist h
    rcases x with (x | d) | m
    · exact noRepeat_askDigest h fun d hist f h => ih d n signed f hist h
    · exact noRepeat_askNumbers h fun ws hist f h => ih ws n signed f hist h
    · refine ⟨fun hm => Nat.lt_irrefl _ (h.2.2 n hm), fun r => noRepeat_askDigest h.coin fun d hist f h => noRepeat_askNumbers h fun ws hist f h => ?_⟩
      exact ih _ (n + 1) (m :: signed) f hist h

theorem noRepeat_simGame (S : Simulator p R V) (F : Asks (Inquiry p) (ReplyTo p k V) (Option (Forged p))) :
    ∀ n signed f hist, Remembered n hist f → NoRepeat hist (simGame S n signed f F) := by
  induction F with
  | done o => intros; trivial
  | ask x next ih =>
    intro n signed f hist h
    rcases x with (x | d) | m
    · exact noRepeat_askDigest h fun d hist f h => ih d n signed f hist h
    · exact noRepeat_askNumbers h fun ws hist f h => ih ws n signed f hist h
    · refine ⟨fun hm => Nat.lt_irrefl _ (h.2.2 n hm), fun r => ?_⟩
      obtain ⟨salt, r, d, ws⟩ := r
      dsimp only
      split
      · exact ih _ (n + 1) (m :: signed) _ _ (h.coin.add _ _ _)
      · trivial

end LESS
