import Verif.Spec.Chosen
/-!
# Running an attacker a second time

The rewinding of the proof that forging is as hard as finding the secret map: run a program to its end; take the question its result
names; run it again from that question on, with the same answers before it and new answers from there.
-/
namespace LESS.Spec

variable {Pt : Type} {Ans : Pt → Type} {α : Type}

/-- The answers of two runs. -/
def Twice (Ans : Pt → Type) : Pt ⊕ Pt → Type
  | .inl x => Ans x
  | .inr x => Ans x

/-- A point of a run: a question, and how the program goes on from there. -/
structure Point (Pt : Type) (Ans : Pt → Type) (α : Type) where
  question : Pt
  next : Ans question → Asks Pt Ans α

/-- The rest of the second run; `r` is the result of the first one. -/
def secondRun (r : α) : Asks Pt Ans α → Asks (Pt ⊕ Pt) (Twice Ans) (Option (α × α))
  | .done r' => .done (some (r, r'))
  | .ask x next => .ask (.inr x) fun a => secondRun r (next a)

/-- The first run, which remembers its points; then the second one from the question named by `names`. -/
def rewind [DecidableEq Pt] (names : α → Option Pt) : List (Point Pt Ans α) → Asks Pt Ans α → Asks (Pt ⊕ Pt) (Twice Ans) (Option (α × α))
  | path, .done r =>
    match (names r).bind fun x => path.find? fun e => decide (e.question = x) with
    | none => .done none
    | some e => .ask (.inr e.question) fun a => secondRun r (e.next a)
  | path, .ask x next => .ask (.inl x) fun a => rewind names (⟨x, next⟩ :: path) (next a)

/-- Answers of the first run to the questions in `hist`, of the second run to the others. -/
def mixed [DecidableEq Pt] (O : ∀ x, Twice Ans x) (hist : List Pt) (x : Pt) : Ans x := if x ∈ hist then O (.inl x) else O (.inr x)

/-- The question to go back to: the one that drew the challenge of the forgery. -/
def challengeQuestion {p : Params} {k : Nat} : Option (Forged p × Fixed p k) → Option (GameQuestion p)
  | none => none
  | some (o, f) => (recall f.digests o.hashed).map fun d => .inl (.inr d)

end LESS.Spec
