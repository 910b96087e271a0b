import Mathlib.Data.Finset.Card
/-!
# Programs that ask an oracle

An oracle answers every question `x` with an element of `Ans x`.  A program asks questions one after the other, each
of which may depend on the answers so far, and returns a result.
-/
namespace LESS.Spec

variable {Pt : Type} {Ans : Pt → Type} {α β : Type}

open Classical in
/-- How many different elements a list has. -/
noncomputable def different (l : List α) : Nat := l.toFinset.card

/-- A program. -/
inductive Asks (Pt : Type) (Ans : Pt → Type) (α : Type) where
  | done (a : α)
  | ask (x : Pt) (next : Ans x → Asks Pt Ans α)

namespace Asks

/-- The result if the answers are those of the table `O`. -/
def run (O : ∀ x, Ans x) : Asks Pt Ans α → α
  | done a => a
  | ask x next => run O (next (O x))

/-- Run one program and then another one on its result. -/
def bind : Asks Pt Ans α → (α → Asks Pt Ans β) → Asks Pt Ans β
  | done a, f => f a
  | ask x next, f => ask x fun a => bind (next a) f

/-- The program asks at most `q` questions, whatever the answers. -/
def AtMost : Nat → Asks Pt Ans α → Prop
  | _, done _ => True
  | 0, ask _ _ => False
  | q + 1, ask _ next => ∀ a, AtMost q (next a)

/-- The questions asked if the answers are those of `O`, the last one first, before those in `hist`. -/
def asked (O : ∀ x, Ans x) : List Pt → Asks Pt Ans α → List Pt
  | hist, done _ => hist
  | hist, ask x next => asked O (x :: hist) (next (O x))

/-- How many different questions are asked. -/
noncomputable def questions (O : ∀ x, Ans x) (c : Asks Pt Ans α) : Nat := different (asked O [] c)

/-- All questions the program can come to ask are in `X`. -/
def Within (X : Finset Pt) : Asks Pt Ans α → Prop
  | done _ => True
  | ask x next => x ∈ X ∧ ∀ a, Within X (next a)

end Asks

open Classical in
/-- The table that answers as `t` in `X` and as `base` elsewhere. -/
noncomputable def table {X : Finset Pt} (base : ∀ x, Ans x) (t : ∀ x : {x // x ∈ X}, Ans x.1) : ∀ x, Ans x :=
  fun x => if h : x ∈ X then t ⟨x, h⟩ else base x

end LESS.Spec
