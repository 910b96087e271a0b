import Mathlib.LinearAlgebra.Matrix.Defs
import Mathlib.Data.ZMod.Basic
import Mathlib.Data.List.FinRange
import Mathlib.Data.List.Lex
/-!
# Specification: the commitment of a code with an information set

The columns outside the information set, each divided by its first non-zero entry, in lexicographic order.
-/
namespace LESS.Spec

/-- First non-zero entry, 0 if there is none. -/
def lead (c : List (ZMod 127)) : ZMod 127 := (c.find? (· ≠ 0)).getD 0

/-- Division by the first non-zero entry (the zero column stays as it is). -/
def normalise (c : List (ZMod 127)) : List (ZMod 127) := c.map (· * (lead c)⁻¹)

/-- A column, from top to bottom. -/
def column {k n : Nat} (A : Matrix (Fin k) (Fin n) (ZMod 127)) (j : Fin n) : List (ZMod 127) :=
  (List.finRange k).map fun i => A i j

/-- The canonical form of the part of `A` outside the columns `piv`. -/
def commitment {k n : Nat} (A : Matrix (Fin k) (Fin n) (ZMod 127)) (piv : Fin k → Fin n) : List (List Nat) :=
  (((List.finRange n).filter fun j => ∀ t, piv t ≠ j).map fun j =>
    (normalise (column A j)).map ZMod.val).mergeSort (fun a b => decide (a ≤ b))

end LESS.Spec
