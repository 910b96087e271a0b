import Mathlib.LinearAlgebra.Matrix.NonsingularInverse
import Mathlib.Data.ZMod.Basic
/-!
# Specification: row equivalence and reduced row echelon form
-/
namespace LESS.Spec

/-- `B` is obtained from `A` by multiplying from the left with an invertible matrix: same row space. -/
def RowEq {k n : Nat} (A B : Matrix (Fin k) (Fin n) (ZMod 127)) : Prop :=
  ∃ P : Matrix (Fin k) (Fin k) (ZMod 127), IsUnit P ∧ B = P * A

/-- `A` has full rank and is in reduced row echelon form with pivot columns `piv 0 < piv 1 < ...`. -/
structure IsRREF {k n : Nat} (A : Matrix (Fin k) (Fin n) (ZMod 127)) (piv : Fin k → Fin n) : Prop where
  mono : StrictMono piv
  /-- pivot columns are unit vectors -/
  unit : ∀ i t, A i (piv t) = if i = t then 1 else 0
  /-- a row is zero to the left of its pivot -/
  left : ∀ t j, j < piv t → A t j = 0

/-- The rows are linearly independent. -/
def FullRank {k n : Nat} (A : Matrix (Fin k) (Fin n) (ZMod 127)) : Prop :=
  ∀ v : Fin k → ZMod 127, Matrix.vecMul v A = 0 → v = 0

/-- `B` generates the code of `A` up to a permutation of the coordinates and non-zero factors on them
(monomial equivalence, the relation whose hardness the signature scheme is built on). -/
def MonoEq {k n : Nat} (A B : Matrix (Fin k) (Fin n) (ZMod 127)) : Prop :=
  ∃ P : Matrix (Fin k) (Fin k) (ZMod 127), IsUnit P ∧ ∃ (σ : Equiv.Perm (Fin n)) (d : Fin n → ZMod 127),
    (∀ j, d j ≠ 0) ∧ ∀ i j, B i j = (P * A) i (σ j) * d j

end LESS.Spec
