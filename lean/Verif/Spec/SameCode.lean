import Verif.Spec.Rref
/-!
# Specification: two matrices that generate the same code
-/
namespace LESS.Spec

/-- Every combination of the rows of `A` is a combination of the rows of `B` and conversely. -/
def SameCode {k n : Nat} (A B : Matrix (Fin k) (Fin n) (ZMod 127)) : Prop :=
  ∀ v : Fin n → ZMod 127, (∃ x, Matrix.vecMul x A = v) ↔ ∃ y, Matrix.vecMul y B = v

end LESS.Spec
