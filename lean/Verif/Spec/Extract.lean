import Verif.Model.Codes
import Verif.Spec.Less
/-!
# A witness of equivalence from two answers

An algorithm that computes, from two codes and an answer for each, a monomial transformation.  None of it is
executed by the library; it is the extractor of the special soundness property (C12).  All definitions are
computable.  The reduction to reduced row echelon form is the library's own (`generatorRREF`).
-/
namespace LESS.Spec

/-- A transformation of the columns of a matrix: column `j` of the result is column `src j`, scaled. -/
structure ColOp (n : Nat) where
  src : Fin n → Fin n
  coef : Fin n → ZMod 127

namespace ColOp

variable {n : Nat}

/-- Columns are permuted and scaled by non-zero factors. -/
def IsMonomial (w : ColOp n) : Prop := Function.Bijective w.src ∧ ∀ j, w.coef j ≠ 0

/-- The transformed matrix. -/
def on {k : Nat} (A : Matrix (Fin k) (Fin n) (ZMod 127)) (w : ColOp n) : Matrix (Fin k) (Fin n) (ZMod 127) :=
  fun i j => A i (w.src j) * w.coef j

/-- First `v`, then `w`. -/
def andThen (v w : ColOp n) : ColOp n := ⟨fun j => v.src (w.src j), fun j => v.coef (w.src j) * w.coef j⟩

/-- The position at which column `j` of the source ends up. -/
def target (w : ColOp n) (j : Fin n) : Fin n := ((List.finRange n).find? fun i => w.src i = j).getD j

/-- The inverse transformation. -/
def undo (w : ColOp n) : ColOp n := ⟨w.target, fun j => (w.coef (w.target j))⁻¹⟩

/-- The transformation that a monomial matrix performs by multiplication on the right. -/
def ofMatrix (M : Matrix (Fin n) (Fin n) (ZMod 127)) : ColOp n :=
  let row := fun j => ((List.finRange n).find? fun i => M i j ≠ 0).getD j
  ⟨row, fun j => M (row j) j⟩

/-- A column number below `n`, or `j` if it is not one. -/
def clip (j : Fin n) (c : Nat) : Fin n := if h : c < n then ⟨c, h⟩ else j

/-- The transformation that a response performs: `actOn`. -/
def ofAction {p : Params} (a : Action p) : ColOp p.N where
  src j := clip j (if j.val < p.K then a.perm j else (restCols p a.perm).getD (j.val - p.K) 0)
  coef j := if j.val < p.K then ((a.coef j : Nat) : ZMod 127) else 1

/-- A transformation that brings a code into the form (identity, normalised sorted columns): reduce, take the
pivot columns first, then the other columns sorted and divided by their first non-zero entry. -/
def canonical (p : Params) (A : Matrix (Fin p.K) (Fin p.N) (ZMod 127)) : ColOp p.N :=
  match generatorRREF (p := p) (Vector.ofFn fun i => Vector.ofFn fun j => ZMod.val (A i j)) (Vector.replicate p.N 0) with
  | .ok (_, R, f) =>
    let col := fun j : Nat => (List.range p.K).map fun i => ((g2 R i j : Nat) : ZMod 127)
    let key := fun j : Nat => (normalise (col j)).map ZMod.val
    let order := (List.range p.N).filter (fun j => g f j ≠ 0) ++
      ((List.range p.N).filter fun j => g f j = 0).mergeSort fun a b => decide (key a ≤ key b)
    let src := fun j : Fin p.N => clip j (order.getD j 0)
    ⟨src, fun j => if j.val < p.K ∨ lead (col (src j)) = 0 then 1 else (lead (col (src j)))⁻¹⟩
  | .error _ => ⟨id, fun _ => 1⟩

end ColOp

/-- An answer of the prover in one round: the monomial matrix of a revealed seed, or a response. -/
inductive Answer (p : Params)
  | seed (M : Matrix (Fin p.N) (Fin p.N) (ZMod 127))
  | response (a : Action p)

namespace Answer

variable {p : Params}

/-- The transformation an answer stands for. -/
def op : Answer p → ColOp p.N
  | seed M => .ofMatrix M
  | response a => .ofAction a

/-- The matrix from which the verifier recomputes the commitment. -/
def apply (A : Matrix (Fin p.K) (Fin p.N) (ZMod 127)) : Answer p → Matrix (Fin p.K) (Fin p.N) (ZMod 127)
  | seed M => A * M
  | response a => actOn A a

/-- What the verifier checks (responses) or knows (matrices expanded from seeds): one non-zero entry per column
and per row. -/
def Valid : Answer p → Prop
  | seed M => ∃ (π : Equiv.Perm (Fin p.N)) (c : Fin p.N → ZMod 127), (∀ i, c i ≠ 0) ∧
      ∀ i j, M i j = if π i = j then c i else 0
  | response a => a.Valid

end Answer

/-- The witness: from `A` through the first answer to the canonical form, and back through the second answer. -/
def extract (p : Params) (A : Matrix (Fin p.K) (Fin p.N) (ZMod 127)) (x : Answer p)
    (B : Matrix (Fin p.K) (Fin p.N) (ZMod 127)) (y : Answer p) : ColOp p.N :=
  (x.op.andThen (.canonical p (x.apply A))).andThen (y.op.andThen (.canonical p (y.apply B))).undo

end LESS.Spec
