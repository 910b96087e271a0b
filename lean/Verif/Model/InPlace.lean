import Verif.Model.Codes
/-!
# Matrix operations whose result overwrites an argument

The prototypes in `monomial_mat.h:77-107` and `codes.h:50-57` take the result and the arguments by pointer and
none of the pointers is `restrict`, so the result may be one of the arguments. The definitions below are the same
loops as in `Model/Monomial.lean` and `Model/Codes.lean`, with every read of the shared argument taken from the
memory being written.
-/
namespace LESS

variable {p : Params}

/-- monomial.c:114-123 `monomial_mat_mul(A, A, B)`: the result overwrites the first factor. -/
def monomialMulOverFirst (A B : Monomial p) : C (Monomial p) :=
  forUp p.N (fun i res => do
    let ai ← rd res.permutation i
    let bp ← rd B.permutation ai
    let perm ← wr res.permutation i bp
    let ac ← rd res.coefficients i
    let ai ← rd perm i
    let bc ← rd B.coefficients ai
    let coefs ← wr res.coefficients i (fqRed (ac * bc))
    pure ⟨coefs, perm⟩) A

/-- monomial.c:114-123 `monomial_mat_mul(B, A, B)`: the result overwrites the second factor. -/
def monomialMulOverSecond (A B : Monomial p) : C (Monomial p) :=
  forUp p.N (fun i res => do
    let ai ← rd A.permutation i
    let bp ← rd res.permutation ai
    let perm ← wr res.permutation i bp
    let ac ← rd A.coefficients i
    let ai ← rd A.permutation i
    let bc ← rd res.coefficients ai
    let coefs ← wr res.coefficients i (fqRed (ac * bc))
    pure ⟨coefs, perm⟩) B

/-- monomial.c:125-132 `monomial_mat_inv(A, A)`. -/
def monomialInvOver (A : Monomial p) : C (Monomial p) :=
  forUp p.N (fun i res => do
    let d ← rd res.permutation i
    let perm ← wr res.permutation d (i % p.posMod)
    let d ← rd perm i
    let c ← rd res.coefficients i
    let coefs ← wr res.coefficients d (fqInv c)
    pure ⟨coefs, perm⟩) A

/-- monomial.c:196-214 `monomial_compose_action(a, Q_in, a)`; `reverse_Q` is a local variable. -/
def composeActionOver (stale : Monomial p) (Qin : Monomial p) (a : MonoAction p) : C (MonoAction p) := do
  let rev ← forUp p.N (fun i (rev : Monomial p) => do
    let d ← rd Qin.permutation i
    let perm ← wr rev.permutation d (i % p.posMod)
    let c ← rd Qin.coefficients i
    let coefs ← wr rev.coefficients d c
    pure ⟨coefs, perm⟩) stale
  forUp p.K (fun i (out : MonoAction p) => do
    let s ← rd out.permutation i
    let rp ← rd rev.permutation s
    let perm ← wr out.permutation i rp
    let c ← rd out.coefficients i
    let s ← rd perm i
    let rc ← rd rev.coefficients s
    let coefs ← wr out.coefficients i (fqRed (c * rc))
    pure ⟨coefs, perm⟩) a

/-- codes.c:34-45 `generator_monomial_mul(G, G, monom)` and codes.c:49-60 `rref_generator_monomial_mul`. -/
def generatorMonomialMulOver (G : GenMat p) (monom : Monomial p) : C (GenMat p) :=
  forUp p.N (fun srcCol res =>
    forUp p.K (fun row res => do
      let d ← rd monom.permutation srcCol
      let x ← rd2 res row srcCol
      let c ← rd monom.coefficients srcCol
      wr2 res row d (fqRed (x * c))) res) G

end LESS
