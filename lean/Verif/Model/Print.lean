import Verif.Model.Codes
/-!
# Printing functions

The functions of `monomial.c` and `codes.c` that write to `stderr`.  A call is modelled by the characters it writes.
Conversion specifications follow the C standard: `%u` and `%d` (of values that are not negative) give decimal digits
without leading zeros, `%03u` at least three digits, `%s` the string.
-/
namespace LESS

variable {p : Params}

/-- `%u`: the decimal digits of a number. -/
def decimal (n : Nat) : List Char :=
  if h : n < 10 then [Char.ofNat (48 + n)] else decimal (n / 10) ++ [Char.ofNat (48 + n % 10)]
termination_by n
decreasing_by omega

/-- `%03u`. -/
def decimal3 (n : Nat) : List Char := List.replicate (3 - (decimal n).length) '0' ++ decimal n

/-- The loop `for (i = 0; i < n-1; i++) fprintf("<fmt>, ", v[i]); fprintf("<fmt><close>", v[n-1])` over one row. -/
def printRow {n : Nat} (fmt : Nat → List Char) (v : Vector Nat n) (close : List Char) (t : List Char) : C (List Char) := do
  let t ← forUp (n - 1) (fun i t => do
    let x ← rd v i
    pure (t ++ fmt x ++ ", ".toList)) t
  let x ← rd v (n - 1)
  pure (t ++ fmt x ++ close)

/-- monomial.c:157-169 `monomial_mat_pretty_print_name`; with "perm" for the name, monomial.c:143-155
`monomial_mat_pretty_print`. -/
def monomialPrettyPrintName (name : List Char) (m : Monomial p) : C (List Char) := do
  let t ← printRow decimal3 m.permutation " ]\n".toList (name ++ " = [".toList)
  printRow decimal3 m.coefficients " ]\n".toList (t ++ "coeffs = [".toList)

/-- The rows of a matrix as printed by codes.c:569-580, 588-599 and monomial.c:180-192; `close` ends the last row. -/
def printRows {r c : Nat} (M : Vector (Vector Nat c) r) (close : List Char) (t : List Char) : C (List Char) := do
  let t ← forUp (r - 1) (fun i t => do
    let row ← rd M i
    printRow decimal row " ],\n".toList (t ++ "[".toList)) t
  let row ← rd M (r - 1)
  printRow decimal row close (t ++ "[".toList)

/-- monomial.c:171-193 `monomial_mat_print_exp_name`. -/
def monomialPrintExpName (name : List Char) (m : Monomial p) : C (List Char) := do
  let mu ← forUp p.N (fun i (mu : Vector (Vector Nat p.N) p.N) => do
    let d ← rd m.permutation i
    let c ← rd m.coefficients i
    wr2 mu d i c) (Vector.replicate _ (Vector.replicate _ 0))
  printRows mu " ] ])\n".toList (name ++ " = Mon([".toList)

/-- codes.c:566-581 `generator_pretty_print_name`. -/
def generatorPrettyPrintName (name : List Char) (G : GenMat p) : C (List Char) :=
  printRows G " ] ])\n".toList (name ++ " = M([".toList)

/-- codes.c:584-606 `generator_rref_pretty_print_name`. -/
def generatorRrefPrettyPrintName (name : List Char) (G : RrefMat p) : C (List Char) := do
  let t ← printRows G.values " ] ]\n".toList (name ++ " =\n[".toList)
  let t ← forUp p.K (fun x t => do
    let v ← rd G.columnPos x
    pure (t ++ " ".toList ++ decimal v ++ " ".toList)) (t ++ "column_pos = \n [ ".toList)
  pure (t ++ "]\n".toList)

end LESS
