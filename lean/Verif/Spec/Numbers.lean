/-!
# Numbers in a text
-/
namespace LESS.Spec

/-- Read a text from left to right; `cur` is the number whose digits are being read. -/
def scan : Option Nat → List Char → List Nat
  | cur, [] => cur.toList
  | cur, c :: s =>
    if '0' ≤ c ∧ c ≤ '9' then scan (some (10 * cur.getD 0 + (c.toNat - '0'.toNat))) s else cur.toList ++ scan none s

/-- The decimal numbers in a text, in order: the maximal runs of digits. -/
def numbers (t : List Char) : List Nat := scan none t

/-- The entries of a matrix, row by row. -/
def entries (r c : Nat) (a : Nat → Nat → Nat) : List Nat := (List.range r).flatMap fun i => (List.range c).map (a i)

end LESS.Spec
