import Mathlib.Data.Nat.Log
/-!
# The parameter script: `Utilities/Parameter_Generation_Scripts/seed_tree_param_computer.py`

Python's numbers are exact here.  (`log2` and the products are floating point numbers; for the sizes of parameters.h they
are exact, and rounding of larger values is not modelled.)
-/
namespace LESS

/-- `ceil(log2(n))` for `n > 0`. -/
def ceilLog2 (n : Nat) : Nat := Nat.clog 2 n

/-- seed_tree_param_computer.py:5-12 `worst_case_seed_tree_cost`; `none` is the exception raised by `log2(0)`. -/
def worstCaseSeedTreeCost (t omega secParam : Nat) : Option Rat :=
  if omega > t / 2 then some (omega * secParam)
  else if omega = 0 then none
  else some ((secParam : Rat) / 8 *
    ((2 ^ ceilLog2 omega + omega * ((ceilLog2 t : Int) - ceilLog2 omega - 1) : Int) : Rat))

/-- seed_tree_param_computer.py:21-24: the printed number. -/
def printedSize (t omega secParam : Nat) : Option Int := (worstCaseSeedTreeCost t omega secParam).map Rat.ceil

end LESS
