import Verif.Model.Params
/-!
# Field arithmetic: `Reference_Implementation/include/fq_arith.h`
-/
namespace LESS

/-- fq_arith.h:124-128 `fq_red`: the argument is a `uint16_t`, the sum is computed in `int`, the result is
an `FQ_ELEM` (`uint8_t`). -/
def fqRed (x : Nat) : Nat := u8 ((Q + u16 x) % Q)

/-- The `while(exp)` loop of fq_arith.h:141-147.  `accum` and `xlift` are `uint16_t`; the products are
`int`, truncated when passed to `fq_red`. -/
def fqInvLoop (exp accum xlift : Nat) : Nat :=
  if h : exp = 0 then accum
  else
    fqInvLoop (exp >>> 1) (if exp &&& 1 ≠ 0 then fqRed (accum * xlift) else accum)
      (fqRed (xlift * xlift))
termination_by exp
decreasing_by
  rw [Nat.shiftRight_eq_div_pow]
  exact Nat.div_lt_self (Nat.pos_of_ne_zero h) (by decide)

/-- fq_arith.h:132-149 `fq_inv`: right-to-left square and multiply with exponent `Q-2`. -/
def fqInv (x : Nat) : Nat := fqRed (fqInvLoop (Q - 2) 1 (u8 x))

end LESS
