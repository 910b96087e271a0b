import Verif.Model.Fq
/-!
# The reductions that are switched off: `fq_arith.h:86-122`

Both stand in the source between `#if 0` and `#endif` as replacements of `fq_red`.
-/
namespace LESS

/-- fq_arith.h:87 `BARRETT_MU`, with `NUM_BITS_Q` 7. -/
def barrettMu : Nat := (1 <<< (2 * 7)) / Q

/-- fq_arith.h:88 `BARRETT_MASK`. -/
def barrettMask : Nat := (1 <<< (7 + 3)) - 1

/-- fq_arith.h:94-100: quotient estimate and masked remainder. `q_1`, `q_2`, `q_3`, `r_1` are `uint16_t`, the
difference is computed in `int`; it is not less than -1023. -/
def barrettRest (a : Nat) : Nat :=
  let q1 := u16 a >>> 7
  let q2 := u16 (q1 * barrettMu)
  let q3 := q2 >>> 7
  u16 (65536 + (u16 a &&& barrettMask) - ((q3 * Q) &&& barrettMask)) &&& barrettMask

/-- fq_arith.h:103-104 and 105-106: one conditional subtraction; `need_to_red` is 0 or 1. -/
def barrettFix (r : Nat) : Nat := u16 (r - Q * b2n (Q ≤ r))

/-- fq_arith.h:90-108, the first `fq_red` that is switched off. -/
def fqRedBarrett (a : Nat) : Nat := u8 (barrettFix (barrettFix (barrettRest a)))

/-- fq_arith.h:90-108 without line 104, which is marked `not needed for 127`. -/
def fqRedBarrettOnce (a : Nat) : Nat := u8 (barrettFix (barrettRest a))

/-- fq_arith.h:114-121, the second `fq_red` that is switched off; the loop gets `fuel` rounds. -/
def fqRedMersenne : (fuel : Nat) → (x : Nat) → C Nat
  | 0, _ => .error .fuel
  | fuel + 1, x => if Q ≤ x then fqRedMersenne fuel (u16 ((127 &&& x) + (x >>> 7))) else pure (u8 x)

end LESS
