import Verif.Model.FqVariants
import Verif.Proofs.Fq
/-!
# C88: the reductions that are switched off
-/
namespace LESS

theorem and_mask (x : Nat) : x &&& barrettMask = x % 1024 := by
  rw [show barrettMask = 2 ^ 10 - 1 by rfl, Nat.and_two_pow_sub_one_eq_mod]

/-- The estimated remainder differs from the number by a multiple of 127 and is less than three times 127. -/
theorem barrettRest_eq (a : Nat) (ha : a < 65152) : barrettRest a = a - 127 * (a / 128 * 129 / 128) ∧
    127 * (a / 128 * 129 / 128) ≤ a ∧ a - 127 * (a / 128 * 129 / 128) < 381 := by
  have h1 : 127 * (a / 128 * 129 / 128) ≤ a := by omega
  have h2 : a - 127 * (a / 128 * 129 / 128) < 381 := by omega
  refine ⟨?_, h1, h2⟩
  unfold barrettRest
  simp only [and_mask, Nat.shiftRight_eq_div_pow, show barrettMu = 129 by rfl, Q]
  rw [show u16 a = a from Nat.mod_eq_of_lt (by omega), show (2 : Nat) ^ 7 = 128 by rfl,
    show u16 (a / 128 * 129) = a / 128 * 129 from Nat.mod_eq_of_lt (by omega)]
  generalize a / 128 * 129 / 128 = q at *
  unfold u16
  omega

theorem barrettFix_eq (r : Nat) (hr : r < 65536) : barrettFix r = if 127 ≤ r then r - 127 else r := by
  unfold barrettFix u16 Q
  by_cases h : 127 ≤ r
  · rw [if_pos h, show b2n (127 ≤ r) = 1 by simp [b2n, h]]; omega
  · rw [if_neg h, show b2n (127 ≤ r) = 0 by simp [b2n, h]]; omega

/-- C88: Barrett's reduction gives the remainder of every number below 65152, so of every product of two bytes. -/
theorem C88_barrett_partial (a : Nat) (ha : a < 65152) : fqRedBarrett a = a % 127 := by
  obtain ⟨h1, h2, h3⟩ := barrettRest_eq a ha
  unfold fqRedBarrett
  rw [h1]
  generalize a / 128 * 129 / 128 = q at *
  rw [barrettFix_eq (a - 127 * q) (by omega)]
  split
  · rw [barrettFix_eq _ (by omega)]
    unfold u8
    split <;> omega
  · rw [barrettFix_eq _ (by omega)]
    unfold u8
    split <;> omega

/-- C88: it is not the remainder of every number that may be passed. -/
theorem C88_fails_barrett : fqRedBarrett 65152 ≠ 65152 % 127 := by decide +kernel

/-- C88: for products of two numbers of seven bits it can replace the reduction in use, also without the subtraction
that is marked as not needed. -/
theorem C88_barrett_products (x y : Nat) (hx : x < 128) (hy : y < 128) :
    fqRedBarrett (x * y) = fqRed (x * y) ∧ fqRedBarrettOnce (x * y) = fqRed (x * y) := by
  have hm : x * y < 16383 := by
    have := Nat.mul_le_mul (show x ≤ 127 by omega) (show y ≤ 127 by omega)
    omega
  have hred : fqRed (x * y) = x * y % 127 := by
    unfold fqRed u8 u16 Q
    omega
  have h2 : fqRedBarrettOnce (x * y) = x * y % 127 := by
    generalize x * y = a at *
    obtain ⟨h1, h2, -⟩ := barrettRest_eq a (by omega)
    have h3 : a - 127 * (a / 128 * 129 / 128) < 254 := by omega
    unfold fqRedBarrettOnce
    rw [h1]
    generalize a / 128 * 129 / 128 = q at *
    rw [barrettFix_eq (a - 127 * q) (by omega)]
    unfold u8
    split <;> omega
  exact ⟨by rw [C88_barrett_partial _ (by omega), hred], by rw [h2, hred]⟩

/-- C88: without the marked subtraction the first wrong result is that of 16383. -/
theorem C88_fails_barrett_once : fqRedBarrettOnce 16383 ≠ 16383 % 127 := by decide +kernel

theorem mersenne_step (x : Nat) (hx : x < 65536) : u16 ((127 &&& x) + (x >>> 7)) = x % 128 + x / 128 := by
  rw [Nat.and_comm, show 127 = 2 ^ 7 - 1 by rfl, Nat.and_two_pow_sub_one_eq_mod, Nat.shiftRight_eq_div_pow]
  unfold u16
  omega

/-- C88: the loop of the other reduction ends exactly for 0 and the numbers that 127 does not divide, and then it
gives the remainder. -/
theorem C88_mersenne (x : Nat) (hx : x < 65536) :
    (∃ fuel r, fqRedMersenne fuel x = .ok r) ↔ (x = 0 ∨ x % 127 ≠ 0) := by
  constructor
  · rintro ⟨fuel, r, h⟩
    induction fuel generalizing x with
    | zero => exact absurd h (by simp [fqRedMersenne])
    | succ fuel ih =>
      unfold fqRedMersenne at h
      split at h
      · next hq =>
        have hq : 127 ≤ x := hq
        rw [mersenne_step x hx] at h
        rcases ih (x % 128 + x / 128) (by omega) h with e | e <;> omega
      · next hq =>
        have hq : ¬ 127 ≤ x := hq
        omega
  · intro h
    suffices hs : ∀ n x, x ≤ n → x < 65536 → (x = 0 ∨ x % 127 ≠ 0) → ∃ fuel r, fqRedMersenne fuel x = .ok r from
      hs x x (Nat.le_refl x) hx h
    intro n
    induction n with
    | zero => intro x hx0 _ _; exact ⟨1, u8 x, by unfold fqRedMersenne; rw [if_neg (by simp only [Q]; omega)]; rfl⟩
    | succ n ih =>
      intro x hxn hx h
      by_cases hq : 127 ≤ x
      · have : x ≠ 127 := by rintro rfl; omega
        obtain ⟨fuel, r, e⟩ := ih (x % 128 + x / 128) (by omega) (by omega) (by omega)
        exact ⟨fuel + 1, r, by unfold fqRedMersenne; rw [if_pos (show Q ≤ x from hq), mersenne_step x hx]; exact e⟩
      · exact ⟨1, u8 x, by unfold fqRedMersenne; rw [if_neg (show ¬ Q ≤ x from hq)]; rfl⟩

/-- C88: if the loop ends the result is the remainder. -/
theorem C88_mersenne_value (x : Nat) (hx : x < 65536) (fuel r : Nat) (h : fqRedMersenne fuel x = .ok r) :
    r = x % 127 := by
  induction fuel generalizing x with
  | zero => exact absurd h (by simp [fqRedMersenne])
  | succ fuel ih =>
    unfold fqRedMersenne at h
    split at h
    · rw [mersenne_step x hx] at h
      rw [ih (x % 128 + x / 128) (by omega) h]
      omega
    · next hq =>
      have hq : ¬ 127 ≤ x := hq
      have : r = u8 x := (Except.ok.inj h).symm
      rw [this]
      unfold u8
      omega

/-- C88: with this reduction the elimination of `generator_RREF` (codes.c:125-130) never ends: in the pivot column it
reduces `Q + x - x`. -/
theorem C88_fails_mersenne (x fuel : Nat) : fqRedMersenne fuel (u16 (Q + x - x)) = .error .fuel := by
  rw [show u16 (Q + x - x) = 127 by rw [Nat.add_sub_cancel]; rfl]
  cases e : fqRedMersenne fuel 127 with
  | ok r =>
    have := (C88_mersenne 127 (by decide)).mp ⟨fuel, r, e⟩
    omega
  | error err =>
    have : ∀ fuel err, fqRedMersenne fuel 127 = .error err → err = .fuel := by
      intro fuel
      induction fuel with
      | zero => intro err h; exact (Except.error.inj h).symm
      | succ fuel ih =>
        intro err h
        unfold fqRedMersenne at h
        rw [if_pos (show Q ≤ 127 from Nat.le_refl _), mersenne_step 127 (by decide)] at h
        exact ih err h
    rw [this fuel err e]

/-! ## Cases -/

/-- The largest product of two bytes. -/
example : fqRedBarrett (255 * 255) = 255 * 255 % 127 := C88_barrett_partial _ (by decide)

/-- The square of 126, which is 1. -/
example : fqRedBarrett (126 * 126) = fqRed (126 * 126) ∧ fqRedBarrettOnce (126 * 126) = fqRed (126 * 126) :=
  C88_barrett_products 126 126 (by decide) (by decide)

/-- 16129 is the square of 127: the loop does not end. For 16128 it does. -/
example : (¬ ∃ fuel r, fqRedMersenne fuel 16129 = .ok r) ∧ ∃ fuel r, fqRedMersenne fuel 16128 = .ok r := by
  rw [C88_mersenne _ (by decide), C88_mersenne _ (by decide)]
  decide

example : (1 : Nat) + 125 = 16128 % 127 := C88_mersenne_value 16128 (by decide) 3 _ (by rfl)

end LESS
