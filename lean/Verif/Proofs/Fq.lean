import Mathlib.Data.ZMod.Basic
import Mathlib.FieldTheory.Finite.Basic
import Mathlib.Tactic.NormNum.Prime
import Mathlib.Tactic.Ring
import Verif.Model.Fq
/-!
# Field arithmetic: proofs
-/
namespace LESS

instance fact_prime_127 : Fact (Nat.Prime 127) := ⟨by norm_num⟩

/-- The field with `Q = 127` elements. -/
abbrev Fq := ZMod 127

theorem fqRed_eq (x : Nat) (h : x < 65536) : fqRed x = x % 127 := by
  unfold fqRed u8 u16 Q; omega

theorem fqRed_lt (x : Nat) : fqRed x < 127 := by
  unfold fqRed u8 u16 Q; omega

theorem fqRed_cast (x : Nat) (h : x < 65536) : (fqRed x : Fq) = x := by
  rw [fqRed_eq x h, ZMod.natCast_mod]

theorem cast_inj {a b : Nat} (ha : a < 127) (hb : b < 127) (h : (a : Fq) = b) : a = b := by
  have := (ZMod.natCast_eq_natCast_iff' a b 127).mp h
  rwa [Nat.mod_eq_of_lt ha, Nat.mod_eq_of_lt hb] at this

theorem cast_eq_zero {a : Nat} (ha : a < 127) : (a : Fq) = 0 ↔ a = 0 := by
  constructor
  · intro h; exact cast_inj ha (by decide) (by simpa using h)
  · rintro rfl; simp

theorem natCast_val (x : Fq) : ((x.val : Nat) : Fq) = x := ZMod.natCast_zmod_val x

theorem fqInvLoop_cast (exp accum xlift : Nat) (ha : accum < 256) (hx : xlift < 256) :
    (fqInvLoop exp accum xlift : Fq) = (accum : Fq) * (xlift : Fq) ^ exp ∧
      fqInvLoop exp accum xlift < 256 := by
  induction exp using Nat.strongRecOn generalizing accum xlift with
  | _ exp ih =>
    unfold fqInvLoop
    by_cases h : exp = 0
    · simp [h, ha]
    · rw [dif_neg h]
      have hax : accum * xlift < 65536 :=
        lt_of_le_of_lt (Nat.mul_le_mul (by omega : accum ≤ 255) (by omega : xlift ≤ 255)) (by decide)
      have hxx : xlift * xlift < 65536 :=
        lt_of_le_of_lt (Nat.mul_le_mul (by omega : xlift ≤ 255) (by omega : xlift ≤ 255)) (by decide)
      have hs : exp >>> 1 = exp / 2 := by simp [Nat.shiftRight_eq_div_pow]
      have hl : exp &&& 1 = exp % 2 := by simp
      have r1 := fqRed_lt (accum * xlift)
      have r2 := fqRed_lt (xlift * xlift)
      rw [hs, hl]
      obtain ⟨e1, e2⟩ := ih (exp / 2) (by omega) (if exp % 2 ≠ 0 then fqRed (accum * xlift) else accum)
        (fqRed (xlift * xlift)) (by split <;> omega) (by omega)
      refine ⟨?_, e2⟩
      rw [e1, fqRed_cast _ hxx]
      by_cases hp : exp % 2 = 0
      · rw [if_neg (by simpa using hp)]
        obtain ⟨k, rfl⟩ : ∃ k, exp = 2 * k := ⟨exp / 2, by omega⟩
        have : 2 * k / 2 = k := by omega
        rw [this, pow_mul]; push_cast; ring
      · rw [if_pos (by simpa using hp), fqRed_cast _ hax]
        obtain ⟨k, rfl⟩ : ∃ k, exp = 2 * k + 1 := ⟨exp / 2, by omega⟩
        have : (2 * k + 1) / 2 = k := by omega
        rw [this, pow_succ, pow_mul]; push_cast; ring

theorem pow_card_sub_two (x : Fq) : x ^ 125 = x⁻¹ := by
  by_cases h : x = 0
  · subst h; simp
  · have h1 : x ^ 126 = 1 := by simpa using ZMod.pow_card_sub_one_eq_one (p := 127) h
    exact eq_inv_of_mul_eq_one_left (by rw [← pow_succ]; exact h1)

theorem fqInv_cast (x : Nat) (h : x < 256) : (fqInv x : Fq) = (x : Fq)⁻¹ := by
  unfold fqInv
  have hu : u8 x = x := Nat.mod_eq_of_lt h
  obtain ⟨h1, h2⟩ := fqInvLoop_cast (Q - 2) 1 (u8 x) (by decide) (by rw [hu]; exact h)
  rw [fqRed_cast _ (by omega), h1, hu, Nat.cast_one, one_mul]
  exact pow_card_sub_two _

theorem fqInv_lt (x : Nat) : fqInv x < 127 := fqRed_lt _

theorem fqInv_zero : fqInv 0 = 0 :=
  cast_inj (fqInv_lt 0) (by decide) (by rw [fqInv_cast 0 (by decide)]; simp)

theorem fqInv_pos {x : Nat} (h0 : x ≠ 0) (h : x < 127) : fqInv x ≠ 0 := by
  intro e
  have := fqInv_cast x (by omega)
  rw [e, Nat.cast_zero, eq_comm, inv_eq_zero, cast_eq_zero h] at this
  exact h0 this

theorem fqRed_of_lt {x : Nat} (h : x < 127) : fqRed x = x := by
  rw [fqRed_eq x (by omega), Nat.mod_eq_of_lt h]

theorem mul_lt_65536 {a b : Nat} (ha : a < 127) (hb : b < 127) : a * b < 65536 :=
  lt_of_le_of_lt (Nat.mul_le_mul (by omega : a ≤ 126) (by omega : b ≤ 126)) (by decide)

theorem fqRed_mul_cast {a b : Nat} (ha : a < 127) (hb : b < 127) : (fqRed (a * b) : Fq) = a * b := by
  rw [fqRed_cast _ (mul_lt_65536 ha hb)]; push_cast; rfl

end LESS
