import Mathlib.Data.Nat.Bitwise
import Verif.Spec.Bits
import Verif.Proofs.Params
import Verif.Model.Codes
/-!
# Bit packing: proofs
-/
namespace LESS

open Spec (bitField bitFields byteOf packed bitAt fieldAt)

/-- The number with given bits. -/
def natOfBits (w : Nat) (f : Nat → Bool) : Nat := ((List.range w).map fun b => if f b then 2 ^ b else 0).sum

theorem natOfBits_succ (w : Nat) (f : Nat → Bool) :
    natOfBits (w + 1) f = natOfBits w f + if f w then 2 ^ w else 0 := by
  simp [natOfBits, List.range_succ]

theorem natOfBits_lt (w : Nat) (f : Nat → Bool) : natOfBits w f < 2 ^ w := by
  induction w with
  | zero => simp [natOfBits]
  | succ w ih => rw [natOfBits_succ, Nat.pow_succ]; split <;> omega

theorem testBit_natOfBits (w : Nat) (f : Nat → Bool) (k : Nat) :
    (natOfBits w f).testBit k = (decide (k < w) && f k) := by
  induction w with
  | zero => simp [natOfBits]
  | succ w ih =>
    rw [natOfBits_succ]
    have hlt := natOfBits_lt w f
    by_cases hf : f w = true
    · rw [if_pos hf, Nat.add_comm]
      rcases Nat.lt_trichotomy k w with h | h | h
      · rw [Nat.testBit_two_pow_add_gt h, ih]
        simp [h, Nat.lt_succ_of_lt h]
      · subst h
        rw [Nat.testBit_two_pow_add_eq, ih]
        simp [hf]
      · have h2 : 2 ^ w + natOfBits w f < 2 ^ k := by
          have : 2 ^ (w + 1) ≤ 2 ^ k := Nat.pow_le_pow_right (by decide) h
          rw [Nat.pow_succ] at this; omega
        rw [Nat.testBit_lt_two_pow h2]
        have : ¬ k < w + 1 := by omega
        simp [this]
    · rw [if_neg hf, Nat.add_zero, ih]
      have hf' : f w = false := by simpa using hf
      by_cases hk : k = w
      · subst hk; simp [hf']
      · have : k < w + 1 ↔ k < w := by omega
        simp [this]

theorem natOfBits_testBit {w v : Nat} (h : v < 2 ^ w) : natOfBits w v.testBit = v := by
  apply Nat.eq_of_testBit_eq
  intro k
  rw [testBit_natOfBits]
  by_cases hk : k < w
  · simp [hk]
  · have : v < 2 ^ k := Nat.lt_of_lt_of_le h (Nat.pow_le_pow_right (by decide) (by omega))
    simp [Nat.testBit_lt_two_pow this]

theorem fieldAt_eq {n : Nat} (w : Nat) (buf : Vector UInt8 n) (pos : Nat) :
    fieldAt w buf pos = natOfBits w fun b => bitAt buf (pos + b) := rfl

theorem fieldAt_lt {n : Nat} (w : Nat) (buf : Vector UInt8 n) (pos : Nat) : fieldAt w buf pos < 2 ^ w :=
  natOfBits_lt _ _

theorem natOfBits_congr {w : Nat} {f f' : Nat → Bool} (h : ∀ b, b < w → f b = f' b) :
    natOfBits w f = natOfBits w f' := by
  apply Nat.eq_of_testBit_eq
  intro k
  rw [testBit_natOfBits, testBit_natOfBits]
  by_cases hk : k < w
  · simp [hk, h k hk]
  · simp [hk]

theorem byteOf_testBit (f : Nat → Bool) (k : Nat) : (byteOf f).toNat.testBit k = (decide (k < 8) && f k) := by
  have h := natOfBits_lt 8 f
  have : (byteOf f).toNat = natOfBits 8 f := by
    show (UInt8.ofNat (natOfBits 8 f)).toNat = _
    rw [UInt8.toNat_ofNat']
    exact Nat.mod_eq_of_lt h
  rw [this, testBit_natOfBits]

theorem bitAt_packed {n : Nat} (l : List Bool) (k : Nat) (h : k < 8 * n) : bitAt (packed n l) k = l.getD k false := by
  unfold bitAt packed
  rw [g_ofFn _ _ (by omega), byteOf_testBit]
  have h1 : k % 8 < 8 := Nat.mod_lt _ (by decide)
  have h2 : 8 * (k / 8) + k % 8 = k := Nat.div_add_mod k 8
  simp [h1, h2]

theorem bitAt_ext {n : Nat} {a b : Vector UInt8 n} (h : ∀ k, k < 8 * n → bitAt a k = bitAt b k) : a = b := by
  apply vec_ext
  intro i hi
  apply UInt8.toNat_inj.mp
  apply Nat.eq_of_testBit_eq
  intro j
  by_cases hj : j < 8
  · have := h (8 * i + j) (by omega)
    unfold bitAt at this
    rwa [show (8 * i + j) / 8 = i by omega, show (8 * i + j) % 8 = j by omega] at this
  · have e : ∀ x : UInt8, x.toNat.testBit j = false := by
      intro x
      apply Nat.testBit_lt_two_pow
      have : (2 : Nat) ^ 8 ≤ 2 ^ j := Nat.pow_le_pow_right (by decide) (by omega)
      have := x.toNat_lt
      omega
    rw [e, e]

/-! ## One field -/

/-- Buffer after storing a `w`-bit field (`w ≤ 16 - pos % 8`) at bit `pos`. -/
def packStep {n : Nat} (w v : Nat) (buf : Vector UInt8 n) (pos : Nat) : Vector UInt8 n :=
  let buf1 := upd buf (pos / 8)
    (UInt8.ofNat ((if pos % 8 = 0 then 0 else (g buf (pos / 8)).toNat) ||| (v <<< (pos % 8))))
  if 8 < pos % 8 + w then upd buf1 (pos / 8 + 1) (UInt8.ofNat (v >>> (8 - pos % 8))) else buf1

/-- The number the decoders compute at bit `pos`. -/
def unpackStep {n : Nat} (w : Nat) (buf : Vector UInt8 n) (pos : Nat) : Nat :=
  (if 8 < pos % 8 + w then
    ((g buf (pos / 8)).toNat >>> (pos % 8)) ||| ((g buf (pos / 8 + 1)).toNat <<< (8 - pos % 8))
  else (g buf (pos / 8)).toNat >>> (pos % 8)) &&& (2 ^ w - 1)

/-- The bits `l`, followed by zeros up to the next byte boundary, are stored at the start of `buf`. -/
def Packed {n : Nat} (buf : Vector UInt8 n) (l : List Bool) : Prop :=
  ∀ k, k < 8 * ((l.length + 7) / 8) → bitAt buf k = l.getD k false

theorem testBit_ofNat8 (x k : Nat) : (UInt8.ofNat x).toNat.testBit k = (decide (k < 8) && x.testBit k) := by
  rw [UInt8.toNat_ofNat', Nat.testBit_mod_two_pow]

theorem bitField_length (w v : Nat) : (bitField w v).length = w := by simp [bitField]

theorem getD_bitField (w v k : Nat) : (bitField w v).getD k false = (decide (k < w) && v.testBit k) := by
  by_cases h : k < w
  · simp [bitField, List.getD, h]
  · simp [bitField, List.getD, h]

theorem getD_append_bitField (l : List Bool) (w v k : Nat) :
    (l ++ bitField w v).getD k false =
      if k < l.length then l.getD k false else (decide (k - l.length < w) && v.testBit (k - l.length)) := by
  by_cases h : k < l.length
  · rw [if_pos h, List.getD_append _ _ _ _ h]
  · rw [if_neg h, ← getD_bitField, List.getD_append_right _ _ _ _ (by omega)]

theorem Packed.step {n w v : Nat} {buf : Vector UInt8 n} {l : List Bool} (h : Packed buf l) (hv : v < 2 ^ w)
    (hw : 1 ≤ w) (hw' : l.length % 8 + w ≤ 16) (hn : l.length + w ≤ 8 * n) :
    Packed (packStep w v buf l.length) (l ++ bitField w v) := by
  intro k hk
  rw [List.length_append, bitField_length] at hk
  rw [getD_append_bitField]
  have hvbit : ∀ j, w ≤ j → v.testBit j = false := fun j hj =>
    Nat.testBit_lt_two_pow (Nat.lt_of_lt_of_le hv (Nat.pow_le_pow_right (by decide) hj))
  have hdec : ∀ j, (decide (j < w) && v.testBit j) = v.testBit j := by
    intro j
    by_cases hj : j < w
    · simp [hj]
    · simp [hj, hvbit j (by omega)]
  rw [hdec]
  have hlt : k % 8 < 8 := Nat.mod_lt _ (by decide)
  have hi : l.length / 8 < n := by omega
  -- the first byte
  have first : k / 8 = l.length / 8 →
      (UInt8.ofNat ((if l.length % 8 = 0 then 0 else (g buf (l.length / 8)).toNat) |||
        (v <<< (l.length % 8)))).toNat.testBit (k % 8)
      = if k < l.length then l.getD k false else v.testBit (k - l.length) := by
    intro hb
    rw [testBit_ofNat8, Nat.testBit_or, Nat.testBit_shiftLeft]
    by_cases h0 : l.length % 8 = 0
    · have hkl : ¬ k < l.length := by omega
      rw [if_pos h0, h0, if_neg hkl]
      simp [hlt, show k - l.length = k % 8 by omega]
    · rw [if_neg h0]
      have hbit := h k (by omega)
      unfold bitAt at hbit
      rw [hb] at hbit
      rw [hbit]
      by_cases hkl : k < l.length
      · have : ¬ l.length % 8 ≤ k % 8 := by omega
        simp [hlt, hkl, this]
      · have h1 : l.length % 8 ≤ k % 8 := by omega
        have h2 : l.getD k false = false := by simp [List.getD, hkl]
        rw [h2, if_neg hkl]
        simp [hlt, h1, show k - l.length = k % 8 - l.length % 8 by omega]
  unfold packStep
  simp only
  by_cases h8 : 8 < l.length % 8 + w
  · rw [if_pos h8]
    have hi1 : l.length / 8 + 1 < n := by omega
    unfold bitAt
    rw [g_upd _ _ _ _ hi1]
    by_cases hk1 : l.length / 8 + 1 = k / 8
    · rw [if_pos hk1, testBit_ofNat8, Nat.testBit_shiftRight, if_neg (by omega)]
      simp [hlt, show k - l.length = 8 - l.length % 8 + k % 8 by omega]
    · rw [if_neg hk1, g_upd _ _ _ _ hi]
      by_cases hk2 : l.length / 8 = k / 8
      · rw [if_pos hk2]; exact first hk2.symm
      · rw [if_neg hk2, if_pos (by omega)]
        exact h k (by omega)
  · rw [if_neg h8]
    unfold bitAt
    rw [g_upd _ _ _ _ hi]
    by_cases hk2 : l.length / 8 = k / 8
    · rw [if_pos hk2]; exact first hk2.symm
    · rw [if_neg hk2, if_pos (by omega)]
      exact h k (by omega)

theorem unpackStep_eq {n w : Nat} (buf : Vector UInt8 n) (pos : Nat) (hw' : pos % 8 + w ≤ 16)
    : unpackStep w buf pos = fieldAt w buf pos := by
  apply Nat.eq_of_testBit_eq
  intro k
  rw [fieldAt_eq, testBit_natOfBits]
  unfold unpackStep
  rw [Nat.testBit_and, Nat.testBit_two_pow_sub_one]
  by_cases hk : k < w
  · simp only [hk, decide_true, Bool.and_true, Bool.true_and]
    unfold bitAt
    by_cases h8 : 8 < pos % 8 + w
    · rw [if_pos h8, Nat.testBit_or, Nat.testBit_shiftRight, Nat.testBit_shiftLeft]
      by_cases hlt : pos % 8 + k < 8
      · have : ¬ 8 - pos % 8 ≤ k := by omega
        rw [show (pos + k) / 8 = pos / 8 by omega, show (pos + k) % 8 = pos % 8 + k by omega]
        simp [this]
      · have h1 : (g buf (pos / 8)).toNat.testBit (pos % 8 + k) = false := by
          apply Nat.testBit_lt_two_pow
          have : (2 : Nat) ^ 8 ≤ 2 ^ (pos % 8 + k) := Nat.pow_le_pow_right (by decide) (by omega)
          have := (g buf (pos / 8)).toNat_lt
          omega
        rw [h1, show (pos + k) / 8 = pos / 8 + 1 by omega, show (pos + k) % 8 = k - (8 - pos % 8) by omega]
        simp [show 8 - pos % 8 ≤ k by omega]
    · rw [if_neg h8, Nat.testBit_shiftRight, show (pos + k) / 8 = pos / 8 by omega,
        show (pos + k) % 8 = pos % 8 + k by omega]
  · simp [hk]

/-! ## The encoder and decoder steps of the C code -/

/-- `encode_state` of the 7-bit code at bit offset `o` of a byte. -/
def st7 (o : Nat) : Nat := (8 - o) % 8

theorem wrB_ok {n : Nat} (a : Vector UInt8 n) (i x : Nat) (h : i < n) : wrB a i x = .ok (upd a i (UInt8.ofNat x)) := by
  simp [wrB, wr, upd, h]

theorem rdB_ok {n : Nat} (a : Vector UInt8 n) (i : Nat) (h : i < n) : rdB a i = .ok (g a i).toNat := by
  simp only [rdB, rd, h, dite_true, g]
  rfl

theorem bind_ok {α β : Type} (a : α) (f : α → C β) : ((.ok a : C α) >>= f) = f a := rfl

theorem pure_ok {α : Type} (a : α) : (pure a : C α) = .ok a := rfl

theorem mod8_cases (pos : Nat) : pos % 8 = 0 ∨ pos % 8 = 1 ∨ pos % 8 = 2 ∨ pos % 8 = 3 ∨ pos % 8 = 4 ∨
    pos % 8 = 5 ∨ pos % 8 = 6 ∨ pos % 8 = 7 := by omega

theorem enc7_ok {n : Nat} (v : Nat) (buf : Vector UInt8 n) (pos : Nat) (hn : pos + 7 ≤ 8 * n) :
    enc7 v ⟨buf, pos / 8, st7 (pos % 8)⟩ =
      .ok ⟨packStep 7 v buf pos, (pos + 7) / 8, st7 ((pos + 7) % 8)⟩ := by
  have hi : pos / 8 < n := by omega
  rcases mod8_cases pos with h|h|h|h|h|h|h|h <;> unfold enc7 packStep st7 <;> rw [h]
  · simp [wrB_ok, hi, bind_ok, pure_ok, show (pos + 7) / 8 = pos / 8 by omega, show (pos + 7) % 8 = 7 by omega]
  · simp [wrB_ok, rdB_ok, hi, bind_ok, pure_ok, show (pos + 7) / 8 = pos / 8 + 1 by omega,
      show (pos + 7) % 8 = 0 by omega]
  · simp [wrB_ok, rdB_ok, hi, bind_ok, pure_ok, show pos / 8 + 1 < n by omega,
      show (pos + 7) / 8 = pos / 8 + 1 by omega, show (pos + 7) % 8 = 1 by omega]
  · simp [wrB_ok, rdB_ok, hi, bind_ok, pure_ok, show pos / 8 + 1 < n by omega,
      show (pos + 7) / 8 = pos / 8 + 1 by omega, show (pos + 7) % 8 = 2 by omega]
  · simp [wrB_ok, rdB_ok, hi, bind_ok, pure_ok, show pos / 8 + 1 < n by omega,
      show (pos + 7) / 8 = pos / 8 + 1 by omega, show (pos + 7) % 8 = 3 by omega]
  · simp [wrB_ok, rdB_ok, hi, bind_ok, pure_ok, show pos / 8 + 1 < n by omega,
      show (pos + 7) / 8 = pos / 8 + 1 by omega, show (pos + 7) % 8 = 4 by omega]
  · simp [wrB_ok, rdB_ok, hi, bind_ok, pure_ok, show pos / 8 + 1 < n by omega,
      show (pos + 7) / 8 = pos / 8 + 1 by omega, show (pos + 7) % 8 = 5 by omega]
  · simp [wrB_ok, rdB_ok, hi, bind_ok, pure_ok, show pos / 8 + 1 < n by omega,
      show (pos + 7) / 8 = pos / 8 + 1 by omega, show (pos + 7) % 8 = 6 by omega]

theorem enc9_ok {n : Nat} (v : Nat) (buf : Vector UInt8 n) (pos : Nat) (hn : pos + 9 ≤ 8 * n) :
    enc9 v ⟨buf, pos / 8, pos % 8⟩ = .ok ⟨packStep 9 v buf pos, (pos + 9) / 8, (pos + 9) % 8⟩ := by
  have hi : pos / 8 < n := by omega
  have hi' : pos / 8 + 1 < n := by omega
  rcases mod8_cases pos with h|h|h|h|h|h|h|h <;> unfold enc9 packStep <;> rw [h]
  all_goals simp [wrB_ok, rdB_ok, hi, hi', bind_ok, pure_ok]
  all_goals omega

theorem enc10_ok {n : Nat} (v : Nat) (buf : Vector UInt8 n) (pos : Nat) (h2 : pos % 2 = 0)
    (hn : pos + 10 ≤ 8 * n) :
    enc10 v ⟨buf, pos / 8, pos % 8 / 2⟩ = .ok ⟨packStep 10 v buf pos, (pos + 10) / 8, (pos + 10) % 8 / 2⟩ := by
  have hi : pos / 8 < n := by omega
  have hi' : pos / 8 + 1 < n := by omega
  have : pos % 8 = 0 ∨ pos % 8 = 2 ∨ pos % 8 = 4 ∨ pos % 8 = 6 := by omega
  rcases this with h|h|h|h <;> unfold enc10 packStep <;> rw [h]
  all_goals simp [wrB_ok, rdB_ok, hi, hi', bind_ok, pure_ok]
  all_goals omega

theorem dec7_ok {n : Nat} (buf : Vector UInt8 n) (pos : Nat) (hn : pos + 7 ≤ 8 * n) :
    dec7 buf (pos / 8) (st7 (pos % 8)) = .ok (fieldAt 7 buf pos, (pos + 7) / 8, st7 ((pos + 7) % 8)) := by
  rw [← unpackStep_eq _ _ (by omega)]
  have hi : pos / 8 < n := by omega
  rcases mod8_cases pos with h|h|h|h|h|h|h|h <;> unfold dec7 unpackStep st7 <;> rw [h, maskQ_eq]
  · simp [rdB_ok, hi, bind_ok, pure_ok, show (pos + 7) / 8 = pos / 8 by omega, show (pos + 7) % 8 = 7 by omega]
  · simp [rdB_ok, hi, bind_ok, pure_ok, show (pos + 7) / 8 = pos / 8 + 1 by omega,
      show (pos + 7) % 8 = 0 by omega]
  · simp [rdB_ok, hi, bind_ok, pure_ok, show pos / 8 + 1 < n by omega,
      show (pos + 7) / 8 = pos / 8 + 1 by omega, show (pos + 7) % 8 = 1 by omega]
  · simp [rdB_ok, hi, bind_ok, pure_ok, show pos / 8 + 1 < n by omega,
      show (pos + 7) / 8 = pos / 8 + 1 by omega, show (pos + 7) % 8 = 2 by omega]
  · simp [rdB_ok, hi, bind_ok, pure_ok, show pos / 8 + 1 < n by omega,
      show (pos + 7) / 8 = pos / 8 + 1 by omega, show (pos + 7) % 8 = 3 by omega]
  · simp [rdB_ok, hi, bind_ok, pure_ok, show pos / 8 + 1 < n by omega,
      show (pos + 7) / 8 = pos / 8 + 1 by omega, show (pos + 7) % 8 = 4 by omega]
  · simp [rdB_ok, hi, bind_ok, pure_ok, show pos / 8 + 1 < n by omega,
      show (pos + 7) / 8 = pos / 8 + 1 by omega, show (pos + 7) % 8 = 5 by omega]
  · simp [rdB_ok, hi, bind_ok, pure_ok, show pos / 8 + 1 < n by omega,
      show (pos + 7) / 8 = pos / 8 + 1 by omega, show (pos + 7) % 8 = 6 by omega]

theorem dec9_ok {n : Nat} (buf : Vector UInt8 n) (pos : Nat) (hn : pos + 9 ≤ 8 * n) :
    dec9 511 buf (pos / 8) (pos % 8) = .ok (fieldAt 9 buf pos, (pos + 9) / 8, (pos + 9) % 8) := by
  rw [← unpackStep_eq _ _ (by omega)]
  have hi : pos / 8 < n := by omega
  have hi' : pos / 8 + 1 < n := by omega
  rcases mod8_cases pos with h|h|h|h|h|h|h|h <;> unfold dec9 unpackStep <;> rw [h]
  all_goals simp [rdB_ok, hi, hi', bind_ok, pure_ok]
  all_goals omega

theorem dec10_ok {n : Nat} (buf : Vector UInt8 n) (pos : Nat) (h2 : pos % 2 = 0) (hn : pos + 10 ≤ 8 * n) :
    dec10 1023 buf (pos / 8) (pos % 8 / 2) = .ok (fieldAt 10 buf pos, (pos + 10) / 8, (pos + 10) % 8 / 2) := by
  rw [← unpackStep_eq _ _ (by omega)]
  have hi : pos / 8 < n := by omega
  have hi' : pos / 8 + 1 < n := by omega
  have : pos % 8 = 0 ∨ pos % 8 = 2 ∨ pos % 8 = 4 ∨ pos % 8 = 6 := by omega
  rcases this with h|h|h|h <;> unfold dec10 unpackStep <;> rw [h]
  all_goals simp [rdB_ok, hi, hi', bind_ok, pure_ok]
  all_goals omega

theorem Packed.eq_packed {n : Nat} {buf : Vector UInt8 n} {l : List Bool} (h : Packed buf l)
    (hn : n ≤ (l.length + 7) / 8) : buf = packed n l := by
  apply bitAt_ext
  intro k hk
  rw [bitAt_packed _ _ hk]
  exact h k (by omega)

/-- Reading a field back. -/
theorem fieldAt_of_getD {n w v pos : Nat} {buf : Vector UInt8 n} (hv : v < 2 ^ w)
    (h : ∀ b, b < w → bitAt buf (pos + b) = v.testBit b) : fieldAt w buf pos = v := by
  rw [fieldAt_eq, natOfBits_congr h, natOfBits_testBit hv]

theorem bitFields_length (w : Nat) (vs : List Nat) : (bitFields w vs).length = w * vs.length := by
  induction vs with
  | nil => simp [bitFields]
  | cons v vs ih =>
    simp only [bitFields, List.flatMap_cons, List.length_append, bitField_length] at *
    rw [ih]; simp [Nat.mul_succ, Nat.add_comm]

theorem bitFields_append (w : Nat) (vs : List Nat) (v : Nat) :
    bitFields w (vs ++ [v]) = bitFields w vs ++ bitField w v := by
  simp [bitFields]

theorem getD_bitFields (w : Nat) (vs : List Nat) (i b : Nat) (hi : i < vs.length) (hb : b < w) :
    (bitFields w vs).getD (w * i + b) false = (vs[i]).testBit b := by
  induction vs generalizing i with
  | nil => simp at hi
  | cons v vs ih =>
    simp only [bitFields, List.flatMap_cons]
    cases i with
    | zero =>
      have : (bitField w v ++ List.flatMap (bitField w) vs).getD (w * 0 + b) false
          = (bitField w v).getD (w * 0 + b) false := by
        rw [List.getD_append]; simpa [bitField_length] using hb
      rw [this, getD_bitField]; simp [hb]
    | succ i =>
      rw [List.getD_append_right _ _ _ _ (by rw [bitField_length, Nat.mul_succ]; omega), bitField_length]
      rw [show w * (i + 1) + b - w = w * i + b by rw [Nat.mul_succ]; omega]
      exact ih i (by simpa using hi)

end LESS
