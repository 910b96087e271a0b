import Mathlib.Data.List.GetD
import Verif.Proofs.Sponge
import Verif.Proofs.KeccakF
/-!
# The sponge functions follow FIPS 202
-/
namespace LESS
open Spec (bits StateString)

/-! ## Bits of bytes -/

theorem bits_append (a b : Bytes) : bits (a ++ b) = bits a ++ bits b := by simp [bits]

theorem bits_cons (b : UInt8) (m : Bytes) :
    bits (b :: m) = ((List.range 8).map fun k => b.toNat.testBit k) ++ bits m := rfl

theorem bits_length (m : Bytes) : (bits m).length = 8 * m.length := by
  induction m with
  | nil => rfl
  | cons b m ih => rw [bits_cons, List.length_append, ih]; simp; omega

theorem bits_getD (m : Bytes) (j : Nat) : (bits m).getD j false = (m.getD (j / 8) 0).toNat.testBit (j % 8) := by
  induction m generalizing j with
  | nil => simp [bits]
  | cons b m ih =>
    rw [bits_cons]
    by_cases h : j < 8
    · rw [List.getD_eq_getElem?_getD, List.getElem?_append_left (by simpa using h)]
      have h0 : j / 8 = 0 := by omega
      have h1 : j % 8 = j := by omega
      rw [h0, h1]
      simp [h]
    · rw [List.getD_eq_getElem?_getD, List.getElem?_append_right (by simp; omega), ← List.getD_eq_getElem?_getD]
      simp only [List.length_map, List.length_range]
      rw [ih]
      obtain ⟨k, hk⟩ : ∃ k, j / 8 = k + 1 := ⟨j / 8 - 1, by omega⟩
      rw [hk, show (j - 8) / 8 = k by omega, show (j - 8) % 8 = j % 8 by omega]
      simp

theorem list_ext_getD {l l' : List Bool} (hl : l.length = l'.length) (h : ∀ i, i < l.length → l.getD i false = l'.getD i false) :
    l = l' := by
  apply List.ext_getElem hl
  intro i h1 h2
  have := h i h1
  rwa [List.getD_eq_getElem _ _ h1, List.getD_eq_getElem _ _ h2] at this

theorem bits_take (m : Bytes) (n : Nat) : bits (m.take n) = (bits m).take (8 * n) := by
  by_cases hn : n ≤ m.length
  · conv => rhs; rw [← List.take_append_drop n m, bits_append]
    rw [List.take_left']
    rw [bits_length, List.length_take, Nat.min_eq_left hn]
  · rw [List.take_of_length_le (by omega), List.take_of_length_le (by rw [bits_length]; omega)]

theorem bits_drop (m : Bytes) (n : Nat) : bits (m.drop n) = (bits m).drop (8 * n) := by
  by_cases hn : n ≤ m.length
  · conv => rhs; rw [← List.take_append_drop n m, bits_append]
    rw [List.drop_left']
    rw [bits_length, List.length_take, Nat.min_eq_left hn]
  · rw [List.drop_of_length_le (by omega), List.drop_of_length_le (by rw [bits_length]; omega)]; rfl

theorem bits_inj {a b : Bytes} (h : bits a = bits b) : a = b := by
  have hl : a.length = b.length := by
    have := congrArg List.length h
    rw [bits_length, bits_length] at this; omega
  apply List.ext_getElem hl
  intro i h1 h2
  apply UInt8.toNat_inj.mp
  apply Nat.eq_of_testBit_eq
  intro k
  by_cases hk : k < 8
  · have := congrArg (fun l => l.getD (8 * i + k) false) h
    simp only [bits_getD] at this
    rw [show (8 * i + k) / 8 = i by omega, show (8 * i + k) % 8 = k by omega,
      List.getD_eq_getElem _ _ h1, List.getD_eq_getElem _ _ h2] at this
    exact this
  · have h3 : ∀ x : UInt8, x.toNat.testBit k = false := by
      intro x
      apply Nat.testBit_lt_two_pow
      have := x.toNat_lt
      have : 2 ^ 8 ≤ 2 ^ k := Nat.pow_le_pow_right (by decide) (by omega)
      omega
    rw [h3, h3]

/-! ## The state as a bit string -/

/-- The bit string of a state. -/
def strOf (s : Lanes) : StateString := fun i => wbit (g s (i.val / 64)) ⟨i.val % 64, by omega⟩

theorem toArray_strOf (s : Lanes) : Spec.toArray (strOf s) = arrayOf s := by
  funext x y z
  simp only [Spec.toArray, strOf, arrayOf, laneAt]
  have h1 : (64 * (5 * y.val + x.val) + z.val) / 64 = 5 * y.val + x.val := by omega
  have h2 : (64 * (5 * y.val + x.val) + z.val) % 64 = z.val := by omega
  rw [g_eq_getElem _ _ (by omega)]
  congr 1
  · simp only [h1]
  · exact Fin.ext h2

theorem toStr_arrayOf (s : Lanes) : Spec.toStr (arrayOf s) = strOf s := by
  funext i
  simp only [Spec.toStr, strOf, arrayOf, laneAt]
  have h1 : 5 * (i.val / 320) + i.val / 64 % 5 = i.val / 64 := by omega
  rw [g_eq_getElem _ _ (by omega)]
  simp only [h1]

theorem strOf_permute (s : Lanes) : strOf (permute s) = Spec.keccakFStr (strOf s) := by
  rw [Spec.keccakFStr, toArray_strOf, ← arrayOf_permute, toStr_arrayOf]

theorem wbit_byte (b : UInt8) (k : Nat) (hk : k < 8) (z : Fin 64) :
    wbit (b.toUInt64 <<< (8 * k).toUInt64) z = (decide (z.val / 8 = k) && b.toNat.testBit (z.val % 8)) := by
  have hz := z.2
  have e1 : ((8 * k).toUInt64).toBitVec.toNat = 8 * k := by simp [Nat.toUInt64]; omega
  unfold wbit
  rw [UInt64.toBitVec_shiftLeft, BitVec.shiftLeft_eq', BitVec.getLsbD_shiftLeft, BitVec.toNat_umod, e1]
  simp only [show (64 : BitVec 64).toNat = 64 from rfl]
  rw [Nat.mod_eq_of_lt (show 8 * k < 64 by omega)]
  have hb : ∀ n, (b.toUInt64.toBitVec).getLsbD n = b.toNat.testBit n := by
    intro n
    rw [← BitVec.testBit_toNat]
    simp
  rw [hb]
  by_cases h1 : z.val / 8 = k
  · have h2 : z.val - 8 * k = z.val % 8 := by omega
    have h3 : ¬ z.val < 8 * k := by omega
    simp [h1, h2, h3]
  · by_cases h2 : z.val < 8 * k
    · simp [h1, h2]
    · have : b.toNat.testBit (z.val - 8 * k) = false := by
        apply Nat.testBit_lt_two_pow
        have := b.toNat_lt
        have : 2 ^ 8 ≤ 2 ^ (z.val - 8 * k) := Nat.pow_le_pow_right (by decide) (by omega)
        omega
      simp [h1, this]

theorem strOf_xor1 (s : Lanes) (b : UInt8) (off : Nat) (i : Fin 1600) :
    strOf (xorBytes s [b] off) i = (strOf s i ^^ (decide (i.val / 8 = off) && b.toNat.testBit (i.val % 8))) := by
  simp only [xorBytes, strOf]
  have h3 : off >>> 3 = off / 8 := by rw [Nat.shiftRight_eq_div_pow]
  have h7 : off &&& 7 = off % 8 := Nat.and_two_pow_sub_one_eq_mod off 3
  rw [h3, h7]
  have hi := i.2
  by_cases ho : off / 8 < 25
  · rw [g_upd _ _ _ _ ho]
    by_cases e : off / 8 = i.val / 64
    · rw [if_pos e, e, wbit_xor, wbit_byte _ _ (by omega)]
      simp only
      congr 2
      · have : (i.val % 64 / 8 = off % 8) ↔ (i.val / 8 = off) := by omega
        simp [this]
      · congr 1; omega
    · rw [if_neg e]
      have : ¬ i.val / 8 = off := by omega
      simp [this]
  · rw [show upd s (off / 8) _ = s by unfold upd; rw [dif_neg ho]]
    have : ¬ i.val / 8 = off := by omega
    simp [this]

theorem strOf_xorBytes (s : Lanes) (m : Bytes) (off : Nat) (i : Fin 1600) :
    strOf (xorBytes s m off) i = (strOf s i ^^
      (decide (off ≤ i.val / 8) && (m.getD (i.val / 8 - off) 0).toNat.testBit (i.val % 8))) := by
  induction m generalizing s off with
  | nil => simp [xorBytes]
  | cons b m ih =>
    rw [show b :: m = [b] ++ m from rfl, xorBytes_append, ih, strOf_xor1]
    simp only [List.length_singleton]
    by_cases h : i.val / 8 = off
    · have h1 : ¬ off + 1 ≤ i.val / 8 := by omega
      rw [decide_eq_false h1]; simp [h]
    · by_cases h2 : off + 1 ≤ i.val / 8
      · obtain ⟨k, hk⟩ : ∃ k, i.val / 8 - off = k + 1 := ⟨i.val / 8 - off - 1, by omega⟩
        have h3 : i.val / 8 - (off + 1) = k := by omega
        have h4 : off ≤ i.val / 8 := by omega
        simp [h, h2, h3, h4, hk]
      · have h4 : ¬ off ≤ i.val / 8 := by omega
        simp [h, h2, h4]

theorem strOf_xorBlock (s : Lanes) (m : Bytes) : strOf (xorBytes s m 0) = Spec.xorBlock (strOf s) (bits m) := by
  funext i
  rw [strOf_xorBytes, Spec.xorBlock, bits_getD]
  simp

theorem strOf_zero : strOf (Vector.replicate 25 0) = fun _ => false := by
  funext i
  rw [strOf, g_replicate _ _ (by omega)]
  simp [wbit]

theorem strOf_inj {s t : Lanes} (h : strOf s = strOf t) : s = t := by
  apply Vector.ext
  intro i hi
  apply UInt64.toBitVec_inj.mp
  apply BitVec.eq_of_getLsbD_eq
  intro z hz
  have := congrFun h ⟨64 * i + z, by omega⟩
  simp only [strOf, wbit] at this
  have h1 : (64 * i + z) / 64 = i := by omega
  have h2 : (64 * i + z) % 64 = z := by omega
  rw [h1, h2, g_eq_getElem _ _ hi, g_eq_getElem _ _ hi] at this
  exact this

theorem extract_bits (s : Lanes) (n : Nat) (hn : n ≤ 200) :
    bits (extractBytes s 0 n) = Spec.truncate (8 * n) (strOf s) := by
  apply list_ext_getD
  · rw [bits_length, extractBytes_length, Spec.truncate, List.length_take, List.length_map, List.length_finRange]; omega
  · intro i hi
    rw [bits_length, extractBytes_length] at hi
    rw [bits_getD, Spec.truncate]
    have h1 : i / 8 < n := by omega
    have : (extractBytes s 0 n).getD (i / 8) 0 = (g s ((i / 8) / 8) >>> (8 * ((i / 8) % 8)).toUInt64).toUInt8 := by
      unfold extractBytes
      have h7 : (i / 8) &&& 7 = (i / 8) % 8 := Nat.and_two_pow_sub_one_eq_mod _ 3
      simp only [List.getD_eq_getElem?_getD, List.getElem?_map, List.getElem?_range h1, Option.map_some,
        Option.getD_some, Nat.zero_add, Nat.shiftRight_eq_div_pow, h7]
    rw [this, List.getD_eq_getElem?_getD, List.getElem?_take, if_pos (by omega)]
    have hf : (List.finRange 1600)[i]? = some ⟨i, by omega⟩ := by
      rw [List.getElem?_eq_getElem (by simp; omega)]; simp
    rw [List.getElem?_map, hf]
    simp only [Option.map_some, Option.getD_some, strOf, wbit]
    rw [show i / 8 / 8 = i / 64 by omega]
    have hk : 8 * ((i / 8) % 8) < 64 := by omega
    have e1 : ((8 * ((i / 8) % 8)).toUInt64).toBitVec.toNat = 8 * ((i / 8) % 8) := by simp [Nat.toUInt64]; omega
    rw [UInt64.toNat_toUInt8]
    have : ∀ w : UInt64, ((w >>> (8 * ((i / 8) % 8)).toUInt64).toNat % 2 ^ 8).testBit (i % 8) =
        w.toBitVec.getLsbD (i % 64) := by
      intro w
      rw [Nat.testBit_mod_two_pow]
      rw [show (w >>> (8 * ((i / 8) % 8)).toUInt64).toNat = (w >>> (8 * ((i / 8) % 8)).toUInt64).toBitVec.toNat from rfl,
        BitVec.testBit_toNat, UInt64.toBitVec_shiftRight, BitVec.ushiftRight_eq', BitVec.getLsbD_ushiftRight,
        BitVec.toNat_umod, e1]
      simp only [show (64 : BitVec 64).toNat = 64 from rfl]
      rw [Nat.mod_eq_of_lt hk, show 8 * (i / 8 % 8) + i % 8 = i % 64 by omega]
      have : i % 8 < 8 := by omega
      simp [this]
    rw [this]

/-! ## Padding -/

/-- Padding in bytes, `d` is the domain byte. -/
def padBytes (r n : Nat) (d : UInt8) : Bytes :=
  if n % r = r - 1 then [d ||| 128] else d :: (List.replicate (r - n % r - 2) 0 ++ [128])

theorem bits_replicate_zero (k : Nat) : bits (List.replicate k 0) = List.replicate (8 * k) false := by
  induction k with
  | zero => rfl
  | succ k ih =>
    rw [List.replicate_succ, bits_cons, ih, show 8 * (k + 1) = 8 + 8 * k by omega, ← List.replicate_append_replicate]
    rfl

theorem pad_eq (r n k : Nat) (d : UInt8) (suffix : List Bool) (hr : 0 < r) (hk : suffix.length = k) (hk6 : k ≤ 6)
    (h1 : bits [d] = suffix ++ [true] ++ List.replicate (7 - k) false)
    (h2 : bits [d ||| 128] = suffix ++ [true] ++ List.replicate (6 - k) false ++ [true]) :
    bits (padBytes r n d) = suffix ++ Spec.pad101 (8 * r) (8 * n + k) := by
  have hmod : 8 * n % (8 * r) = 8 * (n % r) := Nat.mul_mod_mul_left 8 n r
  have hlt := Nat.mod_lt n hr
  unfold padBytes Spec.pad101
  by_cases e : n % r = r - 1
  · rw [if_pos e, h2]
    have : (8 * r - (8 * n + k + 2) % (8 * r)) % (8 * r) = 6 - k := by
      have hm : (8 * n + k + 2) % (8 * r) = (8 * (r - 1) + (k + 2)) % (8 * r) := by
        rw [show 8 * n + k + 2 = 8 * n + (k + 2) by omega, Nat.add_mod, hmod, e, Nat.add_mod_mod]
      rw [hm]
      by_cases h8 : k = 6
      · subst h8
        rw [show 8 * (r - 1) + (6 + 2) = 8 * r by omega]; simp
      · rw [Nat.mod_eq_of_lt (show 8 * (r - 1) + (k + 2) < 8 * r by omega), Nat.mod_eq_of_lt (by omega)]; omega
    rw [this]; simp
  · rw [if_neg e]
    have : (8 * r - (8 * n + k + 2) % (8 * r)) % (8 * r) = (7 - k) + (8 * (r - n % r - 2) + 7) := by
      have hm : (8 * n + k + 2) % (8 * r) = 8 * (n % r) + (k + 2) := by
        rw [show 8 * n + k + 2 = 8 * n + (k + 2) by omega, Nat.add_mod, hmod, Nat.add_mod_mod,
          Nat.mod_eq_of_lt (by omega)]
      rw [hm, Nat.mod_eq_of_lt (by omega)]; omega
    rw [this, ← List.replicate_append_replicate, ← List.replicate_append_replicate, show d :: (List.replicate (r - n % r - 2) 0 ++ [128]) =
      [d] ++ (List.replicate (r - n % r - 2) 0 ++ [128]) from rfl, bits_append, bits_append, h1, bits_replicate_zero]
    simp only [List.append_assoc, List.cons_append, List.nil_append]
    rfl

/-! ## Absorbing -/

/-- Absorb whole blocks. -/
def absorbBlocks (r : Nat) (s : Lanes) (P : Bytes) : Lanes :=
  if h : P = [] ∨ r = 0 then s
  else absorbBlocks r (permute (xorBytes s (P.take r) 0)) (P.drop r)
termination_by P.length
decreasing_by
  simp only [not_or] at h
  rw [List.length_drop]
  have : P.length ≠ 0 := fun e => h.1 (List.length_eq_zero_iff.mp e)
  omega

theorem absorbBlocks_bits (r : Nat) (s : Lanes) (P : Bytes) :
    strOf (absorbBlocks r s P) = Spec.absorbBits (8 * r) (strOf s) (bits P) := by
  induction hn : P.length using Nat.strongRecOn generalizing s P with
  | _ n ih =>
    subst hn
    rw [absorbBlocks, Spec.absorbBits]
    have hiff : (bits P = [] ∨ 8 * r = 0) ↔ (P = [] ∨ r = 0) := by
      have h1 : bits P = [] ↔ P = [] := by
        rw [← List.length_eq_zero_iff, ← List.length_eq_zero_iff, bits_length]; omega
      rw [h1]; constructor <;> (rintro (h | h) <;> first | exact Or.inl h | exact Or.inr (by omega))
    by_cases h : P = [] ∨ r = 0
    · rw [dif_pos h, dif_pos (hiff.mpr h)]
    · rw [dif_neg h, dif_neg (fun e => h (hiff.mp e))]
      have hl : (P.drop r).length < P.length := by
        simp only [not_or] at h
        rw [List.length_drop]
        have : P.length ≠ 0 := fun e => h.1 (List.length_eq_zero_iff.mp e)
        omega
      rw [ih _ hl _ _ rfl, strOf_permute, strOf_xorBlock, bits_take, bits_drop]

theorem xorBytes_zeros (s : Lanes) (k off : Nat) : xorBytes s (List.replicate k 0) off = s := by
  apply strOf_inj
  funext i
  rw [strOf_xorBytes]
  have : ((List.replicate k (0 : UInt8)).getD (i.val / 8 - off) 0) = 0 := by
    rw [List.getD_eq_getElem?_getD, List.getElem?_replicate]
    split <;> rfl
  rw [this]; simp

theorem finalize_eq (r : Nat) (d : UInt8) (s : Lanes) (m : Bytes) (hr : 0 < r) :
    permute (incFinalize r d (incAbsorb r ⟨s, 0⟩ m)).s = absorbBlocks r s (m ++ padBytes r m.length d) := by
  induction hn : m.length using Nat.strongRecOn generalizing s m with
  | _ n ih =>
    subst hn
    rw [incAbsorb, absorbBlocks]
    have hne : ¬ (m ++ padBytes r m.length d = [] ∨ r = 0) := by
      rintro (h | h)
      · have := congrArg List.length h
        unfold padBytes at this
        split at this <;> simp at this
      · omega
    rw [dif_neg hne]
    by_cases h : r ≤ m.length
    · rw [dif_pos ⟨by simpa using h, hr⟩]
      simp only [Nat.sub_zero]
      rw [ih _ (by rw [List.length_drop]; omega) _ _ rfl]
      rw [List.take_append_of_le_length h, List.drop_append_of_le_length h, List.length_drop]
      have : padBytes r (m.length - r) d = padBytes r m.length d := by
        unfold padBytes
        rw [← Nat.mod_eq_sub_mod h]
      rw [this]
    · rw [dif_neg (by simp only; omega)]
      have hmod : m.length % r = m.length := Nat.mod_eq_of_lt (by omega)
      have hlen : (m ++ padBytes r m.length d).length = r := by
        rw [List.length_append]
        unfold padBytes
        rw [hmod]
        split
        · rw [List.length_singleton]; omega
        · rw [List.length_cons, List.length_append, List.length_replicate, List.length_singleton]; omega
      rw [List.take_of_length_le (by omega), List.drop_of_length_le (by omega)]
      rw [absorbBlocks, dif_pos (Or.inl rfl), xorBytes_append]
      congr 1
      unfold incFinalize padBytes
      simp only [hmod, Nat.zero_add]
      by_cases e : m.length = r - 1
      · rw [if_pos e, if_pos e]
      · rw [if_neg e, if_neg e]
        rw [show d :: (List.replicate (r - m.length - 2) 0 ++ [128]) =
          [d] ++ (List.replicate (r - m.length - 2) 0 ++ [128]) from rfl, xorBytes_append, xorBytes_append,
          xorBytes_zeros]
        simp only [List.length_singleton, List.length_replicate]
        congr 1
        omega

/-! ## Squeezing -/

theorem squeezeBlocks_length (r k : Nat) (s : Lanes) : (squeezeBlocks r k s).1.length = k * r := by
  induction k generalizing s with
  | zero => simp [squeezeBlocks]
  | succ k ih => rw [squeezeBlocks]; simp only [List.length_append, extractBytes_length, ih]; rw [Nat.succ_mul]; omega

theorem squeezeN_blocks (r k : Nat) (s : Lanes) (hr : 0 < r) :
    squeezeN r (k * r) ⟨s, 0⟩ = ((squeezeBlocks r k s).1, ⟨(squeezeBlocks r k s).2, 0⟩) := by
  induction k generalizing s with
  | zero => simp [squeezeN, squeezeBlocks]
  | succ k ih =>
    rw [Nat.succ_mul, Nat.add_comm, squeezeN_add, squeezeN_fresh r r ⟨s, 0⟩ rfl hr (Nat.le_refl r)]
    simp only [Nat.sub_self]
    rw [ih]
    rfl

theorem squeezeN_prefix (r a n : Nat) (st : Inc) (h : a ≤ n) : (squeezeN r a st).1 = (squeezeN r n st).1.take a := by
  obtain ⟨b, rfl⟩ := Nat.exists_eq_add_of_le h
  rw [squeezeN_add]
  simp only
  rw [List.take_left' (squeezeN_length r a st)]

theorem squeezeBlocks_bits (r k : Nat) (s : Lanes) (hr : r ≤ 200) :
    bits (squeezeBlocks r k s).1 = Spec.squeezeBits (8 * r) k (Spec.keccakFStr (strOf s)) := by
  induction k generalizing s with
  | zero => rfl
  | succ k ih =>
    rw [squeezeBlocks, Spec.squeezeBits]
    simp only [bits_append]
    rw [ih, extract_bits _ _ hr, strOf_permute]

/-- Absorb, finalize and squeeze is the sponge. -/
theorem sponge_eq (r n k : Nat) (d : UInt8) (m : Bytes) (suffix : List Bool) (hr : 0 < r) (hr' : r ≤ 200)
    (hk : suffix.length = k) (hk6 : k ≤ 6)
    (h1 : bits [d] = suffix ++ [true] ++ List.replicate (7 - k) false)
    (h2 : bits [d ||| 128] = suffix ++ [true] ++ List.replicate (6 - k) false ++ [true]) :
    bits (incSqueeze r (incFinalize r d (incAbsorb r incInit m)) n).1 =
      Spec.sponge (8 * r) (bits m ++ suffix) (8 * n) := by
  have hpos := incFinalize_pos r d (incAbsorb r incInit m)
  have hst : incFinalize r d (incAbsorb r incInit m) = ⟨(incFinalize r d (incAbsorb r incInit m)).s, 0⟩ := by
    cases h : incFinalize r d (incAbsorb r incInit m)
    rw [h] at hpos; simp only at hpos; rw [hpos]
  rw [incSqueeze_eq r hr _ _ (by omega), hst]
  have hle : n ≤ (8 * n / (8 * r) + 1) * r := by
    rw [Nat.mul_div_mul_left _ _ (by decide)]
    have := Nat.div_add_mod n r
    have := Nat.mod_lt n hr
    rw [Nat.succ_mul, Nat.mul_comm]; omega
  rw [squeezeN_prefix r n _ _ hle, squeezeN_blocks _ _ _ hr, bits_take]
  simp only
  rw [squeezeBlocks_bits _ _ _ hr', ← strOf_permute, incInit, finalize_eq r d _ m hr, absorbBlocks_bits, strOf_zero,
    bits_append, pad_eq r m.length k d suffix hr hk hk6 h1 h2]
  unfold Spec.sponge
  rw [List.length_append, bits_length, hk, List.append_assoc]

theorem shake_eq (r n : Nat) (m : Bytes) (hr : 0 < r) (hr' : r ≤ 200) :
    bits (incSqueeze r (incFinalize r 0x1F (incAbsorb r incInit m)) n).1 =
      Spec.sponge (8 * r) (bits m ++ [true, true, true, true]) (8 * n) :=
  sponge_eq r n 4 0x1F m _ hr hr' rfl (by decide) (by decide) (by decide)

theorem sha3_eq (r n : Nat) (m : Bytes) (hr : 0 < r) (hr' : r ≤ 200) :
    bits (incSqueeze r (incFinalize r 0x06 (incAbsorb r incInit m)) n).1 =
      Spec.sponge (8 * r) (bits m ++ [false, true]) (8 * n) :=
  sponge_eq r n 2 0x06 m _ hr hr' rfl (by decide) (by decide) (by decide)

/-- `sha3_*_inc_finalize` is the same as squeezing `outlen` bytes. -/
theorem sha3IncFinalize_eq (r n : Nat) (st : Inc) (hr : 0 < r) (hn : n ≤ r) :
    sha3IncFinalize r n st = (incSqueeze r (incFinalize r 0x06 st) n).1 := by
  have hpos := incFinalize_pos r 0x06 st
  have hst : incFinalize r 0x06 st = ⟨(incFinalize r 0x06 st).s, 0⟩ := by
    cases h : incFinalize r 0x06 st
    rw [h] at hpos; simp only at hpos; rw [hpos]
  rw [incSqueeze_eq r hr _ _ (by omega), hst, squeezeN_prefix r n (1 * r) _ (by omega), squeezeN_blocks _ _ _ hr]
  rfl

/-- `keccak_absorb` is incremental absorption and finalization. -/
theorem keccakAbsorb_eq (r : Nat) (s : Lanes) (m : Bytes) (d : UInt8) (hr : 0 < r) :
    keccakAbsorb r s m d = (incFinalize r d (incAbsorb r ⟨s, 0⟩ m)).s := by
  induction hn : m.length using Nat.strongRecOn generalizing s m with
  | _ n ih =>
    subst hn
    rw [keccakAbsorb, incAbsorb]
    by_cases h : r ≤ m.length
    · rw [dif_pos ⟨h, hr⟩, dif_pos ⟨by simpa using h, hr⟩]
      simp only [Nat.sub_zero]
      exact ih _ (by rw [List.length_drop]; omega) _ _ rfl
    · rw [dif_neg (by omega), dif_neg (by simp only; omega)]
      unfold incFinalize
      simp only [Nat.zero_add]
      have : (if m.length > 0 then xorBytes s m 0 else s) = xorBytes s m 0 := by
        split
        · rfl
        · rename_i h0
          have : m = [] := List.length_eq_zero_iff.mp (by omega)
          rw [this]; rfl
      rw [this]
      split <;> rfl

end LESS
