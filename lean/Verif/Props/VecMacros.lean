import Verif.Model.VecMore
import Verif.Proofs.OptFq
/-!
# C85: the vector macros

`macro.h` exists for AVX2 and for NEON, with the same names; the comments say what each macro computes.  Where the two differ, and where the result
is not the one described, is determined exactly.
-/
namespace LESS

/-! ## Permuting halves -/

/-- The selectors of `vpermute2` that mean the same on both instruction sets. -/
def Spec.PortableSelector (d : Nat) : Prop :=
  (d &&& 8 ≠ 0 ∨ d &&& 3 ≤ 1 ∨ (d >>> 2) &&& 1 = d &&& 1) ∧
  (d &&& 128 ≠ 0 ∨ d >>> 4 ≤ 1 ∨ (2 ≤ (d >>> 4) &&& 3 ∧ (d >>> 6) &&& 1 = (d >>> 4) &&& 1))

instance (d : Nat) : Decidable (Spec.PortableSelector d) := inferInstanceAs (Decidable (_ ∧ _))

/-- One of the four halves of two vectors, or zero. -/
def chosenHalf (a b : Vec) (c i : Nat) : Nat := if c < 2 then g a (16 * c + i) else if c < 4 then g b (16 * (c - 2) + i) else 0

/-- The choice for half `h` on AVX2. -/
def selAvx (d h : Nat) : Nat := if ((d >>> (4 * h)) &&& 15) &&& 8 ≠ 0 then 4 else ((d >>> (4 * h)) &&& 15) &&& 3

/-- The choice for the two halves on NEON. -/
def selNeon (d h : Nat) : Nat :=
  if h = 0 then (if d &&& 8 ≠ 0 then 4 else if d &&& 3 ≤ 1 then d &&& 1 else 2 + ((d >>> 2) &&& 1))
  else (if d &&& 128 ≠ 0 then 4 else if (d >>> 4) &&& 3 ≤ 1 then (if d >>> 4 ≤ 1 then d >>> 4 else 4) else 2 + (d >>> 6))

theorem g_beyond (v : Vec) (i : Nat) (h : 32 ≤ i) : g v i = 0 := by
  unfold g
  simp [Nat.not_lt.mpr h]

theorem and3_cases (x : Nat) : x &&& 3 = 0 ∨ x &&& 3 = 1 ∨ x &&& 3 = 2 ∨ x &&& 3 = 3 := by
  have : x &&& 3 ≤ 3 := Nat.and_le_right
  omega

theorem g_permute2_avx (a b : Vec) (d i : Nat) (hi : i < 32) :
    g (vpermute2 .avx2 a b d) i = chosenHalf a b (selAvx d (i / 16)) (i % 16) := by
  unfold vpermute2
  rw [g_ofFn _ _ hi]
  unfold perm2half selAvx chosenHalf
  dsimp only
  by_cases h : (d >>> (4 * (i / 16)) &&& 15) &&& 8 ≠ 0
  · rw [if_pos h, if_pos h]; rfl
  · rw [if_neg h, if_neg h]
    rcases and3_cases (d >>> (4 * (i / 16)) &&& 15) with e | e | e | e <;> rw [e] <;> simp

theorem g_permute2_neon (a b : Vec) (d i : Nat) (hi : i < 32) (hd : d < 256) :
    g (vpermute2 .neon a b d) i = chosenHalf a b (selNeon d (i / 16)) (i % 16) := by
  unfold vpermute2
  rw [g_ofFn _ _ hi]
  unfold selNeon chosenHalf
  dsimp only
  by_cases h : i < 16
  · rw [if_pos h, if_pos (by omega : i / 16 = 0), show i % 16 = i by omega]
    by_cases h8 : d &&& 8 ≠ 0
    · rw [if_pos h8, if_pos h8]; rfl
    · rw [if_neg h8, if_neg h8]
      have h1 : d &&& 1 ≤ 1 := Nat.and_le_right
      have h2 : (d >>> 2) &&& 1 ≤ 1 := Nat.and_le_right
      by_cases h3 : d &&& 3 ≤ 1
      · rw [if_pos h3, if_pos h3, if_pos (by omega)]
      · rw [if_neg h3, if_neg h3, if_neg (by omega), if_pos (by omega), show 2 + (d >>> 2 &&& 1) - 2 = d >>> 2 &&& 1 by omega]
  · rw [if_neg h, if_neg (by omega : ¬ i / 16 = 0), show i % 16 = i - 16 by omega]
    by_cases h8 : d &&& 128 ≠ 0
    · rw [if_pos h8, if_pos h8]; rfl
    · rw [if_neg h8, if_neg h8]
      by_cases h3 : (d >>> 4) &&& 3 ≤ 1
      · rw [if_pos h3, if_pos h3]
        by_cases h4 : d >>> 4 ≤ 1
        · rw [if_pos h4, if_pos (by omega)]
        · rw [if_neg h4, g_beyond _ _ (by omega)]; rfl
      · have : ∀ d < 256, ¬ d &&& 128 ≠ 0 → d >>> 6 ≤ 1 := by decide +kernel
        have := this d hd h8
        rw [if_neg h3, if_neg h3, if_neg (by omega), if_pos (by omega), show 2 + d >>> 6 - 2 = d >>> 6 by omega]

/-- Two vectors with four different halves. -/
def halves (x : Nat) : Vec := Vector.ofFn fun i => x + i.val / 16

/-- `vpermute2` gives the same on both instruction sets, for all vectors, exactly for these selectors. -/
theorem C85_permute2 (d : Nat) (hd : d < 256) :
    (∀ a b : Vec, vpermute2 .avx2 a b d = vpermute2 .neon a b d) ↔ Spec.PortableSelector d := by
  have key : ∀ d < 256, (selAvx d 0 = selNeon d 0 ∧ selAvx d 1 = selNeon d 1) ↔ Spec.PortableSelector d := by decide +kernel
  have four : ∀ d < 256, ∀ h < 2, selAvx d h ≤ 4 ∧ selNeon d h ≤ 4 := by decide +kernel
  rw [← key d hd]
  constructor
  · intro h
    have inj : ∀ c ≤ 4, ∀ c' ≤ 4, chosenHalf (halves 1) (halves 3) c 0 = chosenHalf (halves 1) (halves 3) c' 0 → c = c' := by decide +kernel
    have step : ∀ k < 2, selAvx d k = selNeon d k := by
      intro k hk
      have e := congrArg (fun v => g v (16 * k)) (h (halves 1) (halves 3))
      rw [g_permute2_avx _ _ _ _ (by omega), g_permute2_neon _ _ _ _ (by omega) hd, show 16 * k / 16 = k by omega,
        show 16 * k % 16 = 0 by omega] at e
      exact inj _ (four d hd k hk).1 _ (four d hd k hk).2 e
    exact ⟨step 0 (by omega), step 1 (by omega)⟩
  · rintro ⟨h0, h1⟩ a b
    apply vec_ext
    intro i hi
    rw [g_permute2_avx _ _ _ _ hi, g_permute2_neon _ _ _ _ hi hd]
    rcases (by omega : i / 16 = 0 ∨ i / 16 = 1) with e | e <;> rw [e]
    · rw [h0]
    · rw [h1]

/-- The selector the library uses is one of them, and there `vpermute2` is `vpermute`. -/
theorem C85_permute (isa : Isa) (a b : Vec) : vpermute isa a b = vpermute2 isa a b 0x20 := by
  cases isa
  · rfl
  · apply vec_ext
    intro i hi
    unfold vpermute vpermute2
    rw [g_ofFn _ _ hi, g_ofFn _ _ hi]
    by_cases h : i < 16 <;> simp [h]

/-- The upper halves of both vectors: AVX2 gives them, NEON does not. -/
theorem C85_fails_permute2 : ∃ a b : Vec, vpermute2 .avx2 a b 0x31 ≠ vpermute2 .neon a b 0x31 := by
  by_contra h
  push Not at h
  exact absurd ((C85_permute2 0x31 (by decide)).mp h) (by decide)

/-! ## Shifts and shuffles -/

/-- `vsr16` gives the same on both instruction sets exactly if no 16-bit lane has its top bit set. -/
theorem C85_shift (a : Vec) (n : Nat) (h1 : 1 ≤ n) (h2 : n ≤ 15) :
    vsr16 .avx2 a n = vsr16 .neon a n ↔ ∀ i < 16, lane16 a i < 32768 := by
  have hp : 65536 = 2 ^ n * 2 ^ (16 - n) := by rw [← Nat.pow_add, show n + (16 - n) = 16 by omega]
  have hq : 65536 >>> n = 2 ^ (16 - n) := by
    rw [Nat.shiftRight_eq_div_pow]
    conv_lhs => rw [hp]
    exact Nat.mul_div_cancel_left _ (Nat.two_pow_pos n)
  have hlt : ∀ i, lane16 a i >>> n < 2 ^ (16 - n) := by
    intro i
    rw [Nat.shiftRight_eq_div_pow]
    exact Nat.div_lt_of_lt_mul (by rw [← hp]; exact lane16_lt a i)
  have hle : 2 ^ (16 - n) ≤ 2 ^ 15 := Nat.pow_le_pow_right (by omega) (by omega)
  constructor
  · intro h i hi
    by_contra hc
    have e := congrArg (fun v => lane16 v i) h
    dsimp only [vsr16] at e
    unfold vsra16 vsrl16 at e
    have := hlt i
    rw [lane16_of16 _ _ hi (by rw [if_neg hc, hq]; omega), lane16_of16 _ _ hi (by omega), if_neg hc, hq] at e
    omega
  · intro h
    show vsra16 a n = vsrl16 a n
    apply vec_ext
    intro j hj
    unfold vsra16 vsrl16
    rw [g_of16 _ _ hj, g_of16 _ _ hj, if_pos (h (j / 2) (by omega))]

/-- `vshuffle8` gives the same on both instruction sets, whatever is shuffled, exactly if no index is between 16 and 127. -/
theorem C85_shuffle (b : Vec) (hb : ∀ i < 32, g b i < 256) :
    (∀ a : Vec, vshuffle8 .avx2 a b = vshuffle8 .neon a b) ↔ ∀ i < 32, g b i < 16 ∨ 128 ≤ g b i := by
  have top : ∀ x < 256, (x &&& 0x80 ≠ 0 ↔ 128 ≤ x) := by decide +kernel
  have low : ∀ x < 16, x &&& 0x0f = x := by decide +kernel
  constructor
  · intro h i hi
    by_contra hc
    push Not at hc
    have e := congrArg (fun v => g v i) (h (vset8 1))
    unfold vshuffle8 at e
    rw [g_ofFn _ _ hi, g_ofFn _ _ hi] at e
    dsimp only at e
    have hle : g b i &&& 15 ≤ 15 := Nat.and_le_right
    rw [if_neg (by rw [top _ (hb i hi)]; omega), if_pos hc.1, g_vset8 _ _ (by omega)] at e
    exact absurd e (by decide)
  · intro h a
    apply vec_ext
    intro i hi
    unfold vshuffle8
    rw [g_ofFn _ _ hi, g_ofFn _ _ hi]
    dsimp only
    rcases h i hi with hl | hl
    · rw [if_neg (by rw [top _ (hb i hi)]; omega), if_neg (by omega), low _ hl]
    · rw [if_pos ((top _ (hb i hi)).mpr hl), if_pos (by omega)]

/-! ## Reductions -/

/-- `barrett_red8` and `W_RED127` give the remainder modulo 127 of a byte exactly if it is not 127, 254 or 255. -/
theorem C85_reduce8 (a : Vec) (i : Nat) (hi : i < 32) (h : g a i < 256) :
    (g (barrettRed8 a (vset8 127) (vset8 1)) i = g a i % 127 ↔ g a i ≠ 127 ∧ g a i ≠ 254 ∧ g a i ≠ 255) ∧
    wRed127Old a (vset8 1) (vset8 127) = barrettRed8 a (vset8 127) (vset8 1) := by
  refine ⟨?_, rfl⟩
  rw [g_barrettRed8 a i hi h, brRed_eq h]
  generalize g a i = x at h
  omega

/-- `W_RED127_`, which the row reduction uses, is right for 127 too; it is wrong exactly for 254 and 255. -/
theorem C85_reduce_rows (a : Vec) (i : Nat) (hi : i < 32) (h : g a i < 256) :
    g (wRed127 a (vset8 1) (vset8 127)) i = g a i % 127 ↔ g a i ≠ 254 ∧ g a i ≠ 255 := by
  have all : ∀ x < 256, wRedLane x = x % 127 ↔ x ≠ 254 ∧ x ≠ 255 := by decide +kernel
  rw [g_wRed127 a i hi]
  exact all _ h

theorem lane16_vset16 (x i : Nat) (hi : i < 16) (hx : x < 65536) : lane16 (vset16 x) i = x := by
  unfold vset16
  rw [lane16_of16 _ _ hi (by unfold u16; omega)]
  unfold u16
  omega

theorem lane16_barrettRed16 (a : Vec) (i : Nat) (hi : i < 16) : lane16 (barrettRed16 .avx2 a) i =
    (lane16 a i + 65536 - (lane16 a i + 1) % 65536 * 516 / 65536 * 127 % 65536) % 65536 := by
  unfold barrettRed16 vsub16 vmulLo16 vmulHi16 vadd16
  dsimp only
  have hl := lane16_lt a i
  rw [lane16_of16 _ _ hi (by unfold u16; omega), lane16_of16 _ _ hi (by unfold u16; omega),
    lane16_of16 _ _ hi (by
      rw [lane16_vset16 _ _ hi (by decide), lane16_of16 _ _ hi (by unfold u16; omega)]
      unfold u16
      omega),
    lane16_of16 _ _ hi (by unfold u16; omega), lane16_vset16 _ _ hi (by decide), lane16_vset16 _ _ hi (by decide),
    lane16_vset16 _ _ hi (by decide)]
  rfl

/-- `barrett_red16` on AVX2 gives the remainder modulo 127 of every 16-bit lane up to 16509, so of every product of two field elements and more.
Missing from the full claim: larger lanes, and NEON, where the macro is empty. -/
theorem C85_reduce16_partial (a : Vec) (i : Nat) (hi : i < 16) (h : lane16 a i ≤ 16509) :
    lane16 (barrettRed16 .avx2 a) i = lane16 a i % 127 := by
  rw [lane16_barrettRed16 a i hi]
  generalize lane16 a i = x at h
  rw [show (x + 1) % 65536 = x + 1 by omega]
  have hq : (x + 1) * 516 / 65536 = x / 127 := by omega
  rw [hq]
  omega

/-- The bound is the largest possible one; and on NEON nothing is reduced. -/
theorem C85_fails_reduce16 : (∃ a : Vec, lane16 a 0 = 16510 ∧ lane16 (barrettRed16 .avx2 a) 0 ≠ lane16 a 0 % 127) ∧
    ∃ a : Vec, lane16 a 0 = 127 ∧ lane16 (barrettRed16 .neon a) 0 ≠ lane16 a 0 % 127 :=
  ⟨⟨vset16 16510, by decide +kernel⟩, vset16 127, by decide +kernel⟩

/-- The byte reductions do not always give the remainder. -/
theorem C85_fails_reduce8 : ∃ a : Vec, (∀ i < 32, g a i < 256) ∧ g (barrettRed8 a (vset8 127) (vset8 1)) 0 ≠ g a 0 % 127 ∧
    g (wRed127 a (vset8 1) (vset8 127)) 0 ≠ g a 0 % 127 := by
  refine ⟨vset8 254, fun i hi => by rw [g_vset8 _ _ hi]; decide, ?_, ?_⟩
  · intro h
    have := ((C85_reduce8 (vset8 254) 0 (by decide) (by rw [g_vset8 _ _ (by decide)]; decide)).1.mp h).2.1
    exact this (g_vset8 _ _ (by decide))
  · intro h
    have := ((C85_reduce_rows (vset8 254) 0 (by decide) (by rw [g_vset8 _ _ (by decide)]; decide)).mp h).1
    exact this (g_vset8 _ _ (by decide))

/-- The other macros: differences, exclusive or, and interleaving of bytes. -/
theorem C85_bytes (a b : Vec) (i : Nat) (hi : i < 32) (ha : g a i < 256) (hb : g b i < 256) :
    ((g (vsub8 a b) i + g b i) % 256 = g a i) ∧ g (vsub8 a b) i < 256 ∧
    g (vxor (vxor a b) b) i = g a i ∧
    ∀ h < 2, ∀ j < 8, ∀ k < 2, g (vunpack8 h a b) (16 * k + 2 * j) = g a (16 * k + 8 * h + j) ∧
      g (vunpack8 h a b) (16 * k + 2 * j + 1) = g b (16 * k + 8 * h + j) := by
  refine ⟨?_, ?_, ?_, fun h _ j hj k hk => ⟨?_, ?_⟩⟩
  · unfold vsub8
    rw [g_ofFn _ _ hi]
    dsimp only
    unfold u8
    omega
  · unfold vsub8
    rw [g_ofFn _ _ hi]
    dsimp only
    unfold u8
    omega
  · unfold vxor
    rw [g_ofFn _ _ hi, g_ofFn _ _ hi, Nat.xor_assoc, Nat.xor_self, Nat.xor_zero]
  · unfold vunpack8
    rw [g_ofFn _ _ (by omega)]
    dsimp only
    rw [if_pos (by omega)]
    congr 1
    omega
  · unfold vunpack8
    rw [g_ofFn _ _ (by omega)]
    dsimp only
    rw [if_neg (by omega)]
    congr 1
    omega

/-! ## Concrete cases -/

/-- `C85_permute2`, `C85_permute`: the selector of `codes.c`, and the one for the upper halves. -/
example : Spec.PortableSelector 0x20 ∧ ¬ Spec.PortableSelector 0x31 ∧ ¬ Spec.PortableSelector 0x40 := by decide
example (a b : Vec) : vpermute .avx2 a b = vpermute .neon a b := by
  rw [C85_permute .avx2, C85_permute .neon]
  exact (C85_permute2 0x20 (by decide)).mpr (by decide) a b

/-- `C85_shift`: the products of `barrett_mul_u16` stay below 32768; 40000 does not. -/
example : vsr16 .avx2 (vset16 15876) 7 = vsr16 .neon (vset16 15876) 7 ∧ vsr16 .avx2 (vset16 40000) 7 ≠ vsr16 .neon (vset16 40000) 7 :=
  ⟨(C85_shift _ 7 (by decide) (by decide)).mpr (fun i hi => by rw [lane16_vset16 _ _ hi (by decide)]; decide),
    fun h => absurd ((C85_shift _ 7 (by decide) (by decide)).mp h 0 (by decide)) (by rw [lane16_vset16 _ _ (by decide) (by decide)]; decide)⟩

/-- `C85_shuffle`: the table of `codes.c` uses indices below 16 and 128 only. -/
example (a : Vec) : vshuffle8 .avx2 a (Vector.ofFn fun i => if i.val % 16 < 8 then 2 * (i.val % 16) else 0x80) =
    vshuffle8 .neon a (Vector.ofFn fun i => if i.val % 16 < 8 then 2 * (i.val % 16) else 0x80) :=
  (C85_shuffle _ (by decide +kernel)).mpr (by decide +kernel) a

/-- `C85_reduce8`, `C85_reduce_rows`: 127 is handled by one of them only. -/
example : g (barrettRed8 (vset8 127) (vset8 127) (vset8 1)) 3 = 127 ∧ g (wRed127 (vset8 127) (vset8 1) (vset8 127)) 3 = 0 := by
  decide +kernel
example : g (barrettRed8 (vset8 200) (vset8 127) (vset8 1)) 3 = 200 % 127 := by
  have e : g (vset8 200) 3 = 200 := g_vset8 _ _ (by decide)
  have h := ((C85_reduce8 (vset8 200) 3 (by decide) (by rw [e]; decide)).1.mpr (by rw [e]; decide))
  rwa [e] at h
example : g (wRed127 (vset8 253) (vset8 1) (vset8 127)) 3 = 253 % 127 := by
  have e : g (vset8 253) 3 = 253 := g_vset8 _ _ (by decide)
  have h := ((C85_reduce_rows (vset8 253) 3 (by decide) (by rw [e]; decide)).mpr (by rw [e]; decide))
  rwa [e] at h

/-- `C85_reduce16_partial`: the largest product of two field elements. -/
example : lane16 (barrettRed16 .avx2 (vset16 15876)) 9 = 1 := by
  have e : lane16 (vset16 15876) 9 = 15876 := lane16_vset16 _ _ (by decide) (by decide)
  rw [C85_reduce16_partial _ 9 (by decide) (by rw [e]; decide), e]

/-- `C85_bytes`: 3 - 5 as a byte. -/
example : g (vsub8 (vset8 3) (vset8 5)) 0 = 254 ∧ g (vunpack8 1 (halves 1) (halves 3)) 17 = 4 := by decide +kernel

end LESS
