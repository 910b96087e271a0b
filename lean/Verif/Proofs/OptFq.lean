import Verif.Model.Opt
import Verif.Proofs.Fq
/-!
# Barrett arithmetic and the vector macros
-/
namespace LESS

theorem and_127 (x : Nat) : x &&& 127 = x % 128 := Nat.and_two_pow_sub_one_eq_mod x 7
theorem and_1 (x : Nat) : x &&& 1 = x % 2 := Nat.and_two_pow_sub_one_eq_mod x 1

/-- Scalar value of `br_mul` on 7-bit operands. -/
theorem brMul_eq {a b : Nat} (ha : a ≤ 127) (hb : b ≤ 127) :
    brMul a b = a * b % 128 + a * b / 128 := by
  have h : a * b ≤ 127 * 127 := Nat.mul_le_mul ha hb
  unfold brMul u16 u8
  simp only [Nat.shiftRight_eq_div_pow, Nat.shiftLeft_eq]
  generalize a * b = x at *
  omega

theorem brMul_lt (a b : Nat) : brMul a b < 256 := Nat.mod_lt _ (by decide)

/-- Scalar value of `br_red` on bytes. -/
theorem brRed_eq {a : Nat} (_ha : a < 256) : brRed a = (a + a / 128) % 128 := by
  unfold brRed u8 Q
  simp only [Nat.shiftRight_eq_div_pow, and_127]
  omega

/-- `br_red ∘ br_mul` before the primality of 127 is used. -/
theorem brRed_brMul_val {a b : Nat} (ha : a ≤ 127) (hb : b ≤ 127) :
    brRed (brMul a b) = if a * b ≠ 0 ∧ a * b % 127 = 0 then 127 else a * b % 127 := by
  have h : a * b ≤ 127 * 127 := Nat.mul_le_mul ha hb
  rw [brMul_eq ha hb]
  generalize a * b = x at *
  rw [brRed_eq (by omega)]
  have hs : x % 128 + x / 128 ≤ 253 := by omega
  have hx : x = 127 * (x / 128) + (x % 128 + x / 128) := by omega
  have hm : x % 127 = (x % 128 + x / 128) % 127 := by
    conv_lhs => rw [hx]
    exact Nat.mul_add_mod _ _ _
  have hz : x = 0 ↔ x % 128 + x / 128 = 0 := by omega
  generalize x % 128 + x / 128 = s at *
  rcases Nat.lt_or_ge s 128 with h1 | h1
  · rw [show s / 128 = 0 by omega, Nat.add_zero, show s % 128 = s by omega]
    split <;> omega
  · rw [show s / 128 = 1 by omega, show (s + 1) % 128 = s - 127 by omega]
    split <;> omega

theorem mul_mod_ne {a b : Nat} (ha : a < 127) (hb : b < 127) (h : a * b ≠ 0) : a * b % 127 ≠ 0 := by
  intro h0
  have hp : Nat.Prime 127 := by norm_num
  rcases (Nat.Prime.dvd_mul hp).1 (Nat.dvd_of_mod_eq_zero h0) with hd | hd
  · have := Nat.eq_zero_of_dvd_of_lt hd ha
    simp [this] at h
  · have := Nat.eq_zero_of_dvd_of_lt hd hb
    simp [this] at h

/-- On reduced operands the Barrett product is the reduced product. -/
theorem brRed_brMul {a b : Nat} (ha : a < 127) (hb : b < 127) : brRed (brMul a b) = fqRed (a * b) := by
  rw [brRed_brMul_val (by omega) (by omega), fqRed_eq _ (mul_lt_65536 ha hb)]
  by_cases h : a * b = 0
  · simp [h]
  · rw [if_neg (fun hh => mul_mod_ne ha hb h hh.2)]

theorem brInvLoop_eq (exp : Nat) : ∀ (accum xlift : Nat), accum < 127 → xlift < 127 →
    brInvLoop exp accum xlift = fqInvLoop exp accum xlift ∧ brInvLoop exp accum xlift < 127 := by
  induction exp using Nat.strongRecOn with
  | _ exp ih =>
    intro accum xlift ha hx
    unfold brInvLoop fqInvLoop
    by_cases h : exp = 0
    · simp [h, ha]
    · simp only [h, dite_false]
      have hlt : exp >>> 1 < exp := by
        rw [Nat.shiftRight_eq_div_pow]; exact Nat.div_lt_self (Nat.pos_of_ne_zero h) (by decide)
      rw [brRed_brMul ha hx, brRed_brMul hx hx]
      refine ih _ hlt _ _ ?_ (fqRed_lt _)
      split
      · exact fqRed_lt _
      · exact ha

theorem brInv_eq {x : Nat} (hx : x < 127) : brInv x = fqInv x := by
  have hu : u8 x = x := by unfold u8; omega
  unfold brInv fqInv
  obtain ⟨h1, h2⟩ := brInvLoop_eq (Q - 2) 1 (u8 x) (by decide) (by rw [hu]; exact hx)
  rw [← h1, fqRed_of_lt h2]

theorem brRed16_eq {x : Nat} (h : x < 16510) : brRed16 x = x % 127 := by
  unfold brRed16 u16 u32
  simp only [Nat.shiftRight_eq_div_pow, Nat.shiftLeft_eq]
  have e1 : (x + 1) % 4294967296 = x + 1 := by omega
  rw [e1]
  have e2 : ((x + 1) * 2 ^ 7 + (x + 1)) % 4294967296 = 129 * (x + 1) := by omega
  rw [e2]
  have e3 : 129 * (x + 1) / 2 ^ 14 = x / 127 := by
    have hq : x / 127 ≤ 129 := by omega
    have hr : x % 127 ≤ 126 := by omega
    have hx : x = 127 * (x / 127) + x % 127 := by omega
    generalize x / 127 = q at *
    generalize x % 127 = r at *
    subst hx
    omega
  rw [e3]
  omega

/-! ## Lanes -/

theorem g_of16 (f : Nat → Nat) (j : Nat) (hj : j < 32) :
    g (of16 f) j = if j % 2 = 0 then f (j / 2) % 256 else f (j / 2) / 256 % 256 := g_ofFn _ _ hj

theorem lane16_of16 (f : Nat → Nat) (i : Nat) (hi : i < 16) (hf : f i < 65536) : lane16 (of16 f) i = f i := by
  unfold lane16 u8
  rw [g_of16 _ _ (by omega), g_of16 _ _ (by omega), if_pos (by omega), if_neg (by omega)]
  rw [show 2 * i / 2 = i by omega, show (2 * i + 1) / 2 = i by omega]
  omega

theorem lane16_lt (v : Vec) (i : Nat) : lane16 v i < 65536 := by
  unfold lane16 u8; omega

theorem g_vadd8 (a b : Vec) (i : Nat) (hi : i < 32) : g (vadd8 a b) i = u8 (g a i + g b i) := g_ofFn _ _ hi
theorem g_vand (a b : Vec) (i : Nat) (hi : i < 32) : g (vand a b) i = g a i &&& g b i := g_ofFn _ _ hi
theorem g_vset8 (x i : Nat) (hi : i < 32) : g (vset8 x) i = x := g_replicate _ _ hi

/-- After masking with `c1`, the logical shift by seven leaves bit 7 of the same byte: neighbours do not matter. -/
theorem g_bit7 (a : Vec) (i : Nat) (hi : i < 32) :
    g (vand (vsrl16 a 7) (vset8 1)) i = g a i / 128 % 2 := by
  rw [g_vand _ _ _ hi, g_vset8 _ _ hi, and_1]
  unfold vsrl16
  rw [g_of16 _ _ hi]
  unfold lane16 u8
  simp only [Nat.shiftRight_eq_div_pow]
  by_cases h : i % 2 = 0
  · rw [if_pos h]
    have e : 2 * (i / 2) = i := by omega
    rw [e]
    generalize g a i = x; generalize g a (i + 1) = y
    omega
  · rw [if_neg h]
    have e : 2 * (i / 2) + 1 = i := by omega
    rw [e]
    generalize g a i = x; generalize g a (2 * (i / 2)) = y
    omega

/-- One byte of `W_RED127_`. -/
def wRedLane (x : Nat) : Nat := ((x + 1) % 256 / 128 + x) % 128

theorem g_wRed127 (x : Vec) (i : Nat) (hi : i < 32) :
    g (wRed127 x (vset8 1) (vset8 127)) i = wRedLane (g x i) := by
  unfold wRed127 wRedLane
  rw [g_vand _ _ _ hi, g_vset8 _ _ hi, and_127, g_vadd8 _ _ _ hi, g_bit7 _ _ hi, g_vadd8 _ _ _ hi, g_vset8 _ _ hi]
  unfold u8
  generalize g x i = y
  rw [show (y + 1) % 256 / 128 % 2 = (y + 1) % 256 / 128 by omega]
  generalize (y + 1) % 256 / 128 = c
  omega

theorem wRedLane_eq {x : Nat} (h : x < 254) : wRedLane x = x % 127 := by
  unfold wRedLane
  rw [show (x + 1) % 256 = x + 1 by omega]
  rcases Nat.lt_or_ge x 127 with hx | hx
  · rw [show (x + 1) / 128 = 0 by omega]; omega
  · rw [show (x + 1) / 128 = 1 by omega]; omega

/-- One byte of `barrett_red8`. -/
theorem g_barrettRed8 (a : Vec) (i : Nat) (hi : i < 32) (h : g a i < 256) :
    g (barrettRed8 a (vset8 127) (vset8 1)) i = brRed (g a i) := by
  unfold barrettRed8
  dsimp only
  rw [g_vand _ _ _ hi, g_vset8 _ _ hi, and_127, g_vadd8 _ _ _ hi, g_bit7 _ _ hi, brRed_eq h]
  unfold u8
  generalize g a i = y at *
  rw [show y / 128 % 2 = y / 128 by omega]
  generalize y / 128 = c
  omega

/-- One 16-bit lane of `barrett_mul_u16` on zero-extended 7-bit operands. -/
theorem lane16_barrettMul (isa : Isa) (a b : Vec) (i : Nat) (hi : i < 16) (ha : lane16 a i ≤ 127)
    (hb : lane16 b i ≤ 127) : lane16 (barrettMulU16 isa a b) i = brMul (lane16 a i) (lane16 b i) := by
  have hm : lane16 a i * lane16 b i ≤ 127 * 127 := Nat.mul_le_mul ha hb
  rw [brMul_eq ha hb]
  unfold barrettMulU16
  dsimp only
  have e1 : lane16 (vmulLo16 a b) i = lane16 a i * lane16 b i := by
    unfold vmulLo16
    rw [lane16_of16 _ _ hi (by unfold u16; omega)]; unfold u16; omega
  have e2 : lane16 (vsr16 isa (vmulLo16 a b) 7) i = lane16 a i * lane16 b i / 128 := by
    cases isa
    · show lane16 (vsra16 _ 7) i = _
      unfold vsra16
      have hlt : lane16 (vmulLo16 a b) i < 32768 := by rw [e1]; omega
      rw [lane16_of16 _ _ hi (by rw [if_pos hlt, Nat.shiftRight_eq_div_pow]; omega), if_pos hlt, e1,
        Nat.shiftRight_eq_div_pow]
    · show lane16 (vsrl16 _ 7) i = _
      unfold vsrl16
      rw [lane16_of16 _ _ hi (by rw [e1, Nat.shiftRight_eq_div_pow]; omega), e1, Nat.shiftRight_eq_div_pow]
  unfold vsub16
  rw [lane16_of16 _ _ hi (by unfold u16; omega)]
  unfold vadd16 vsl16
  rw [lane16_of16 _ _ hi (by unfold u16; omega), lane16_of16 _ _ hi (by unfold u16; omega), e1, e2]
  unfold u16
  rw [Nat.shiftLeft_eq]
  generalize lane16 a i * lane16 b i = x at *
  omega

theorem lane16_vextend (v : Vec) (h i : Nat) (_hh : h < 2) (hi : i < 16) :
    lane16 (vextend (vget v h)) i = u8 (g v (16 * h + i)) := by
  unfold vextend
  rw [lane16_of16 _ _ hi (by unfold u8; omega)]
  unfold vget
  rw [g_ofFn _ _ hi]

theorem g_permute2_20 (isa : Isa) (a b : Vec) (i : Nat) (hi : i < 32) :
    g (vpermute2 isa a b 0x20) i = if i < 16 then g a i else g b (i - 16) := by
  cases isa
  · unfold vpermute2 perm2half
    rw [g_ofFn _ _ hi]
    dsimp only
    by_cases h : i < 16
    · rw [if_pos h, show i / 16 = 0 by omega, show i % 16 = i by omega]
      simp
    · rw [if_neg h, show i / 16 = 1 by omega, show i % 16 = i - 16 by omega]
      simp
  · unfold vpermute2
    rw [g_ofFn _ _ hi]
    simp

theorem g_permute4_d8 (a : Vec) (i : Nat) (hi : i < 16) :
    g (vpermute4x64 a 0xd8) i = if i < 8 then g a i else g a (i + 8) := by
  unfold vpermute4x64
  rw [g_ofFn _ _ (by omega)]
  dsimp only
  by_cases h : i < 8
  · rw [if_pos h, show i / 8 = 0 by omega, show i % 8 = i by omega]
    simp
  · rw [if_neg h, show i / 8 = 1 by omega, show i % 8 = i - 8 by omega]
    simp only [Nat.reduceMul, Nat.reduceShiftRight, Nat.reduceAnd]
    congr 1; omega

theorem g_shuffLowHalf : ∀ j, j < 32 → g shuffLowHalf j = if j % 16 < 8 then 2 * (j % 16) else 128 := by
  decide

theorem g_shuffle_low (isa : Isa) (a : Vec) (i : Nat) (hi : i < 32) (h : i % 16 < 8) :
    g (vshuffle8 isa a shuffLowHalf) i = g a (16 * (i / 16) + 2 * (i % 16)) := by
  cases isa
  · unfold vshuffle8
    rw [g_ofFn _ _ hi]
    dsimp only
    have hs : g shuffLowHalf i = 2 * (i % 16) := by rw [g_shuffLowHalf i hi, if_pos h]
    have h1 : g shuffLowHalf i &&& 0x80 = 0 := by
      rw [hs]; revert h; generalize i % 16 = t; intro h
      interval_cases t <;> rfl
    have h2 : g shuffLowHalf i &&& 0x0f = 2 * (i % 16) := by
      rw [hs, show (2 * (i % 16)) &&& 0x0f = 2 * (i % 16) % 16 from Nat.and_two_pow_sub_one_eq_mod _ 4]; omega
    rw [if_neg (by rw [h1]; exact fun hh => hh rfl), h2]
  · unfold vshuffle8
    rw [g_ofFn _ _ hi]
    dsimp only
    have hs : g shuffLowHalf i = 2 * (i % 16) := by rw [g_shuffLowHalf i hi, if_pos h]
    rw [hs, if_neg (by omega)]

/-- The low byte of a 16-bit lane. -/
theorem g_pack (isa : Isa) (a : Vec) (i : Nat) (hi : i < 16) :
    g (vpermute4x64 (vshuffle8 isa a shuffLowHalf) 0xd8) i = g a (2 * i) := by
  rw [g_permute4_d8 _ _ hi]
  by_cases h : i < 8
  · rw [if_pos h, g_shuffle_low _ _ _ (by omega) (by omega)]; congr 1; omega
  · rw [if_neg h, g_shuffle_low _ _ _ (by omega) (by omega)]; congr 1; omega

theorem g_barrettMul (isa : Isa) (a b : Vec) (i : Nat) (hi : i < 16) (ha : lane16 a i ≤ 127)
    (hb : lane16 b i ≤ 127) : g (barrettMulU16 isa a b) (2 * i) = brMul (lane16 a i) (lane16 b i) := by
  have h1 := lane16_barrettMul isa a b i hi ha hb
  have h2 : g (barrettMulU16 isa a b) (2 * i) < 256 := by
    unfold barrettMulU16 vsub16
    dsimp only
    rw [g_of16 _ _ (by omega), if_pos (by omega)]
    omega
  have h3 : brMul (lane16 a i) (lane16 b i) < 256 := brMul_lt _ _
  rw [← h1]
  rw [← h1] at h3
  unfold lane16 u8 at h3 ⊢
  omega

/-- One byte of a chunk of `generator_monomial_mul`. -/
theorem g_mulChunk (isa : Isa) (gv mono : Vec) (i : Nat) (hi : i < 32) (ha : g gv i ≤ 127) (hb : g mono i ≤ 127) :
    g (mulChunk isa gv mono) i = brRed (brMul (g gv i) (g mono i)) := by
  have hlo : ∀ h j, h < 2 → j < 16 → g gv (16 * h + j) ≤ 127 → g mono (16 * h + j) ≤ 127 →
      g (barrettMulU16 isa (vextend (vget gv h)) (vextend (vget mono h))) (2 * j)
        = brMul (g gv (16 * h + j)) (g mono (16 * h + j)) := by
    intro h j hh hj h1 h2
    have e1 : lane16 (vextend (vget gv h)) j = g gv (16 * h + j) := by
      rw [lane16_vextend _ _ _ hh hj]; unfold u8; omega
    have e2 : lane16 (vextend (vget mono h)) j = g mono (16 * h + j) := by
      rw [lane16_vextend _ _ _ hh hj]; unfold u8; omega
    rw [g_barrettMul isa _ _ j hj (by rw [e1]; exact h1) (by rw [e2]; exact h2), e1, e2]
  have hs : g (vpermute2 isa
      (vpermute4x64 (vshuffle8 isa (barrettMulU16 isa (vextend (vget gv 0)) (vextend (vget mono 0))) shuffLowHalf) 0xd8)
      (vpermute4x64 (vshuffle8 isa (barrettMulU16 isa (vextend (vget gv 1)) (vextend (vget mono 1))) shuffLowHalf) 0xd8)
      0x20) i = brMul (g gv i) (g mono i) := by
    rw [g_permute2_20 _ _ _ _ hi]
    by_cases h : i < 16
    · rw [if_pos h, g_pack _ _ _ h]
      have := hlo 0 i (by omega) h (by simpa using ha) (by simpa using hb)
      simpa using this
    · rw [if_neg h, g_pack _ _ _ (by omega)]
      have e : 16 * 1 + (i - 16) = i := by omega
      have := hlo 1 (i - 16) (by omega) (by omega) (by rw [e]; exact ha) (by rw [e]; exact hb)
      rwa [e] at this
  unfold mulChunk
  dsimp only
  rw [g_barrettRed8 _ _ hi (by rw [hs]; exact brMul_lt _ _), hs]

end LESS
