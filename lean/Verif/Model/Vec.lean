import Verif.Model.Fq
/-!
# 256-bit vectors: `Optimized_Implementation/avx2/include/macro.h`, `Optimized_Implementation/neon/include/macro.h`

A vector is its 32 bytes, in memory order; 16-bit lanes are little-endian, as on both architectures.  The
intrinsics follow their documentation (Intel Intrinsics Guide, Arm C Language Extensions); they are part of the
trusted base.  The indices used below are in range by construction, so the total read `g` is used.
-/
namespace LESS

/-- The two instruction sets with a `macro.h`. -/
inductive Isa where
  | avx2 | neon
deriving DecidableEq, Repr

/-- `vec256_t` (avx2 macro.h:33, neon macro.h:63-69). -/
abbrev Vec := Vector Nat 32

/-- `vec128_t` (avx2 macro.h:34, neon macro.h:71-77). -/
abbrev Vec128 := Vector Nat 16

/-- 16-bit lane `i` of a vector. -/
def lane16 (v : Vec) (i : Nat) : Nat := u8 (g v (2 * i)) + 256 * u8 (g v (2 * i + 1))

/-- The vector with given 16-bit lanes. -/
def of16 (f : Nat → Nat) : Vec :=
  Vector.ofFn fun j => if j.val % 2 = 0 then f (j.val / 2) % 256 else f (j.val / 2) / 256 % 256

/-- `vload256` (avx2 macro.h:47 `_mm256_loadu_si256`, neon macro.h:82): 32 bytes starting at `off`. -/
def vload {n : Nat} (a : Vector Nat n) (off : Nat) : C Vec :=
  if off + 32 ≤ n then .ok (Vector.ofFn fun i => g a (off + i.val)) else .error .oob

/-- `vstore256` (avx2 macro.h:51 `_mm256_storeu_si256`, neon macro.h:86). -/
def vstore {n : Nat} (a : Vector Nat n) (off : Nat) (v : Vec) : C (Vector Nat n) :=
  if off + 32 ≤ n then
    .ok (Vector.ofFn fun i => if off ≤ i.val ∧ i.val < off + 32 then g v (i.val - off) else g a i.val)
  else .error .oob

/-- `vset8` (avx2 macro.h:81 `_mm256_set1_epi8`, neon macro.h:115 `vdupq_n_u8`). -/
def vset8 (x : Nat) : Vec := Vector.replicate 32 x

/-- `vadd8` (avx2 macro.h:56 `_mm256_add_epi8`, neon macro.h:90 `vaddq_u8`). -/
def vadd8 (a b : Vec) : Vec := Vector.ofFn fun i => u8 (g a i + g b i)

/-- `vand` (avx2 macro.h:75 `_mm256_and_si256`, neon macro.h:109 `vandq_u8`). -/
def vand (a b : Vec) : Vec := Vector.ofFn fun i => g a i &&& g b i

/-- `vadd16` (avx2 macro.h:57 `_mm256_add_epi16`, neon macro.h:91 `vaddq_u16`). -/
def vadd16 (a b : Vec) : Vec := of16 fun i => u16 (lane16 a i + lane16 b i)

/-- `vsub16` (avx2 macro.h:62 `_mm256_sub_epi16`, neon macro.h:96 `vsubq_u16`). -/
def vsub16 (a b : Vec) : Vec := of16 fun i => u16 (lane16 a i + 65536 - lane16 b i)

/-- `vmul_lo16` (avx2 macro.h:65 `_mm256_mullo_epi16`, neon macro.h:100 `vmulq_u16`). -/
def vmulLo16 (a b : Vec) : Vec := of16 fun i => u16 (lane16 a i * lane16 b i)

/-- Logical right shift of 16-bit lanes: `_mm256_srli_epi16`, `vshrq_n_u16`. -/
def vsrl16 (a : Vec) (n : Nat) : Vec := of16 fun i => lane16 a i >>> n

/-- Arithmetic right shift of 16-bit lanes, `_mm256_srai_epi16`. -/
def vsra16 (a : Vec) (n : Nat) : Vec := of16 fun i =>
  if lane16 a i < 32768 then lane16 a i >>> n else (lane16 a i >>> n) + (65536 - (65536 >>> n))

/-- `vsr16`: an arithmetic shift on AVX2 (avx2 macro.h:69), a logical one on NEON (neon macro.h:103). -/
def vsr16 : Isa → Vec → Nat → Vec
  | .avx2 => vsra16
  | .neon => vsrl16

/-- `vsl16` (avx2 macro.h:72 `_mm256_slli_epi16`, neon macro.h:106 `vshlq_n_u16`). -/
def vsl16 (a : Vec) (n : Nat) : Vec := of16 fun i => u16 (lane16 a i <<< n)

/-- `vget_lo`, `vget_hi` (avx2 macro.h:94-96 `_mm256_extracti128_si256`, neon macro.h:129-131); `h` is 0 or 1. -/
def vget (a : Vec) (h : Nat) : Vec128 := Vector.ofFn fun i => g a (16 * h + i.val)

/-- `vextend8_16` (avx2 macro.h:91 `_mm256_cvtepu8_epi16`, neon macro.h:126 `vmovl_u8` on both halves). -/
def vextend (a : Vec128) : Vec := of16 fun i => u8 (g a i)

/-- `vshuffle8`: `_mm256_shuffle_epi8` (avx2 macro.h:102) selects within each 128-bit half by the low four bits of
the index byte, or zero if its top bit is set; `vqtbl1q` on both halves (neon macro.h:137) gives zero for every
index above 15. -/
def vshuffle8 : Isa → Vec → Vec → Vec
  | .avx2, a, b => Vector.ofFn fun i =>
      if g b i &&& 0x80 ≠ 0 then 0 else g a (16 * (i.val / 16) + (g b i &&& 0x0f))
  | .neon, a, b => Vector.ofFn fun i => if 16 ≤ g b i then 0 else g a (16 * (i.val / 16) + g b i)

/-- `vpermute_4x64` (avx2 macro.h:110 `_mm256_permute4x64_epi64`, neon macro.h:155-163). -/
def vpermute4x64 (a : Vec) (imm : Nat) : Vec :=
  Vector.ofFn fun i => g a (8 * ((imm >>> (2 * (i.val / 8))) &&& 3) + i.val % 8)

/-- `_mm256_permute2x128_si256` (avx2 macro.h:108): half `h` of the result, selected by four bits. -/
def perm2half (a b : Vec) (sel i : Nat) : Nat :=
  if sel &&& 8 ≠ 0 then 0
  else if sel &&& 3 = 0 then g a i
  else if sel &&& 3 = 1 then g a (16 + i)
  else if sel &&& 3 = 2 then g b i
  else g b (16 + i)

/-- `vpermute2` (avx2 macro.h:108; neon macro.h:143-153 with the subscripts as written there). -/
def vpermute2 : Isa → Vec → Vec → Nat → Vec
  | .avx2, a, b, d => Vector.ofFn fun i => perm2half a b ((d >>> (4 * (i.val / 16))) &&& 15) (i.val % 16)
  | .neon, a, b, d => Vector.ofFn fun i =>
      if i.val < 16 then
        (if d &&& 8 ≠ 0 then 0
         else if d &&& 3 ≤ 1 then g a (16 * (d &&& 1) + i.val) else g b (16 * ((d >>> 2) &&& 1) + i.val))
      else
        (if d &&& 128 ≠ 0 then 0
         else if (d >>> 4) &&& 3 ≤ 1 then g a (16 * (d >>> 4) + (i.val - 16)) else g b (16 * (d >>> 6) + (i.val - 16)))

/-- `barrett_mul_u16` (avx2 macro.h:142-147, neon macro.h:191-196). -/
def barrettMulU16 (isa : Isa) (a b : Vec) : Vec :=
  let a := vmulLo16 a b
  let t := vsr16 isa a 7
  let a := vadd16 a t
  let t := vsl16 t 7
  vsub16 a t

/-- `barrett_red8` (avx2 macro.h:126-130, neon macro.h:179-183); on AVX2 the shift is `_mm256_srli_epi16`, on NEON it
is `vsr16`, so logical in both. -/
def barrettRed8 (a c127 c1 : Vec) : Vec :=
  let t := vsrl16 a 7
  let t := vand t c1
  let a := vadd8 a t
  vand a c127

/-- `W_RED127_` (avx2 macro.h:166-171, neon macro.h:213-215). -/
def wRed127 (x c01 c7f : Vec) : Vec :=
  vand (vadd8 (vand (vsrl16 (vadd8 x c01) 7) c01) x) c7f

end LESS
