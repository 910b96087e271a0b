import Verif.Model.Vec
/-!
# The vector macros that `codes.c` does not use

`vzero`, `vload128` and `vstore128` of neon macro.h name variables and types that do not exist there, so they cannot be used and are not
modelled; `vadd64` and the 128-bit `barrett_red8_half` are not modelled either.
-/
namespace LESS

/-- `vset16` (avx2 macro.h:82, neon macro.h:116). -/
def vset16 (x : Nat) : Vec := of16 fun _ => u16 x

/-- `vsub8` (avx2 macro.h:61, neon macro.h:95). -/
def vsub8 (a b : Vec) : Vec := Vector.ofFn fun i => u8 (g a i + 256 - g b i)

/-- `vxor` (avx2 macro.h:78, neon macro.h:112). -/
def vxor (a b : Vec) : Vec := Vector.ofFn fun i => g a i ^^^ g b i

/-- `vmul_hi16` (avx2 macro.h:66 `_mm256_mulhi_epu16`; commented out on NEON, macro.h:99). -/
def vmulHi16 (a b : Vec) : Vec := of16 fun i => lane16 a i * lane16 b i / 65536

/-- `vunpackl8` (`h = 0`), `vunpackh8` (`h = 1`): avx2 macro.h:85-87 `_mm256_unpacklo_epi8`, `_mm256_unpackhi_epi8`; neon macro.h:120-122
`vzip1q_u8`, `vzip2q_u8` on both halves. -/
def vunpack8 (h : Nat) (a b : Vec) : Vec := Vector.ofFn fun i =>
  let j := 16 * (i.val / 16) + 8 * h + i.val % 16 / 2
  if i.val % 2 = 0 then g a j else g b j

/-- `vpermute` (avx2 macro.h:107 `_mm256_permute2x128_si256` with `0x20`, neon macro.h:142). -/
def vpermute : Isa → Vec → Vec → Vec
  | .avx2, a, b => vpermute2 .avx2 a b 0x20
  | .neon, a, b => Vector.ofFn fun i => if i.val < 16 then g a i else g b (i.val - 16)

/-- `barrett_red16` (avx2 macro.h:116-120; empty on NEON, macro.h:172).  The constants are those the names of the
parameters ask for; the result replaces `a`, the parameter `c` is not used. -/
def barrettRed16 : Isa → Vec → Vec
  | .avx2, a =>
    let t := vadd16 a (vset16 1)
    let t := vmulHi16 t (vset16 516)
    let t := vmulLo16 t (vset16 127)
    vsub16 a t
  | .neon, a => a

/-- `W_RED127` (avx2 macro.h:157-163, neon macro.h:205-209). -/
def wRed127Old (x c01 c7f : Vec) : Vec :=
  let t := vsrl16 x 7
  let t := vand t c01
  let x := vadd8 x t
  vand x c7f

end LESS
