import Verif.Basic
/-!
# The NIST test-vector generator

`Reference_Implementation/lib/nist/KAT_NIST_rng.c` (the copies under `Optimized_Implementation/common/lib/nist` and
`Utilities/KAT_Generation/lib` are identical).  AES-256 comes from OpenSSL and is a parameter `aes key block`.
In this file `.oob` also stands for the overflow of a signed `int`, which is undefined as well.
-/
namespace LESS.Kat
open LESS

/-- `KAT_NIST_AES256_ECB` (KAT_NIST_rng.c:132-157), one block; the failure branches abort the process and are not
modelled. -/
abbrev Aes := Vector UInt8 32 → Vector UInt8 16 → Vector UInt8 16

/-- `INT_MAX`. -/
def intMax : Nat := 2147483647

/-- `KAT_NIST_AES256_CTR_DRBG_struct` (KAT_NIST_rng.h:54-58). -/
structure Drbg where
  key : Vector UInt8 32
  V : Vector UInt8 16
  reseedCounter : Nat

/-- The counter increment: `for (j = lo + cnt - 1; j >= lo; j--)` with a `break` at the first byte that is not 0xff.
`lo = 0`, `cnt = 16` at KAT_NIST_rng.c:180-187 and 212-219; `lo = 12`, `cnt = 4` at 112-119. -/
def bump (lo : Nat) : (cnt : Nat) → Vector UInt8 16 → C (Vector UInt8 16)
  | 0, V => pure V
  | c + 1, V => do
    let b ← rd V (lo + c)
    if b = 0xff then
      let V ← wr V (lo + c) 0x00
      bump lo c V
    else wr V (lo + c) (b + 1)

/-- `for (i = 0; i < 48; i++) a[i] ^= d[i]` (KAT_NIST_rng.c:166-167 and 223-225). -/
def xorBytes {n : Nat} (a d : Vector UInt8 n) : C (Vector UInt8 n) :=
  forUp n (fun i a => do
    let t ← rd a i
    let x ← rd d i
    wr a i (t ^^^ x)) a

/-- `KAT_NIST_AES256_CTR_DRBG_Update` (KAT_NIST_rng.c:205-228).  `temp` is uninitialised on entry. -/
def drbgUpdate (aes : Aes) (temp : Vector UInt8 48) (data : Option (Vector UInt8 48)) (key : Vector UInt8 32)
    (V : Vector UInt8 16) : C (Vector UInt8 32 × Vector UInt8 16) := do
  let (V, temp) ← forUp 3 (fun i (V, temp) => do
    let V ← bump 0 16 V
    let temp ← blit temp (16 * i) (aes key V).toList
    pure (V, temp)) (V, temp)
  let temp ← match data with
    | none => pure temp
    | some d => xorBytes temp d
  let k ← slice temp 0 32
  let key ← blit key 0 k
  let v ← slice temp 32 16
  let V ← blit V 0 v
  pure (key, V)

/-- `KAT_NIST_randombytes_init` (KAT_NIST_rng.c:159-172). -/
def randombytesInit (aes : Aes) (st : Drbg) (temp : Vector UInt8 48) (entropy : Vector UInt8 48)
    (pers : Option (Vector UInt8 48)) : C Drbg := do
  let seed ← match pers with
    | none => pure entropy
    | some s => xorBytes entropy s
  let key ← blit st.key 0 (List.replicate 32 0)
  let V ← blit st.V 0 (List.replicate 16 0)
  let (key, V) ← drbgUpdate aes temp (some seed) key V
  pure ⟨key, V, 1⟩

/-- The loop of `KAT_NIST_randombytes` (KAT_NIST_rng.c:178-198); `i` is an `int`.  The first argument bounds the number
of iterations; `randombytes` passes enough. -/
def randLoop (aes : Aes) (key : Vector UInt8 32) {cap : Nat} : (fuel : Nat) → (V : Vector UInt8 16) →
    (x : Vector UInt8 cap) → (i xlen : Nat) → C (Vector UInt8 16 × Vector UInt8 cap)
  | 0, V, x, _, xlen => if 0 < xlen then .error .fuel else pure (V, x)
  | f + 1, V, x, i, xlen =>
    if 0 < xlen then do
      let V ← bump 0 16 V
      let block := aes key V
      if 15 < xlen then do
        let x ← blit x i block.toList
        if intMax < i + 16 then .error .oob
        else randLoop aes key f V x (i + 16) (xlen - 16)
      else do
        let b ← slice block 0 xlen
        let x ← blit x i b
        randLoop aes key f V x i 0
    else pure (V, x)

/-- `KAT_NIST_randombytes` (KAT_NIST_rng.c:174-203); always returns 0.  `x` is the output buffer with its capacity. -/
def randombytes (aes : Aes) (st : Drbg) (temp : Vector UInt8 48) {cap : Nat} (x : Vector UInt8 cap) (xlen : Nat) :
    C (Drbg × Vector UInt8 cap) := do
  let (V, x) ← randLoop aes st.key (xlen + 1) st.V x 0 xlen
  let (key, V) ← drbgUpdate aes temp none st.key V
  if intMax < st.reseedCounter + 1 then .error .oob
  else pure (⟨key, V, st.reseedCounter + 1⟩, x)

/-- `KAT_NIST_AES_XOF_struct` (KAT_NIST_rng.h:46-52). -/
structure Xof where
  buffer : Vector UInt8 16
  bufferPos : Nat
  lengthRemaining : Nat
  key : Vector UInt8 32
  ctr : Vector UInt8 16

/-- `KAT_NIST_seedexpander_init` (KAT_NIST_rng.c:50-75).  `unsigned long` has 64 bits. -/
def seedexpanderInit (ctx : Xof) (seed : Vector UInt8 32) (diversifier : Vector UInt8 8) (maxlen : Nat) :
    C (Int × Xof) := do
  if 0x100000000 ≤ maxlen then pure (-1, ctx)
  else do
    let key ← blit ctx.key 0 seed.toList
    let ctr ← blit ctx.ctr 0 diversifier.toList
    let ctr ← wrB ctr 11 (maxlen % 256)
    let m1 := maxlen >>> 8
    let ctr ← wrB ctr 10 (m1 % 256)
    let m2 := m1 >>> 8
    let ctr ← wrB ctr 9 (m2 % 256)
    let m3 := m2 >>> 8
    let ctr ← wrB ctr 8 (m3 % 256)
    let ctr ← blit ctr 12 (List.replicate 4 0)
    let buffer ← blit ctx.buffer 0 (List.replicate 16 0)
    pure (0, ⟨buffer, 16, maxlen, key, ctr⟩)

/-- The loop of `KAT_NIST_seedexpander` (KAT_NIST_rng.c:95-121).  The first argument bounds the number of iterations;
`seedexpander` passes enough. -/
def xofLoop (aes : Aes) {cap : Nat} : (fuel : Nat) → (ctx : Xof) → (x : Vector UInt8 cap) → (offset xlen : Nat) →
    C (Xof × Vector UInt8 cap)
  | 0, ctx, x, _, xlen => if 0 < xlen then .error .fuel else pure (ctx, x)
  | f + 1, ctx, x, offset, xlen =>
    if 0 < xlen then
      if xlen ≤ u32 (16 + 4294967296 - ctx.bufferPos) then do
        let b ← slice ctx.buffer ctx.bufferPos xlen
        let x ← blit x offset b
        pure ({ ctx with bufferPos := u32 (ctx.bufferPos + xlen) }, x)
      else do
        let left := u32 (16 + 4294967296 - ctx.bufferPos)
        let b ← slice ctx.buffer ctx.bufferPos left
        let x ← blit x offset b
        let ctr' ← bump 12 4 ctx.ctr
        xofLoop aes f { ctx with buffer := aes ctx.key ctx.ctr, bufferPos := 0, ctr := ctr' } x (offset + left) (xlen - left)
    else pure (ctx, x)

/-- `KAT_NIST_seedexpander` (KAT_NIST_rng.c:83-124); `x = none` is the null pointer. -/
def seedexpander (aes : Aes) (ctx : Xof) {cap : Nat} (x : Option (Vector UInt8 cap)) (xlen : Nat) :
    C (Int × Xof × Option (Vector UInt8 cap)) :=
  match x with
  | none => pure (-2, ctx, none)
  | some x =>
    if ctx.lengthRemaining ≤ xlen then pure (-3, ctx, some x)
    else do
      let (ctx, x) ← xofLoop aes (xlen + 2) { ctx with lengthRemaining := ctx.lengthRemaining - xlen } x 0 xlen
      pure (0, ctx, some x)

end LESS.Kat
