import Verif.Model.Keccak
/-!
# Keccak once more, with its memory

`Model/Keccak` has the values computed by `keccakf1600.c`, `fips202.c`, `sha3.h` and `rng.h`; here are the same functions
with every array access checked, contexts and buffers as arrays, pointers as offsets into a buffer, and `size_t` (64 bits),
`unsigned int` and `uint32_t` (32 bits) arithmetic as it wraps.  `Proofs/KeccakMem` relates the two.
A pointer moved beyond the end of its buffer is `.oob` as well.
-/
namespace LESS.Mem
open LESS

/-- `size_t` and `uint64_t` arithmetic. -/
def u64 (x : Nat) : Nat := x % 18446744073709551616

/-- `a - b` in 64 bits. -/
def sub64 (a b : Nat) : Nat := u64 (a + 18446744073709551616 - b)

/-- `ptr += d` for a pointer into a buffer of `k` bytes (one past the end is allowed). -/
def advance (k ptr d : Nat) : C Nat := if ptr + d ≤ k then pure (ptr + d) else .error .oob

/-- keccakf1600.c:41-48 `KeccakF1600_StateExtractBytes`: `h` is the offset of `data` in its buffer; `offset` and `length` are
`unsigned int`. -/
def stateExtract {n k : Nat} (state : Vector UInt64 n) (data : Vector UInt8 k) (h offset length : Nat) : C (Vector UInt8 k) :=
  forUp (u32 length) (fun i data => do
    let j := u32 (u32 offset + i)
    let lane ← rd state (j >>> 3)
    wr data (h + i) (lane >>> (8 * (j &&& 7)).toUInt64).toUInt8) data

/-- keccakf1600.c:50-57 `KeccakF1600_StateXORBytes`: `m` is the offset of `data` in its buffer. -/
def stateXor {n k : Nat} (state : Vector UInt64 n) (data : Vector UInt8 k) (m offset length : Nat) : C (Vector UInt64 n) :=
  forUp (u32 length) (fun i state => do
    let j := u32 (u32 offset + i)
    let lane ← rd state (j >>> 3)
    let b ← rd data (m + i)
    wr state (j >>> 3) (lane ^^^ (b.toUInt64 <<< (8 * (j &&& 7)).toUInt64))) state

/-- keccakf1600.c:59-322 `KeccakF1600_StatePermute`: the copies between `state` and the local variables; the rounds are
`permute` of Model/Keccak. -/
def statePermute {n : Nat} (state : Vector UInt64 n) : C (Vector UInt64 n) := do
  let a ← forUp 25 (fun i a => do
    let lane ← rd state i
    wr a i lane) (Vector.replicate 25 (0 : UInt64))
  let a := permute a
  forUp 25 (fun i state => do
    let lane ← rd a i
    wr state i lane) state

/-- The `while` loop of fips202.c:36-41; its counter running out is `.fuel`. -/
def absorbOnceLoop {k : Nat} (r : Nat) (data : Vector UInt8 k) :
    (fuel : Nat) → Vector UInt64 25 → (m mlen : Nat) → C (Vector UInt64 25 × Nat × Nat)
  | 0, _, _, _ => .error .fuel
  | fuel + 1, s, m, mlen =>
    if r ≤ mlen then do
      let s ← stateXor s data m 0 r
      let s ← statePermute s
      let m ← advance k m r
      absorbOnceLoop r data fuel s m (mlen - r)
    else pure (s, m, mlen)

/-- fips202.c:31-55 `keccak_absorb`; `p` is a local variable, so `&p` is a buffer of one byte. -/
def absorbOnce {k : Nat} (r : Nat) (s : Vector UInt64 25) (data : Vector UInt8 k) (m mlen : Nat) (p : UInt8) :
    C (Vector UInt64 25) := do
  let (s, m, mlen) ← absorbOnceLoop r data (mlen + 1) s m mlen
  let s ← if mlen > 0 then stateXor s data m 0 mlen else pure s
  if mlen = u32 (r + 4294967296 - 1) then stateXor s #v[p ||| 128] 0 mlen 1
  else do
    let s ← stateXor s #v[p] 0 mlen 1
    stateXor s #v[(128 : UInt8)] 0 (u32 (r + 4294967296 - 1)) 1

/-- fips202.c:70-79 `keccak_squeezeblocks`. -/
def squeezeBlocks {n k : Nat} (r : Nat) : (nblocks : Nat) → Vector UInt8 k → (h : Nat) → Vector UInt64 n →
    C (Vector UInt8 k × Vector UInt64 n)
  | 0, out, _, s => pure (out, s)
  | nblocks + 1, out, h, s => do
    let s ← statePermute s
    let out ← stateExtract s out h 0 r
    let h ← advance k h r
    squeezeBlocks r nblocks out h s

/-- `uint64_t ctx[26]` of the incremental contexts (fips202.h:14-46). -/
abbrev Ctx := Vector UInt64 26

/-- fips202.c:91-99 `keccak_inc_init`. -/
def incInit (s : Ctx) : C Ctx := do
  let s ← forUp 25 (fun i s => wr s i 0) s
  wr s 25 0

/-- The `while` loop of fips202.c:118-126; its counter running out is `.fuel`. -/
def absorbLoop {k : Nat} (r : Nat) (data : Vector UInt8 k) :
    (fuel : Nat) → Ctx → (m mlen : Nat) → C (Ctx × Nat × Nat)
  | 0, _, _, _ => .error .fuel
  | fuel + 1, s, m, mlen => do
    let c ← rd s 25
    if r ≤ u64 (mlen + c.toNat) then do
      let s ← stateXor s data m c.toNat (sub64 r c.toNat)
      let c ← rd s 25
      let m ← advance k m (sub64 r c.toNat)
      let s ← wr s 25 0
      let s ← statePermute s
      absorbLoop r data fuel s m (sub64 mlen (sub64 r c.toNat))
    else pure (s, m, mlen)

/-- fips202.c:114-130 `keccak_inc_absorb`. -/
def incAbsorb {k : Nat} (r : Nat) (s : Ctx) (data : Vector UInt8 k) (m mlen : Nat) : C Ctx := do
  let (s, m, mlen) ← absorbLoop r data (mlen + 1) s m mlen
  let c ← rd s 25
  let s ← stateXor s data m c.toNat mlen
  let c ← rd s 25
  wr s 25 (UInt64.ofNat (c.toNat + mlen))

/-- fips202.c:145-158 `keccak_inc_finalize`. -/
def incFinalize (r : Nat) (p : UInt8) (s : Ctx) : C Ctx := do
  let c ← rd s 25
  let s ←
    if c.toNat = u32 (r + 4294967296 - 1) then stateXor s #v[p ||| 128] 0 c.toNat 1
    else do
      let s ← stateXor s #v[p] 0 c.toNat 1
      stateXor s #v[(128 : UInt8)] 0 (u32 (r + 4294967296 - 1)) 1
  wr s 25 0

/-- The `while (outlen > 0)` loop of fips202.c:189-201; its counter running out is `.fuel`. -/
def squeezeLoop {k : Nat} (r : Nat) : (fuel : Nat) → Vector UInt8 k → (h outlen : Nat) → Ctx → C (Vector UInt8 k × Ctx)
  | 0, _, _, _, _ => .error .fuel
  | fuel + 1, out, h, outlen, s =>
    if outlen > 0 then do
      let s ← statePermute s
      let len := if outlen < r then outlen else r
      let out ← stateExtract s out h 0 len
      let h ← advance k h len
      let s ← wr s 25 (UInt64.ofNat (sub64 r len))
      squeezeLoop r fuel out h (outlen - len) s
    else pure (out, s)

/-- fips202.c:173-202 `keccak_inc_squeeze`. -/
def incSqueeze {k : Nat} (r : Nat) (out : Vector UInt8 k) (h outlen : Nat) (s : Ctx) : C (Vector UInt8 k × Ctx) := do
  let c ← rd s 25
  let len := if outlen < c.toNat then outlen else c.toNat
  let out ← stateExtract s out h (sub64 r c.toNat) len
  let h ← advance k h len
  let s ← wr s 25 (UInt64.ofNat (sub64 c.toNat len))
  squeezeLoop r (outlen + 1) out h (outlen - len) s

/-- fips202.c:258-264 `shake128_absorb`, fips202.c:302-309 `shake256_absorb`; `s` is the context as found. -/
def shakeAbsorb {k : Nat} (r : Nat) (s : Vector UInt64 25) (data : Vector UInt8 k) (m inlen : Nat) : C (Vector UInt64 25) := do
  let s ← forUp 25 (fun i s => wr s i 0) s
  absorbOnce r s data m inlen 0x1F

/-- fips202.c:283-295 `shake128`, 328-341 `shake256`, 358-369 `sha3_256`, 425-436 `sha3_384`, 447-458 `sha3_512`: they differ
in the rate, the domain byte and the output length; `s` is the uninitialised context on the stack. -/
def oneShot {k k' : Nat} (r : Nat) (d : UInt8) (s : Ctx) (out : Vector UInt8 k) (h outlen : Nat)
    (data : Vector UInt8 k') (m inlen : Nat) : C (Vector UInt8 k) := do
  let s ← incInit s
  let s ← incAbsorb r s data m inlen
  let s ← incFinalize r d s
  let (out, _) ← incSqueeze r out h outlen s
  pure out

@[inherit_doc oneShot] def shake128 {k k' : Nat} (s : Ctx) (out : Vector UInt8 k) (h outlen : Nat) (data : Vector UInt8 k')
    (m inlen : Nat) := oneShot shake128Rate 0x1F s out h outlen data m inlen
@[inherit_doc oneShot] def shake256 {k k' : Nat} (s : Ctx) (out : Vector UInt8 k) (h outlen : Nat) (data : Vector UInt8 k')
    (m inlen : Nat) := oneShot shake256Rate 0x1F s out h outlen data m inlen
@[inherit_doc oneShot] def sha3_256 {k k' : Nat} (s : Ctx) (out : Vector UInt8 k) (h : Nat) (data : Vector UInt8 k')
    (m inlen : Nat) := oneShot sha3_256Rate 0x06 s out h 32 data m inlen
@[inherit_doc oneShot] def sha3_384 {k k' : Nat} (s : Ctx) (out : Vector UInt8 k) (h : Nat) (data : Vector UInt8 k')
    (m inlen : Nat) := oneShot sha3_384Rate 0x06 s out h 48 data m inlen
@[inherit_doc oneShot] def sha3_512 {k k' : Nat} (s : Ctx) (out : Vector UInt8 k) (h : Nat) (data : Vector UInt8 k')
    (m inlen : Nat) := oneShot sha3_512Rate 0x06 s out h 64 data m inlen

/-- fips202.c:381-391, 404-414, 471-481 `sha3_{256,384,512}_inc_finalize`; `t` is the local array as found, of `r` bytes. -/
def sha3IncFinalize {k : Nat} (r outlen : Nat) (t : Vector UInt8 r) (out : Vector UInt8 k) (h : Nat) (s : Ctx) :
    C (Vector UInt8 k × Ctx) := do
  let s ← incFinalize r 0x06 s
  let (t, s) ← squeezeBlocks r 1 t 0 s
  let out ← forUp outlen (fun i out => do
    let b ← rd t i
    wr out (h + i) b) out
  pure (out, s)

/-- fips202.c:297-300 `shake128_ctx_clone`, 343-346 `shake256_ctx_clone`. -/
def ctxClone (_dest src : Vector UInt64 25) : Vector UInt64 25 := src

/-- sha3.h:130-138 `xof_shake_init`, 140-153 `xof_shake_update` (the length is an `unsigned int`), 154-162 `xof_shake_final`
and rng.c:38-46 `initialize_csprng`; `s` is the state as found. -/
def initCsprng {k : Nat} (p : Params) (s : Ctx) (seed : Vector UInt8 k) (m seedLen : Nat) : C Ctx := do
  let s ← incInit s
  let s ← incAbsorb p.xofRate s seed m (u32 seedLen)
  incFinalize p.xofRate 0x1F s

/-- rng.h:35-42 `csprng_randombytes` and, on the global state, rng.h:46-52 `randombytes`: the length is an
`unsigned long long`, but sha3.h:164-175 `xof_shake_extract` takes an `unsigned int`. -/
def randombytes {k : Nat} (p : Params) (x : Vector UInt8 k) (h xlen : Nat) (s : Ctx) : C (Vector UInt8 k × Ctx) :=
  incSqueeze p.xofRate x h (u32 xlen) s

end LESS.Mem
