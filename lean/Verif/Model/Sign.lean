import Verif.Model.Less
/-!
# The NIST API: `Reference_Implementation/lib/sign.c`
-/
namespace LESS

variable {p : Params}

/-- `CRYPTO_PUBLICKEYBYTES` (api.h:38): the size of `pubkey_t` (LESS.h:40-43; no padding, only byte arrays). -/
def Params.pkLen (p : Params) : Nat := p.seedLen + (p.numKeypairs - 1) * p.rrefBytes

/-- `CRYPTO_SECRETKEYBYTES` (api.h:35): the size of `prikey_t` (LESS.h:48-52). -/
def Params.skLen (p : Params) : Nat := p.skSeedLen + p.seedLen

/-- `CRYPTO_BYTES` (api.h:41): the size of `sign_t` (LESS.h:55-61). -/
def Params.sigLen (p : Params) : Nat := p.hashLen + p.W * p.monoBytes + p.hashLen + p.storageLen

/-- The `pubkey_t` in a byte buffer (the pointer cast of sign.c:85). -/
def readPub (b : Vector UInt8 p.pkLen) : PubKey p :=
  ⟨toVec _ (seg b 0 p.seedLen),
    Vector.ofFn fun i => toVec _ (seg b (p.seedLen + i.val * p.rrefBytes) p.rrefBytes)⟩

/-- The bytes of a `pubkey_t`. -/
def pubBytes (pk : PubKey p) : Bytes := pk.G0seed.toList ++ (pk.SFG.toList.map Vector.toList).flatten

/-- The `prikey_t` in a byte buffer (the pointer cast of sign.c:55). -/
def readPri (b : Vector UInt8 p.skLen) : PriKey p :=
  ⟨toVec _ (seg b 0 p.skSeedLen), toVec _ (seg b p.skSeedLen p.seedLen)⟩

/-- The bytes of a `prikey_t`. -/
def priBytes (sk : PriKey p) : Bytes := sk.compressedSk.toList ++ sk.G0seed.toList

/-- sign.c:34-41 `crypto_sign_keypair`: the contents of `pk` and `sk`, the generator state.  The returned value
is always 0. -/
def cryptoSignKeypair (fuel : Nat) (sl : Nat → Stale p) (rng : Inc) :
    C (Vector UInt8 p.pkLen × Vector UInt8 p.skLen × Inc) := do
  let (sk, pk, rng) ← lessKeygen fuel sl rng
  pure (toVec _ (pubBytes pk), toVec _ (priBytes sk), rng)

/-- Bytes of a `sign_t` before `seed_storage` (LESS.h:55-61; no padding, only byte arrays). -/
def Params.fixedLen (p : Params) : Nat := p.hashLen + p.W * p.monoBytes + p.hashLen

/-- The `sign_t` at offset `off` of a byte buffer (the pointer cast of sign.c:58,87) of which `n` bytes
of `seed_storage` lie inside the buffer. -/
def readSign {k : Nat} (buf : Vector UInt8 k) (off n : Nat) : C (SignT p n) := do
  let salt ← slice buf off p.hashLen
  let monoms ← forUp p.W (fun i (v : Vector (Vector UInt8 p.monoBytes) p.W) => do
    let b ← slice buf (off + p.hashLen + i * p.monoBytes) p.monoBytes
    wr v i (toVec _ b)) (Vector.replicate _ (Vector.replicate _ 0))
  let digest ← slice buf (off + p.hashLen + p.W * p.monoBytes) p.hashLen
  let storage ← slice buf (off + p.fixedLen) n
  pure ⟨toVec _ salt, monoms, toVec _ digest, toVec _ storage⟩

/-- The bytes of a `sign_t`. -/
def signBytes {n : Nat} (s : SignT p n) : Bytes :=
  s.treeSalt.toList ++ (s.monomActions.toList.map Vector.toList).flatten ++ s.digest.toList
    ++ s.seedStorage.toList

/-- sign.c:47-62 `crypto_sign`: the buffer `sm`, `*smlen`, the generator state.  `m` and `sm` do not
overlap.  The returned value is always 0. -/
def cryptoSign {k : Nat} (fuel : Nat) (sl : Nat → Stale p) (rng : Inc) (sm : Vector UInt8 k) (m : Bytes)
    (sk : Vector UInt8 p.skLen) : C (Vector UInt8 k × Nat × Inc) := do
  let sm ← blit sm 0 m
  let sig ← readSign (p := p) sm m.length p.storageLen
  let (sig, num, rng) ← lessSign fuel sl rng (readPri sk) m sig
  let sm ← blit sm m.length (signBytes sig)
  let sigLen := p.cryptoBytes num
  pure (sm, m.length + sigLen, rng)

/-- sign.c:69-94 `crypto_sign_open`: the returned value (0 or -1), `*mlen` (`none` if not written) and the
contents of `m` (as far as written).  `sm` has exactly `smlen` bytes; `m` has `mcap` bytes.
`*mlen` is an `unsigned long long`: the subtraction wraps. -/
def cryptoSignOpen {smlen : Nat} (fuel : Nat) (sl : Nat → Stale p) (mcap : Nat) (sm : Vector UInt8 smlen)
    (pk : Vector UInt8 p.pkLen) : C (Int × Option Bytes) := do
  let num ← rdB sm ((smlen + 2 ^ 64 - 1) % 2 ^ 64)
  if p.maxPublishedSeeds ≤ num then pure (-1, none)
  else do
    let sigLen := p.cryptoBytes num
    let mlen := (smlen + 2 ^ 64 - sigLen) % 2 ^ 64
    let m ← slice sm 0 mlen
    if mcap < mlen then .error .oob
    else do
      let sig ← readSign (p := p) sm mlen (smlen - mlen - p.fixedLen)
      let ok ← lessVerify fuel sl (readPub pk) m sig
      pure ((ok : Int) - 1, some m)

end LESS
