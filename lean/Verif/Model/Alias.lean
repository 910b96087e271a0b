import Verif.Model.Sign
/-!
# `sign.c` with the buffers `m` and `sm` in one memory

In `Model/Sign` the buffers of `crypto_sign` and `crypto_sign_open` are different objects.  Here they are two
addresses in one memory, so that they may overlap.  The keys are separate objects.
-/
namespace LESS

variable {p : Params}

/-- `memcpy` inside one memory, one byte after the other, from the first to the last or (`back`) from the last to the
first.  The C standard leaves overlapping arguments undefined; implementations copy in one of these directions.
Simplified: they may also copy several bytes at a time. -/
def copyWithin {k : Nat} (back : Bool) (mem : Vector UInt8 k) (dst src len : Nat) : C (Vector UInt8 k) :=
  forUp len (fun i mem => do
    let j := if back then len - 1 - i else i
    let b ← rd mem (src + j)
    wr mem (dst + j) b) mem

/-- sign.c:47-62 `crypto_sign` with `m` and `sm` in the memory `mem`: the memory, `*smlen`, the generator state.
`LESS_sign` writes the salt (LESS.c:116) before it reads the message (LESS.c:148), and all other parts of the signature
later (LESS.c:152 and following). -/
def cryptoSignAlias {k : Nat} (back : Bool) (fuel : Nat) (sl : Nat → Stale p) (rng : Inc) (mem : Vector UInt8 k) (sm m mlen : Nat)
    (sk : Vector UInt8 p.skLen) : C (Vector UInt8 k × Nat × Inc) := do
  let mem ← copyWithin back mem sm m mlen
  let salt := (csprngBytes p p.hashLen (csprngBytes p p.seedLen rng).2).1
  let mem ← blit mem (sm + mlen) salt
  let msg ← slice mem m mlen
  let sig ← readSign (p := p) mem (sm + mlen) p.storageLen
  let (sig, num, rng) ← lessSign fuel sl rng (readPri sk) msg sig
  let mem ← blit mem (sm + mlen) (signBytes sig)
  pure (mem, mlen + p.cryptoBytes num, rng)

/-- sign.c:69-94 `crypto_sign_open` with `m` and `sm` in the memory `mem`: the returned value, `*mlen` (`none` if not
written) and the memory. -/
def cryptoSignOpenAlias {k : Nat} (back : Bool) (fuel : Nat) (sl : Nat → Stale p) (mem : Vector UInt8 k) (m sm smlen : Nat)
    (pk : Vector UInt8 p.pkLen) : C (Int × Option Nat × Vector UInt8 k) := do
  let num ← rdB mem (sm + (smlen + 2 ^ 64 - 1) % 2 ^ 64)
  if p.maxPublishedSeeds ≤ num then pure (-1, none, mem)
  else do
    let sigLen := p.cryptoBytes num
    let mlen := (smlen + 2 ^ 64 - sigLen) % 2 ^ 64
    let mem ← copyWithin back mem m sm mlen
    let msg ← slice mem m mlen
    let sig ← readSign (p := p) mem (sm + mlen) (smlen - mlen - p.fixedLen)
    let ok ← lessVerify fuel sl (readPub pk) msg sig
    pure ((ok : Int) - 1, some mlen, mem)

end LESS
