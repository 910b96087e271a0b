import Verif.Model.Less
import Verif.Model.KeccakMem
/-!
# Calls in several threads

The only object shared by calls of the library is the generator `platform_csprng_state` (rng.c:38), used through
`randombytes` (rng.h:46-52).  A call is a program that computes on its own memory between calls of `randombytes`;
`randombytes` itself is executed statement by statement, so statements of several calls can interleave.
-/
namespace LESS

variable {p : Params}

/-- A call between two uses of the generator: finished, or about to draw `n` bytes. -/
inductive Prog (α : Type) where
  | done (r : C α)
  | draw (n : Nat) (next : Bytes → Prog α)

/-- Computation on memory of the call. -/
def Prog.compute {α β : Type} (x : C β) (next : β → Prog α) : Prog α :=
  match x with
  | .ok b => next b
  | .error e => .done (.error e)

/-- The program run alone with the generator in state `rng`. -/
def Prog.run {α : Type} (p : Params) : Prog α → Inc → C (α × Inc)
  | .done r, rng => do
    let a ← r
    pure (a, rng)
  | .draw n next, rng => (next (csprngBytes p n rng).1).run p (csprngBytes p n rng).2

/-- The program with its result passed through `f`. -/
def Prog.map {α β : Type} (f : α → β) : Prog α → Prog β
  | .done r => .done (r.map f)
  | .draw n next => .draw n fun b => (next b).map f

/-! ## The calls -/

/-- LESS.c:57-87: key generation after the second use of the generator. -/
def keygenRest (fuel : Nat) (sl : Nat → Stale p) (sk : Bytes) (seeds : Vector (Vector UInt8 p.skSeedLen) (p.numKeypairs - 1))
    (g0 : Bytes) : C (PriKey p × PubKey p) := do
  let G0 ← expandG0 fuel (sl 0) g0
  let sfg ← forUp (p.numKeypairs - 1) (fun i sfg => do
    let seed ← rd seeds i
    let buf ← rd sfg i
    let buf ← keygenOne fuel (sl (i + 1)) G0 seed.toList buf
    wr sfg i buf) (sl 0).sfg
  pure (⟨toVec _ sk, toVec _ g0⟩, ⟨toVec _ g0, sfg⟩)

/-- LESS.c:38-87 `LESS_keygen`, with its two calls of `randombytes` (LESS.c:41, 56). -/
def keygenProg (fuel : Nat) (sl : Nat → Stale p) : Prog (PriKey p × PubKey p) :=
  .draw p.skSeedLen fun sk => .compute (privateSeeds p sk) fun seeds => .draw p.seedLen fun g0 =>
    .done (keygenRest fuel sl sk seeds g0)

/-- LESS.c:117-190: signing after the second use of the generator. -/
def signRest {n : Nat} (fuel : Nat) (sl : Nat → Stale p) (SK : PriKey p) (m : Bytes) (sig : SignT p n)
    (seeds : Vector (Vector UInt8 p.skSeedLen) (p.numKeypairs - 1)) (ephem salt : Bytes) : C (SignT p n × Nat) := do
  let treeSalt := toVec p.hashLen salt
  let tree ← generateSeedTree (Vector.replicate _ 0) ephem treeSalt.toList
  let G0 ← expandG0 fuel (sl 0) SK.G0seed.toList
  let (acts, h) ← forUp p.T (fun i => signRound fuel (sl (i + 1)) G0 tree treeSalt.toList i)
    (Vector.ofFn fun i : Fin p.T => (sl i).act', hashInit)
  let h := hashAbsorb p h m
  let h := hashAbsorb p h treeSalt.toList
  let digest := toVec p.hashLen (hashFinalize p h)
  let fws ← expandDigest fuel (Vector.replicate p.T 0) digest.toList
  let ind ← indicesToPublish fws
  let storage ← blit sig.seedStorage 0 (List.replicate p.maxPublishedBytes 0)
  let (storage, num) ← seedTreePath tree ind storage
  let (monoms, _) ← forUp p.T (fun i => signResponse fuel (sl (p.T + i + 1)) fws seeds acts i)
    (sig.monomActions, 0)
  let storage ← wrB storage (num * p.seedLen) num
  pure (⟨treeSalt, monoms, digest, storage⟩, num)

/-- LESS.c:93-190 `LESS_sign`, with its two calls of `randombytes` (LESS.c:115, 116). -/
def signProg {n : Nat} (fuel : Nat) (sl : Nat → Stale p) (SK : PriKey p) (m : Bytes) (sig : SignT p n) : Prog (SignT p n × Nat) :=
  .compute (privateSeeds p SK.compressedSk.toList) fun seeds => .draw p.seedLen fun ephem => .draw p.hashLen fun salt =>
    .done (signRest fuel sl SK m sig seeds ephem salt)

/-- A call of the library, with the contents of uninitialised memory and of the output buffer. -/
inductive Request (p : Params) where
  | keygen (sl : Nat → Stale p)
  | sign (sk : PriKey p) (m : Bytes) (sl : Nat → Stale p) (out : SignT p p.storageLen)

/-- What a call returns. -/
inductive Reply (p : Params) where
  | key (sk : PriKey p) (pk : PubKey p)
  | signature (sig : SignT p p.storageLen) (num : Nat)

/-- The program of a call. -/
def Request.prog (fuel : Nat) : Request p → Prog (Reply p)
  | .keygen sl => (keygenProg fuel sl).map fun r => .key r.1 r.2
  | .sign sk m sl out => (signProg fuel sl sk m out).map fun r => .signature r.1 r.2

/-! ## `keccak_inc_squeeze`, statement by statement -/

/-- Where an execution of fips202.c:173-202 is; `len` is the local variable. -/
inductive Pc where
  /-- before line 177 -/
  | enter
  /-- before line 183 -/
  | copy (len : Nat)
  /-- before line 186 -/
  | advance (len : Nat)
  /-- before line 189 -/
  | loop
  /-- before line 197 -/
  | block (len : Nat)
  /-- before line 200 -/
  | store (len : Nat)

/-- The local variables: `outlen`, and the bytes written so far (`h` points behind them). -/
structure Squeeze where
  pc : Pc
  outlen : Nat
  out : Bytes

/-- The 26 words of the shared context (fips202.h:14-16). -/
def Inc.words (st : Inc) : Vector UInt64 26 := Vector.ofFn fun i => if i.val < 25 then g st.s i else UInt64.ofNat st.pos

/-- keccakf1600.c:41-48 `KeccakF1600_StateExtractBytes` on the shared context; `offset` and `length` are `unsigned int`. -/
def Inc.extract (st : Inc) (offset length : Nat) : C Bytes :=
  if u32 offset + u32 length ≤ 208 then
    .ok ((List.range (u32 length)).map fun i =>
      (g st.words ((u32 offset + i) >>> 3) >>> (8 * ((u32 offset + i) &&& 7)).toUInt64).toUInt8)
  else .error .oob

/-- One statement of fips202.c:173-202: the next position, or the bytes if the function returns. -/
def Squeeze.step (r : Nat) (q : Squeeze) (st : Inc) : C ((Squeeze ⊕ Bytes) × Inc) :=
  match q.pc with
  | .enter => pure (.inl ⟨.copy (if q.outlen < st.pos then q.outlen else st.pos), q.outlen, q.out⟩, st)
  | .copy len => do
    let b ← st.extract (Mem.sub64 r st.pos) len
    pure (.inl ⟨.advance len, q.outlen - len, q.out ++ b⟩, st)
  | .advance len => pure (.inl ⟨.loop, q.outlen, q.out⟩, ⟨st.s, Mem.sub64 st.pos len⟩)
  | .loop =>
    if q.outlen > 0 then pure (.inl ⟨.block (if q.outlen < r then q.outlen else r), q.outlen, q.out⟩, ⟨permute st.s, st.pos⟩)
    else pure (.inr q.out, st)
  | .block len => do
    let b ← st.extract 0 len
    pure (.inl ⟨.store len, q.outlen - len, q.out ++ b⟩, st)
  | .store len => pure (.inl ⟨.loop, q.outlen, q.out⟩, ⟨st.s, Mem.sub64 r len⟩)

/-! ## Calls in flight -/

/-- Where a call is: outside `randombytes`, or inside. -/
inductive Phase (α : Type) where
  | outside (c : Prog α)
  | inside (q : Squeeze) (next : Bytes → Prog α)

/-- One step of a call.  Leaving the bounds of an array ends it. -/
def Phase.step {α : Type} (p : Params) (ph : Phase α) (st : Inc) : Phase α × Inc :=
  match ph with
  | .outside (.done r) => (.outside (.done r), st)
  | .outside (.draw n next) => (.inside ⟨.enter, n, []⟩ next, st)
  | .inside q next =>
    match q.step p.xofRate st with
    | .ok (.inl q', st') => (.inside q' next, st')
    | .ok (.inr b, st') => (.outside (next b), st')
    | .error e => (.outside (.done (.error e)), st)

/-- Whether a call is inside `randombytes`. -/
def Phase.isInside {α : Type} : Phase α → Bool
  | .outside _ => false
  | .inside _ _ => true

/-- The calls in flight and the generator they share. -/
structure Flight (p : Params) (α : Type) where
  rng : Inc
  calls : List (Phase α)

/-- What can happen next: a call begins, or call number `i` makes a step. -/
inductive Event (α : Type) where
  | begin (c : Prog α)
  | step (i : Nat)

/-- One event.  With `locked`, a call waits before `randombytes` while another one is inside (the library has no such lock; a
program can put one around `randombytes`). -/
def Flight.event {α : Type} (locked : Bool) (w : Flight p α) : Event α → Flight p α
  | .begin c => ⟨w.rng, w.calls ++ [.outside c]⟩
  | .step i =>
    match w.calls[i]? with
    | none => w
    | some ph =>
      if locked && !ph.isInside && w.calls.any Phase.isInside then w
      else ⟨(ph.step p w.rng).2, w.calls.set i (ph.step p w.rng).1⟩

/-- A sequence of events. -/
def Flight.run {α : Type} (locked : Bool) (w : Flight p α) (evs : List (Event α)) : Flight p α :=
  evs.foldl (fun w e => w.event locked e) w

end LESS
