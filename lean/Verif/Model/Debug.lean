import Verif.Model.Opt
import Verif.Model.Sign

/-!
# The library compiled without `NDEBUG`

`include/fq_arith.h:33-41`: `ASSERT(X)` is `assert(X)` in a build without `NDEBUG` (or with `DEBUG`) and does nothing
otherwise.  The library asserts in two places: `DEF_RAND_STATE` (fq_arith.h:48, `MIN_VALUE <= MAX_VALUE`, two constants
of the build: 0 ≤ 126 and 1 ≤ 126, so these are left out here) and `prepare_digest_input` (codes.c:251, in the optimized
code codes.c:315), which asserts that the matrix it has just reduced has full rank.  This file is the code with the
second assertion in place: a call either ends as in a release build or aborts the process.  The rest of the code is
unchanged and taken over with `up`.
-/

namespace LESS

variable {p : Params}

/-- A computation that may end in `abort()`, written `none`. -/
abbrev Dbg (α : Type) := OptionT C α

/-- Code without an assertion. -/
def up {α : Type} (x : C α) : Dbg α :=
  OptionT.mk (x >>= fun a => pure (some a))

/-- fq_arith.h:38 `assert(X)`: the process is aborted if `X` is false. -/
def assertD (b : Prop) [Decidable b] : Dbg Unit :=
  if b then pure () else OptionT.mk (pure none)

/-- `for (i = 0; i < n; i++)` with assertions in the body. -/
def dforUp {σ : Type} : (n : Nat) → (body : Nat → σ → Dbg σ) → σ → Dbg σ
  | 0, _, s => pure s
  | n + 1, body, s => dforUp n body s >>= body n

/-- The same, with a body that may `return`. -/
def dforRet {ρ σ : Type} : (n : Nat) → (body : Nat → σ → Dbg (ρ ⊕ σ)) → σ → Dbg (ρ ⊕ σ)
  | 0, _, s => pure (.inr s)
  | n + 1, body, s => do
    match ← dforRet n body s with
    | .inl r => pure (.inl r)
    | .inr s => body n s

/-! ## Reference code -/

/-- codes.c:239-279 `prepare_digest_input` with the assertion of line 251. -/
def prepareDigestInputD (V : NormIS p) (Qbar : MonoAction p) (G : GenMat p) (Qin : Monomial p) :
    Dbg (NormIS p × MonoAction p × Nat) := do
  let Gd ← up (generatorMonomialMul (Vector.replicate p.K (Vector.replicate p.N 0)) G Qin)
  let (ok, Gd, isPivot) ← up (generatorRREF Gd (Vector.replicate p.N 0))
  assertD (ok ≠ 0)
  let (V, Qbar, _, _) ← up (forUp p.N (fun col (s : NormIS p × MonoAction p × Nat × Nat) => do
    let (V, Qbar, pivIdx, nonPivIdx) := s
    let (rowIdx, val) ← findSource Qin col
    let f ← rd isPivot col
    if f = 0 then do
      let V ← lexMinimize V ((nonPivIdx + p.posMod - p.K) % p.posMod) Gd col
      pure (V, Qbar, pivIdx, (nonPivIdx + 1) % p.posMod)
    else do
      let perm ← wr Qbar.permutation pivIdx rowIdx
      let coefs ← wr Qbar.coefficients pivIdx (u8 val)
      pure (V, ⟨coefs, perm⟩, (pivIdx + 1) % p.posMod, nonPivIdx)) (V, Qbar, 0, p.K))
  let V ← up (lexSortCols V)
  pure (V, Qbar, ok)

/-- LESS.c:137-146: one commitment round of the signer. -/
def signRoundD (fuel : Nat) (sl : Stale p) (G0 : GenMat p) (tree : TreeBuf p) (salt : Bytes) (i : Nat)
    (s : Vector (MonoAction p) p.T × Inc) : Dbg (Vector (MonoAction p) p.T × Inc) := do
  let (acts, h) := s
  let seed ← up (slice tree (p.seedLen * (p.numLeaves - 1) + i * p.seedLen) p.seedLen)
  let Qt ← up (monomialSeedExpandSaltRnd fuel sl.mono seed salt i)
  let a ← up (rd acts i)
  let (V, a, _) ← prepareDigestInputD sl.norm a G0 Qt
  let acts ← up (wr acts i a)
  pure (acts, hashAbsorb p h (normBytes V))

/-- LESS.c:95-191 `LESS_sign`. -/
def lessSignD {n : Nat} (fuel : Nat) (sl : Nat → Stale p) (rng : Inc) (SK : PriKey p) (m : Bytes)
    (sig : SignT p n) : Dbg (SignT p n × Nat × Inc) := do
  let seeds ← up (privateSeeds p SK.compressedSk.toList)
  let (ephem, rng) := csprngBytes p p.seedLen rng
  let (salt, rng) := csprngBytes p p.hashLen rng
  let treeSalt := toVec p.hashLen salt
  let tree ← up (generateSeedTree (Vector.replicate _ 0) ephem treeSalt.toList)
  let G0 ← up (expandG0 fuel (sl 0) SK.G0seed.toList)
  let (acts, h) ← dforUp p.T (fun i => signRoundD fuel (sl (i + 1)) G0 tree treeSalt.toList i)
    (Vector.ofFn fun i : Fin p.T => (sl i).act', hashInit)
  let h := hashAbsorb p h m
  let h := hashAbsorb p h treeSalt.toList
  let digest := toVec p.hashLen (hashFinalize p h)
  let fws ← up (expandDigest fuel (Vector.replicate p.T 0) digest.toList)
  let ind ← up (indicesToPublish fws)
  let storage ← up (blit sig.seedStorage 0 (List.replicate p.maxPublishedBytes 0))
  let (storage, num) ← up (seedTreePath tree ind storage)
  let (monoms, _) ← up (forUp p.T (fun i => signResponse fuel (sl (p.T + i + 1)) fws seeds acts i)
    (sig.monomActions, 0))
  let storage ← up (wrB storage (num * p.seedLen) num)
  pure (⟨treeSalt, monoms, digest, storage⟩, num, rng)

/-- LESS.c:237-285: one round of the verifier. -/
def verifyRoundD {n : Nat} (fuel : Nat) (sl : Stale p) (PK : PubKey p) (sig : SignT p n)
    (fws : Vector Nat p.T) (tree : TreeBuf p) (G0 : RrefMat p) (i : Nat) (s : Inc × Nat) :
    Dbg (Nat ⊕ (Inc × Nat)) := do
  let (h, employed) := s
  let x ← up (rd fws i)
  if x = 0 then do
    let G ← up (generatorRrefExpand sl.gen G0)
    let seed ← up (slice tree (p.seedLen * (p.numLeaves - 1) + i * p.seedLen) p.seedLen)
    let Qm ← up (monomialSeedExpandSaltRnd fuel ⟨Vector.replicate _ 0, Vector.replicate _ 0⟩ seed
      sig.treeSalt.toList i)
    let (V, _, _) ← prepareDigestInputD sl.norm sl.act' G Qm
    pure (.inr (hashAbsorb p h (normBytes V), employed))
  else do
    let sfg ← up (rd PK.SFG (x - 1))
    let resp ← up (rd sig.monomActions employed)
    match ← up (verifyResponse sl sfg resp) with
    | none => pure (.inl 0)
    | some V => pure (.inr (hashAbsorb p h (normBytes V), employed + 1))

/-- LESS.c:203-297 `LESS_verify`. -/
def lessVerifyD {n : Nat} (fuel : Nat) (sl : Nat → Stale p) (PK : PubKey p) (m : Bytes) (sig : SignT p n) :
    Dbg Nat := do
  let fws ← up (expandDigest fuel (Vector.replicate p.T 0) sig.digest.toList)
  let ind ← up (indicesToPublish fws)
  let (tree, _) ← up (rebuildSeedTreeLeaves (Vector.replicate _ 0) ind sig.seedStorage sig.treeSalt.toList)
  let G0 ← up (generatorSFSeedExpand fuel (sl 0).rref PK.G0seed.toList)
  match ← dforRet p.T (fun i => verifyRoundD fuel (sl (i + 1)) PK sig fws tree G0 i) (hashInit, 0) with
  | .inl r => pure r
  | .inr (h, _) => do
    let h := hashAbsorb p h m
    let h := hashAbsorb p h sig.treeSalt.toList
    let digest := toVec p.hashLen (hashFinalize p h)
    let d ← up (timingSafeMemcmp digest sig.digest p.hashLen)
    pure (b2n (d = 0))

/-- sign.c:46-61 `crypto_sign`. -/
def cryptoSignD {k : Nat} (fuel : Nat) (sl : Nat → Stale p) (rng : Inc) (sm : Vector UInt8 k) (m : Bytes)
    (sk : Vector UInt8 p.skLen) : Dbg (Vector UInt8 k × Nat × Inc) := do
  let sm ← up (blit sm 0 m)
  let sig ← up (readSign (p := p) sm m.length p.storageLen)
  let (sig, num, rng) ← lessSignD fuel sl rng (readPri sk) m sig
  let sm ← up (blit sm m.length (signBytes sig))
  let sigLen := p.cryptoBytes num
  pure (sm, m.length + sigLen, rng)

/-- sign.c:69-94 `crypto_sign_open`. -/
def cryptoSignOpenD {smlen : Nat} (fuel : Nat) (sl : Nat → Stale p) (mcap : Nat) (sm : Vector UInt8 smlen)
    (pk : Vector UInt8 p.pkLen) : Dbg (Int × Option Bytes) := do
  let num ← up (rdB sm ((smlen + 2 ^ 64 - 1) % 2 ^ 64))
  if p.maxPublishedSeeds ≤ num then pure (-1, none)
  else do
    let sigLen := p.cryptoBytes num
    let mlen := (smlen + 2 ^ 64 - sigLen) % 2 ^ 64
    let m ← up (slice sm 0 mlen)
    if mcap < mlen then up (.error .oob)
    else do
      let sig ← up (readSign (p := p) sm mlen (smlen - mlen - p.fixedLen))
      let ok ← lessVerifyD fuel sl (readPub pk) m sig
      pure ((ok : Int) - 1, some m)

/-! ## Optimized code -/

/-- Optimized_Implementation codes.c:304-343 `prepare_digest_input` with the assertion of line 315. -/
def prepareDigestInputOD (isa : Isa) (sl : OStale p) (V : NormIS p) (Qbar : MonoAction p) (G : OGen p)
    (Qin : Monomial p) : Dbg (NormIS p × MonoAction p × Nat) := do
  let Gd ← up (generatorMonomialMulO isa (Vector.replicate p.K (Vector.replicate p.nPad 0)) G
    (pasteRow Qin.coefficients sl.coef) Qin.permutation sl.buf)
  let (ok, Gd, isPivot) ← up (generatorRREFO Gd (Vector.replicate p.N 0) sl.em)
  assertD (ok ≠ 0)
  let (V, Qbar, _, _) ← up (forUp p.N (fun col (s : NormIS p × MonoAction p × Nat × Nat) => do
    let (V, Qbar, pivIdx, nonPivIdx) := s
    let (rowIdx, val) ← findSource Qin col
    let f ← rd isPivot col
    if f = 0 then do
      let V ← lexMinimizeO V ((nonPivIdx + p.posMod - p.K) % p.posMod) (cut Gd) col
      pure (V, Qbar, pivIdx, (nonPivIdx + 1) % p.posMod)
    else do
      let perm ← wr Qbar.permutation pivIdx rowIdx
      let coefs ← wr Qbar.coefficients pivIdx (u8 val)
      pure (V, ⟨coefs, perm⟩, (pivIdx + 1) % p.posMod, nonPivIdx)) (V, Qbar, 0, p.K))
  let V ← up (lexSortCols V)
  pure (V, Qbar, ok)

/-- LESS.c:143-153: one commitment round of the signer. -/
def signRoundOD (isa : Isa) (fuel : Nat) (sl : OStale p) (G0 : OGen p) (tree : TreeBuf p) (salt : Bytes) (i : Nat)
    (s : Vector (MonoAction p) p.T × Inc) : Dbg (Vector (MonoAction p) p.T × Inc) := do
  let (acts, h) := s
  let seed ← up (slice tree (p.seedLen * (p.numLeaves - 1) + i * p.seedLen) p.seedLen)
  let Qt ← up (monomialSeedExpandSaltRnd fuel sl.ref.mono seed salt i)
  let a ← up (rd acts i)
  let (V, a, _) ← prepareDigestInputOD isa sl sl.ref.norm a G0 Qt
  let acts ← up (wr acts i a)
  pure (acts, hashAbsorb p h (normBytes V))

/-- LESS.c:95-200 `LESS_sign`. -/
def lessSignOD {n : Nat} (isa : Isa) (fuel : Nat) (sl : Nat → OStale p) (rng : Inc) (SK : PriKey p) (m : Bytes)
    (sig : SignT p n) : Dbg (SignT p n × Nat × Inc) := do
  let seeds ← up (privateSeeds p SK.compressedSk.toList)
  let (ephem, rng) := csprngBytes p p.seedLen rng
  let (salt, rng) := csprngBytes p p.hashLen rng
  let treeSalt := toVec p.hashLen salt
  let tree ← up (generateSeedTree (Vector.replicate _ 0) ephem treeSalt.toList)
  let G0 ← up (expandG0O fuel (sl 0) SK.G0seed.toList)
  let (acts, h) ← dforUp p.T (fun i => signRoundOD isa fuel (sl (i + 1)) G0 tree treeSalt.toList i)
    (Vector.ofFn fun i : Fin p.T => (sl i).ref.act', hashInit)
  let h := hashAbsorb p h m
  let h := hashAbsorb p h treeSalt.toList
  let digest := toVec p.hashLen (hashFinalize p h)
  let fws ← up (expandDigest fuel (Vector.replicate p.T 0) digest.toList)
  let ind ← up (indicesToPublish fws)
  let storage ← up (blit sig.seedStorage 0 (List.replicate p.maxPublishedBytes 0))
  let (storage, num) ← up (seedTreePath tree ind storage)
  let (monoms, _) ← up (forUp p.T (fun i => signResponse fuel (sl (p.T + i + 1)).ref fws seeds acts i)
    (sig.monomActions, 0))
  let storage ← up (wrB storage (num * p.seedLen) num)
  pure (⟨treeSalt, monoms, digest, storage⟩, num, rng)

/-- LESS.c:246-295: one round of the verifier. -/
def verifyRoundOD {n : Nat} (isa : Isa) (fuel : Nat) (sl : OStale p) (PK : PubKey p) (sig : SignT p n)
    (fws : Vector Nat p.T) (tree : TreeBuf p) (G0 : RrefMat p) (i : Nat) (s : Inc × Nat) :
    Dbg (Nat ⊕ (Inc × Nat)) := do
  let (h, employed) := s
  let x ← up (rd fws i)
  if x = 0 then do
    let G ← up (generatorRrefExpand (cut sl.gen) G0)
    let seed ← up (slice tree (p.seedLen * (p.numLeaves - 1) + i * p.seedLen) p.seedLen)
    let Qm ← up (monomialSeedExpandSaltRnd fuel ⟨Vector.replicate _ 0, Vector.replicate _ 0⟩ seed
      sig.treeSalt.toList i)
    let (V, _, _) ← prepareDigestInputOD isa sl sl.ref.norm sl.ref.act' (paste G sl.gen) Qm
    pure (.inr (hashAbsorb p h (normBytes V), employed))
  else do
    let sfg ← up (rd PK.SFG (x - 1))
    let resp ← up (rd sig.monomActions employed)
    match ← up (verifyResponseO sl sfg resp) with
    | none => pure (.inl 0)
    | some V => pure (.inr (hashAbsorb p h (normBytes V), employed + 1))

/-- LESS.c:212-307 `LESS_verify`. -/
def lessVerifyOD {n : Nat} (isa : Isa) (fuel : Nat) (sl : Nat → OStale p) (PK : PubKey p) (m : Bytes)
    (sig : SignT p n) : Dbg Nat := do
  let fws ← up (expandDigest fuel (Vector.replicate p.T 0) sig.digest.toList)
  let ind ← up (indicesToPublish fws)
  let (tree, _) ← up (rebuildSeedTreeLeaves (Vector.replicate _ 0) ind sig.seedStorage sig.treeSalt.toList)
  let G0 ← up (generatorSFSeedExpand fuel (sl 0).ref.rref PK.G0seed.toList)
  match ← dforRet p.T (fun i => verifyRoundOD isa fuel (sl (i + 1)) PK sig fws tree G0 i) (hashInit, 0) with
  | .inl r => pure r
  | .inr (h, _) => do
    let h := hashAbsorb p h m
    let h := hashAbsorb p h sig.treeSalt.toList
    let digest := toVec p.hashLen (hashFinalize p h)
    let d ← up (timingSafeMemcmp digest sig.digest p.hashLen)
    pure (b2n (d = 0))

/-- sign.c:46-61 `crypto_sign`. -/
def cryptoSignOD {k : Nat} (isa : Isa) (fuel : Nat) (sl : Nat → OStale p) (rng : Inc) (sm : Vector UInt8 k) (m : Bytes)
    (sk : Vector UInt8 p.skLen) : Dbg (Vector UInt8 k × Nat × Inc) := do
  let sm ← up (blit sm 0 m)
  let sig ← up (readSign (p := p) sm m.length p.storageLen)
  let (sig, num, rng) ← lessSignOD isa fuel sl rng (readPri sk) m sig
  let sm ← up (blit sm m.length (signBytes sig))
  let sigLen := p.cryptoBytes num
  pure (sm, m.length + sigLen, rng)

/-- sign.c:69-94 `crypto_sign_open`. -/
def cryptoSignOpenOD {smlen : Nat} (isa : Isa) (fuel : Nat) (sl : Nat → OStale p) (mcap : Nat) (sm : Vector UInt8 smlen)
    (pk : Vector UInt8 p.pkLen) : Dbg (Int × Option Bytes) := do
  let num ← up (rdB sm ((smlen + 2 ^ 64 - 1) % 2 ^ 64))
  if p.maxPublishedSeeds ≤ num then pure (-1, none)
  else do
    let sigLen := p.cryptoBytes num
    let mlen := (smlen + 2 ^ 64 - sigLen) % 2 ^ 64
    let m ← up (slice sm 0 mlen)
    if mcap < mlen then up (.error .oob)
    else do
      let sig ← up (readSign (p := p) sm mlen (smlen - mlen - p.fixedLen))
      let ok ← lessVerifyOD isa fuel sl (readPub pk) m sig
      pure ((ok : Int) - 1, some m)

end LESS
