import Verif.Model.Codes
import Verif.Model.SeedTree
/-!
# Challenge expansion, key generation, signing, verification:
`Reference_Implementation/lib/utils.c`, `lib/LESS.c`, `include/LESS.h`
-/
namespace LESS

variable {p : Params}

/-- utils.c:43-61: the two nested loops; every iteration is one draw.  The inner `do ... while` repeats
on rejection, the outer `while` repeats until `W` non-zero elements are placed. -/
def expandDigestLoop (p : Params) : (fuel : Nat) → Inc → (placed : Nat) → Vector Nat p.T → C (Vector Nat p.T)
  | 0, _, placed, fws => if placed < p.W then .error .fuel else pure fws
  | fuel + 1, st, placed, fws =>
    if placed < p.W then do
      let (bytes, st) := csprngBytes p 2 st
      let rnd := leNat bytes
      let value := u8 (rnd &&& (2 ^ bitsToRepresent (p.numKeypairs - 1) - 1))
      let pos := (rnd >>> bitsToRepresent (p.numKeypairs - 1)) % p.posMod
      let pos := (pos &&& (2 ^ bitsToRepresent (p.T - 1) - 1)) % p.posMod
      if p.numKeypairs ≤ value then expandDigestLoop p fuel st placed fws
      else if p.T ≤ pos then expandDigestLoop p fuel st placed fws
      else do
        let old ← rd fws pos
        if old ≠ 0 then expandDigestLoop p fuel st placed fws
        else do
          let fws ← wr fws pos value
          expandDigestLoop p fuel st (placed + b2n (value ≠ 0)) fws
    else pure fws

/-- utils.c:36-62 `expand_digest_to_fixed_weight`. -/
def expandDigest (fuel : Nat) (fws : Vector Nat p.T) (digest : Bytes) : C (Vector Nat p.T) :=
  expandDigestLoop p fuel (initCsprng p digest) 0 fws

/-- LESS.h:40-43 `pubkey_t`. -/
structure PubKey (p : Params) where
  G0seed : Vector UInt8 p.seedLen
  SFG : Vector (Vector UInt8 p.rrefBytes) (p.numKeypairs - 1)

/-- LESS.h:48-52 `prikey_t`. -/
structure PriKey (p : Params) where
  compressedSk : Vector UInt8 p.skSeedLen
  G0seed : Vector UInt8 p.seedLen

/-- LESS.h:55-61 `sign_t`.  `n` is the number of bytes that are actually available from `seed_storage` on:
`SEED_TREE_MAX_PUBLISHED_BYTES + 1` in a complete structure. -/
structure SignT (p : Params) (n : Nat) where
  treeSalt : Vector UInt8 p.hashLen
  monomActions : Vector (Vector UInt8 p.monoBytes) p.W
  digest : Vector UInt8 p.hashLen
  seedStorage : Vector UInt8 n

/-- Number of bytes of `seed_storage` in a complete `sign_t` (LESS.h:60). -/
def Params.storageLen (p : Params) : Nat := p.maxPublishedBytes + 1

/-- Contents of uninitialised local variables (and of `PK`, an output).  `LESS_keygen`, `LESS_sign` and
`LESS_verify` take a function `Nat → Stale p`: some locals are declared outside the loops and keep what the
previous iteration left there, so every iteration gets its own arbitrary content. -/
structure Stale (p : Params) where
  mono : Monomial p
  mono' : Monomial p
  gen : GenMat p
  rref : RrefMat p
  norm : NormIS p
  act : MonoAction p
  act' : MonoAction p
  sfg : Vector (Vector UInt8 p.rrefBytes) (p.numKeypairs - 1)

/-- LESS.c:43-53 and 101-111 (same code): the seeds of the private monomials. -/
def privateSeeds (p : Params) (sk : Bytes) : C (Vector (Vector UInt8 p.skSeedLen) (p.numKeypairs - 1)) := do
  let (seeds, _) ← forUp (p.numKeypairs - 1)
    (fun i (s : Vector (Vector UInt8 p.skSeedLen) (p.numKeypairs - 1) × Inc) => do
      let (seeds, st) := s
      let (out, st) := csprngBytes p p.skSeedLen st
      let seeds ← wr seeds i (toVec p.skSeedLen out)
      pure (seeds, st))
    (Vector.replicate _ (Vector.replicate _ 0), initCsprng p sk)
  pure seeds

/-- LESS.c:59-63, 125-128, 227-230/239: expansion of the public code `G_0`. -/
def expandG0 (fuel : Nat) (sl : Stale p) (seed : Bytes) : C (GenMat p) := do
  let rref ← generatorSFSeedExpand fuel sl.rref seed
  generatorRrefExpand sl.gen rref

/-- LESS.c:68-86: one public code. -/
def keygenOne (fuel : Nat) (sl : Stale p) (G0 : GenMat p) (seed : Bytes) (buf : Vector UInt8 p.rrefBytes) :
    C (Vector UInt8 p.rrefBytes) := do
  let Qinv ← monomialSeedExpandPrikey fuel sl.mono seed
  let Qm ← monomialInv sl.mono' Qinv
  let G ← generatorMonomialMul sl.gen G0 Qm
  let (_, G, isPivot) ← generatorRREF G (Vector.replicate p.N 0)
  compressRref buf G isPivot

/-- LESS.c:38-87 `LESS_keygen`; `rng` is the global generator state (rng.c:38), threaded explicitly. -/
def lessKeygen (fuel : Nat) (sl : Nat → Stale p) (rng : Inc) : C (PriKey p × PubKey p × Inc) := do
  let (sk, rng) := csprngBytes p p.skSeedLen rng
  let seeds ← privateSeeds p sk
  let (g0, rng) := csprngBytes p p.seedLen rng
  let G0 ← expandG0 fuel (sl 0) g0
  let sfg ← forUp (p.numKeypairs - 1) (fun i sfg => do
    let seed ← rd seeds i
    let buf ← rd sfg i
    let buf ← keygenOne fuel (sl (i + 1)) G0 seed.toList buf
    wr sfg i buf) (sl 0).sfg
  pure (⟨toVec _ sk, toVec _ g0⟩, ⟨toVec _ g0, sfg⟩, rng)

/-- `(uint8_t *)&V_array`, `sizeof(normalized_IS_t)` bytes: the rows of `V` one after the other. -/
def normBytes (V : NormIS p) : Bytes :=
  (V.toList.map fun row => row.toList.map fun x => UInt8.ofNat x).flatten

/-- LESS.c:158-161, 213-216: `indices_to_publish[i] = !!fixed_weight_string[i]`. -/
def indicesToPublish (fws : Vector Nat p.T) : C (Vector Nat p.T) :=
  forUp p.T (fun i (ind : Vector Nat p.T) => do
    let x ← rd fws i
    wr ind i (b2n (x ≠ 0))) (Vector.replicate p.T 0)

/-- LESS.c:137-146: one commitment round of the signer. -/
def signRound (fuel : Nat) (sl : Stale p) (G0 : GenMat p) (tree : TreeBuf p) (salt : Bytes) (i : Nat)
    (s : Vector (MonoAction p) p.T × Inc) : C (Vector (MonoAction p) p.T × Inc) := do
  let (acts, h) := s
  let seed ← slice tree (p.seedLen * (p.numLeaves - 1) + i * p.seedLen) p.seedLen
  let Qt ← monomialSeedExpandSaltRnd fuel sl.mono seed salt i
  let a ← rd acts i
  let (V, a, _) ← prepareDigestInput sl.norm a G0 Qt
  let acts ← wr acts i a
  pure (acts, hashAbsorb p h (normBytes V))

/-- LESS.c:172-187: one response of the signer. -/
def signResponse (fuel : Nat) (sl : Stale p) (fws : Vector Nat p.T)
    (seeds : Vector (Vector UInt8 p.skSeedLen) (p.numKeypairs - 1)) (acts : Vector (MonoAction p) p.T)
    (i : Nat) (s : Vector (Vector UInt8 p.monoBytes) p.W × Nat) :
    C (Vector (Vector UInt8 p.monoBytes) p.W × Nat) := do
  let (out, emitted) := s
  let x ← rd fws i
  if x ≠ 0 then do
    let seed ← rd seeds (x - 1)
    let Qm ← monomialSeedExpandPrikey fuel sl.mono seed.toList
    let a ← rd acts i
    let act ← composeAction sl.mono' sl.act Qm a
    let buf ← rd out emitted
    let buf ← compressMonomAction buf act
    let out ← wr out emitted buf
    pure (out, emitted + 1)
  else pure (out, emitted)

/-- LESS.c:95-191 `LESS_sign`: the signature, the returned number of seeds, the generator state. -/
def lessSign {n : Nat} (fuel : Nat) (sl : Nat → Stale p) (rng : Inc) (SK : PriKey p) (m : Bytes)
    (sig : SignT p n) : C (SignT p n × Nat × Inc) := do
  let seeds ← privateSeeds p SK.compressedSk.toList
  let (ephem, rng) := csprngBytes p p.seedLen rng
  let (salt, rng) := csprngBytes p p.hashLen rng
  let treeSalt := toVec p.hashLen salt
  let tree ← generateSeedTree (Vector.replicate _ 0) ephem treeSalt.toList
  let G0 ← expandG0 fuel (sl 0) SK.G0seed.toList
  let (acts, h) ← forUp p.T (fun i => signRound fuel (sl (i + 1)) G0 tree treeSalt.toList i)
    (Vector.ofFn fun i : Fin p.T => (sl i).act', hashInit)
  let h := hashAbsorb p h m
  let h := hashAbsorb p h treeSalt.toList
  let digest := toVec p.hashLen (hashFinalize p h)
  let fws ← expandDigest fuel (Vector.replicate p.T 0) digest.toList
  let ind ← indicesToPublish fws
  let storage ← blit sig.seedStorage 0 (List.replicate p.maxPublishedBytes 0)
  let (storage, num) ← seedTreePath tree ind storage
  let (monoms, _) ← forUp p.T (fun i => signResponse fuel (sl (p.T + i + 1)) fws seeds acts i)
    (sig.monomActions, 0)
  let storage ← wrB storage (num * p.seedLen) num
  pure (⟨treeSalt, monoms, digest, storage⟩, num, rng)

/-- LESS.c:193-201 `timing_safe_memcmp`. -/
def timingSafeMemcmp {n m : Nat} (a : Vector UInt8 n) (b : Vector UInt8 m) (bytelen : Nat) : C Nat :=
  forUp bytelen (fun i diff => do
    let x ← rd a i
    let y ← rd b i
    pure (diff ||| b2n (x ≠ y))) 0

/-- LESS.c:253-281: the commitment recomputed from a public code and a response; `none` is `return 0`. -/
def verifyResponse (sl : Stale p) (sfg : Vector UInt8 p.rrefBytes) (resp : Vector UInt8 p.monoBytes) :
    C (Option (NormIS p)) := do
  let G ← expandToRref sl.gen sfg
  let act ← expandToMonomAction sl.act resp
  let valid ← isMonomActionValid act
  if valid = 0 then pure none
  else do
    let Gh ← applyActionToG (Vector.replicate p.K (Vector.replicate p.N 0)) G act
    let (_, Gh, isPivot) ← generatorRREF Gh (Vector.replicate p.N 0)
    let (V, _) ← forUp p.N (fun col (s : NormIS p × Nat) => do
      let (V, placed) := s
      let f ← rd isPivot col
      if f = 0 then do
        let V ← lexMinimize V placed Gh (col % p.posMod)
        pure (V, (placed + 1) % p.posMod)
      else pure (V, placed)) (sl.norm, 0)
    let V ← lexSortCols V
    pure (some V)

/-- LESS.c:237-285: one round of the verifier; `.inl 0` is `return 0`. -/
def verifyRound {n : Nat} (fuel : Nat) (sl : Stale p) (PK : PubKey p) (sig : SignT p n)
    (fws : Vector Nat p.T) (tree : TreeBuf p) (G0 : RrefMat p) (i : Nat) (s : Inc × Nat) :
    C (Nat ⊕ (Inc × Nat)) := do
  let (h, employed) := s
  let x ← rd fws i
  if x = 0 then do
    let G ← generatorRrefExpand sl.gen G0
    let seed ← slice tree (p.seedLen * (p.numLeaves - 1) + i * p.seedLen) p.seedLen
    let Qm ← monomialSeedExpandSaltRnd fuel ⟨Vector.replicate _ 0, Vector.replicate _ 0⟩ seed
      sig.treeSalt.toList i
    let (V, _, _) ← prepareDigestInput sl.norm sl.act' G Qm
    pure (.inr (hashAbsorb p h (normBytes V), employed))
  else do
    let sfg ← rd PK.SFG (x - 1)
    let resp ← rd sig.monomActions employed
    match ← verifyResponse sl sfg resp with
    | none => pure (.inl 0)
    | some V => pure (.inr (hashAbsorb p h (normBytes V), employed + 1))

/-- LESS.c:203-297 `LESS_verify`. -/
def lessVerify {n : Nat} (fuel : Nat) (sl : Nat → Stale p) (PK : PubKey p) (m : Bytes) (sig : SignT p n) :
    C Nat := do
  let fws ← expandDigest fuel (Vector.replicate p.T 0) sig.digest.toList
  let ind ← indicesToPublish fws
  let (tree, _) ← rebuildSeedTreeLeaves (Vector.replicate _ 0) ind sig.seedStorage sig.treeSalt.toList
  let G0 ← generatorSFSeedExpand fuel (sl 0).rref PK.G0seed.toList
  match ← forRet p.T (fun i => verifyRound fuel (sl (i + 1)) PK sig fws tree G0 i) (hashInit, 0) with
  | .inl r => pure r
  | .inr (h, _) => do
    let h := hashAbsorb p h m
    let h := hashAbsorb p h sig.treeSalt.toList
    let digest := toVec p.hashLen (hashFinalize p h)
    let d ← timingSafeMemcmp digest sig.digest p.hashLen
    pure (b2n (d = 0))

end LESS
