import Verif.Model.Sign
/-!
# The byte order of the machine

The code stores pseudorandom bytes into variables of 16, 32 and 64 bits and copies a 16-bit number into a hash input
(utils.c:49-51, monomial.c:42 and 74-76, fq_arith.h:55): the value of these variables, and the bytes copied, depend on
the byte order of the machine.  All other modules of the model fix a little-endian machine.  Here the functions
concerned take the order as an argument.  Everything else in LESS.c, codes.c, monomial.c and seedtree.c works on byte arrays and on
numbers, and the functions of the other modules are used unchanged.
-/
namespace LESS

variable {p : Params}

/-- The order of the bytes of an unsigned integer in memory. -/
inductive ByteOrder where
  | little | big
deriving DecidableEq, Repr

/-- The value of an unsigned integer whose bytes in memory are `bytes`. -/
def ByteOrder.word : ByteOrder → Bytes → Nat
  | .little, bytes => leNat bytes
  | .big, bytes => leNat bytes.reverse

/-- The bytes in memory of a `uint16_t` (the `memcpy` of monomial.c:74-76). -/
def ByteOrder.bytes16 : ByteOrder → Nat → Bytes
  | .little, x => le16 x
  | .big, x => (le16 x).reverse

namespace Machine

/-- fq_arith.h:54-62, the loop of `DEF_RAND_STATE`. -/
def sampleLoop {n : Nat} (o : ByteOrder) (p : Params) (minV span reqBits : Nat) :
    (fuel : Nat) → Inc → Vector Nat n → (count : Nat) → C (Vector Nat n × Inc)
  | 0, _, _, _ => .error .fuel
  | fuel + 1, st, buf, count => do
    let (bytes, st) := csprngBytes p 8 st
    match ← sampleFields minV span reqBits (o.word bytes) buf count with
    | .inl buf => pure (buf, st)
    | .inr (_, buf, count) => sampleLoop o p minV span reqBits fuel st buf count

/-- fq_arith.h:43-62 `DEF_RAND_STATE`. -/
def randState {n : Nat} (o : ByteOrder) (p : Params) (minV maxV : Nat) (fuel : Nat) (st : Inc) (buf : Vector Nat n) :
    C (Vector Nat n × Inc) :=
  let span := u8 (maxV - minV)
  let reqBits := bitsToRepresent span
  sampleLoop o p minV span reqBits fuel st buf 0

/-- monomial.c:42-45. -/
def shuffleDraws (o : ByteOrder) (p : Params) (bytes : Bytes) : Vector Nat p.N :=
  Vector.ofFn fun i =>
    let w := o.word ((bytes.drop (4 * i.val)).take 4)
    if i.val < p.N - 1 then u32 (i.val + w % (p.N - i.val)) else w

/-- monomial.c:37-52 `yt_shuffle_state`. -/
def ytShuffleState (o : ByteOrder) (p : Params) (st : Inc) (perm : Vector Nat p.N) : C (Vector Nat p.N × Inc) := do
  let (bytes, st) := csprngBytes p (4 * p.N) st
  let perm ← shuffleLoop (shuffleDraws o p bytes) perm
  pure (perm, st)

/-- monomial.c:79-85, 95-100. -/
def monomialFromState (o : ByteOrder) (fuel : Nat) (stale : Monomial p) (st : Inc) : C (Monomial p × Inc) := do
  let (coefs, st) ← randState o p 1 (Q - 1) fuel st stale.coefficients
  let perm ← identityPerm stale.permutation
  let (perm, st) ← ytShuffleState o p st perm
  pure (⟨coefs, perm⟩, st)

/-- monomial.c:62-86 `monomial_mat_seed_expand_salt_rnd`. -/
def monomialSeedExpandSaltRnd (o : ByteOrder) (fuel : Nat) (stale : Monomial p) (seed salt : Bytes) (roundIndex : Nat) :
    C (Monomial p) := do
  let st := initCsprng p (seed ++ salt ++ o.bytes16 (u16 roundIndex))
  let (m, _) ← monomialFromState o fuel stale st
  pure m

/-- monomial.c:90-101 `monomial_mat_seed_expand_prikey`. -/
def monomialSeedExpandPrikey (o : ByteOrder) (fuel : Nat) (stale : Monomial p) (seed : Bytes) : C (Monomial p) := do
  let (m, _) ← monomialFromState o fuel stale (initCsprng p seed)
  pure m

/-- codes.c:550-563 `generator_SF_seed_expand`. -/
def generatorSFSeedExpand (o : ByteOrder) (fuel : Nat) (stale : RrefMat p) (seed : Bytes) : C (RrefMat p) := do
  let (values, _) ← forUp p.K (fun i (s : NormIS p × Inc) => do
    let (values, st) := s
    let row ← rd values i
    let (row, st) ← randState o p 0 (Q - 1) fuel st row
    let values ← wr values i row
    pure (values, st)) (stale.values, initCsprng p seed)
  let pos ← forUp (p.N - p.K) (fun i pos => wr pos i ((i + p.K) % p.posMod)) stale.columnPos
  pure ⟨values, pos⟩

/-- utils.c:43-61. -/
def expandDigestLoop (o : ByteOrder) (p : Params) : (fuel : Nat) → Inc → (placed : Nat) → Vector Nat p.T → C (Vector Nat p.T)
  | 0, _, placed, fws => if placed < p.W then .error .fuel else pure fws
  | fuel + 1, st, placed, fws =>
    if placed < p.W then do
      let (bytes, st) := csprngBytes p 2 st
      let rnd := o.word bytes
      let value := u8 (rnd &&& (2 ^ bitsToRepresent (p.numKeypairs - 1) - 1))
      let pos := (rnd >>> bitsToRepresent (p.numKeypairs - 1)) % p.posMod
      let pos := (pos &&& (2 ^ bitsToRepresent (p.T - 1) - 1)) % p.posMod
      if p.numKeypairs ≤ value then expandDigestLoop o p fuel st placed fws
      else if p.T ≤ pos then expandDigestLoop o p fuel st placed fws
      else do
        let old ← rd fws pos
        if old ≠ 0 then expandDigestLoop o p fuel st placed fws
        else do
          let fws ← wr fws pos value
          expandDigestLoop o p fuel st (placed + b2n (value ≠ 0)) fws
    else pure fws

/-- utils.c:36-62 `expand_digest_to_fixed_weight`. -/
def expandDigest (o : ByteOrder) (fuel : Nat) (fws : Vector Nat p.T) (digest : Bytes) : C (Vector Nat p.T) :=
  expandDigestLoop o p fuel (initCsprng p digest) 0 fws

/-- LESS.c:59-63, 125-128. -/
def expandG0 (o : ByteOrder) (fuel : Nat) (sl : Stale p) (seed : Bytes) : C (GenMat p) := do
  let rref ← generatorSFSeedExpand o fuel sl.rref seed
  generatorRrefExpand sl.gen rref

/-- LESS.c:68-86. -/
def keygenOne (o : ByteOrder) (fuel : Nat) (sl : Stale p) (G0 : GenMat p) (seed : Bytes) (buf : Vector UInt8 p.rrefBytes) :
    C (Vector UInt8 p.rrefBytes) := do
  let Qinv ← monomialSeedExpandPrikey o fuel sl.mono seed
  let Qm ← monomialInv sl.mono' Qinv
  let G ← generatorMonomialMul sl.gen G0 Qm
  let (_, G, isPivot) ← generatorRREF G (Vector.replicate p.N 0)
  compressRref buf G isPivot

/-- LESS.c:38-87 `LESS_keygen`. -/
def lessKeygen (o : ByteOrder) (fuel : Nat) (sl : Nat → Stale p) (rng : Inc) : C (PriKey p × PubKey p × Inc) := do
  let (sk, rng) := csprngBytes p p.skSeedLen rng
  let seeds ← privateSeeds p sk
  let (g0, rng) := csprngBytes p p.seedLen rng
  let G0 ← expandG0 o fuel (sl 0) g0
  let sfg ← forUp (p.numKeypairs - 1) (fun i sfg => do
    let seed ← rd seeds i
    let buf ← rd sfg i
    let buf ← keygenOne o fuel (sl (i + 1)) G0 seed.toList buf
    wr sfg i buf) (sl 0).sfg
  pure (⟨toVec _ sk, toVec _ g0⟩, ⟨toVec _ g0, sfg⟩, rng)

/-- LESS.c:137-146. -/
def signRound (o : ByteOrder) (fuel : Nat) (sl : Stale p) (G0 : GenMat p) (tree : TreeBuf p) (salt : Bytes) (i : Nat)
    (s : Vector (MonoAction p) p.T × Inc) : C (Vector (MonoAction p) p.T × Inc) := do
  let (acts, h) := s
  let seed ← slice tree (p.seedLen * (p.numLeaves - 1) + i * p.seedLen) p.seedLen
  let Qt ← monomialSeedExpandSaltRnd o fuel sl.mono seed salt i
  let a ← rd acts i
  let (V, a, _) ← prepareDigestInput sl.norm a G0 Qt
  let acts ← wr acts i a
  pure (acts, hashAbsorb p h (normBytes V))

/-- LESS.c:172-187. -/
def signResponse (o : ByteOrder) (fuel : Nat) (sl : Stale p) (fws : Vector Nat p.T)
    (seeds : Vector (Vector UInt8 p.skSeedLen) (p.numKeypairs - 1)) (acts : Vector (MonoAction p) p.T)
    (i : Nat) (s : Vector (Vector UInt8 p.monoBytes) p.W × Nat) :
    C (Vector (Vector UInt8 p.monoBytes) p.W × Nat) := do
  let (out, emitted) := s
  let x ← rd fws i
  if x ≠ 0 then do
    let seed ← rd seeds (x - 1)
    let Qm ← monomialSeedExpandPrikey o fuel sl.mono seed.toList
    let a ← rd acts i
    let act ← composeAction sl.mono' sl.act Qm a
    let buf ← rd out emitted
    let buf ← compressMonomAction buf act
    let out ← wr out emitted buf
    pure (out, emitted + 1)
  else pure (out, emitted)

/-- LESS.c:95-191 `LESS_sign`. -/
def lessSign {n : Nat} (o : ByteOrder) (fuel : Nat) (sl : Nat → Stale p) (rng : Inc) (SK : PriKey p) (m : Bytes)
    (sig : SignT p n) : C (SignT p n × Nat × Inc) := do
  let seeds ← privateSeeds p SK.compressedSk.toList
  let (ephem, rng) := csprngBytes p p.seedLen rng
  let (salt, rng) := csprngBytes p p.hashLen rng
  let treeSalt := toVec p.hashLen salt
  let tree ← generateSeedTree (Vector.replicate _ 0) ephem treeSalt.toList
  let G0 ← expandG0 o fuel (sl 0) SK.G0seed.toList
  let (acts, h) ← forUp p.T (fun i => signRound o fuel (sl (i + 1)) G0 tree treeSalt.toList i)
    (Vector.ofFn fun i : Fin p.T => (sl i).act', hashInit)
  let h := hashAbsorb p h m
  let h := hashAbsorb p h treeSalt.toList
  let digest := toVec p.hashLen (hashFinalize p h)
  let fws ← expandDigest o fuel (Vector.replicate p.T 0) digest.toList
  let ind ← indicesToPublish fws
  let storage ← blit sig.seedStorage 0 (List.replicate p.maxPublishedBytes 0)
  let (storage, num) ← seedTreePath tree ind storage
  let (monoms, _) ← forUp p.T (fun i => signResponse o fuel (sl (p.T + i + 1)) fws seeds acts i)
    (sig.monomActions, 0)
  let storage ← wrB storage (num * p.seedLen) num
  pure (⟨treeSalt, monoms, digest, storage⟩, num, rng)

/-- LESS.c:237-285. -/
def verifyRound {n : Nat} (o : ByteOrder) (fuel : Nat) (sl : Stale p) (PK : PubKey p) (sig : SignT p n)
    (fws : Vector Nat p.T) (tree : TreeBuf p) (G0 : RrefMat p) (i : Nat) (s : Inc × Nat) :
    C (Nat ⊕ (Inc × Nat)) := do
  let (h, employed) := s
  let x ← rd fws i
  if x = 0 then do
    let G ← generatorRrefExpand sl.gen G0
    let seed ← slice tree (p.seedLen * (p.numLeaves - 1) + i * p.seedLen) p.seedLen
    let Qm ← monomialSeedExpandSaltRnd o fuel ⟨Vector.replicate _ 0, Vector.replicate _ 0⟩ seed
      sig.treeSalt.toList i
    let (V, _, _) ← prepareDigestInput sl.norm sl.act' G Qm
    pure (.inr (hashAbsorb p h (normBytes V), employed))
  else do
    let sfg ← rd PK.SFG (x - 1)
    let resp ← rd sig.monomActions employed
    match ← verifyResponse sl sfg resp with
    | none => pure (.inl 0)
    | some V => pure (.inr (hashAbsorb p h (normBytes V), employed + 1))

/-- LESS.c:203-297 `LESS_verify`. -/
def lessVerify {n : Nat} (o : ByteOrder) (fuel : Nat) (sl : Nat → Stale p) (PK : PubKey p) (m : Bytes) (sig : SignT p n) :
    C Nat := do
  let fws ← expandDigest o fuel (Vector.replicate p.T 0) sig.digest.toList
  let ind ← indicesToPublish fws
  let (tree, _) ← rebuildSeedTreeLeaves (Vector.replicate _ 0) ind sig.seedStorage sig.treeSalt.toList
  let G0 ← generatorSFSeedExpand o fuel (sl 0).rref PK.G0seed.toList
  match ← forRet p.T (fun i => verifyRound o fuel (sl (i + 1)) PK sig fws tree G0 i) (hashInit, 0) with
  | .inl r => pure r
  | .inr (h, _) => do
    let h := hashAbsorb p h m
    let h := hashAbsorb p h sig.treeSalt.toList
    let digest := toVec p.hashLen (hashFinalize p h)
    let d ← timingSafeMemcmp digest sig.digest p.hashLen
    pure (b2n (d = 0))

end Machine
end LESS
