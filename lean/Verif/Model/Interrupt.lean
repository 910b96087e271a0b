import Verif.Model.Sign
/-!
# Signing and key generation, with a record of what memory holds at every moment

`LESS_sign` and `LESS_keygen` with the contents of their outputs and of the generator after every call that writes to one of them.  The copy of a seed, the
packing of a response or a code, the squeezing of the salt and of the digest are single steps here; a moment inside one of them is not recorded.
-/
namespace LESS

variable {p : Params}

/-- seedtree.c:103-132 `seed_tree_path`, with the contents of the storage after each copied seed (the `memcpy` of lines 124-126). -/
def seedTreePathI {n : Nat} (tree : TreeBuf p) (indices : Vector Nat p.T) (storage : Vector UInt8 n) :
    C ((Vector UInt8 n × Nat) × List (Vector UInt8 n)) := do
  let flags ← computeSeedsToPublish (Vector.replicate p.numNodes 0) indices
  forUp (2 * p.numLeaves - 1) (fun i (s : (Vector UInt8 n × Nat) × List (Vector UInt8 n)) => do
    let ((storage, num), log) := s
    if ← isPublished flags i then do
      let seed ← slice tree (i * p.seedLen) p.seedLen
      let storage ← blit storage (num * p.seedLen) seed
      pure ((storage, num + 1), log ++ [storage])
    else pure ((storage, num), log)) ((storage, 0), [])

/-- LESS.c:172-187: one response, with the contents of the array of responses after it is packed (line 183). -/
def signResponseI (fuel : Nat) (sl : Stale p) (fws : Vector Nat p.T)
    (seeds : Vector (Vector UInt8 p.skSeedLen) (p.numKeypairs - 1)) (acts : Vector (MonoAction p) p.T)
    (i : Nat) (s : (Vector (Vector UInt8 p.monoBytes) p.W × Nat) × List (Vector (Vector UInt8 p.monoBytes) p.W)) :
    C ((Vector (Vector UInt8 p.monoBytes) p.W × Nat) × List (Vector (Vector UInt8 p.monoBytes) p.W)) := do
  let ((out, emitted), log) := s
  let x ← rd fws i
  if x ≠ 0 then do
    let seed ← rd seeds (x - 1)
    let Qm ← monomialSeedExpandPrikey fuel sl.mono seed.toList
    let a ← rd acts i
    let act ← composeAction sl.mono' sl.act Qm a
    let buf ← rd out emitted
    let buf ← compressMonomAction buf act
    let out ← wr out emitted buf
    pure ((out, emitted + 1), log ++ [out])
  else pure ((out, emitted), log)

/-- LESS.c:95-191 `LESS_sign`: the results, and what the output and the generator hold at every moment, first moment first. -/
def lessSignI {n : Nat} (fuel : Nat) (sl : Nat → Stale p) (rng : Inc) (SK : PriKey p) (m : Bytes)
    (sig : SignT p n) : C ((SignT p n × Nat × Inc) × List (SignT p n × Inc)) := do
  let seeds ← privateSeeds p SK.compressedSk.toList
  let (ephem, rng₁) := csprngBytes p p.seedLen rng
  let (salt, rng₂) := csprngBytes p p.hashLen rng₁
  let treeSalt := toVec p.hashLen salt
  let tree ← generateSeedTree (Vector.replicate _ 0) ephem treeSalt.toList
  let G0 ← expandG0 fuel (sl 0) SK.G0seed.toList
  let (acts, h) ← forUp p.T (fun i => signRound fuel (sl (i + 1)) G0 tree treeSalt.toList i)
    (Vector.ofFn fun i : Fin p.T => (sl i).act', hashInit)
  let h := hashAbsorb p h m
  let h := hashAbsorb p h treeSalt.toList
  let digest := toVec p.hashLen (hashFinalize p h)
  let fws ← expandDigest fuel (Vector.replicate p.T 0) digest.toList
  let ind ← indicesToPublish fws
  let cleared ← blit sig.seedStorage 0 (List.replicate p.maxPublishedBytes 0)
  let ((storage, num), storages) ← seedTreePathI tree ind cleared
  let ((monoms, _), outs) ← forUp p.T (fun i => signResponseI fuel (sl (p.T + i + 1)) fws seeds acts i)
    ((sig.monomActions, 0), [])
  let full ← wrB storage (num * p.seedLen) num
  let log : List (SignT p n) := [⟨treeSalt, sig.monomActions, sig.digest, sig.seedStorage⟩,
      ⟨treeSalt, sig.monomActions, digest, sig.seedStorage⟩, ⟨treeSalt, sig.monomActions, digest, cleared⟩]
    ++ storages.map (fun s => ⟨treeSalt, sig.monomActions, digest, s⟩)
    ++ outs.map (fun o => ⟨treeSalt, o, digest, storage⟩)
    ++ [⟨treeSalt, monoms, digest, full⟩]
  pure ((⟨treeSalt, monoms, digest, full⟩, num, rng₂), [(sig, rng), (sig, rng₁)] ++ log.map (·, rng₂))

/-- sign.c:47-62 `crypto_sign`: the results, and what the buffer `sm` and the generator hold at every moment.  The `sign_t` lies in `sm`
behind the message. -/
def cryptoSignI {k : Nat} (fuel : Nat) (sl : Nat → Stale p) (rng : Inc) (sm : Vector UInt8 k) (m : Bytes)
    (sk : Vector UInt8 p.skLen) : C ((Vector UInt8 k × Nat × Inc) × List (Vector UInt8 k × Inc)) := do
  let sm₁ ← blit sm 0 m
  let sig ← readSign (p := p) sm₁ m.length p.storageLen
  let ((sig, num, rng'), log) ← lessSignI fuel sl rng (readPri sk) m sig
  let sm₂ ← blit sm₁ m.length (signBytes sig)
  pure ((sm₂, m.length + p.cryptoBytes num, rng'), (sm, rng) :: log.map fun e => (blitV sm₁ m.length (signBytes e.1), e.2))

/-- LESS.c:66-86: the loop of the public codes, with the contents of the array after each packed code (lines 83-85). -/
def keygenCodesI (fuel : Nat) (sl : Nat → Stale p) (G0 : GenMat p) (seeds : Vector (Vector UInt8 p.skSeedLen) (p.numKeypairs - 1))
    (sfg : Vector (Vector UInt8 p.rrefBytes) (p.numKeypairs - 1)) :
    C (Vector (Vector UInt8 p.rrefBytes) (p.numKeypairs - 1) × List (Vector (Vector UInt8 p.rrefBytes) (p.numKeypairs - 1))) :=
  forUp (p.numKeypairs - 1) (fun i (s : Vector (Vector UInt8 p.rrefBytes) (p.numKeypairs - 1) ×
      List (Vector (Vector UInt8 p.rrefBytes) (p.numKeypairs - 1))) => do
    let (sfg, log) := s
    let seed ← rd seeds i
    let buf ← rd sfg i
    let buf ← keygenOne fuel (sl (i + 1)) G0 seed.toList buf
    let sfg ← wr sfg i buf
    pure (sfg, log ++ [sfg])) (sfg, [])

/-- LESS.c:38-87 `LESS_keygen`: the results, and what `SK`, `PK` and the generator hold at every moment.  `sk₀` and `pk₀` are the
contents of `SK` and `PK` before the call. -/
def lessKeygenI (fuel : Nat) (sl : Nat → Stale p) (rng : Inc) (sk₀ : PriKey p) (pk₀ : PubKey p) :
    C ((PriKey p × PubKey p × Inc) × List ((PriKey p × PubKey p) × Inc)) := do
  let (sk, rng₁) := csprngBytes p p.skSeedLen rng
  let seeds ← privateSeeds p sk
  let (g0, rng₂) := csprngBytes p p.seedLen rng₁
  let G0 ← expandG0 fuel (sl 0) g0
  let (sfg, codes) ← keygenCodesI fuel sl G0 seeds pk₀.SFG
  let new : PriKey p := ⟨toVec _ sk, toVec _ g0⟩
  pure ((new, ⟨toVec _ g0, sfg⟩, rng₂),
    [((sk₀, pk₀), rng), ((⟨toVec _ sk, sk₀.G0seed⟩, pk₀), rng₁), ((new, pk₀), rng₂), ((new, ⟨toVec _ g0, pk₀.SFG⟩), rng₂)]
      ++ codes.map fun c => ((new, ⟨toVec _ g0, c⟩), rng₂))

/-- sign.c:33-40 `crypto_sign_keypair`: the results, and what `pk`, `sk` and the generator hold at every moment. -/
def cryptoSignKeypairI (fuel : Nat) (sl : Nat → Stale p) (rng : Inc) (pk : Vector UInt8 p.pkLen) (sk : Vector UInt8 p.skLen) :
    C ((Vector UInt8 p.pkLen × Vector UInt8 p.skLen × Inc) × List ((Vector UInt8 p.pkLen × Vector UInt8 p.skLen) × Inc)) := do
  let ((sk', pk', rng'), log) ← lessKeygenI fuel sl rng (readPri sk) (readPub pk)
  pure ((toVec _ (pubBytes pk'), toVec _ (priBytes sk'), rng'),
    log.map fun e => ((toVec _ (pubBytes e.1.2), toVec _ (priBytes e.1.1)), e.2))

end LESS
