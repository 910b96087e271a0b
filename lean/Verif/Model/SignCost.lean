import Verif.Model.VerifyCost
/-!
# Signing, with a count of the work of its sorts

`LESS_sign` sorts the columns of one matrix in each of its `T` commitment rounds.  The functions below are those of `LESS.c` and
`sign.c` with `lex_sort_cols` replaced by its counting version, as in `Model/VerifyCost`; `C94_same` says that the counters
change nothing.
-/
namespace LESS

variable {p : Params}

/-- LESS.c:137-146: one commitment round of the signer; the work is added to that of the rounds before. -/
def signRoundN (fuel : Nat) (sl : Stale p) (G0 : GenMat p) (tree : TreeBuf p) (salt : Bytes) (i : Nat)
    (s : (Vector (MonoAction p) p.T × Inc) × SortCost) : C ((Vector (MonoAction p) p.T × Inc) × SortCost) := do
  let ((acts, h), total) := s
  let seed ← slice tree (p.seedLen * (p.numLeaves - 1) + i * p.seedLen) p.seedLen
  let Qt ← monomialSeedExpandSaltRnd fuel sl.mono seed salt i
  let a ← rd acts i
  let ((V, a, _), cost) ← prepareDigestInputN sl.norm a G0 Qt
  let acts ← wr acts i a
  pure ((acts, hashAbsorb p h (normBytes V)), total.andThen cost)

/-- LESS.c:95-191 `LESS_sign`: the results and the work of all sorts. -/
def lessSignN {n : Nat} (fuel : Nat) (sl : Nat → Stale p) (rng : Inc) (SK : PriKey p) (m : Bytes)
    (sig : SignT p n) : C ((SignT p n × Nat × Inc) × SortCost) := do
  let seeds ← privateSeeds p SK.compressedSk.toList
  let (ephem, rng) := csprngBytes p p.seedLen rng
  let (salt, rng) := csprngBytes p p.hashLen rng
  let treeSalt := toVec p.hashLen salt
  let tree ← generateSeedTree (Vector.replicate _ 0) ephem treeSalt.toList
  let G0 ← expandG0 fuel (sl 0) SK.G0seed.toList
  let ((acts, h), total) ← forUp p.T (fun i => signRoundN fuel (sl (i + 1)) G0 tree treeSalt.toList i)
    ((Vector.ofFn fun i : Fin p.T => (sl i).act', hashInit), ⟨0, 0, 0, 0⟩)
  let h := hashAbsorb p h m
  let h := hashAbsorb p h treeSalt.toList
  let digest := toVec p.hashLen (hashFinalize p h)
  let fws ← expandDigest fuel (Vector.replicate p.T 0) digest.toList
  let ind ← indicesToPublish fws
  let storage ← blit sig.seedStorage 0 (List.replicate p.maxPublishedBytes 0)
  let (storage, num) ← seedTreePath tree ind storage
  let (monoms, _) ← forUp p.T (fun i => signResponse fuel (sl (p.T + i + 1)) fws seeds acts i)
    (sig.monomActions, 0)
  let storage ← wrB storage (num * p.seedLen) num
  pure ((⟨treeSalt, monoms, digest, storage⟩, num, rng), total)

/-- sign.c:47-62 `crypto_sign`: the results and the work of all sorts. -/
def cryptoSignN {k : Nat} (fuel : Nat) (sl : Nat → Stale p) (rng : Inc) (sm : Vector UInt8 k) (m : Bytes)
    (sk : Vector UInt8 p.skLen) : C ((Vector UInt8 k × Nat × Inc) × SortCost) := do
  let sm ← blit sm 0 m
  let sig ← readSign (p := p) sm m.length p.storageLen
  let ((sig, num, rng), cost) ← lessSignN fuel sl rng (readPri sk) m sig
  let sm ← blit sm m.length (signBytes sig)
  let sigLen := p.cryptoBytes num
  pure ((sm, m.length + sigLen, rng), cost)

end LESS
