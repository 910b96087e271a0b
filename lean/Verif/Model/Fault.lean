import Verif.Model.Less
/-!
# Signing with disturbed arrays

`LESS_sign` on a device of which the array `indices_to_publish` is disturbed between the loop that fills it and the call that reads it,
or the array `fixed_weight_string` between that call and the loop that makes the responses.
-/
namespace LESS

variable {p : Params}

/-- `indices_to_publish` (LESS.c:158-161) after a disturbance: `f k` says what becomes of the flag of round `k`. -/
def faultFlags (f : Nat → Bool → Bool) (ind : Vector Nat p.T) : Vector Nat p.T := Vector.ofFn fun k => b2n (f k (g ind k ≠ 0))

/-- LESS.c:95-191 `LESS_sign`, with the flags disturbed before line 166. -/
def lessSignF {n : Nat} (f : Nat → Bool → Bool) (fuel : Nat) (sl : Nat → Stale p) (rng : Inc) (SK : PriKey p) (m : Bytes)
    (sig : SignT p n) : C (SignT p n × Nat × Inc) := do
  let seeds ← privateSeeds p SK.compressedSk.toList
  let (ephem, rng) := csprngBytes p p.seedLen rng
  let (salt, rng) := csprngBytes p p.hashLen rng
  let treeSalt := toVec p.hashLen salt
  let tree ← generateSeedTree (Vector.replicate _ 0) ephem treeSalt.toList
  let G0 ← expandG0 fuel (sl 0) SK.G0seed.toList
  let (acts, h) ← forUp p.T (fun i => signRound fuel (sl (i + 1)) G0 tree treeSalt.toList i)
    (Vector.ofFn fun i : Fin p.T => (sl i).act', hashInit)
  let h := hashAbsorb p h m
  let h := hashAbsorb p h treeSalt.toList
  let digest := toVec p.hashLen (hashFinalize p h)
  let fws ← expandDigest fuel (Vector.replicate p.T 0) digest.toList
  let ind ← indicesToPublish fws
  let storage ← blit sig.seedStorage 0 (List.replicate p.maxPublishedBytes 0)
  let (storage, num) ← seedTreePath tree (faultFlags f ind) storage
  let (monoms, _) ← forUp p.T (fun i => signResponse fuel (sl (p.T + i + 1)) fws seeds acts i)
    (sig.monomActions, 0)
  let storage ← wrB storage (num * p.seedLen) num
  pure (⟨treeSalt, monoms, digest, storage⟩, num, rng)

/-- LESS.c:95-191 `LESS_sign`, with the challenge disturbed before the loop of lines 172-187: `f k` says what becomes of the entry of
round `k`. -/
def lessSignR {n : Nat} (f : Nat → Nat → Nat) (fuel : Nat) (sl : Nat → Stale p) (rng : Inc) (SK : PriKey p) (m : Bytes)
    (sig : SignT p n) : C (SignT p n × Nat × Inc) := do
  let seeds ← privateSeeds p SK.compressedSk.toList
  let (ephem, rng) := csprngBytes p p.seedLen rng
  let (salt, rng) := csprngBytes p p.hashLen rng
  let treeSalt := toVec p.hashLen salt
  let tree ← generateSeedTree (Vector.replicate _ 0) ephem treeSalt.toList
  let G0 ← expandG0 fuel (sl 0) SK.G0seed.toList
  let (acts, h) ← forUp p.T (fun i => signRound fuel (sl (i + 1)) G0 tree treeSalt.toList i)
    (Vector.ofFn fun i : Fin p.T => (sl i).act', hashInit)
  let h := hashAbsorb p h m
  let h := hashAbsorb p h treeSalt.toList
  let digest := toVec p.hashLen (hashFinalize p h)
  let fws ← expandDigest fuel (Vector.replicate p.T 0) digest.toList
  let ind ← indicesToPublish fws
  let storage ← blit sig.seedStorage 0 (List.replicate p.maxPublishedBytes 0)
  let (storage, num) ← seedTreePath tree ind storage
  let (monoms, _) ← forUp p.T (fun i => signResponse fuel (sl (p.T + i + 1)) (Vector.ofFn fun k => f k (g fws k)) seeds acts i)
    (sig.monomActions, 0)
  let storage ← wrB storage (num * p.seedLen) num
  pure (⟨treeSalt, monoms, digest, storage⟩, num, rng)

end LESS
