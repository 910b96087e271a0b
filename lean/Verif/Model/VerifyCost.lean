import Verif.Model.SortCost
import Verif.Model.Sign
/-!
# Opening a signed message, with a count of the work of its sorts

`LESS_verify` sorts the columns of one matrix in each of its `T` rounds, before it looks at the digest.  The functions
below are those of `codes.c`, `LESS.c` and `sign.c` with `lex_sort_cols` replaced by its counting version
(`Model/SortCost`); the counts of the rounds are added up.  `C90_same` says that the counters change nothing.
-/
namespace LESS

variable {p : Params}

/-- Two sorts one after the other. -/
def SortCost.andThen (a b : SortCost) : SortCost :=
  ⟨a.compares + b.compares, a.swaps + b.swaps, a.calls + b.calls, max a.depth b.depth⟩

/-- codes.c:239-279 `prepare_digest_input`, with the work of its sort. -/
def prepareDigestInputN (V : NormIS p) (Qbar : MonoAction p) (G : GenMat p) (Qin : Monomial p) :
    C ((NormIS p × MonoAction p × Nat) × SortCost) := do
  let Gd ← generatorMonomialMul (Vector.replicate p.K (Vector.replicate p.N 0)) G Qin
  let (ok, Gd, isPivot) ← generatorRREF Gd (Vector.replicate p.N 0)
  let (V, Qbar, _, _) ← forUp p.N (fun col (s : NormIS p × MonoAction p × Nat × Nat) => do
    let (V, Qbar, pivIdx, nonPivIdx) := s
    let (rowIdx, val) ← findSource Qin col
    let f ← rd isPivot col
    if f = 0 then do
      let V ← lexMinimize V ((nonPivIdx + p.posMod - p.K) % p.posMod) Gd col
      pure (V, Qbar, pivIdx, (nonPivIdx + 1) % p.posMod)
    else do
      let perm ← wr Qbar.permutation pivIdx rowIdx
      let coefs ← wr Qbar.coefficients pivIdx (u8 val)
      pure (V, ⟨coefs, perm⟩, (pivIdx + 1) % p.posMod, nonPivIdx)) (V, Qbar, 0, p.K)
  let (V, cost) ← lexSortColsN V
  pure ((V, Qbar, ok), cost)

/-- LESS.c:253-281: the commitment recomputed from a public code and a response, with the work of its sort. -/
def verifyResponseN (sl : Stale p) (sfg : Vector UInt8 p.rrefBytes) (resp : Vector UInt8 p.monoBytes) :
    C (Option (NormIS p × SortCost)) := do
  let G ← expandToRref sl.gen sfg
  let act ← expandToMonomAction sl.act resp
  let valid ← isMonomActionValid act
  if valid = 0 then pure none
  else do
    let Gh ← applyActionToG (Vector.replicate p.K (Vector.replicate p.N 0)) G act
    let (_, Gh, isPivot) ← generatorRREF Gh (Vector.replicate p.N 0)
    let (V, _) ← forUp p.N (fun col (s : NormIS p × Nat) => do
      let (V, placed) := s
      let f ← rd isPivot col
      if f = 0 then do
        let V ← lexMinimize V placed Gh (col % p.posMod)
        pure (V, (placed + 1) % p.posMod)
      else pure (V, placed)) (sl.norm, 0)
    let (V, cost) ← lexSortColsN V
    pure (some (V, cost))

/-- LESS.c:237-285: one round of the verifier; the work is added to that of the rounds before.  Nothing is sorted in
a round that ends in `return 0`. -/
def verifyRoundN {n : Nat} (fuel : Nat) (sl : Stale p) (PK : PubKey p) (sig : SignT p n)
    (fws : Vector Nat p.T) (tree : TreeBuf p) (G0 : RrefMat p) (i : Nat) (s : (Inc × Nat) × SortCost) :
    C ((Nat × SortCost) ⊕ ((Inc × Nat) × SortCost)) := do
  let ((h, employed), total) := s
  let x ← rd fws i
  if x = 0 then do
    let G ← generatorRrefExpand sl.gen G0
    let seed ← slice tree (p.seedLen * (p.numLeaves - 1) + i * p.seedLen) p.seedLen
    let Qm ← monomialSeedExpandSaltRnd fuel ⟨Vector.replicate _ 0, Vector.replicate _ 0⟩ seed
      sig.treeSalt.toList i
    let ((V, _, _), cost) ← prepareDigestInputN sl.norm sl.act' G Qm
    pure (.inr ((hashAbsorb p h (normBytes V), employed), total.andThen cost))
  else do
    let sfg ← rd PK.SFG (x - 1)
    let resp ← rd sig.monomActions employed
    match ← verifyResponseN sl sfg resp with
    | none => pure (.inl (0, total))
    | some (V, cost) => pure (.inr ((hashAbsorb p h (normBytes V), employed + 1), total.andThen cost))

/-- LESS.c:203-297 `LESS_verify`: the returned value and the work of all sorts. -/
def lessVerifyN {n : Nat} (fuel : Nat) (sl : Nat → Stale p) (PK : PubKey p) (m : Bytes) (sig : SignT p n) :
    C (Nat × SortCost) := do
  let fws ← expandDigest fuel (Vector.replicate p.T 0) sig.digest.toList
  let ind ← indicesToPublish fws
  let (tree, _) ← rebuildSeedTreeLeaves (Vector.replicate _ 0) ind sig.seedStorage sig.treeSalt.toList
  let G0 ← generatorSFSeedExpand fuel (sl 0).rref PK.G0seed.toList
  match ← forRet p.T (fun i => verifyRoundN fuel (sl (i + 1)) PK sig fws tree G0 i) ((hashInit, 0), ⟨0, 0, 0, 0⟩) with
  | .inl r => pure r
  | .inr ((h, _), total) => do
    let h := hashAbsorb p h m
    let h := hashAbsorb p h sig.treeSalt.toList
    let digest := toVec p.hashLen (hashFinalize p h)
    let d ← timingSafeMemcmp digest sig.digest p.hashLen
    pure (b2n (d = 0), total)

/-- sign.c:69-94 `crypto_sign_open`: the results and the work of all sorts. -/
def cryptoSignOpenN {smlen : Nat} (fuel : Nat) (sl : Nat → Stale p) (mcap : Nat) (sm : Vector UInt8 smlen)
    (pk : Vector UInt8 p.pkLen) : C ((Int × Option Bytes) × SortCost) := do
  let num ← rdB sm ((smlen + 2 ^ 64 - 1) % 2 ^ 64)
  if p.maxPublishedSeeds ≤ num then pure ((-1, none), ⟨0, 0, 0, 0⟩)
  else do
    let sigLen := p.cryptoBytes num
    let mlen := (smlen + 2 ^ 64 - sigLen) % 2 ^ 64
    let m ← slice sm 0 mlen
    if mcap < mlen then .error .oob
    else do
      let sig ← readSign (p := p) sm mlen (smlen - mlen - p.fixedLen)
      let (ok, cost) ← lessVerifyN fuel sl (readPub pk) m sig
      pure (((ok : Int) - 1, some m), cost)

end LESS
