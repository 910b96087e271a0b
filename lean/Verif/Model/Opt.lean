import Verif.Model.Vec
import Verif.Model.Sign
/-!
# The optimized implementation: `Optimized_Implementation/common`

File names and lines below are those of `Optimized_Implementation/common`.  `seedtree.c`, `utils.c`, `sign.c`, `rng.c`,
`fips202.c`, `keccakf1600.c`, the samplers of `fq_arith.h`, `monomial.c` except `monomial_mat_inv`, and the expanding
and compressing functions of `codes.c` are the same code as in `Reference_Implementation` (up to integer types of loop
counters, comments and `static`), so the definitions of the reference model are used for them.

Matrices have rows of `N_pad` bytes and monomials have `N_pad` coefficients; only the vector code looks at the padding.
The scalar functions are modelled on the first `N` columns: for them an access to the padding counts as out of bounds.
-/
namespace LESS

namespace Params

/-- `N_pad` (parameters.h:41,73,106). -/
def nPad (p : Params) : Nat := match p.cat with
  | .one => 256 | .three => 448 | .five => 576

/-- `NW` (codes.c:36-37, macro.h): vectors that hold the `N` entries of a row. -/
def nw (p : Params) : Nat := (p.N + 31) / 32

end Params

/-! ## Field arithmetic, `include/fq_arith.h` -/

/-- fq_arith.h:93-102 `br_mul`; `lo` and `hi` are `uint16_t`, the result is a `uint8_t`. -/
def brMul (a b : Nat) : Nat :=
  let lo := u16 (a * b)
  let hi := lo >>> 7
  let lo := u16 (lo + hi)
  let hi := u16 (hi <<< 7)
  u8 (lo + 65536 - hi)

/-- fq_arith.h:107-116 `br_red`; all variables are `uint8_t`. -/
def brRed (a : Nat) : Nat :=
  let t := a >>> 7
  let t := t &&& Q
  let a := u8 (a + t)
  a &&& Q

/-- fq_arith.h:121-132 `br_red16`; `a` is a `uint32_t`, `x` and `y` are `uint16_t`. -/
def brRed16 (x : Nat) : Nat :=
  let a := u32 (x + 1)
  let a := u32 ((a <<< 7) + a)
  let y := u16 (a >>> 14)
  let y := u16 ((y <<< 7) + 65536 - y)
  u16 (x + 65536 - y)

/-- The loop of fq_arith.h:151-157; `accum` and `xlift` are `uint8_t`. -/
def brInvLoop (exp accum xlift : Nat) : Nat :=
  if h : exp = 0 then accum
  else
    brInvLoop (exp >>> 1) (if exp &&& 1 ≠ 0 then brRed (brMul accum xlift) else accum)
      (brRed (brMul xlift xlift))
termination_by exp
decreasing_by
  rw [Nat.shiftRight_eq_div_pow]
  exact Nat.div_lt_self (Nat.pos_of_ne_zero h) (by decide)

/-- fq_arith.h:142-159 `fq_inv`. -/
def brInv (x : Nat) : Nat := brInvLoop (Q - 2) 1 (u8 x)

variable {p : Params}

/-- monomial.c:126-135 `monomial_mat_inv`: the reference code with the optimized `fq_inv`. -/
def monomialInvO (stale toInvert : Monomial p) : C (Monomial p) :=
  forUp p.N (fun i res => do
    let d ← rd toInvert.permutation i
    let perm ← wr res.permutation d (i % p.posMod)
    let c ← rd toInvert.coefficients i
    let coefs ← wr res.coefficients d (brInv c)
    pure ⟨coefs, perm⟩) stale

/-! ## Padded matrices, `include/codes.h` -/

/-- codes.h:32-34 `generator_mat_t`: `FQ_ELEM values[K][N_pad]`. -/
abbrev OGen (p : Params) := Vector (Vector Nat p.nPad) p.K

/-- The first `N` entries of a padded row. -/
def cutRow (v : Vector Nat p.nPad) : Vector Nat p.N := Vector.ofFn fun i => g v i

/-- The first `N` columns of a padded matrix. -/
def cut (G : OGen p) : GenMat p := Vector.ofFn fun i => cutRow G[i]

/-- A padded row with its first `N` entries replaced. -/
def pasteRow (v : Vector Nat p.N) (old : Vector Nat p.nPad) : Vector Nat p.nPad :=
  Vector.ofFn fun j => if j.val < p.N then g v j else g old j

/-- A padded matrix with its first `N` columns replaced: what a scalar function leaves of `old`. -/
def paste (G : GenMat p) (old : OGen p) : OGen p := Vector.ofFn fun i => pasteRow G[i] old[i]

/-- codes.c:40-45 `shuff_low_half`. -/
def shuffLowHalf : Vec :=
  #v[0x0, 0x2, 0x4, 0x6, 0x8, 0xa, 0xc, 0xe, 0x80, 0x80, 0x80, 0x80, 0x80, 0x80, 0x80, 0x80,
     0x0, 0x2, 0x4, 0x6, 0x8, 0xa, 0xc, 0xe, 0x80, 0x80, 0x80, 0x80, 0x80, 0x80, 0x80, 0x80]

/-- codes.c:68-88: the 32 products of one chunk. -/
def mulChunk (isa : Isa) (gv mono : Vec) : Vec :=
  let gLo := vextend (vget gv 0)
  let gHi := vextend (vget gv 1)
  let mLo := vextend (vget mono 0)
  let mHi := vextend (vget mono 1)
  let gLo := barrettMulU16 isa gLo mLo
  let gHi := barrettMulU16 isa gHi mHi
  let gLo := vshuffle8 isa gLo shuffLowHalf
  let gHi := vshuffle8 isa gHi shuffLowHalf
  let gLo := vpermute4x64 gLo 0xd8
  let gHi := vpermute4x64 gHi 0xd8
  let s := vpermute2 isa gLo gHi 0x20
  barrettRed8 s (vset8 127) (vset8 1)

/-- codes.c:47-96 `generator_monomial_mul`.  `coef` is `monom->coefficients` with its padding, `buf` the uninitialised
`buffer`. -/
def generatorMonomialMulO (isa : Isa) (res G : OGen p) (coef : Vector Nat p.nPad) (perm : Vector Nat p.N)
    (buf : Vector Nat p.nPad) : C (OGen p) := do
  let (res, _) ← forUp p.K (fun row (s : OGen p × Vector Nat p.nPad) => do
    let (res, buf) := s
    let gRow ← rd G row
    let buf ← forUp (p.nPad / 32) (fun k buf => do
      let gv ← vload gRow (32 * k)
      let mono ← vload coef (32 * k)
      vstore buf (32 * k) (mulChunk isa gv mono)) buf
    let res ← forUp p.N (fun i res => do
      let d ← rd perm i
      let x ← rd buf i
      wr2 res row d x) res
    pure (res, buf)) (res, buf)
  pure res

/-! ## Row reduction, codes.c:113-213 -/

/-- codes.c:136-143: the search for a non-zero entry in column `col`, rows `row`, …; `n` is `K - row`; `none` when the
end of the column is reached. -/
def optScan (G : OGen p) (col : Nat) : (n : Nat) → (row : Nat) → C (Option Nat)
  | 0, _ => pure none
  | n + 1, row => do
    let sc ← rd2 G row col
    if sc ≠ 0 then pure (some row) else optScan G col n (row + 1)

/-- codes.c:135-146: the search for a pivot in rows `i`, … from column `col` on; `n` is `N - col`; `none` is
`pivc >= N`. -/
def optFind (G : OGen p) (i : Nat) : (n : Nat) → (col : Nat) → C (Option (Nat × Nat))
  | 0, _ => pure none
  | n + 1, col => do
    match ← optScan G col (p.K - i) i with
    | some j => pure (some (j, col))
    | none => optFind G i n (col + 1)

/-- `gm[i][k]` (codes.c:126-128): vector `k` of row `i`. -/
def gmRd (G : OGen p) (i k : Nat) : C Vec := do
  let row ← rd G i
  vload row (32 * k)

/-- `gm[i][k] = v`. -/
def gmWr (G : OGen p) (i k : Nat) (v : Vec) : C (OGen p) := do
  let row ← rd G i
  let row ← vstore row (32 * k) v
  wr G i row

/-- The table `em[0x80][NW]` (codes.c:118). -/
abbrev EmTab (p : Params) := Vector (Vector Vec p.nw) 128

/-- The table of pointers `ep[0x80]` into `em` (codes.c:119): row numbers; `none` is a pointer not yet set. -/
abbrev EpTab := Vector (Option Nat) 128

/-- Using a pointer of `ep`: undefined behaviour, reported as `oob`, if it was never set. -/
def epGet (ep : EpTab) (i : Nat) : C Nat := do
  match ← rd ep i with
  | some j => pure j
  | none => .error .oob

/-- codes.c:157-163: exchange rows `i` and `j`. -/
def swapRowsO (G : OGen p) (i j : Nat) : C (OGen p) :=
  forUp p.nw (fun k G => do
    let t ← gmRd G i k
    let x ← gmRd G j k
    let G ← gmWr G i k x
    gmWr G j k t) G

/-- codes.c:170-179: the multiples of row `i`, `em[1]` to `em[126]`. -/
def buildEm (G : OGen p) (i : Nat) (em : EmTab p) : C (EmTab p) := do
  let em ← forUp p.nw (fun k em => do
    let x ← gmRd G i k
    wr2 em 1 k x) em
  forUp 125 (fun t em =>
    forUp p.nw (fun k em => do
      let a ← rd2 em (t + 2 - 1) k
      let b ← gmRd G i k
      wr2 em (t + 2) k (wRed127 (vadd8 a b) (vset8 0x01) (vset8 0x7f))) em) em

/-- codes.c:182-190: the pointers, `ep[v]` to the multiple whose pivot entry is `v`. -/
def buildEp (sc : Nat) (ep : EpTab) : C EpTab := do
  let ep ← wr ep 0 (some 0)
  let (ep, _) ← forUp 126 (fun t (s : EpTab × Nat) => do
    let (ep, tmp) := s
    let ep ← wr ep tmp (some (t + 1))
    let tmp := u8 (tmp + sc)
    let tmp := u8 ((tmp + (tmp >>> 7)) &&& 0x7F)
    pure (ep, tmp)) (ep, sc)
  wr ep 0x7F (some 0)

/-- codes.c:193: copy the normalised row back. -/
def copyBack (G : OGen p) (i : Nat) (em : EmTab p) (e : Nat) : C (OGen p) :=
  forUp p.nw (fun k G => do
    let x ← rd2 em e k
    gmWr G i k x) G

/-- codes.c:198-208: clear the pivot column in row `j`; `ep[127 - sc]` is out of bounds for `sc > 127`. -/
def eliminateRowO (i pivc : Nat) (em : EmTab p) (ep : EpTab) (j : Nat) (G : OGen p) : C (OGen p) := do
  let sc ← rd2 G j pivc
  if sc ≠ 0 ∧ j ≠ i then do
    let rp ← if 127 < sc then .error .oob else epGet ep (127 - sc)
    forUp p.nw (fun k G => do
      let a ← gmRd G j k
      let b ← rd2 em rp k
      gmWr G j k (wRed127 (vadd8 a b) (vset8 0x01) (vset8 0x7f))) G
  else pure G

/-- The variables that live through the main loop: matrix, pivot flags, `em`, `ep`. -/
abbrev RState (p : Params) := OGen p × Vector Nat p.N × EmTab p × EpTab

/-- codes.c:130-210: one iteration of the main loop; `.inl` is `return 0`. -/
def rrefStepO (i : Nat) (s : RState p) : C (RState p ⊕ RState p) := do
  let (G, isPivot, em, ep) := s
  match ← optFind G i (p.N - i) i with
  | none => pure (.inl (G, isPivot, em, ep))
  | some (j, pivc) => do
    let isPivot ← wr isPivot pivc 1
    let G ← if i ≠ j then swapRowsO G i j else pure G
    let em ← buildEm G i em
    let sc ← rd2 G i pivc
    let ep ← buildEp sc ep
    let e ← epGet ep 1
    let G ← copyBack G i em e
    let G ← forUp p.K (eliminateRowO i pivc em ep) G
    pure (.inr (G, isPivot, em, ep))

/-- codes.c:113-213 `generator_RREF`; `em` is the uninitialised table, the pointers `ep` are not set at the start. -/
def generatorRREFO (G : OGen p) (isPivot : Vector Nat p.N) (em : EmTab p) :
    C (Nat × OGen p × Vector Nat p.N) := do
  match ← forRet p.K rrefStepO (G, isPivot, em, Vector.replicate 128 none) with
  | .inl (G, isPivot, _, _) => pure (0, G, isPivot)
  | .inr (G, isPivot, _, _) => pure (1, G, isPivot)

/-! ## Scalar functions that use the Barrett arithmetic -/

/-- codes.c:218-241 `lex_minimize`; `first_nonzero_idx` is never used and left out. -/
def lexMinimizeO (V : NormIS p) (dstCol : Nat) (G : GenMat p) (col : Nat) : C (NormIS p) := do
  let (val, _) ← forUp p.K (fun i (s : Nat × Bool) => do
    let (val, found) := s
    let x ← rd2 G i col
    pure (u8 (x * b2n (x ≠ 0 && !found) + val * b2n (x = 0 || found)), found || x ≠ 0)) (0, false)
  let inv := brInv val
  forUp p.K (fun i V => do
    let x ← rd2 G i col
    wr2 V i dstCol (brRed (brMul x inv))) V

/-- Uninitialised memory of the optimized code: the locals it shares with the reference (`ref`), padded matrices,
coefficients and `buffer`, and the table `em` of `generator_RREF`. -/
structure OStale (p : Params) where
  ref : Stale p
  gen : OGen p
  gen' : OGen p
  coef : Vector Nat p.nPad
  buf : Vector Nat p.nPad
  em : EmTab p

/-- codes.c:304-343 `prepare_digest_input`. -/
def prepareDigestInputO (isa : Isa) (sl : OStale p) (V : NormIS p) (Qbar : MonoAction p) (G : OGen p)
    (Qin : Monomial p) : C (NormIS p × MonoAction p × Nat) := do
  let Gd ← generatorMonomialMulO isa (Vector.replicate p.K (Vector.replicate p.nPad 0)) G
    (pasteRow Qin.coefficients sl.coef) Qin.permutation sl.buf
  let (ok, Gd, isPivot) ← generatorRREFO Gd (Vector.replicate p.N 0) sl.em
  let (V, Qbar, _, _) ← forUp p.N (fun col (s : NormIS p × MonoAction p × Nat × Nat) => do
    let (V, Qbar, pivIdx, nonPivIdx) := s
    let (rowIdx, val) ← findSource Qin col
    let f ← rd isPivot col
    if f = 0 then do
      let V ← lexMinimizeO V ((nonPivIdx + p.posMod - p.K) % p.posMod) (cut Gd) col
      pure (V, Qbar, pivIdx, (nonPivIdx + 1) % p.posMod)
    else do
      let perm ← wr Qbar.permutation pivIdx rowIdx
      let coefs ← wr Qbar.coefficients pivIdx (u8 val)
      pure (V, ⟨coefs, perm⟩, (pivIdx + 1) % p.posMod, nonPivIdx)) (V, Qbar, 0, p.K)
  let V ← lexSortCols V
  pure (V, Qbar, ok)

/-- codes.c:347-371 `apply_action_to_G`. -/
def applyActionToGO (res G : GenMat p) (a : MonoAction p) : C (GenMat p) := do
  let (res, picked) ← forUp p.K (fun dst (s : GenMat p × Vector Nat p.N) => do
    let (res, picked) := s
    let src ← rd a.permutation dst
    let res ← forUp p.K (fun i res => do
      let x ← rd2 G i src
      let c ← rd a.coefficients dst
      wr2 res i dst (brRed (brMul x c))) res
    let picked ← wr picked src 1
    pure (res, picked)) (res, Vector.replicate p.N 0)
  let (res, _) ← forUp p.N (fun src (s : GenMat p × Nat) => do
    let (res, dst) := s
    let f ← rd picked src
    if f = 0 then do
      let res ← forUp p.K (fun i res => do
        let x ← rd2 G i src
        wr2 res i dst x) res
      pure (res, dst + 1)
    else pure (res, dst)) (res, p.K)
  pure res

/-! ## `lib/LESS.c` -/

/-- LESS.c:59-63, 125-128: expansion of the public code `G_0`. -/
def expandG0O (fuel : Nat) (sl : OStale p) (seed : Bytes) : C (OGen p) := do
  let rref ← generatorSFSeedExpand fuel sl.ref.rref seed
  let G ← generatorRrefExpand (cut sl.gen) rref
  pure (paste G sl.gen)

/-- LESS.c:68-86: one public code. -/
def keygenOneO (isa : Isa) (fuel : Nat) (sl : OStale p) (G0 : OGen p) (seed : Bytes)
    (buf : Vector UInt8 p.rrefBytes) : C (Vector UInt8 p.rrefBytes) := do
  let Qinv ← monomialSeedExpandPrikey fuel sl.ref.mono seed
  let Qm ← monomialInvO sl.ref.mono' Qinv
  let G ← generatorMonomialMulO isa sl.gen' G0 (pasteRow Qm.coefficients sl.coef) Qm.permutation sl.buf
  let (_, G, isPivot) ← generatorRREFO G (Vector.replicate p.N 0) sl.em
  compressRref buf (cut G) isPivot

/-- LESS.c:38-87 `LESS_keygen`. -/
def lessKeygenO (isa : Isa) (fuel : Nat) (sl : Nat → OStale p) (rng : Inc) : C (PriKey p × PubKey p × Inc) := do
  let (sk, rng) := csprngBytes p p.skSeedLen rng
  let seeds ← privateSeeds p sk
  let (g0, rng) := csprngBytes p p.seedLen rng
  let G0 ← expandG0O fuel (sl 0) g0
  let sfg ← forUp (p.numKeypairs - 1) (fun i sfg => do
    let seed ← rd seeds i
    let buf ← rd sfg i
    let buf ← keygenOneO isa fuel (sl (i + 1)) G0 seed.toList buf
    wr sfg i buf) (sl 0).ref.sfg
  pure (⟨toVec _ sk, toVec _ g0⟩, ⟨toVec _ g0, sfg⟩, rng)

/-- LESS.c:137-146: one commitment round of the signer. -/
def signRoundO (isa : Isa) (fuel : Nat) (sl : OStale p) (G0 : OGen p) (tree : TreeBuf p) (salt : Bytes) (i : Nat)
    (s : Vector (MonoAction p) p.T × Inc) : C (Vector (MonoAction p) p.T × Inc) := do
  let (acts, h) := s
  let seed ← slice tree (p.seedLen * (p.numLeaves - 1) + i * p.seedLen) p.seedLen
  let Qt ← monomialSeedExpandSaltRnd fuel sl.ref.mono seed salt i
  let a ← rd acts i
  let (V, a, _) ← prepareDigestInputO isa sl sl.ref.norm a G0 Qt
  let acts ← wr acts i a
  pure (acts, hashAbsorb p h (normBytes V))

/-- LESS.c:95-200 `LESS_sign`. -/
def lessSignO {n : Nat} (isa : Isa) (fuel : Nat) (sl : Nat → OStale p) (rng : Inc) (SK : PriKey p) (m : Bytes)
    (sig : SignT p n) : C (SignT p n × Nat × Inc) := do
  let seeds ← privateSeeds p SK.compressedSk.toList
  let (ephem, rng) := csprngBytes p p.seedLen rng
  let (salt, rng) := csprngBytes p p.hashLen rng
  let treeSalt := toVec p.hashLen salt
  let tree ← generateSeedTree (Vector.replicate _ 0) ephem treeSalt.toList
  let G0 ← expandG0O fuel (sl 0) SK.G0seed.toList
  let (acts, h) ← forUp p.T (fun i => signRoundO isa fuel (sl (i + 1)) G0 tree treeSalt.toList i)
    (Vector.ofFn fun i : Fin p.T => (sl i).ref.act', hashInit)
  let h := hashAbsorb p h m
  let h := hashAbsorb p h treeSalt.toList
  let digest := toVec p.hashLen (hashFinalize p h)
  let fws ← expandDigest fuel (Vector.replicate p.T 0) digest.toList
  let ind ← indicesToPublish fws
  let storage ← blit sig.seedStorage 0 (List.replicate p.maxPublishedBytes 0)
  let (storage, num) ← seedTreePath tree ind storage
  let (monoms, _) ← forUp p.T (fun i => signResponse fuel (sl (p.T + i + 1)).ref fws seeds acts i)
    (sig.monomActions, 0)
  let storage ← wrB storage (num * p.seedLen) num
  pure (⟨treeSalt, monoms, digest, storage⟩, num, rng)

/-- LESS.c:262-291: the commitment recomputed from a public code and a response; `none` is `return 0`. -/
def verifyResponseO (sl : OStale p) (sfg : Vector UInt8 p.rrefBytes) (resp : Vector UInt8 p.monoBytes) :
    C (Option (NormIS p)) := do
  let G ← expandToRref (cut sl.gen) sfg
  let act ← expandToMonomAction sl.ref.act resp
  let valid ← isMonomActionValid act
  if valid = 0 then pure none
  else do
    let Gh ← applyActionToGO (Vector.replicate p.K (Vector.replicate p.N 0)) G act
    let Gh := paste Gh (Vector.replicate p.K (Vector.replicate p.nPad 0))
    let (_, Gh, isPivot) ← generatorRREFO Gh (Vector.replicate p.N 0) sl.em
    let (V, _) ← forUp p.N (fun col (s : NormIS p × Nat) => do
      let (V, placed) := s
      let f ← rd isPivot col
      if f = 0 then do
        let V ← lexMinimizeO V placed (cut Gh) (col % p.posMod)
        pure (V, (placed + 1) % p.posMod)
      else pure (V, placed)) (sl.ref.norm, 0)
    let V ← lexSortCols V
    pure (some V)

/-- LESS.c:246-295: one round of the verifier; `.inl 0` is `return 0`. -/
def verifyRoundO {n : Nat} (isa : Isa) (fuel : Nat) (sl : OStale p) (PK : PubKey p) (sig : SignT p n)
    (fws : Vector Nat p.T) (tree : TreeBuf p) (G0 : RrefMat p) (i : Nat) (s : Inc × Nat) :
    C (Nat ⊕ (Inc × Nat)) := do
  let (h, employed) := s
  let x ← rd fws i
  if x = 0 then do
    let G ← generatorRrefExpand (cut sl.gen) G0
    let seed ← slice tree (p.seedLen * (p.numLeaves - 1) + i * p.seedLen) p.seedLen
    let Qm ← monomialSeedExpandSaltRnd fuel ⟨Vector.replicate _ 0, Vector.replicate _ 0⟩ seed
      sig.treeSalt.toList i
    let (V, _, _) ← prepareDigestInputO isa sl sl.ref.norm sl.ref.act' (paste G sl.gen) Qm
    pure (.inr (hashAbsorb p h (normBytes V), employed))
  else do
    let sfg ← rd PK.SFG (x - 1)
    let resp ← rd sig.monomActions employed
    match ← verifyResponseO sl sfg resp with
    | none => pure (.inl 0)
    | some V => pure (.inr (hashAbsorb p h (normBytes V), employed + 1))

/-- LESS.c:212-307 `LESS_verify`. -/
def lessVerifyO {n : Nat} (isa : Isa) (fuel : Nat) (sl : Nat → OStale p) (PK : PubKey p) (m : Bytes)
    (sig : SignT p n) : C Nat := do
  let fws ← expandDigest fuel (Vector.replicate p.T 0) sig.digest.toList
  let ind ← indicesToPublish fws
  let (tree, _) ← rebuildSeedTreeLeaves (Vector.replicate _ 0) ind sig.seedStorage sig.treeSalt.toList
  let G0 ← generatorSFSeedExpand fuel (sl 0).ref.rref PK.G0seed.toList
  match ← forRet p.T (fun i => verifyRoundO isa fuel (sl (i + 1)) PK sig fws tree G0 i) (hashInit, 0) with
  | .inl r => pure r
  | .inr (h, _) => do
    let h := hashAbsorb p h m
    let h := hashAbsorb p h sig.treeSalt.toList
    let digest := toVec p.hashLen (hashFinalize p h)
    let d ← timingSafeMemcmp digest sig.digest p.hashLen
    pure (b2n (d = 0))

/-! ## `lib/sign.c`: the reference code with the optimized functions -/

/-- sign.c:32-39 `crypto_sign_keypair`. -/
def cryptoSignKeypairO (isa : Isa) (fuel : Nat) (sl : Nat → OStale p) (rng : Inc) :
    C (Vector UInt8 p.pkLen × Vector UInt8 p.skLen × Inc) := do
  let (sk, pk, rng) ← lessKeygenO isa fuel sl rng
  pure (toVec _ (pubBytes pk), toVec _ (priBytes sk), rng)

/-- sign.c:46-61 `crypto_sign`. -/
def cryptoSignO {k : Nat} (isa : Isa) (fuel : Nat) (sl : Nat → OStale p) (rng : Inc) (sm : Vector UInt8 k) (m : Bytes)
    (sk : Vector UInt8 p.skLen) : C (Vector UInt8 k × Nat × Inc) := do
  let sm ← blit sm 0 m
  let sig ← readSign (p := p) sm m.length p.storageLen
  let (sig, num, rng) ← lessSignO isa fuel sl rng (readPri sk) m sig
  let sm ← blit sm m.length (signBytes sig)
  let sigLen := p.cryptoBytes num
  pure (sm, m.length + sigLen, rng)

/-- sign.c:68-92 `crypto_sign_open`. -/
def cryptoSignOpenO {smlen : Nat} (isa : Isa) (fuel : Nat) (sl : Nat → OStale p) (mcap : Nat) (sm : Vector UInt8 smlen)
    (pk : Vector UInt8 p.pkLen) : C (Int × Option Bytes) := do
  let num ← rdB sm ((smlen + 2 ^ 64 - 1) % 2 ^ 64)
  if p.maxPublishedSeeds ≤ num then pure (-1, none)
  else do
    let sigLen := p.cryptoBytes num
    let mlen := (smlen + 2 ^ 64 - sigLen) % 2 ^ 64
    let m ← slice sm 0 mlen
    if mcap < mlen then .error .oob
    else do
      let sig ← readSign (p := p) sm mlen (smlen - mlen - p.fixedLen)
      let ok ← lessVerifyO isa fuel sl (readPub pk) m sig
      pure ((ok : Int) - 1, some m)

end LESS
