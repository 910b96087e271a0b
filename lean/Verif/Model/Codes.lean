import Verif.Model.Monomial
/-!
# Codes: `Reference_Implementation/lib/codes.c`, `include/codes.h`

`while` loops whose termination is not structural carry a counter; running out of it is `CErr.fuel`, and
the theorems show that this never happens.
-/
namespace LESS

/-- codes.h:32-34 `generator_mat_t`: `FQ_ELEM values[K][N]`. -/
abbrev GenMat (p : Params) := Vector (Vector Nat p.N) p.K

/-- codes.h:37-40 `rref_generator_mat_t`. -/
structure RrefMat (p : Params) where
  values : Vector (Vector Nat (p.N - p.K)) p.K
  columnPos : Vector Nat (p.N - p.K)

/-- codes.h:44-46 `normalized_IS_t`: `FQ_ELEM values[K][N-K]`. -/
abbrev NormIS (p : Params) := Vector (Vector Nat (p.N - p.K)) p.K

variable {p : Params}

/-- codes.c:34-45 `generator_monomial_mul` and codes.c:49-60 `rref_generator_monomial_mul` (same body). -/
def generatorMonomialMul (res G : GenMat p) (monom : Monomial p) : C (GenMat p) :=
  forUp p.N (fun srcCol res =>
    forUp p.K (fun row res => do
      let d ← rd monom.permutation srcCol
      let x ← rd2 G row srcCol
      let c ← rd monom.coefficients srcCol
      wr2 res row d (fqRed (x * c))) res) res

/-- codes.c:63-72 `swap_rows` applied to rows `r` and `s` of `G` (called with `r ≠ s`). -/
def swapRows (G : GenMat p) (r s : Nat) : C (GenMat p) :=
  forUp p.N (fun i G => do
    let tmp ← rd2 G r i
    let x ← rd2 G s i
    let G ← wr2 G r i x
    wr2 G s i tmp) G

/-- codes.c:84-87: the inner search `while (pivot_row < K && G[pivot_row][pivot_column] == 0)`; `n` is
`K - pivot_row`. -/
def scanRows (G : GenMat p) (col : Nat) : (n : Nat) → (row : Nat) → C Nat
  | 0, row => pure row
  | n + 1, row => do
    let x ← rd2 G row col
    if x = 0 then scanRows G col n (row + 1) else pure row

/-- codes.c:81-92: the outer search loop, started at `pivot_row = row_to_reduce = r`. -/
def findPivot (G : GenMat p) (r : Nat) : (fuel : Nat) → (row col : Nat) → C (Nat × Nat)
  | 0, _, _ => .error .fuel
  | fuel + 1, row, col => do
    if col < p.N then
      let x ← rd2 G row col
      if x = 0 then
        let row' ← scanRows G col (p.K - row) row
        if p.K ≤ row' then findPivot G r fuel r (col + 1)
        else findPivot G r fuel row' col
      else pure (row, col)
    else pure (row, col)

/-- codes.c:112-115: rescale the pivot row from the pivot column on. -/
def scaleRow (G : GenMat p) (row pivotCol scaling : Nat) : C (GenMat p) :=
  forUp (p.N - pivotCol) (fun k G => do
    let x ← rd2 G row (pivotCol + k)
    wr2 G row (pivotCol + k) (fqRed (scaling * x))) G

/-- codes.c:121-133: subtract a multiple of the pivot row from row `rowIdx`. -/
def eliminateRow (G : GenMat p) (pivotRow pivotCol rowIdx : Nat) : C (GenMat p) := do
  let multiplier ← rd2 G rowIdx pivotCol
  forUp p.N (fun col G => do
    let y ← rd2 G pivotRow col
    let tmp := fqRed (multiplier * y)
    let x ← rd2 G rowIdx col
    wr2 G rowIdx col (fqRed (u16 (Q + x - tmp)))) G

/-- codes.c:119-135: subtract the pivot row from all the others. -/
def eliminateRows (G : GenMat p) (pivotRow pivotCol : Nat) : C (GenMat p) :=
  forUp p.K (fun rowIdx G =>
    if rowIdx ≠ pivotRow then eliminateRow G pivotRow pivotCol rowIdx else pure G) G

/-- codes.c:77-136: one iteration of the main loop of `generator_RREF`; `.inl 0` is `return 0`.  The
state is the matrix and the pivot flags; a `return` hands back the state as well. -/
def rrefStep (r : Nat) (s : GenMat p × Vector Nat p.N) :
    C ((Nat × GenMat p × Vector Nat p.N) ⊕ (GenMat p × Vector Nat p.N)) := do
  let (G, isPivot) := s
  let (pivotRow, pivotCol) ← findPivot G r (2 * p.N + 2) r r
  if p.N ≤ pivotCol then pure (.inl (0, G, isPivot))
  else do
    let isPivot ← wr isPivot pivotCol 1
    let G ← if r ≠ pivotRow then swapRows G r pivotRow else pure G
    let x ← rd2 G r pivotCol
    let scaling := fqInv x
    let G ← scaleRow G r pivotCol scaling
    let G ← eliminateRows G r pivotCol
    pure (.inr (G, isPivot))

/-- codes.c:74-138 `generator_RREF`: returned value, matrix, pivot flags. -/
def generatorRREF (G : GenMat p) (isPivot : Vector Nat p.N) : C (Nat × GenMat p × Vector Nat p.N) := do
  match ← forRet p.K rrefStep (G, isPivot) with
  | .inl r => pure r
  | .inr (G, isPivot) => pure (1, G, isPivot)

/-- codes.c:142-166 `lex_minimize`.  `first_nonzero_idx` (codes.c:147,151-154) is computed and never
used, it is left out. -/
def lexMinimize (V : NormIS p) (dstCol : Nat) (G : GenMat p) (col : Nat) : C (NormIS p) := do
  let (val, _) ← forUp p.K (fun i (s : Nat × Bool) => do
    let (val, found) := s
    let x ← rd2 G i col
    pure (u8 (x * b2n (x ≠ 0 && !found) + val * b2n (x = 0 || found)), found || x ≠ 0)) (0, false)
  let inv := fqInv val
  forUp p.K (fun i V => do
    let x ← rd2 G i col
    wr2 V i dstCol (fqRed (x * inv))) V

/-- codes.c:169-179 `column_swap`. -/
def columnSwap (V : NormIS p) (c1 c2 : Nat) : C (NormIS p) :=
  forUp p.K (fun i V => do
    let tmp ← rd2 V i c2
    let x ← rd2 V i c1
    let V ← wr2 V i c2 x
    wr2 V i c1 (u8 (tmp % p.posMod))) V

/-- codes.c:188-190: `while (i < K && V[i][col] - pivot[i] == 0) i++`; `n` is `K - i`. -/
def lexScan (V : NormIS p) (col : Nat) (pivot : Vector Nat p.K) : (n : Nat) → (i : Nat) → C Nat
  | 0, i => pure i
  | n + 1, i => do
    let x ← rd2 V i col
    let y ← rd pivot i
    if x = y then lexScan V col pivot n (i + 1) else pure i

/-- codes.c:184-196 `lex_compare_with_pivot`. -/
def lexCompareWithPivot (V : NormIS p) (col : Nat) (pivot : Vector Nat p.K) : C Int := do
  let i ← lexScan V col pivot p.K 0
  if i = p.K then pure 0
  else do
    let x ← rd2 V i col
    let y ← rd pivot i
    if y < x then pure (-1) else pure 1

/-- codes.c:207-209 `do { i++ } while (lex_compare_with_pivot(V,i,pivot) == 1)`, with the `POSITION_T`
wrap-around. -/
def hoareUp (V : NormIS p) (pivot : Vector Nat p.K) : (fuel : Nat) → (i : Nat) → C Nat
  | 0, _ => .error .fuel
  | fuel + 1, i => do
    let i := (i + 1) % p.posMod
    let c ← lexCompareWithPivot V i pivot
    if c = 1 then hoareUp V pivot fuel i else pure i

/-- codes.c:210-212 `do { j-- } while (lex_compare_with_pivot(V,j,pivot) == -1)`. -/
def hoareDown (V : NormIS p) (pivot : Vector Nat p.K) : (fuel : Nat) → (j : Nat) → C Nat
  | 0, _ => .error .fuel
  | fuel + 1, j => do
    let j := (j + p.posMod - 1) % p.posMod
    let c ← lexCompareWithPivot V j pivot
    if c = -1 then hoareDown V pivot fuel j else pure j

/-- codes.c:206-217: the `while(1)` loop of `Hoare_partition`. -/
def hoareLoop (pivot : Vector Nat p.K) : (fuel : Nat) → NormIS p → (i j : Nat) → C (NormIS p × Nat)
  | 0, _, _, _ => .error .fuel
  | fuel + 1, V, i, j => do
    let i ← hoareUp V pivot (p.N - p.K + 2) i
    let j ← hoareDown V pivot (p.N - p.K + 2) j
    if j ≤ i then pure (V, j)
    else do
      let V ← columnSwap V i j
      hoareLoop pivot fuel V i j

/-- codes.c:198-219 `Hoare_partition`. -/
def hoarePartition (V : NormIS p) (colL colH : Nat) : C (NormIS p × Nat) := do
  let pivot ← forUp p.K (fun i (pivot : Vector Nat p.K) => do
    let x ← rd2 V i colL
    wr pivot i x) (Vector.replicate p.K 0)
  hoareLoop pivot (p.N - p.K + 2) V ((colL + p.posMod - 1) % p.posMod) ((colH + 1) % p.posMod)

/-- codes.c:222-230 `col_lex_quicksort`. -/
def colLexQuicksort : (fuel : Nat) → NormIS p → (start stop : Nat) → C (NormIS p)
  | 0, _, _, _ => .error .fuel
  | fuel + 1, V, start, stop => do
    if start < stop then
      let (V, q) ← hoarePartition V (start % p.posMod) (stop % p.posMod)
      let V ← colLexQuicksort fuel V start q
      colLexQuicksort fuel V (q + 1) stop
    else pure V

/-- codes.c:234-236 `lex_sort_cols`. -/
def lexSortCols (V : NormIS p) : C (NormIS p) :=
  colLexQuicksort (p.N - p.K + 1) V 0 (p.N - p.K - 1)

/-- codes.c:257-263: the search for the source of column `col` in the monomial. -/
def findSource (Qin : Monomial p) (col : Nat) : C (Nat × Nat) :=
  forUp p.N (fun i (s : Nat × Nat) => do
    let x ← rd Qin.permutation i
    if x = col then do
      let c ← rd Qin.coefficients i
      pure (i % p.posMod, c)
    else pure s) (0, 0)

/-- codes.c:239-279 `prepare_digest_input`; the third component is `rref_ok` (checked by `ASSERT`, a no-op
with `NDEBUG`). -/
def prepareDigestInput (V : NormIS p) (Qbar : MonoAction p) (G : GenMat p) (Qin : Monomial p) :
    C (NormIS p × MonoAction p × Nat) := do
  let Gd ← generatorMonomialMul (Vector.replicate p.K (Vector.replicate p.N 0)) G Qin
  let (ok, Gd, isPivot) ← generatorRREF Gd (Vector.replicate p.N 0)
  let (V, Qbar, _, _) ← forUp p.N (fun col (s : NormIS p × MonoAction p × Nat × Nat) => do
    let (V, Qbar, pivIdx, nonPivIdx) := s
    let (rowIdx, val) ← findSource Qin col
    let f ← rd isPivot col
    if f = 0 then do
      let V ← lexMinimize V ((nonPivIdx + p.posMod - p.K) % p.posMod) Gd col
      pure (V, Qbar, pivIdx, (nonPivIdx + 1) % p.posMod)
    else do
      let perm ← wr Qbar.permutation pivIdx rowIdx
      let coefs ← wr Qbar.coefficients pivIdx (u8 val)
      pure (V, ⟨coefs, perm⟩, (pivIdx + 1) % p.posMod, nonPivIdx)) (V, Qbar, 0, p.K)
  let V ← lexSortCols V
  pure (V, Qbar, ok)

/-- codes.c:283-308 `apply_action_to_G`. -/
def applyActionToG (res G : GenMat p) (a : MonoAction p) : C (GenMat p) := do
  let (res, picked) ← forUp p.K (fun dst (s : GenMat p × Vector Nat p.N) => do
    let (res, picked) := s
    let src ← rd a.permutation dst
    let res ← forUp p.K (fun i res => do
      let x ← rd2 G i src
      let c ← rd a.coefficients dst
      wr2 res i dst (fqRed (x * c))) res
    let picked ← wr picked src 1
    pure (res, picked)) (res, Vector.replicate p.N 0)
  let (res, _) ← forUp p.N (fun src (s : GenMat p × Nat) => do
    let (res, dst) := s
    let f ← rd picked src
    if f = 0 then do
      let res ← forUp p.K (fun i res => do
        let x ← rd2 G i src
        wr2 res i dst x) res
      pure (res, dst + 1)
    else pure (res, dst)) (res, p.K)
  pure res

/-- codes.c:312-326 `generator_rref_compact`. -/
def generatorRrefCompact (stale : RrefMat p) (full : GenMat p) (isPivot : Vector Nat p.N) :
    C (RrefMat p) := do
  let (c, _) ← forUp p.N (fun src (s : RrefMat p × Nat) => do
    let (c, dst) := s
    let f ← rd isPivot src
    if f = 0 then do
      let values ← forUp p.K (fun row values => do
        let x ← rd2 full row src
        wr2 values row dst x) c.values
      let pos ← wr c.columnPos dst (src % p.posMod)
      pure (⟨values, pos⟩, dst + 1)
    else pure (c, dst)) (stale, 0)
  pure c

/-- codes.c:521-540 `generator_rref_expand`. -/
def generatorRrefExpand (full : GenMat p) (compact : RrefMat p) : C (GenMat p) := do
  let (full, _) ← forUp p.N (fun col (s : GenMat p × Nat) => do
    let (full, placed) := s
    let dense ←
      if placed < p.N - p.K then do
        let c ← rd compact.columnPos placed
        pure (decide (col = c))
      else pure false
    if dense then do
      let full ← forUp p.K (fun row full => do
        let x ← rd2 compact.values row placed
        wr2 full row col x) full
      pure (full, placed + 1)
    else do
      let full ← forUp p.K (fun row full =>
        wr2 full row col (b2n (row + placed = col))) full
      pure (full, placed)) (full, 0)
  pure full

/-- codes.c:543-548 `generator_rnd`, the global generator state is `st`. -/
def generatorRnd (fuel : Nat) (res : GenMat p) (st : Inc) : C (GenMat p × Inc) :=
  forUp p.K (fun i (s : GenMat p × Inc) => do
    let (res, st) := s
    let row ← rd res i
    let (row, st) ← randRangeQState p fuel st row
    let res ← wr res i row
    pure (res, st)) (res, st)

/-- codes.c:550-563 `generator_SF_seed_expand`. -/
def generatorSFSeedExpand (fuel : Nat) (stale : RrefMat p) (seed : Bytes) : C (RrefMat p) := do
  let (values, _) ← forUp p.K (fun i (s : NormIS p × Inc) => do
    let (values, st) := s
    let row ← rd values i
    let (row, st) ← randRangeQState p fuel st row
    let values ← wr values i row
    pure (values, st)) (stale.values, initCsprng p seed)
  let pos ← forUp (p.N - p.K) (fun i pos => wr pos i ((i + p.K) % p.posMod)) stale.columnPos
  pure ⟨values, pos⟩

/-- codes.c:333-342: the `N/8` full flag bytes. -/
def packFlagByte (isPivot : Vector Nat p.N) (cb : Nat) : C Nat := do
  let b0 ← rd isPivot (8 * cb + 0)
  let b1 ← rd isPivot (8 * cb + 1)
  let b2 ← rd isPivot (8 * cb + 2)
  let b3 ← rd isPivot (8 * cb + 3)
  let b4 ← rd isPivot (8 * cb + 4)
  let b5 ← rd isPivot (8 * cb + 5)
  let b6 ← rd isPivot (8 * cb + 6)
  let b7 ← rd isPivot (8 * cb + 7)
  pure (b0 ||| (b1 <<< 1) ||| (b2 <<< 2) ||| (b3 <<< 3) ||| (b4 <<< 4) ||| (b5 <<< 5) ||| (b6 <<< 6)
    ||| (b7 <<< 7))

/-- codes.c:344-351: the last, half-used flag byte of categories 1 and 5. -/
def packLastFlags (isPivot : Vector Nat p.N) : C Nat := do
  let b0 ← rd isPivot (p.N - 4)
  let b1 ← rd isPivot (p.N - 3)
  let b2 ← rd isPivot (p.N - 2)
  let b3 ← rd isPivot (p.N - 1)
  pure (b0 ||| (b1 <<< 1) ||| (b2 <<< 2) ||| (b3 <<< 3))

/-- codes.c:344,432: whether there is a half-used flag byte. -/
def Params.hasLastFlags (p : Params) : Bool := match p.cat with
  | .one => true | .three => false | .five => true

/-- codes.c:330-415 `compress_rref`. -/
def compressRref (buf : Vector UInt8 p.rrefBytes) (full : GenMat p) (isPivot : Vector Nat p.N) :
    C (Vector UInt8 p.rrefBytes) := do
  let buf ← forUp (p.N / 8) (fun cb buf => do
    let x ← packFlagByte isPivot cb
    wrB buf cb x) buf
  let (buf, idx) ←
    if p.hasLastFlags then do
      let x ← packLastFlags isPivot
      let buf ← wrB buf (p.N / 8) x
      pure (buf, p.N / 8 + 1)
    else pure (buf, p.N / 8)
  let e ← forUp p.K (fun row e =>
    forUp p.N (fun col (e : EncState p.rrefBytes) => do
      let f ← rd isPivot col
      if f = 0 then do
        let x ← rd2 full row col
        enc7 x e
      else pure e) e) ⟨buf, idx, 0⟩
  pure e.buf

/-- codes.c:421-430: unpack one flag byte. -/
def unpackFlagByte (buf : Vector UInt8 p.rrefBytes) (cb : Nat) (isPivot : Vector Nat p.N) :
    C (Vector Nat p.N) := do
  let x ← rdB buf cb
  let f ← wr isPivot (cb * 8 + 0) (x &&& 1)
  let f ← wr f (cb * 8 + 1) ((x >>> 1) &&& 1)
  let f ← wr f (cb * 8 + 2) ((x >>> 2) &&& 1)
  let f ← wr f (cb * 8 + 3) ((x >>> 3) &&& 1)
  let f ← wr f (cb * 8 + 4) ((x >>> 4) &&& 1)
  let f ← wr f (cb * 8 + 5) ((x >>> 5) &&& 1)
  let f ← wr f (cb * 8 + 6) ((x >>> 6) &&& 1)
  wr f (cb * 8 + 7) ((x >>> 7) &&& 1)

/-- codes.c:432-437: unpack the half-used flag byte. -/
def unpackLastFlags (buf : Vector UInt8 p.rrefBytes) (isPivot : Vector Nat p.N) :
    C (Vector Nat p.N) := do
  let x ← rdB buf (p.N / 8)
  let f ← wr isPivot (p.N - 4) (x &&& 1)
  let f ← wr f (p.N - 3) ((x >>> 1) &&& 1)
  let f ← wr f (p.N - 2) ((x >>> 2) &&& 1)
  wr f (p.N - 1) ((x >>> 3) &&& 1)

/-- codes.c:418-517 `expand_to_rref`. -/
def expandToRref (full : GenMat p) (buf : Vector UInt8 p.rrefBytes) : C (GenMat p) := do
  let isPivot ← forUp (p.N / 8) (fun cb f => unpackFlagByte buf cb f) (Vector.replicate p.N 0)
  let (isPivot, idx) ←
    if p.hasLastFlags then do
      let f ← unpackLastFlags buf isPivot
      pure (f, p.N / 8 + 1)
    else pure (isPivot, p.N / 8)
  let (full, _, _) ← forUp p.K (fun row (s : GenMat p × Nat × Nat) => do
    let (full, idx, state) := s
    let (full, idx, state, _) ← forUp p.N (fun col (s : GenMat p × Nat × Nat × Nat) => do
      let (full, idx, state, pivotIdx) := s
      let f ← rd isPivot col
      if f = 0 then do
        let (v, idx, state) ← dec7 buf idx state
        let full ← wr2 full row col v
        pure (full, idx, state, pivotIdx)
      else do
        let full ← wr2 full row col (b2n (row = pivotIdx))
        pure (full, idx, state, pivotIdx + 1)) (full, idx, state, 0)
    pure (full, idx, state)) (full, idx, 0)
  pure full

end LESS
