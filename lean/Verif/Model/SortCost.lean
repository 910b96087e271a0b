import Verif.Model.Codes
/-!
# The sort of the columns with a count of its work

The functions of `codes.c:184-236` again, with counters: calls of `lex_compare_with_pivot`, calls of `column_swap`,
calls of `col_lex_quicksort`, and how deep these calls are nested. `C87_same` says that the counters change nothing.
-/
namespace LESS

variable {p : Params}

/-- codes.c:207-209, counting the comparisons. -/
def hoareUpN (V : NormIS p) (pivot : Vector Nat p.K) : (fuel : Nat) → (i n : Nat) → C (Nat × Nat)
  | 0, _, _ => .error .fuel
  | fuel + 1, i, n => do
    let i := (i + 1) % p.posMod
    let c ← lexCompareWithPivot V i pivot
    if c = 1 then hoareUpN V pivot fuel i (n + 1) else pure (i, n + 1)

/-- codes.c:210-212, counting the comparisons. -/
def hoareDownN (V : NormIS p) (pivot : Vector Nat p.K) : (fuel : Nat) → (j n : Nat) → C (Nat × Nat)
  | 0, _, _ => .error .fuel
  | fuel + 1, j, n => do
    let j := (j + p.posMod - 1) % p.posMod
    let c ← lexCompareWithPivot V j pivot
    if c = -1 then hoareDownN V pivot fuel j (n + 1) else pure (j, n + 1)

/-- The work of a sort: comparisons and exchanges of columns, calls of the recursive function, and the number of
these calls that are active at the same time. -/
structure SortCost where
  compares : Nat
  swaps : Nat
  calls : Nat
  depth : Nat

/-- codes.c:206-217, counting comparisons `n` and exchanges `w`. -/
def hoareLoopN (pivot : Vector Nat p.K) : (fuel : Nat) → NormIS p → (i j n w : Nat) → C (NormIS p × Nat × Nat × Nat)
  | 0, _, _, _, _, _ => .error .fuel
  | fuel + 1, V, i, j, n, w => do
    let (i, n) ← hoareUpN V pivot (p.N - p.K + 2) i n
    let (j, n) ← hoareDownN V pivot (p.N - p.K + 2) j n
    if j ≤ i then pure (V, j, n, w)
    else do
      let V ← columnSwap V i j
      hoareLoopN pivot fuel V i j n (w + 1)

/-- codes.c:198-219, counting comparisons and exchanges. -/
def hoarePartitionN (V : NormIS p) (colL colH : Nat) : C (NormIS p × Nat × Nat × Nat) := do
  let pivot ← forUp p.K (fun i (pivot : Vector Nat p.K) => do
    let x ← rd2 V i colL
    wr pivot i x) (Vector.replicate p.K 0)
  hoareLoopN pivot (p.N - p.K + 2) V ((colL + p.posMod - 1) % p.posMod) ((colH + 1) % p.posMod) 0 0

/-- codes.c:222-230, with the work of the call. -/
def colLexQuicksortN : (fuel : Nat) → NormIS p → (start stop : Nat) → C (NormIS p × SortCost)
  | 0, _, _, _ => .error .fuel
  | fuel + 1, V, start, stop => do
    if start < stop then
      let (V, q, n, w) ← hoarePartitionN V (start % p.posMod) (stop % p.posMod)
      let (V, a) ← colLexQuicksortN fuel V start q
      let (V, b) ← colLexQuicksortN fuel V (q + 1) stop
      pure (V, ⟨n + a.compares + b.compares, w + a.swaps + b.swaps, 1 + a.calls + b.calls, 1 + max a.depth b.depth⟩)
    else pure (V, ⟨0, 0, 1, 1⟩)

/-- codes.c:234-236, with the work of the call. -/
def lexSortColsN (V : NormIS p) : C (NormIS p × SortCost) :=
  colLexQuicksortN (p.N - p.K + 1) V 0 (p.N - p.K - 1)

end LESS
