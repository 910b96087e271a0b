import Verif.Model.Less
/-!
# Memory accesses of the two functions meant to be constant time

The functions once more, with every read and write of an array recorded, in the order of the C abstract machine
(the operands of `&&` and `||` are evaluated from left to right, the right one only if needed).
`Props/ConstantTime` shows that dropping the record gives the functions of the model back.
-/
namespace LESS

variable {p : Params}

/-- An access to an array argument of the function: the argument's number and the index or indices. -/
inductive Access where
  | read (arg i j : Nat)
  | write (arg i j : Nat)
deriving DecidableEq, Repr

/-- Computations that record their accesses, the last one first. -/
abbrev Tr := StateT (List Access) C

/-- Record an access. -/
def note (a : Access) : Tr Unit := fun l => .ok ((), a :: l)

/-- A read of the one-dimensional array passed as argument `arg`. -/
def trd {α : Type} {n : Nat} (arg : Nat) (v : Vector α n) (i : Nat) : Tr α := do
  note (.read arg i 0)
  StateT.lift (rd v i)

/-- A read of the two-dimensional array passed as argument `arg`. -/
def trd2 {α : Type} {r c : Nat} (arg : Nat) (v : Vector (Vector α c) r) (i j : Nat) : Tr α := do
  note (.read arg i j)
  StateT.lift (rd2 v i j)

/-- A write to the two-dimensional array passed as argument `arg`. -/
def twr2 {α : Type} {r c : Nat} (arg : Nat) (v : Vector (Vector α c) r) (i j : Nat) (x : α) : Tr (Vector (Vector α c) r) := do
  note (.write arg i j)
  StateT.lift (wr2 v i j x)

/-- `for (i = 0; i < n; i++) s = body i s`. -/
def tforUp {σ : Type} : (n : Nat) → (body : Nat → σ → Tr σ) → σ → Tr σ
  | 0, _, s => pure s
  | n + 1, body, s => tforUp n body s >>= body n

/-- LESS.c:193-201 `timing_safe_memcmp` with its accesses; arguments 0 and 1 are `a` and `b`. -/
def timingSafeMemcmpT {n m : Nat} (a : Vector UInt8 n) (b : Vector UInt8 m) (bytelen : Nat) : Tr Nat :=
  tforUp bytelen (fun i diff => do
    let x ← trd 0 a i
    let y ← trd 1 b i
    pure (diff ||| b2n (x ≠ y))) 0

/-- codes.c:142-166 `lex_minimize` with its accesses; argument 0 is `V`, 2 is `G`.  Each mention of
`G->values[i][col_idx]` that is evaluated is a read: two for `first_nonzero_idx` (codes.c:151-154), three for
`first_nonzero_val` (155-158), and one for `nonzero_idx_found` (159) unless the left operand of `||` is true. -/
def lexMinimizeT (V : NormIS p) (dstCol : Nat) (G : GenMat p) (col : Nat) : Tr (NormIS p) := do
  let (val, _) ← tforUp p.K (fun i (s : Nat × Bool) => do
    let (val, found) := s
    let _ ← trd2 2 G i col
    let _ ← trd2 2 G i col
    let _ ← trd2 2 G i col
    let _ ← trd2 2 G i col
    let x ← trd2 2 G i col
    let val := u8 (x * b2n (x ≠ 0 && !found) + val * b2n (x = 0 || found))
    if found then pure (val, true)
    else do
      let y ← trd2 2 G i col
      pure (val, decide (y ≠ 0))) (0, false)
  let inv := fqInv val
  tforUp p.K (fun i V => do
    let x ← trd2 2 G i col
    twr2 0 V i dstCol (fqRed (x * inv))) V

end LESS
