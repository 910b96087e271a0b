import Verif.Model.Testbench
/-!
# The benchmark program: `Reference_Implementation/lib/bench/less_benchmark.c`

The cycle counter (less_benchmark.c:31-58) is a parameter: any two 64-bit values per iteration, read before and after the
measured call.  Simplified: `long double` is replaced by exact rational arithmetic, so rounding is not modelled, and
the square root of `welford_print` (less_benchmark.c:97-102) is not taken: the model reports the variance below the root.
`welch_t_statistic`, `welford_stddev` and `welford_mean` are not called by the program and not modelled.  `info` only
prints constants.
-/
namespace LESS

variable {p : Params}

/-- less_benchmark.c:60-64 `welford_t`. -/
structure Welford where
  mean : Rat
  M2 : Rat
  count : Nat

/-- less_benchmark.c:66-72 `welford_init`. -/
def welfordInit : Welford := ⟨0, 0, 0⟩

/-- less_benchmark.c:74-82 `welford_update`. -/
def welfordUpdate (state : Welford) (sample : Rat) : Welford :=
  let count := state.count + 1
  let delta := sample - state.mean
  let mean := state.mean + delta / (count : Rat)
  let delta2 := sample - mean
  ⟨mean, state.M2 + delta * delta2, count⟩

/-- less_benchmark.c:97-102 `welford_print`: the two printed numbers, the second one squared. -/
def welfordPrint (state : Welford) : Rat × Rat := (state.mean, state.M2 / ((state.count : Rat) - 1))

/-- less_benchmark.c:140 (also 173, 183, 194): `(x86_64_rtdsc()-cycles)/1000.0`; the subtraction is of `uint64_t`. -/
def kiloCycles (c : UInt64 × UInt64) : Rat := ((c.2 - c.1).toNat : Rat) / 1000

/-- less_benchmark.c:128-146 `microbench` with `tests` iterations (`NUM_TESTS`, 6, 12 or 256): the printed numbers, the
matrix and the generator state at the end.  The returned value of the elimination is not used; `isPivot` is not
initialised. -/
def microbench (fuel tests : Nat) (clk : Nat → UInt64 × UInt64) (G : GenMat p) (isPivot : Vector Nat p.N) (rng : Inc) :
    C ((Rat × Rat) × GenMat p × Inc) := do
  let (G, rng) ← generatorRnd fuel G rng
  let (G, _, timer) ← forUp tests (fun i (s : GenMat p × Vector Nat p.N × Welford) => do
    let (_, G, isPivot) ← generatorRREF s.1 s.2.1
    pure (G, isPivot, welfordUpdate s.2.2 (kiloCycles (clk i)))) (G, isPivot, welfordInit)
  pure (welfordPrint timer, G, rng)

/-- What `LESS_sign_verify_speed` prints: the numbers for key generation, signing and verification, and the value of
`is_signature_ok`; line 199 prints "functional" if it is 1. -/
structure Speed where
  keygen : Rat × Rat
  sign : Rat × Rat
  verify : Rat × Rat
  ok : Nat

/-- The uninitialised locals of `LESS_sign_verify_speed` (less_benchmark.c:162-164 and 189). -/
structure SpeedLocals (p : Params) where
  pk : PubKey p
  sk : PriKey p
  sig : SignT p p.storageLen
  ok : Nat

/-- less_benchmark.c:158-200 `LESS_sign_verify_speed` with `tests` iterations per loop; `clk j` is the counter in loop `j` and
`sl j i` what the locals of the function called in iteration `i` of loop `j` contain.  Every call of `LESS_keygen` and
`LESS_sign` overwrites the results of the one before. -/
def signVerifySpeed (fuel tests : Nat) (clk : Nat → Nat → UInt64 × UInt64) (sl : Nat → Nat → Nat → Stale p)
    (l : SpeedLocals p) (rng : Inc) : C (Speed × Inc) := do
  let (sk, pk, rng, t0) ← forUp tests (fun i (s : PriKey p × PubKey p × Inc × Welford) => do
    let (sk, pk, rng) ← lessKeygen fuel (sl 0 i) s.2.2.1
    pure (sk, pk, rng, welfordUpdate s.2.2.2 (kiloCycles (clk 0 i)))) (l.sk, l.pk, rng, welfordInit)
  let (sig, rng, t1) ← forUp tests (fun i (s : SignT p p.storageLen × Inc × Welford) => do
    let (sig, _, rng) ← lessSign fuel (sl 1 i) s.2.1 sk signme s.1
    pure (sig, rng, welfordUpdate s.2.2 (kiloCycles (clk 1 i)))) (l.sig, rng, welfordInit)
  let (ok, t2) ← forUp tests (fun i (s : Nat × Welford) => do
    let ok ← lessVerify fuel (sl 2 i) pk signme sig
    pure (ok, welfordUpdate s.2 (kiloCycles (clk 2 i)))) (l.ok, welfordInit)
  pure (⟨welfordPrint t0, welfordPrint t1, welfordPrint t2, ok⟩, rng)

/-- less_benchmark.c:211-212: the seed of the generator. -/
def benchSeed : Bytes := [48, 49, 50, 51, 52, 53, 54, 55, 56, 57, 48, 49, 50, 51, 52, 53]

/-- less_benchmark.c:204-217 `main`. -/
def benchMain (fuel tests : Nat) (clk₀ : Nat → UInt64 × UInt64) (G : GenMat p) (isPivot : Vector Nat p.N)
    (clk : Nat → Nat → UInt64 × UInt64) (sl : Nat → Nat → Nat → Stale p) (l : SpeedLocals p) :
    C (((Rat × Rat) × Speed) × Inc) := do
  let (e, _, rng) ← microbench fuel tests clk₀ G isPivot (initCsprng p benchSeed)
  let (s, rng) ← signVerifySpeed fuel tests clk sl l rng
  pure ((e, s), rng)

end LESS
