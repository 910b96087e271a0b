import Verif.Model.Bench
/-!
# The memory benchmarks: `Utilities/MemoryBenchmarking/lib/less_keygen.c`, `less_sign.c`, `less_verify.c`

Three programs; the stack they use is measured from outside (`bench.sh`).  They share the statistics functions with
less_benchmark.c.  `less_benchmark.c` in the same directory is an older copy of the program of `Verif/Model/Bench.lean` and
not modelled.  The models also return the list of everything the measured calls computed; the programs keep only the last one.
-/
namespace LESS

variable {p : Params}

/-- `sign_t signature;` (less_verify.c:52, less_sign.c:52): a global variable without initialiser, so all bytes are zero. -/
def zeroSig (p : Params) : SignT p p.storageLen :=
  ⟨Vector.replicate _ 0, Vector.replicate _ (Vector.replicate _ 0), Vector.replicate _ 0, Vector.replicate _ 0⟩

/-- less_keygen.c:55-73 `LESS_keygen_mem` and `main`: the printed numbers and the generated keys. -/
def memKeygen (fuel tests : Nat) (clk : Nat → UInt64 × UInt64) (sl : Nat → Nat → Stale p) :
    C ((Rat × Rat) × List (PriKey p × PubKey p)) := do
  let (out, _, timer) ← forUp tests (fun i (s : List (PriKey p × PubKey p) × Inc × Welford) => do
    let (sk, pk, rng) ← lessKeygen fuel (sl i) s.2.1
    pure (s.1 ++ [(sk, pk)], rng, welfordUpdate s.2.2 (kiloCycles (clk i)))) ([], initCsprng p benchSeed, welfordInit)
  pure (welfordPrint timer, out)

/-- less_sign.c:55-73 `LESS_sign_mem` and `main`: the printed numbers, the public key and the signatures.  Every call
overwrites the signature of the one before. -/
def memSign (fuel tests : Nat) (clk : Nat → UInt64 × UInt64) (sl₀ : Nat → Stale p) (sl : Nat → Nat → Stale p) :
    C ((Rat × Rat) × PubKey p × List (SignT p p.storageLen)) := do
  let (sk, pk, rng) ← lessKeygen fuel sl₀ (initCsprng p benchSeed)
  let (_, out, _, timer) ← forUp tests
    (fun i (s : SignT p p.storageLen × List (SignT p p.storageLen) × Inc × Welford) => do
      let (sig, _, rng) ← lessSign fuel (sl i) s.2.2.1 sk signme s.1
      pure (sig, s.2.1 ++ [sig], rng, welfordUpdate s.2.2.2 (kiloCycles (clk i)))) (zeroSig p, [], rng, welfordInit)
  pure (welfordPrint timer, pk, out)

/-- less_verify.c:55-74 `LESS_verify_mem` and `main`: the printed numbers and the values of `is_signature_ok`. -/
def memVerify (fuel tests : Nat) (clk : Nat → UInt64 × UInt64) (sl₀ : Nat → Stale p) (sl : Nat → Nat → Stale p) :
    C ((Rat × Rat) × List Nat) := do
  let (_, pk, _) ← lessKeygen fuel sl₀ (initCsprng p benchSeed)
  let (out, timer) ← forUp tests (fun i (s : List Nat × Welford) => do
    let ok ← lessVerify fuel (sl i) pk signme (zeroSig p)
    pure (s.1 ++ [ok], welfordUpdate s.2 (kiloCycles (clk i)))) ([], welfordInit)
  pure (welfordPrint timer, out)

end LESS
