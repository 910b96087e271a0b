/-!
# Statistics

What "average" and "standard deviation" of a list of measurements mean.
-/
namespace LESS.Spec

/-- The arithmetic mean. -/
def average (xs : List Rat) : Rat := xs.sum / xs.length

/-- The unbiased sample variance: the square of the standard deviation. -/
def sampleVariance (xs : List Rat) : Rat := (xs.map fun x => (x - average xs) * (x - average xs)).sum / ((xs.length : Rat) - 1)

/-- The time from `before` to `after` in thousands of ticks; the clock counts modulo `2^64`. -/
def duration (before after : Nat) : Rat :=
  ((if before ≤ after then after - before else after + 18446744073709551616 - before : Nat) : Rat) / 1000

/-- The first `n` measurements of a clock that is read before and after each measured operation. -/
def samples (n : Nat) (clk : Nat → UInt64 × UInt64) : List Rat :=
  (List.range n).map fun i => duration (clk i).1.toNat (clk i).2.toNat

end LESS.Spec
