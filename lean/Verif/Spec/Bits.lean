import Verif.Basic
/-!
# Specification: bit strings packed into bytes

The on-the-wire encodings of LESS are concatenations of fixed-width little-endian fields, filled up with zero
bits to a whole number of bytes.
-/
namespace LESS.Spec

/-- The `w` low bits of `v`, least significant first. -/
def bitField (w v : Nat) : List Bool := (List.range w).map v.testBit

/-- Consecutive fields of width `w`. -/
def bitFields (w : Nat) (vs : List Nat) : List Bool := vs.flatMap (bitField w)

/-- The byte with the given bits, least significant first. -/
def byteOf (b : Nat → Bool) : UInt8 :=
  UInt8.ofNat (((List.range 8).map fun i => if b i then 2 ^ i else 0).sum)

/-- The `n` bytes that hold the bits `l` followed by zeros. -/
def packed (n : Nat) (l : List Bool) : Vector UInt8 n :=
  Vector.ofFn fun j => byteOf fun i => l.getD (8 * j.val + i) false

/-- Bit `k` of a byte buffer. -/
def bitAt {n : Nat} (buf : Vector UInt8 n) (k : Nat) : Bool := (g buf (k / 8)).toNat.testBit (k % 8)

/-- The `w`-bit number stored from bit `pos` on. -/
def fieldAt {n : Nat} (w : Nat) (buf : Vector UInt8 n) (pos : Nat) : Nat :=
  ((List.range w).map fun b => if bitAt buf (pos + b) then 2 ^ b else 0).sum

end LESS.Spec
