import Verif.Spec.Keccak
import Verif.Spec.LaneOrder
import Verif.Basic
/-!
# Bytes of a state, and absorbing

Byte `j` of a state, in the order of FIPS 202, is part of lane `j / 8`, which is the lane (x, y) with `x + 5 y = j / 8`.
-/
namespace LESS.Spec

/-- Where byte `j` of the state is stored in the order of the vectorised permutation. -/
def avx2Byte (j : Nat) : Nat := 8 * avx2Pos (Fin.ofNat 5 (j / 8)) (Fin.ofNat 5 (j / 40)) + j % 8

/-- Byte `j` of a state stored in that order. -/
def stateByte (s : Vector UInt8 200) (j : Nat) : UInt8 := g s (avx2Byte j)

/-- The bits of a state stored in that order: bit z of the lane (x, y) is bit z mod 8 of its byte z / 8. -/
def stateBits (s : Vector UInt8 200) : StateArray := fun x y z =>
  (stateByte s (8 * (x.val + 5 * y.val) + z.val / 8)).toNat.testBit (z.val % 8)

/-- The first `n` lanes with the bits `d` added. -/
def xorLanes (n : Nat) (d : Nat → Bool) (A : StateArray) : StateArray := fun x y z =>
  A x y z ^^ (decide (x.val + 5 * y.val < n) && d (64 * (x.val + 5 * y.val) + z.val))

/-- Absorb `k` blocks of `n` lanes: add a block, then apply `F`. -/
def absorbWith (F : StateArray → StateArray) (n : Nat) : Nat → (Nat → Bool) → StateArray → StateArray
  | 0, _, A => A
  | k + 1, d, A => absorbWith F n k (fun i => d (64 * n + i)) (F (xorLanes n d A))

end LESS.Spec
