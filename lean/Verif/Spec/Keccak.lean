/-!
# Specification: FIPS 202 (SHA-3), on bits

Section and algorithm numbers refer to FIPS 202.  `w = 64`, `b = 1600`.
-/
namespace LESS.Spec

/-- A state array `A[x, y, z]` (section 3.1). -/
abbrev StateArray := Fin 5 → Fin 5 → Fin 64 → Bool

/-- Algorithm 1, θ. -/
def theta (A : StateArray) : StateArray :=
  let C : Fin 5 → Fin 64 → Bool := fun x z => A x 0 z ^^ A x 1 z ^^ A x 2 z ^^ A x 3 z ^^ A x 4 z
  let D : Fin 5 → Fin 64 → Bool := fun x z => C (x - 1) z ^^ C (x + 1) (z - 1)
  fun x y z => A x y z ^^ D x z

/-- The walk of Algorithm 2: `(x, y)` before step `t`. -/
def rhoWalk : Nat → Fin 5 × Fin 5
  | 0 => (1, 0)
  | t + 1 => ((rhoWalk t).2, 2 * (rhoWalk t).1 + 3 * (rhoWalk t).2)

/-- The rotation amount of lane `(x, y)`: `(t+1)(t+2)/2` for the step `t < 24` at which the walk is at
`(x, y)`, and 0 for the lane `(0, 0)`. -/
def rhoOffset (x y : Fin 5) : Nat :=
  ((List.range 24).find? fun t => rhoWalk t = (x, y)).elim 0 fun t => (t + 1) * (t + 2) / 2

/-- Algorithm 2, ρ. -/
def rho (A : StateArray) : StateArray := fun x y z => A x y (z - Fin.ofNat 64 (rhoOffset x y))

/-- Algorithm 3, π. -/
def pi (A : StateArray) : StateArray := fun x y z => A (x + 3 * y) x z

/-- Algorithm 4, χ. -/
def chi (A : StateArray) : StateArray := fun x y z => A x y z ^^ ((A (x + 1) y z ^^ true) && A (x + 2) y z)

/-- One step of the loop of Algorithm 5. -/
def lfsrStep (R : List Bool) : List Bool :=
  let R := false :: R
  let r := R.getD 8 false
  ([R.getD 0 false ^^ r, R.getD 1 false, R.getD 2 false, R.getD 3 false, R.getD 4 false ^^ r,
    R.getD 5 false ^^ r, R.getD 6 false ^^ r, R.getD 7 false])

/-- The register of Algorithm 5 after `n` steps. -/
def lfsr : Nat → List Bool
  | 0 => [true, false, false, false, false, false, false, false]
  | n + 1 => lfsrStep (lfsr n)

/-- Algorithm 5, `rc(t)`. -/
def rc (t : Nat) : Bool := (lfsr (t % 255)).getD 0 false

/-- The round constant of Algorithm 6: bit `2^j - 1` is `rc(j + 7 ir)` for `j = 0..6`, the others are 0. -/
def RC (ir : Nat) (z : Fin 64) : Bool := (List.range 7).any fun j => z.val == 2 ^ j - 1 && rc (j + 7 * ir)

/-- Algorithm 6, ι. -/
def iota (ir : Nat) (A : StateArray) : StateArray := fun x y z =>
  if x = 0 ∧ y = 0 then A x y z ^^ RC ir z else A x y z

/-- `Rnd(A, ir)` (section 3.3). -/
def rnd (A : StateArray) (ir : Nat) : StateArray := iota ir (chi (pi (rho (theta A))))

/-- Algorithm 7 with 24 rounds: Keccak-f[1600] on state arrays. -/
def keccakF (A : StateArray) : StateArray := (List.range 24).foldl rnd A

/-- A 1600-bit string. -/
abbrev StateString := Fin 1600 → Bool

/-- Section 3.1.2: string to array. -/
def toArray (S : StateString) : StateArray := fun x y z => S ⟨64 * (5 * y.val + x.val) + z.val, by omega⟩

/-- Section 3.1.3: array to string. -/
def toStr (A : StateArray) : StateString := fun i =>
  A ⟨i.val / 64 % 5, by omega⟩ ⟨i.val / 320, by omega⟩ ⟨i.val % 64, by omega⟩

/-- Keccak-f[1600] on strings. -/
def keccakFStr (S : StateString) : StateString := toStr (keccakF (toArray S))

/-- `pad10*1(x, m)` (Algorithm 9). -/
def pad101 (x m : Nat) : List Bool := true :: (List.replicate ((x - (m + 2) % x) % x) false ++ [true])

/-- Xor of a state with a block, extended by zeroes to 1600 bits. -/
def xorBlock (S : StateString) (B : List Bool) : StateString := fun i => S i ^^ B.getD i false

/-- Steps 3-6 of Algorithm 8: absorb the blocks of `r` bits of `P`. -/
def absorbBits (r : Nat) (S : StateString) (P : List Bool) : StateString :=
  if h : P = [] ∨ r = 0 then S
  else absorbBits r (keccakFStr (xorBlock S (P.take r))) (P.drop r)
termination_by P.length
decreasing_by
  simp only [not_or] at h
  rw [List.length_drop]
  have : P.length ≠ 0 := fun e => h.1 (List.length_eq_zero_iff.mp e)
  omega

/-- The first `r` bits of a state. -/
def truncate (r : Nat) (S : StateString) : List Bool := ((List.finRange 1600).map S).take r

/-- Steps 7-10 of Algorithm 8: the concatenation of the first `n` output blocks. -/
def squeezeBits (r : Nat) : Nat → StateString → List Bool
  | 0, _ => []
  | n + 1, S => truncate r S ++ squeezeBits r n (keccakFStr S)

/-- Algorithm 8: `SPONGE[Keccak-f, pad10*1, r](N, d)`. -/
def sponge (r : Nat) (N : List Bool) (d : Nat) : List Bool :=
  (squeezeBits r (d / r + 1) (absorbBits r (fun _ => false) (N ++ pad101 r N.length))).take d

/-- The bits of a byte string, least significant bit of each byte first (section B.1). -/
def bits (m : List UInt8) : List Bool := m.flatMap fun b => (List.range 8).map fun k => b.toNat.testBit k

/-- SHA3-256, SHA3-384, SHA3-512 (section 6.1), output of `d` bits, capacity `2d`. -/
def sha3 (d : Nat) (m : List UInt8) : List Bool := sponge (1600 - 2 * d) (bits m ++ [false, true]) d

/-- SHAKE128 and SHAKE256 (section 6.2): capacity `c = 256, 512`, output of `d` bits. -/
def shake (c d : Nat) (m : List UInt8) : List Bool := sponge (1600 - c) (bits m ++ [true, true, true, true]) d

end LESS.Spec
