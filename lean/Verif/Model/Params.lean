import Verif.Basic
/-!
# Parameters: `Reference_Implementation/include/parameters.h`
-/
namespace LESS

/-- `CATEGORY_1`, `CATEGORY_3`, `CATEGORY_5` (parameters.h:32,72,105). -/
inductive Cat where
  | one | three | five
deriving DecidableEq, Repr

/-- The compile-time parameters chosen in parameters.h:31-139. -/
structure Params where
  cat : Cat
  N : Nat
  K : Nat
  numKeypairs : Nat
  T : Nat
  W : Nat
  /-- `SEED_TREE_MAX_PUBLISHED_BYTES` -/
  maxPublishedBytes : Nat
deriving DecidableEq, Repr

/-- `Q` is 127 in all parameter sets (parameters.h:43,53,61,78,91,111,124). -/
def Q : Nat := 127

/-- parameters.h:156-157 `IS_REPRESENTABLE_IN_D_BITS(D, N)`. -/
def isRepresentableInDBits (D n : Nat) : Int :=
  if 2 ^ (D - 1) ≤ n ∧ n < 2 ^ D then (D : Int) else -1

/-- parameters.h:159-178 `BITS_TO_REPRESENT(N)`: the macro as written, a sum of sixteen terms. -/
def bitsToRepresent (n : Nat) : Nat :=
  if n = 0 then 1 else
  (15 + isRepresentableInDBits 1 n + isRepresentableInDBits 2 n + isRepresentableInDBits 3 n
      + isRepresentableInDBits 4 n + isRepresentableInDBits 5 n + isRepresentableInDBits 6 n
      + isRepresentableInDBits 7 n + isRepresentableInDBits 8 n + isRepresentableInDBits 9 n
      + isRepresentableInDBits 10 n + isRepresentableInDBits 11 n + isRepresentableInDBits 12 n
      + isRepresentableInDBits 13 n + isRepresentableInDBits 14 n + isRepresentableInDBits 15 n
      + isRepresentableInDBits 16 n).toNat

namespace Params

/-- `SEED_LENGTH_BYTES` (parameters.h:33,73,106). -/
def seedLen (p : Params) : Nat := match p.cat with
  | .one => 16 | .three => 24 | .five => 32

/-- One more than the largest `POSITION_T`: `uint8_t` in category 1 (parameters.h:37), else `uint16_t`
(parameters.h:86,99,119,132). -/
def posMod (p : Params) : Nat := match p.cat with
  | .one => 256 | .three => 65536 | .five => 65536

/-- `MAX_PUBLISHED_SEEDS` (parameters.h:144). -/
def maxPublishedSeeds (p : Params) : Nat := p.maxPublishedBytes / p.seedLen

/-- `HASH_DIGEST_LENGTH` (parameters.h:147). -/
def hashLen (p : Params) : Nat := 2 * p.seedLen

/-- `PRIVATE_KEY_SEED_LENGTH_BYTES` (parameters.h:150). -/
def skSeedLen (p : Params) : Nat := 2 * p.seedLen

/-- `MASK_Q` (parameters.h:152). -/
def maskQ : Nat := 2 ^ bitsToRepresent Q - 1

/-- `MASK_N` (parameters.h:153). -/
def maskN (p : Params) : Nat := 2 ^ bitsToRepresent p.N - 1

/-- `NUM_LEAVES_OF_SEED_TREE` (parameters.h:180). -/
def numLeaves (p : Params) : Nat := 2 ^ bitsToRepresent p.T

/-- `NUM_NODES_OF_SEED_TREE` (parameters.h:181). -/
def numNodes (p : Params) : Nat := 2 * p.numLeaves - 1

/-- `RREF_MAT_PACKEDBYTES` (parameters.h:183). -/
def rrefBytes (p : Params) : Nat :=
  (bitsToRepresent Q * (p.N - p.K) * p.K + 7) / 8 + (p.N + 7) / 8

/-- `MONO_ACTION_PACKEDBYTES` (parameters.h:186). -/
def monoBytes (p : Params) : Nat :=
  (bitsToRepresent Q * p.K + 7) / 8 + (bitsToRepresent p.N * p.K + 7) / 8

/-- `LESS_CRYPTO_BYTES(NR_LEAVES)` (parameters.h:193). -/
def cryptoBytes (p : Params) (nrLeaves : Nat) : Nat :=
  p.hashLen * 2 + p.monoBytes * p.W + nrLeaves * p.seedLen + 1

/-- `LESS_CRYPTO_MAX_BYTES` (parameters.h:192). -/
def cryptoMaxBytes (p : Params) : Nat :=
  p.hashLen * 2 + p.monoBytes * p.W + p.maxPublishedBytes + 1

/-- parameters.h:40-47 -/
def cat1Balanced : Params := ⟨.one, 252, 126, 2, 247, 30, 1472⟩
/-- parameters.h:49-56 -/
def cat1Intermediate : Params := ⟨.one, 252, 126, 4, 244, 20, 1152⟩
/-- parameters.h:58-65 -/
def cat1ShortSig : Params := ⟨.one, 252, 126, 8, 198, 17, 1056⟩
/-- parameters.h:75-86 -/
def cat3Balanced : Params := ⟨.three, 400, 200, 2, 759, 33, 3912⟩
/-- parameters.h:88-99 -/
def cat3ShortSig : Params := ⟨.three, 400, 200, 3, 895, 26, 3264⟩
/-- parameters.h:108-119 -/
def cat5Balanced : Params := ⟨.five, 548, 274, 2, 1352, 40, 7168⟩
/-- parameters.h:121-132 -/
def cat5ShortSig : Params := ⟨.five, 548, 274, 3, 907, 37, 5600⟩

/-- The seven parameter sets of parameters.h. -/
def all : List Params :=
  [cat1Balanced, cat1Intermediate, cat1ShortSig, cat3Balanced, cat3ShortSig, cat5Balanced, cat5ShortSig]

end Params
end LESS
