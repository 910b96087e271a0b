import Mathlib.Data.Matrix.Mul
import Verif.Model.Params
import Verif.Spec.Keccak
import Verif.Spec.Bits
import Verif.Spec.Stream
import Verif.Spec.Rref
import Verif.Spec.Commit
import Verif.Spec.SeedTree
/-!
# Specification of the signature scheme

The scheme in terms of matrices over the field with 127 elements, SHAKE and SHA-3 (`Spec/Keccak`), without
reference to the functions of the model; only the parameter sets are shared.
-/
namespace LESS.Spec

/-! ## Hash functions -/

/-- SHAKE128 in category 1, SHAKE256 in categories 3 and 5. -/
def xofCapacity (p : Params) : Nat := match p.cat with
  | .one => 256 | .three => 512 | .five => 512

/-- The output stream of the extendable-output function. -/
def xof (p : Params) (seed : List UInt8) : Stream := fun k =>
  byteOf fun i => (shake (xofCapacity p) (8 * (k + 1)) seed).getD (8 * k + i) false

/-- SHA3-256, SHA3-384, SHA3-512 in categories 1, 3, 5. -/
def hash (p : Params) (m : List UInt8) : List UInt8 :=
  (List.range p.hashLen).map fun k => byteOf fun i => (sha3 (8 * p.hashLen) m).getD (8 * k + i) false

/-! ## Expansion of seeds -/

/-- The monomial matrix with coefficient `coef i` in row `i` and column `perm i`. -/
def monoMat (p : Params) (coef perm : Nat → Nat) : Matrix (Fin p.N) (Fin p.N) (ZMod 127) := fun i j =>
  if perm i = j.val then ((coef i : Nat) : ZMod 127) else 0

/-- `M` is the monomial matrix expanded from a stream: `N` coefficients in `1..126`, then a shuffle. -/
def IsMonomial (p : Params) (budget : Nat) (s : Stream) (M : Matrix (Fin p.N) (Fin p.N) (ZMod 127)) : Prop :=
  ∃ vals s', Sampled 7 1 126 p.N budget s vals s' ∧
    M = monoMat p (fun i => vals.getD i 0) (shuffled (partner p.N s') (p.N - 1))

/-- `A = (I | B)` where the rows of `B` are sampled from a stream one after the other. -/
def IsG0 (p : Params) (budget : Nat) (s : Stream) (A : Matrix (Fin p.K) (Fin p.N) (ZMod 127)) : Prop :=
  ∃ (ss : Nat → Stream) (rows : Nat → List Nat), ss 0 = s ∧
    (∀ i < p.K, Sampled 7 0 126 (p.N - p.K) budget (ss i) (rows i) (ss (i + 1))) ∧
    A = fun (i : Fin p.K) (j : Fin p.N) => if j.val < p.K then (if i.val = j.val then 1 else 0)
      else (((rows i.val).getD (j.val - p.K) 0 : Nat) : ZMod 127)

/-- Number of bits needed for the numbers `0..n`. -/
def width (n : Nat) : Nat := Nat.log2 n + 1

/-- One draw of a challenge: the value and the position are cut from a 16-bit number. -/
def challengeStep (p : Params) (v : Nat → Nat) (x : Nat) : Nat → Nat :=
  let value := x % 2 ^ width (p.numKeypairs - 1)
  let pos := x / 2 ^ width (p.numKeypairs - 1) % 2 ^ width (p.T - 1)
  if value < p.numKeypairs ∧ pos < p.T ∧ v pos = 0 then Function.update v pos value else v

/-- The challenge after `n` draws. -/
def challengeAfter (p : Params) (s : Stream) : Nat → Nat → Nat
  | 0 => fun _ => 0
  | n + 1 => challengeStep p (challengeAfter p s n) ((s.drop (2 * n)).word 2)

/-- Number of non-zero positions below `T`. -/
def weight (T : Nat) (v : Nat → Nat) : Nat := ((List.range T).filter fun k => v k ≠ 0).length

/-- `v` is the challenge drawn from a stream: draw until `W` positions are non-zero. -/
def IsChallenge (p : Params) (budget : Nat) (s : Stream) (v : Nat → Nat) : Prop :=
  ∃ n ≤ budget, v = challengeAfter p s n ∧ weight p.T v = p.W ∧ ∀ n' < n, weight p.T (challengeAfter p s n') < p.W

/-- The rounds in which no response is given reveal their leaf; the others hide it. -/
def hides (v : Nat → Nat) : Nat → Bool := fun k => decide (v k ≠ 0)

/-- The seeds of the two children of a node. -/
def children (p : Params) (salt seed : List UInt8) : List UInt8 × List UInt8 :=
  ((xof p (salt ++ seed)).take p.seedLen, ((xof p (salt ++ seed)).drop p.seedLen).take p.seedLen)

/-- The stream of round `i`. -/
def roundStream (p : Params) (salt leaf : List UInt8) (i : Nat) : Stream :=
  xof p (leaf ++ salt ++ [UInt8.ofNat (i % 256), UInt8.ofNat (i / 256 % 256)])

/-! ## Commitments -/

/-- `cols` is the commitment to the code generated by `A`. -/
def IsCommit {k n : Nat} (A : Matrix (Fin k) (Fin n) (ZMod 127)) (cols : List (List Nat)) : Prop :=
  ∃ R piv, RowEq A R ∧ IsRREF R piv ∧ cols = commitment R piv

/-- A commitment as bytes: row by row. -/
def commitBytes (k : Nat) (cols : List (List Nat)) : List UInt8 :=
  (List.range k).flatMap fun i => cols.map fun c => UInt8.ofNat (c.getD i 0)

/-! ## Encodings -/

/-- Bits per column index in a response. -/
def indexBits (p : Params) : Nat := match p.cat with
  | .one => 8 | .three => 9 | .five => 10

/-- A response: where the columns of the information set come from, and their factors. -/
structure Action (p : Params) where
  perm : Nat → Nat
  coef : Nat → Nat

/-- The response in `buf`. -/
def decodeAction (p : Params) {n : Nat} (buf : Vector UInt8 n) : Action p :=
  ⟨fun t => fieldAt (indexBits p) buf (indexBits p * t), fun t => fieldAt 7 buf (indexBits p * p.K + 7 * t)⟩

/-- Distinct columns, non-zero canonical factors. -/
def Action.Valid {p : Params} (a : Action p) : Prop :=
  (∀ t < p.K, 1 ≤ a.coef t ∧ a.coef t < 127) ∧ (∀ t < p.K, a.perm t < p.N) ∧
    ∀ s < p.K, ∀ t < p.K, a.perm s = a.perm t → s = t

/-- The columns not named by a response, in increasing order. -/
def restCols (p : Params) (perm : Nat → Nat) : List Nat :=
  (List.range p.N).filter fun j => ∀ t < p.K, perm t ≠ j

/-- Entry `j` of a row, 0 outside. -/
def entry {p : Params} (A : Matrix (Fin p.K) (Fin p.N) (ZMod 127)) (i : Fin p.K) (j : Nat) : ZMod 127 :=
  if h : j < p.N then A i ⟨j, h⟩ else 0

/-- The matrix a verifier builds: the scaled columns named by the response, then the others. -/
def actOn {p : Params} (A : Matrix (Fin p.K) (Fin p.N) (ZMod 127)) (a : Action p) :
    Matrix (Fin p.K) (Fin p.N) (ZMod 127) := fun i j =>
  if j.val < p.K then entry A i (a.perm j) * ((a.coef j : Nat) : ZMod 127)
  else entry A i ((restCols p a.perm).getD (j.val - p.K) 0)

/-- The columns below `c` whose flag is not set. -/
def denseBelow {n : Nat} (buf : Vector UInt8 n) (c : Nat) : List Nat := (List.range c).filter fun j => !bitAt buf j

/-- The code encoded in `buf`: `N` flags, then the unflagged columns as 7-bit numbers, row by row; the flagged
columns are the unit vectors in order. -/
def codeEntry (p : Params) {n : Nat} (buf : Vector UInt8 n) (i j : Nat) : Nat :=
  if bitAt buf j then (if i = j - (denseBelow buf j).length then 1 else 0)
  else fieldAt 7 buf (8 * ((p.N + 7) / 8) + 7 * (i * (denseBelow buf p.N).length + (denseBelow buf j).length))

@[inherit_doc codeEntry]
def decodeCode (p : Params) {n : Nat} (buf : Vector UInt8 n) : Matrix (Fin p.K) (Fin p.N) (ZMod 127) :=
  fun i j => ((codeEntry p buf i j : Nat) : ZMod 127)

/-- The bits of a code in reduced row echelon form: one flag per column, filled up to whole bytes, then the
other columns, row by row. -/
def codeBits (p : Params) (R : Matrix (Fin p.K) (Fin p.N) (ZMod 127)) (piv : Fin p.K → Fin p.N) : List Bool :=
  ((List.finRange p.N).map fun j => decide (∃ t, piv t = j)) ++
    List.replicate (8 * ((p.N + 7) / 8) - p.N) false ++
    bitFields 7 ((List.finRange p.K).flatMap fun i =>
      ((List.finRange p.N).filter fun j => ∀ t, piv t ≠ j).map fun j => ZMod.val (R i j))

/-- A public code with at most `N - K` dense columns and entries below 127. -/
def CanonCode (p : Params) {n : Nat} (buf : Vector UInt8 n) : Prop :=
  (denseBelow buf p.N).length ≤ p.N - p.K ∧ ∀ i < p.K, ∀ j < p.N, codeEntry p buf i j < 127

/-- A public code with at most `N - K` dense columns; if `N` exceeds `2 K`, which it does in none of the parameter
sets, with entries below 127. -/
def GoodCode (p : Params) {n : Nat} (buf : Vector UInt8 n) : Prop :=
  (denseBelow buf p.N).length ≤ p.N - p.K ∧ (p.N ≤ 2 * p.K ∨ ∀ i < p.K, ∀ j < p.N, codeEntry p buf i j < 127)

theorem CanonCode.good {p : Params} {n : Nat} {buf : Vector UInt8 n} (h : CanonCode p buf) : GoodCode p buf :=
  ⟨h.1, Or.inr h.2⟩

/-! ## Keys and signatures -/

/-- A public key. -/
structure PK (p : Params) where
  seed : List UInt8
  codes : Nat → Vector UInt8 p.rrefBytes

/-- A private key. -/
structure SK (p : Params) where
  secret : List UInt8
  seed : List UInt8

/-- A signature: salt, responses, digest, the seeds of the published nodes. -/
structure Sig (p : Params) where
  salt : List UInt8
  responses : Nat → Vector UInt8 p.monoBytes
  digest : List UInt8
  stored : Nat → List UInt8

/-- The private monomial matrix with number `i`. -/
def IsSecret (p : Params) (budget : Nat) (secret : List UInt8) (i : Nat)
    (M : Matrix (Fin p.N) (Fin p.N) (ZMod 127)) : Prop :=
  IsMonomial p budget (xof p (((xof p secret).drop (i * p.skSeedLen)).take p.skSeedLen)) M

/-- The public code with number `i` encodes the reduced form of `G0 * M⁻¹`. -/
def IsPublic (p : Params) (budget : Nat) (sk : SK p) (i : Nat) (buf : Vector UInt8 p.rrefBytes) : Prop :=
  ∃ G0 M R piv, IsG0 p budget (xof p sk.seed) G0 ∧ IsSecret p budget sk.secret i M ∧
    RowEq G0 (R * M) ∧ IsRREF R piv ∧ buf = packed p.rrefBytes (codeBits p R piv)

/-- `pk` belongs to `sk`. -/
def KeyPair (p : Params) (budget : Nat) (sk : SK p) (pk : PK p) : Prop :=
  pk.seed = sk.seed ∧ ∀ i < p.numKeypairs - 1, IsPublic p budget sk i (pk.codes i)

/-- The rejection samplers run for a private key all finish within `budget` draws. -/
def KeyFits (p : Params) (budget : Nat) (sk : SK p) : Prop :=
  (∃ G0, IsG0 p budget (xof p sk.seed) G0) ∧ ∀ i < p.numKeypairs - 1, ∃ M, IsSecret p budget sk.secret i M

/-- Number of responses before round `i`. -/
def responsesBefore (v : Nat → Nat) (i : Nat) : Nat := weight i v

/-- The leaf of round `i` as rebuilt from the published seeds. -/
def rebuiltLeaf (p : Params) (sig : Sig p) (v : Nat → Nat) (i : Nat) : List UInt8 :=
  rebuiltSeed (children p sig.salt) p.numLeaves p.T (hides v) sig.stored (p.numLeaves - 1 + i)

/-- The commitment of round `i` recomputed from a signature. -/
def RoundCommit (p : Params) (budget : Nat) (pk : PK p) (sig : Sig p) (v : Nat → Nat) (i : Nat)
    (cols : List (List Nat)) : Prop :=
  if v i = 0 then
    ∃ G0 M, IsG0 p budget (xof p pk.seed) G0 ∧
      IsMonomial p budget (roundStream p sig.salt (rebuiltLeaf p sig v i) i) M ∧ IsCommit (G0 * M) cols
  else
    (decodeAction p (sig.responses (responsesBefore v i))).Valid ∧
      IsCommit (actOn (decodeCode p (pk.codes (v i - 1))) (decodeAction p (sig.responses (responsesBefore v i)))) cols

/-- The string that is hashed to the challenge. -/
def transcript (p : Params) (coms : Nat → List (List Nat)) (m salt : List UInt8) : List UInt8 :=
  (List.range p.T).flatMap (fun i => commitBytes p.K (coms i)) ++ m ++ salt

/-- The signature is accepted for the message. -/
def Accepts (p : Params) (budget : Nat) (pk : PK p) (m : List UInt8) (sig : Sig p) : Prop :=
  ∃ v coms, IsChallenge p budget (xof p sig.digest) v ∧ (∀ i < p.T, RoundCommit p budget pk sig v i (coms i)) ∧
    sig.digest = hash p (transcript p coms m sig.salt)

/-- The rejection samplers a verifier runs all finish within `budget` draws. -/
def VerifierFits (p : Params) (budget : Nat) (pk : PK p) (sig : Sig p) : Prop :=
  (∃ G0, IsG0 p budget (xof p pk.seed) G0) ∧ ∃ v, IsChallenge p budget (xof p sig.digest) v ∧
    ∀ i < p.T, v i = 0 → ∃ M, IsMonomial p budget (roundStream p sig.salt (rebuiltLeaf p sig v i) i) M

/-- More unflagged columns than an encoded code has room for. -/
def Oversized (p : Params) {n : Nat} (buf : Vector UInt8 n) : Prop := p.N - p.K < (denseBelow buf p.N).length

/-- Under the challenge of a signature, a round is answered for an oversized code, and no earlier response is invalid. -/
def MeetsOversized (p : Params) (budget : Nat) (pk : PK p) (sig : Sig p) : Prop :=
  ∃ v, IsChallenge p budget (xof p sig.digest) v ∧ ∃ i < p.T, v i ≠ 0 ∧ Oversized p (pk.codes (v i - 1)) ∧
    ∀ j < i, v j ≠ 0 → (decodeAction p (sig.responses (responsesBefore v j))).Valid

/-! ## Signing -/

/-- The leaf of round `i` of the signer. -/
def signerLeaf (p : Params) (root salt : List UInt8) (i : Nat) : List UInt8 :=
  nodeSeed (children p salt) root (p.numLeaves - 1 + i)

/-- `digest` is the hash of the signer's commitments, the message and the salt. -/
def IsSignDigest (p : Params) (budget : Nat) (sk : SK p) (root m salt digest : List UInt8) : Prop :=
  ∃ coms G0, IsG0 p budget (xof p sk.seed) G0 ∧ digest = hash p (transcript p coms m salt) ∧
    ∀ i < p.T, ∃ M, IsMonomial p budget (roundStream p salt (signerLeaf p root salt i) i) M ∧ IsCommit (G0 * M) (coms i)

/-- The rejection samplers a signer runs all finish within `budget` draws. -/
def SignerFits (p : Params) (budget : Nat) (sk : SK p) (root m salt : List UInt8) : Prop :=
  KeyFits p budget sk ∧
    (∀ i < p.T, ∃ M, IsMonomial p budget (roundStream p salt (signerLeaf p root salt i) i) M) ∧
    ∀ digest, IsSignDigest p budget sk root m salt digest → ∃ v, IsChallenge p budget (xof p digest) v

/-- What an honest signer with the ephemeral seed `root` outputs: the commitments are those of the codes
`G0 * M_i`, the response to a challenge `v i ≠ 0` names, for every pivot column of the reduced form of `G0 * M_i`,
the row and the value of the non-zero entry of that column of `S * M_i`, where `S` is the private matrix. -/
structure Signed (p : Params) (budget : Nat) (sk : SK p) (root m : List UInt8) (sig : Sig p) (count : Nat) : Prop where
  root_length : root.length = p.seedLen
  body : ∃ v coms G0, IsG0 p budget (xof p sk.seed) G0 ∧
    IsChallenge p budget (xof p sig.digest) v ∧ sig.digest = hash p (transcript p coms m sig.salt) ∧
    (∀ i < p.T, ∃ M R piv, IsMonomial p budget (roundStream p sig.salt (signerLeaf p root sig.salt i) i) M ∧
      RowEq (G0 * M) R ∧ IsRREF R piv ∧ coms i = commitment R piv ∧
      (v i ≠ 0 → ∃ S, IsSecret p budget sk.secret (v i - 1) S ∧
        ∃ a : Action p, a.Valid ∧
          sig.responses (responsesBefore v i) = packed p.monoBytes
            (bitFields (indexBits p) ((List.range p.K).map a.perm) ++ bitFields 7 ((List.range p.K).map a.coef)) ∧
          ∀ t : Fin p.K, ∀ h : a.perm t < p.N, (S * M) ⟨a.perm t, h⟩ (piv t) = ((a.coef t : Nat) : ZMod 127))) ∧
    count = (publishedNodes p.numLeaves p.T (hides v)).length ∧
    ∀ i, Published p.numLeaves p.T (hides v) i →
      sig.stored (rank p.numLeaves p.T (hides v) i) = nodeSeed (children p sig.salt) root i

end LESS.Spec
