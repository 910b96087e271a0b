import Verif.Proofs.Stream
/-!
# The hash functions and the generator (C33–C37)

Specification: Spec/Keccak, a transcription of FIPS 202 on bit strings.
-/
namespace LESS
open Spec

/-- C33: absorbing any list of pieces one after the other leaves the state that absorbing their concatenation in one call
leaves.  `st` is any state reached while absorbing (fewer than `r` bytes are pending). -/
theorem C33_absorb_split (r : Nat) (st : Inc) (h : st.pos < r) (pieces : List Bytes) :
    pieces.foldl (incAbsorb r) st = incAbsorb r st pieces.flatten := by
  induction pieces generalizing st with
  | nil =>
    show st = incAbsorb r st []
    rw [incAbsorb_eq_foldl r st [] h]; rfl
  | cons a l ih =>
    show l.foldl (incAbsorb r) (incAbsorb r st a) = _
    rw [ih _ (incAbsorb_pos r st a h), incAbsorb_append r st a _ h]
    rfl

/-- The states reached by absorbing satisfy the hypothesis of `C33_absorb_split`. -/
theorem C33_reachable (r : Nat) (hr : 0 < r) (pieces : List Bytes) : (pieces.foldl (incAbsorb r) incInit).pos < r := by
  rw [C33_absorb_split r incInit hr]
  exact incAbsorb_pos r _ _ hr

/-- C33 for the library's digest: only the concatenation of what was absorbed matters. -/
theorem C33_digest_split (p : Params) (pieces pieces' : List Bytes) (h : pieces.flatten = pieces'.flatten) :
    hashFinalize p (pieces.foldl (hashAbsorb p) hashInit) = hashFinalize p (pieces'.foldl (hashAbsorb p) hashInit) := by
  have e := C33_absorb_split p.hashRate incInit (hashRate_pos p) pieces
  have e' := C33_absorb_split p.hashRate incInit (hashRate_pos p) pieces'
  show hashFinalize p (pieces.foldl (incAbsorb p.hashRate) incInit) = hashFinalize p (pieces'.foldl (incAbsorb p.hashRate) incInit)
  rw [e, e', h]

example : hashFinalize .cat1Balanced ([[1, 2, 3], [], [4]].foldl (hashAbsorb .cat1Balanced) hashInit) =
    hashFinalize .cat1Balanced ([[1], [2, 3, 4]].foldl (hashAbsorb .cat1Balanced) hashInit) :=
  C33_digest_split _ _ _ rfl

/-- Squeeze several pieces one after the other: the concatenated output and the final state. -/
def squeezePieces (r : Nat) : List Nat → Inc → Bytes × Inc
  | [], st => ([], st)
  | n :: l, st => ((incSqueeze r st n).1 ++ (squeezePieces r l (incSqueeze r st n).2).1,
      (squeezePieces r l (incSqueeze r st n).2).2)

/-- C34: squeezing in pieces gives the output and the state of squeezing everything in one call.  `st` is any state
reached while squeezing (at most `r` bytes are left over). -/
theorem C34_squeeze_split (r : Nat) (hr : 0 < r) (st : Inc) (h : st.pos ≤ r) (l : List Nat) :
    squeezePieces r l st = incSqueeze r st l.sum := by
  induction l generalizing st with
  | nil =>
    show _ = incSqueeze r st 0
    rw [incSqueeze_eq r hr 0 st h]; rfl
  | cons n l ih =>
    have e := incSqueeze_eq r hr n st h
    have hp : (incSqueeze r st n).2.pos ≤ r := by rw [e]; exact squeezeN_pos r n st h
    show ((incSqueeze r st n).1 ++ (squeezePieces r l (incSqueeze r st n).2).1, (squeezePieces r l (incSqueeze r st n).2).2) = _
    rw [ih _ hp, List.sum_cons, e, incSqueeze_eq r hr l.sum _ (by rw [← e]; exact hp), incSqueeze_eq r hr (n + l.sum) st h,
      squeezeN_add]

/-- The output has the length asked for, and the state can be squeezed again. -/
theorem C34_squeeze_length (r : Nat) (hr : 0 < r) (st : Inc) (h : st.pos ≤ r) (n : Nat) :
    (incSqueeze r st n).1.length = n ∧ (incSqueeze r st n).2.pos ≤ r := by
  rw [incSqueeze_eq r hr n st h]
  exact ⟨squeezeN_length r n st, squeezeN_pos r n st h⟩

/-- States just finalised satisfy the hypothesis. -/
example (m : Bytes) : (incFinalize 168 0x1F (incAbsorb 168 incInit m)).pos ≤ 168 := by
  rw [incFinalize_pos]; exact Nat.zero_le _

/-- C35: the one-shot functions are the functions of FIPS 202, section 6, for every message and output length. -/
theorem C35_fips202 (m : Bytes) (n : Nat) :
    bits (shake128 n m) = Spec.shake 256 (8 * n) m ∧ bits (shake256 n m) = Spec.shake 512 (8 * n) m ∧
    bits (sha3_256 m) = Spec.sha3 256 m ∧ bits (sha3_384 m) = Spec.sha3 384 m ∧ bits (sha3_512 m) = Spec.sha3 512 m :=
  ⟨shake_eq 168 n m (by decide) (by decide), shake_eq 136 n m (by decide) (by decide),
   sha3_eq 136 32 m (by decide) (by decide), sha3_eq 104 48 m (by decide) (by decide),
   sha3_eq 72 64 m (by decide) (by decide)⟩

/-- C35 for the digest used by the scheme, absorbed in pieces: SHA3-256, SHA3-384 or SHA3-512 of the concatenation,
according to the category. -/
theorem C35_digest (p : Params) (pieces : List Bytes) :
    bits (hashFinalize p (pieces.foldl (hashAbsorb p) hashInit)) =
      Spec.sha3 (match p.cat with | .one => 256 | .three => 384 | .five => 512) pieces.flatten := by
  have e : pieces.foldl (hashAbsorb p) hashInit = incAbsorb p.hashRate incInit pieces.flatten :=
    C33_absorb_split p.hashRate incInit (hashRate_pos p) pieces
  rw [e]
  show bits (sha3IncFinalize _ _ _) = _
  rw [sha3IncFinalize_eq _ _ _ (hashRate_pos p) (hashLen_le p), sha3_eq _ _ _ (hashRate_pos p) (hashRate_le p)]
  have e1 : 8 * p.hashRate = 1600 - 2 * (match p.cat with | .one => 256 | .three => 384 | .five => 512) := by
    unfold Params.hashRate; cases p.cat <;> rfl
  have e2 : 8 * p.hashLen = (match p.cat with | .one => 256 | .three => 384 | .five => 512) := by
    unfold Params.hashLen Params.seedLen; cases p.cat <;> rfl
  rw [e1, e2]
  rfl

/-- C35 for the generator: the bytes drawn from a generator seeded with `seed`, in pieces of any lengths, are
SHAKE128 (category 1) or SHAKE256 of the seed. -/
theorem C35_generator (p : Params) (seed : Bytes) (l : List Nat) :
    bits (squeezePieces p.xofRate l (initCsprng p seed)).1 =
      Spec.shake (match p.cat with | .one => 256 | _ => 512) (8 * l.sum) seed := by
  rw [C34_squeeze_split _ (xofRate_pos p) _ (initCsprng_ok p seed)]
  show bits (incSqueeze p.xofRate (incFinalize p.xofRate 0x1F (incAbsorb p.xofRate incInit seed)) l.sum).1 = _
  rw [shake_eq _ _ _ (xofRate_pos p) (xofRate_le p)]
  unfold Params.xofRate
  cases p.cat <;> rfl

/-- The published digests of the empty message, and of "abc" (FIPS 202 examples), first four bytes. -/
example : (sha3_256 []).take 4 = [0xa7, 0xff, 0xc6, 0xf8] ∧ (sha3_256 [0x61, 0x62, 0x63]).take 4 = [0x3a, 0x98, 0x5d, 0xa7] ∧
    (shake128 4 []) = [0x7f, 0x9c, 0x2b, 0xa4] ∧ (shake256 4 []) = [0x46, 0xb9, 0xdd, 0x2b] ∧
    (sha3_512 []).take 4 = [0xa6, 0x9f, 0x73, 0xcc] ∧ (sha3_384 []).take 4 = [0x0c, 0x63, 0xa7, 0x5b] := by
  decide +kernel

/-- The bit of a state of 25 lanes with coordinates `x`, `y`, `z` (FIPS 202, section 3.1.2). -/
def stateBit (s : Lanes) : Spec.StateArray := fun x y z => (g s (5 * y.val + x.val)).toBitVec.getLsbD z

theorem stateBit_eq (s : Lanes) : stateBit s = arrayOf s := by
  funext x y z
  show (g s (5 * y.val + x.val)).toBitVec.getLsbD z = (s[5 * y.val + x.val]).toBitVec.getLsbD z
  rw [g_eq_getElem _ _ (by omega)]

/-- C36: the unrolled permutation is Keccak-f[1600] of FIPS 202 (24 rounds of theta, rho, pi, chi and iota, the round
constants computed by the linear feedback shift register), for every state. -/
theorem C36_keccak_f (s : Lanes) : stateBit (permute s) = Spec.keccakF (stateBit s) := by
  rw [stateBit_eq, stateBit_eq, arrayOf_permute]

/-- C37: one-shot calls equal the incremental interface, however the input is cut. -/
theorem C37_one_shot (pieces : List Bytes) (n : Nat) :
    shake128 n pieces.flatten = (incSqueeze 168 (incFinalize 168 0x1F (pieces.foldl (incAbsorb 168) incInit)) n).1 ∧
    shake256 n pieces.flatten = (incSqueeze 136 (incFinalize 136 0x1F (pieces.foldl (incAbsorb 136) incInit)) n).1 ∧
    sha3_256 pieces.flatten = sha3IncFinalize 136 32 (pieces.foldl (incAbsorb 136) incInit) ∧
    sha3_384 pieces.flatten = sha3IncFinalize 104 48 (pieces.foldl (incAbsorb 104) incInit) ∧
    sha3_512 pieces.flatten = sha3IncFinalize 72 64 (pieces.foldl (incAbsorb 72) incInit) := by
  refine ⟨?_, ?_, ?_, ?_, ?_⟩
  · rw [C33_absorb_split 168 incInit (by decide)]; rfl
  · rw [C33_absorb_split 136 incInit (by decide)]; rfl
  all_goals
    rw [C33_absorb_split _ incInit (by decide), sha3IncFinalize_eq _ _ _ (by decide) (by decide)]; rfl

/-- C37: `shake*_absorb` followed by `shake*_squeezeblocks` gives the first blocks of the one-shot output, whole blocks
at a time; a second call continues the output. -/
theorem C37_squeezeblocks (m : Bytes) (a b : Nat) :
    (squeezeBlocks 168 a (shake128Absorb m)).1 = shake128 (a * 168) m ∧
    (squeezeBlocks 136 a (shake256Absorb m)).1 = shake256 (a * 136) m ∧
    (squeezeBlocks 168 a (shake128Absorb m)).1 ++ (squeezeBlocks 168 b (squeezeBlocks 168 a (shake128Absorb m)).2).1 =
      shake128 ((a + b) * 168) m ∧
    (squeezeBlocks 136 a (shake256Absorb m)).1 ++ (squeezeBlocks 136 b (squeezeBlocks 136 a (shake256Absorb m)).2).1 =
      shake256 ((a + b) * 136) m := by
  have key : ∀ r (hr : 0 < r) (k : Nat), (squeezeBlocks r k (keccakAbsorb r (Vector.replicate 25 0) m 0x1F)).1 =
      (incSqueeze r (incFinalize r 0x1F (incAbsorb r incInit m)) (k * r)).1 := by
    intro r hr k
    rw [keccakAbsorb_eq _ _ _ _ hr, incSqueeze_eq r hr _ _ (by rw [incFinalize_pos]; exact Nat.zero_le _)]
    have := squeezeN_blocks r k (incFinalize r 0x1F (incAbsorb r incInit m)).s hr
    rw [show (⟨(incFinalize r 0x1F (incAbsorb r incInit m)).s, 0⟩ : Inc) = incFinalize r 0x1F (incAbsorb r incInit m) from by
      rw [← incFinalize_pos r 0x1F (incAbsorb r incInit m)]] at this
    rw [this]; rfl
  have app : ∀ r s, (squeezeBlocks r a s).1 ++ (squeezeBlocks r b (squeezeBlocks r a s).2).1 = (squeezeBlocks r (a + b) s).1 := by
    intro r
    induction a with
    | zero => intro s; rw [Nat.zero_add]; rfl
    | succ a ih =>
      intro s
      rw [Nat.succ_add]
      show (extractBytes (permute s) 0 r ++ (squeezeBlocks r a (permute s)).1) ++ (squeezeBlocks r b (squeezeBlocks r a (permute s)).2).1 =
        extractBytes (permute s) 0 r ++ (squeezeBlocks r (a + b) (permute s)).1
      rw [List.append_assoc, ih]
  refine ⟨key 168 (by decide) a, key 136 (by decide) a, ?_, ?_⟩
  · rw [app]; exact key 168 (by decide) (a + b)
  · rw [app]; exact key 136 (by decide) (a + b)

end LESS
