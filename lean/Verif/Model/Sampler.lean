import Verif.Model.Keccak
/-!
# Rejection samplers: `Reference_Implementation/include/fq_arith.h` lines 43-83, 151-160
-/
namespace LESS

/-- The `for` loop over the fields of one 64-bit word, fq_arith.h:56-61: `.inl` is the `return`. -/
def sampleFields {n : Nat} (minV span reqBits : Nat) (word : Nat) (buf : Vector Nat n) (count : Nat) :
    C (Vector Nat n ⊕ (Nat × Vector Nat n × Nat)) :=
  let elMask := u8 (2 ^ reqBits - 1)
  forRet (64 / reqBits) (fun _ (s : Nat × Vector Nat n × Nat) => do
    let (word, buf, count) := s
    let rndValue := u8 (word &&& elMask)
    let (buf, count) ←
      if rndValue ≤ span then do
        let buf ← wr buf count (u8 (rndValue + minV))
        pure (buf, count + 1)
      else pure (buf, count)
    if n ≤ count then pure (.inl buf)
    else pure (.inr (word >>> reqBits, buf, count)))
    (word, buf, count)

/-- The `do ... while (1)` loop of `DEF_RAND_STATE`, fq_arith.h:54-62; `fuel` bounds the number of words
drawn.  `n` is `num_elements`, the size of the buffer at all call sites. -/
def sampleLoop {n : Nat} (p : Params) (minV span reqBits : Nat) :
    (fuel : Nat) → Inc → Vector Nat n → (count : Nat) → C (Vector Nat n × Inc)
  | 0, _, _, _ => .error .fuel
  | fuel + 1, st, buf, count => do
    let (bytes, st) := csprngBytes p 8 st
    match ← sampleFields minV span reqBits (leNat bytes) buf count with
    | .inl buf => pure (buf, st)
    | .inr (_, buf, count) => sampleLoop p minV span reqBits fuel st buf count

/-- fq_arith.h:43-62 `DEF_RAND_STATE(FUNC_NAME, FQ_ELEM, MINV, MAXV)`, and `DEF_RAND` (fq_arith.h:64-83)
with the global generator state passed explicitly. -/
def randState {n : Nat} (p : Params) (minV maxV : Nat) (fuel : Nat) (st : Inc) (buf : Vector Nat n) :
    C (Vector Nat n × Inc) :=
  let span := u8 (maxV - minV)
  let reqBits := bitsToRepresent span
  sampleLoop p minV span reqBits fuel st buf 0

/-- fq_arith.h:158 `fq_star_rnd_state_elements`; fq_arith.h:153 `fq_star_rnd_elements`. -/
def fqStarRndState {n : Nat} (p : Params) (fuel : Nat) (st : Inc) (buf : Vector Nat n) :
    C (Vector Nat n × Inc) := randState p 1 (Q - 1) fuel st buf

/-- fq_arith.h:160 `rand_range_q_state_elements`; fq_arith.h:155 `rand_range_q_elements`. -/
def randRangeQState {n : Nat} (p : Params) (fuel : Nat) (st : Inc) (buf : Vector Nat n) :
    C (Vector Nat n × Inc) := randState p 0 (Q - 1) fuel st buf

end LESS
