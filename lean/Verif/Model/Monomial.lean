import Verif.Model.Sampler
import Verif.Model.Fq
/-!
# Monomial matrices: `Reference_Implementation/lib/monomial.c`, `include/monomial_mat.h`
-/
namespace LESS

/-- monomial_mat.h:51-59 `monomial_t`. -/
structure Monomial (p : Params) where
  coefficients : Vector Nat p.N
  permutation : Vector Nat p.N

/-- monomial_mat.h:61-70 `monomial_action_IS_t`. -/
structure MonoAction (p : Params) where
  coefficients : Vector Nat p.K
  permutation : Vector Nat p.K

variable {p : Params}

/-- monomial.c:42-45: the `N` random words, the first `N-1` reduced to `i + w % (N-i)`. -/
def shuffleDraws (p : Params) (bytes : Bytes) : Vector Nat p.N :=
  Vector.ofFn fun i =>
    let w := leNat ((bytes.drop (4 * i.val)).take 4)
    if i.val < p.N - 1 then u32 (i.val + w % (p.N - i.val)) else w

/-- monomial.c:47-51: the exchange loop of `yt_shuffle_state`. -/
def shuffleLoop (draws perm : Vector Nat p.N) : C (Vector Nat p.N) :=
  forUp (p.N - 1) (fun i perm => do
    let tmp ← rd perm i
    let r ← rd draws i
    let x ← rd perm r
    let perm ← wr perm i x
    let r ← rd draws i
    wr perm r tmp) perm

/-- monomial.c:37-52 `yt_shuffle_state`; with the global state, monomial.c:55-58 `yt_shuffle`. -/
def ytShuffleState (p : Params) (st : Inc) (perm : Vector Nat p.N) : C (Vector Nat p.N × Inc) := do
  let (bytes, st) := csprngBytes p (4 * p.N) st
  let perm ← shuffleLoop (shuffleDraws p bytes) perm
  pure (perm, st)

/-- monomial.c:80-82, 96-98, 107-109: `permutation[i] = i`. -/
def identityPerm (perm : Vector Nat p.N) : C (Vector Nat p.N) :=
  forUp p.N (fun i perm => wr perm i (i % p.posMod)) perm

/-- The common tail of monomial.c:79-85, 95-100, 106-111: sample coefficients, shuffle the identity. -/
def monomialFromState (fuel : Nat) (stale : Monomial p) (st : Inc) : C (Monomial p × Inc) := do
  let (coefs, st) ← fqStarRndState p fuel st stale.coefficients
  let perm ← identityPerm stale.permutation
  let (perm, st) ← ytShuffleState p st perm
  pure (⟨coefs, perm⟩, st)

/-- Two-byte little-endian encoding of a `uint16_t` (the `memcpy` of monomial.c:74-76). -/
def le16 (x : Nat) : Bytes := [UInt8.ofNat x, UInt8.ofNat (x / 256)]

/-- monomial.c:62-86 `monomial_mat_seed_expand_salt_rnd`. -/
def monomialSeedExpandSaltRnd (fuel : Nat) (stale : Monomial p) (seed salt : Bytes) (roundIndex : Nat) :
    C (Monomial p) := do
  let st := initCsprng p (seed ++ salt ++ le16 (u16 roundIndex))
  let (m, _) ← monomialFromState fuel stale st
  pure m

/-- monomial.c:90-101 `monomial_mat_seed_expand_prikey`. -/
def monomialSeedExpandPrikey (fuel : Nat) (stale : Monomial p) (seed : Bytes) : C (Monomial p) := do
  let (m, _) ← monomialFromState fuel stale (initCsprng p seed)
  pure m

/-- monomial.c:105-112 `monomial_mat_rnd`, the global state is `st`. -/
def monomialRnd (fuel : Nat) (stale : Monomial p) (st : Inc) : C (Monomial p × Inc) :=
  monomialFromState fuel stale st

/-- monomial.c:114-123 `monomial_mat_mul`. -/
def monomialMul (stale A B : Monomial p) : C (Monomial p) :=
  forUp p.N (fun i res => do
    let ai ← rd A.permutation i
    let bp ← rd B.permutation ai
    let perm ← wr res.permutation i bp
    let ac ← rd A.coefficients i
    let ai ← rd A.permutation i
    let bc ← rd B.coefficients ai
    let coefs ← wr res.coefficients i (fqRed (ac * bc))
    pure ⟨coefs, perm⟩) stale

/-- monomial.c:125-132 `monomial_mat_inv`. -/
def monomialInv (stale toInvert : Monomial p) : C (Monomial p) :=
  forUp p.N (fun i res => do
    let d ← rd toInvert.permutation i
    let perm ← wr res.permutation d (i % p.posMod)
    let c ← rd toInvert.coefficients i
    let coefs ← wr res.coefficients d (fqInv c)
    pure ⟨coefs, perm⟩) stale

/-- monomial.c:135-140 `monomial_mat_id`. -/
def monomialId (stale : Monomial p) : C (Monomial p) :=
  forUp p.N (fun i res => do
    let perm ← wr res.permutation i (i % p.posMod)
    let coefs ← wr res.coefficients i 1
    pure ⟨coefs, perm⟩) stale

/-- monomial.c:196-214 `monomial_compose_action`; `stale` is the uninitialised `reverse_Q`. -/
def composeAction (stale : Monomial p) (staleOut : MonoAction p) (Qin : Monomial p) (a : MonoAction p) :
    C (MonoAction p) := do
  let rev ← forUp p.N (fun i (rev : Monomial p) => do
    let d ← rd Qin.permutation i
    let perm ← wr rev.permutation d (i % p.posMod)
    let c ← rd Qin.coefficients i
    let coefs ← wr rev.coefficients d c
    pure ⟨coefs, perm⟩) stale
  forUp p.K (fun i (out : MonoAction p) => do
    let s ← rd a.permutation i
    let rp ← rd rev.permutation s
    let perm ← wr out.permutation i rp
    let c ← rd a.coefficients i
    let rc ← rd rev.coefficients s
    let coefs ← wr out.coefficients i (fqRed (c * rc))
    pure ⟨coefs, perm⟩) staleOut

/-- Encoder/decoder state: output buffer, `compress_idx`, `encode_state`. -/
structure EncState (n : Nat) where
  buf : Vector UInt8 n
  idx : Nat
  state : Nat

/-- monomial.c:228-276 (category 3): one 9-bit index. -/
def enc9 {n : Nat} (v : Nat) (e : EncState n) : C (EncState n) := do
  let ⟨buf, idx, state⟩ := e
  let (buf, idx) ← match state with
    | 0 => do
      let buf ← wrB buf idx v
      let buf ← wrB buf (idx + 1) (v >>> 8)
      pure (buf, idx + 1)
    | 1 => do
      let b ← rdB buf idx
      let buf ← wrB buf idx (b ||| (v <<< 1))
      let buf ← wrB buf (idx + 1) (v >>> 7)
      pure (buf, idx + 1)
    | 2 => do
      let b ← rdB buf idx
      let buf ← wrB buf idx (b ||| (v <<< 2))
      let buf ← wrB buf (idx + 1) (v >>> 6)
      pure (buf, idx + 1)
    | 3 => do
      let b ← rdB buf idx
      let buf ← wrB buf idx (b ||| (v <<< 3))
      let buf ← wrB buf (idx + 1) (v >>> 5)
      pure (buf, idx + 1)
    | 4 => do
      let b ← rdB buf idx
      let buf ← wrB buf idx (b ||| (v <<< 4))
      let buf ← wrB buf (idx + 1) (v >>> 4)
      pure (buf, idx + 1)
    | 5 => do
      let b ← rdB buf idx
      let buf ← wrB buf idx (b ||| (v <<< 5))
      let buf ← wrB buf (idx + 1) (v >>> 3)
      pure (buf, idx + 1)
    | 6 => do
      let b ← rdB buf idx
      let buf ← wrB buf idx (b ||| (v <<< 6))
      let buf ← wrB buf (idx + 1) (v >>> 2)
      pure (buf, idx + 1)
    | 7 => do
      let b ← rdB buf idx
      let buf ← wrB buf idx (b ||| (v <<< 7))
      let buf ← wrB buf (idx + 1) (v >>> 1)
      pure (buf, idx + 2)
    | _ => pure (buf, idx)
  pure ⟨buf, idx, if state ≠ 7 then state + 1 else 0⟩

/-- monomial.c:278-306 (category 5): one 10-bit index. -/
def enc10 {n : Nat} (v : Nat) (e : EncState n) : C (EncState n) := do
  let ⟨buf, idx, state⟩ := e
  let (buf, idx) ← match state with
    | 0 => do
      let buf ← wrB buf idx v
      let buf ← wrB buf (idx + 1) (v >>> 8)
      pure (buf, idx + 1)
    | 1 => do
      let b ← rdB buf idx
      let buf ← wrB buf idx (b ||| (v <<< 2))
      let buf ← wrB buf (idx + 1) (v >>> 6)
      pure (buf, idx + 1)
    | 2 => do
      let b ← rdB buf idx
      let buf ← wrB buf idx (b ||| (v <<< 4))
      let buf ← wrB buf (idx + 1) (v >>> 4)
      pure (buf, idx + 1)
    | 3 => do
      let b ← rdB buf idx
      let buf ← wrB buf idx (b ||| (v <<< 6))
      let buf ← wrB buf (idx + 1) (v >>> 2)
      pure (buf, idx + 2)
    | _ => pure (buf, idx)
  pure ⟨buf, idx, if state ≠ 3 then state + 1 else 0⟩

/-- monomial.c:319-363 (coefficients) and codes.c:360-411 (`compress_rref`), which are the same code: one
7-bit value. -/
def enc7 {n : Nat} (v : Nat) (e : EncState n) : C (EncState n) := do
  let ⟨buf, idx, state⟩ := e
  let (buf, idx) ← match state with
    | 0 => do
      let buf ← wrB buf idx v
      pure (buf, idx)
    | 1 => do
      let b ← rdB buf idx
      let buf ← wrB buf idx (b ||| (v <<< 7))
      let buf ← wrB buf (idx + 1) (v >>> 1)
      pure (buf, idx + 1)
    | 2 => do
      let b ← rdB buf idx
      let buf ← wrB buf idx (b ||| (v <<< 6))
      let buf ← wrB buf (idx + 1) (v >>> 2)
      pure (buf, idx + 1)
    | 3 => do
      let b ← rdB buf idx
      let buf ← wrB buf idx (b ||| (v <<< 5))
      let buf ← wrB buf (idx + 1) (v >>> 3)
      pure (buf, idx + 1)
    | 4 => do
      let b ← rdB buf idx
      let buf ← wrB buf idx (b ||| (v <<< 4))
      let buf ← wrB buf (idx + 1) (v >>> 4)
      pure (buf, idx + 1)
    | 5 => do
      let b ← rdB buf idx
      let buf ← wrB buf idx (b ||| (v <<< 3))
      let buf ← wrB buf (idx + 1) (v >>> 5)
      pure (buf, idx + 1)
    | 6 => do
      let b ← rdB buf idx
      let buf ← wrB buf idx (b ||| (v <<< 2))
      let buf ← wrB buf (idx + 1) (v >>> 6)
      pure (buf, idx + 1)
    | 7 => do
      let b ← rdB buf idx
      let buf ← wrB buf idx (b ||| (v <<< 1))
      pure (buf, idx + 1)
    | _ => pure (buf, idx)
  pure ⟨buf, idx, if state ≠ 7 then state + 1 else 0⟩

/-- monomial.c:217-365 `compress_monom_action`. -/
def compressMonomAction (buf : Vector UInt8 p.monoBytes) (mono : MonoAction p) :
    C (Vector UInt8 p.monoBytes) := do
  let e ← forUp p.K (fun i (e : EncState p.monoBytes) => do
    let v ← rd mono.permutation i
    match p.cat with
    | .one => do
      let buf ← wrB e.buf e.idx v
      pure ⟨buf, e.idx + 1, e.state⟩
    | .three => enc9 v e
    | .five => enc10 v e) ⟨buf, 0, 0⟩
  let e : EncState p.monoBytes := match p.cat with
    | .one => ⟨e.buf, e.idx, 0⟩
    | .three => ⟨e.buf, e.idx, 0⟩
    | .five => ⟨e.buf, e.idx, 4⟩
  let e ← forUp p.K (fun i (e : EncState p.monoBytes) => do
    let v ← rd mono.coefficients i
    enc7 v e) e
  pure e.buf

/-- monomial.c:381-420 (category 3): one 9-bit index, `(value, compress_idx, decode_state)`. -/
def dec9 {n : Nat} (maskN : Nat) (buf : Vector UInt8 n) (idx state : Nat) : C (Nat × Nat × Nat) := do
  let (v, idx) ← match state with
    | 0 => do
      let a ← rdB buf idx
      let b ← rdB buf (idx + 1)
      pure ((a ||| (b <<< 8)) &&& maskN, idx + 1)
    | 1 => do
      let a ← rdB buf idx
      let b ← rdB buf (idx + 1)
      pure (((a >>> 1) ||| (b <<< 7)) &&& maskN, idx + 1)
    | 2 => do
      let a ← rdB buf idx
      let b ← rdB buf (idx + 1)
      pure (((a >>> 2) ||| (b <<< 6)) &&& maskN, idx + 1)
    | 3 => do
      let a ← rdB buf idx
      let b ← rdB buf (idx + 1)
      pure (((a >>> 3) ||| (b <<< 5)) &&& maskN, idx + 1)
    | 4 => do
      let a ← rdB buf idx
      let b ← rdB buf (idx + 1)
      pure (((a >>> 4) ||| (b <<< 4)) &&& maskN, idx + 1)
    | 5 => do
      let a ← rdB buf idx
      let b ← rdB buf (idx + 1)
      pure (((a >>> 5) ||| (b <<< 3)) &&& maskN, idx + 1)
    | 6 => do
      let a ← rdB buf idx
      let b ← rdB buf (idx + 1)
      pure (((a >>> 6) ||| (b <<< 2)) &&& maskN, idx + 1)
    | 7 => do
      let a ← rdB buf idx
      let b ← rdB buf (idx + 1)
      pure (((a >>> 7) ||| (b <<< 1)) &&& maskN, idx + 2)
    | _ => pure (0, idx)
  pure (v, idx, if state ≠ 7 then state + 1 else 0)

/-- monomial.c:422-445 (category 5): one 10-bit index. -/
def dec10 {n : Nat} (maskN : Nat) (buf : Vector UInt8 n) (idx state : Nat) : C (Nat × Nat × Nat) := do
  let (v, idx) ← match state with
    | 0 => do
      let a ← rdB buf idx
      let b ← rdB buf (idx + 1)
      pure ((a ||| (b <<< 8)) &&& maskN, idx + 1)
    | 1 => do
      let a ← rdB buf idx
      let b ← rdB buf (idx + 1)
      pure (((a >>> 2) ||| (b <<< 6)) &&& maskN, idx + 1)
    | 2 => do
      let a ← rdB buf idx
      let b ← rdB buf (idx + 1)
      pure (((a >>> 4) ||| (b <<< 4)) &&& maskN, idx + 1)
    | 3 => do
      let a ← rdB buf idx
      let b ← rdB buf (idx + 1)
      pure (((a >>> 6) ||| (b <<< 2)) &&& maskN, idx + 2)
    | _ => pure (0, idx)
  pure (v, idx, if state ≠ 3 then state + 1 else 0)

/-- monomial.c:457-495 and codes.c:451-508, which are the same code: one 7-bit value. -/
def dec7 {n : Nat} (buf : Vector UInt8 n) (idx state : Nat) : C (Nat × Nat × Nat) := do
  let (v, idx) ← match state with
    | 0 => do
      let a ← rdB buf idx
      pure (a &&& Params.maskQ, idx)
    | 1 => do
      let a ← rdB buf idx
      let b ← rdB buf (idx + 1)
      pure (((a >>> 7) ||| (b <<< 1)) &&& Params.maskQ, idx + 1)
    | 2 => do
      let a ← rdB buf idx
      let b ← rdB buf (idx + 1)
      pure (((a >>> 6) ||| (b <<< 2)) &&& Params.maskQ, idx + 1)
    | 3 => do
      let a ← rdB buf idx
      let b ← rdB buf (idx + 1)
      pure (((a >>> 5) ||| (b <<< 3)) &&& Params.maskQ, idx + 1)
    | 4 => do
      let a ← rdB buf idx
      let b ← rdB buf (idx + 1)
      pure (((a >>> 4) ||| (b <<< 4)) &&& Params.maskQ, idx + 1)
    | 5 => do
      let a ← rdB buf idx
      let b ← rdB buf (idx + 1)
      pure (((a >>> 3) ||| (b <<< 5)) &&& Params.maskQ, idx + 1)
    | 6 => do
      let a ← rdB buf idx
      let b ← rdB buf (idx + 1)
      pure (((a >>> 2) ||| (b <<< 6)) &&& Params.maskQ, idx + 1)
    | 7 => do
      let a ← rdB buf idx
      pure ((a >>> 1) &&& Params.maskQ, idx + 1)
    | _ => pure (0, idx)
  pure (v, idx, if state ≠ 7 then state + 1 else 0)

/-- monomial.c:370-498 `expand_to_monom_action`. -/
def expandToMonomAction (stale : MonoAction p) (buf : Vector UInt8 p.monoBytes) : C (MonoAction p) := do
  let (perm, idx, _) ← forUp p.K (fun i (s : Vector Nat p.K × Nat × Nat) => do
    let (perm, idx, state) := s
    match p.cat with
    | .one => do
      let v ← rdB buf idx
      let perm ← wr perm i v
      pure (perm, idx + 1, state)
    | .three => do
      let (v, idx, state) ← dec9 p.maskN buf idx state
      let perm ← wr perm i v
      pure (perm, idx, state)
    | .five => do
      let (v, idx, state) ← dec10 p.maskN buf idx state
      let perm ← wr perm i v
      pure (perm, idx, state)) (stale.permutation, 0, 0)
  let state := match p.cat with
    | .one => 0 | .three => 0 | .five => 4
  let (coefs, _, _) ← forUp p.K (fun i (s : Vector Nat p.K × Nat × Nat) => do
    let (coefs, idx, state) := s
    let (v, idx, state) ← dec7 buf idx state
    let coefs ← wr coefs i v
    pure (coefs, idx, state)) (stale.coefficients, idx, state)
  pure ⟨coefs, perm⟩

/-- monomial.c:500-517 `is_monom_action_valid`.  (The tests `< 0` on unsigned values are always false.) -/
def isMonomActionValid (mono : MonoAction p) : C Nat := do
  match ← forRet p.K (fun i (_ : Unit) => do
      let c ← rd mono.coefficients i
      if c = 0 ∨ Q ≤ c then pure (.inl 0) else pure (.inr ())) () with
  | .inl r => pure r
  | .inr _ =>
    match ← forRet p.K (fun i (flags : Vector Nat p.N) => do
        let x ← rd mono.permutation i
        if p.N ≤ x then pure (.inl 0)
        else
          let f ← rd flags x
          if f = 1 then pure (.inl 0)
          else
            let flags ← wr flags x 1
            pure (.inr flags)) (Vector.replicate p.N 0) with
    | .inl r => pure r
    | .inr _ => pure 1

end LESS
