import Verif.Proofs.Unique
/-!
# `crypto_sign_open` on arbitrary input, as one equation
-/
namespace LESS

open Spec

variable {p : Params}

theorem bits_le_16 (n : Nat) (h : n < 65536) : bitsToRepresent n ≤ 16 := by
  rcases Nat.eq_zero_or_pos n with rfl | h0
  · decide
  · exact (bits_spec h0 h).2.1

theorem Params.seedLen_bounds (p : Params) : 16 ≤ p.seedLen ∧ p.seedLen ≤ 32 := by
  unfold Params.seedLen; cases p.cat <;> decide

theorem Params.posMod_le (p : Params) : p.posMod ≤ 65536 := by unfold Params.posMod; cases p.cat <;> decide

/-- The length of a signature is far below the wrap-around of `unsigned long long`. -/
theorem Params.WF.cryptoBytes_lt (hp : p.WF) {c : Nat} (hc : c ≤ 255) : p.cryptoBytes c < 2 ^ 40 := by
  have h1 := p.seedLen_bounds
  have hN : p.N < 65536 := lt_of_lt_of_le hp.N_lt p.posMod_le
  have hK : p.K < 65536 := hp.K_lt_N.trans hN
  have hW : p.W < 65536 := lt_of_le_of_lt hp.W_le_T hp.T_lt
  have hm : p.monoBytes ≤ 200000 := by
    unfold Params.monoBytes
    rw [bits_Q]
    have hb := bits_le_16 p.N hN
    have : bitsToRepresent p.N * p.K ≤ 16 * 65536 := Nat.mul_le_mul hb hK.le
    omega
  have e1 : p.monoBytes * p.W ≤ 200000 * 65536 := Nat.mul_le_mul hm hW.le
  have e2 : c * p.seedLen ≤ 255 * 32 := Nat.mul_le_mul hc h1.2
  unfold Params.cryptoBytes Params.hashLen
  omega

/-- `readSign` inside the buffer. -/
theorem readSign_eq {k : Nat} (buf : Vector UInt8 k) (off n : Nat) (h : off + p.fixedLen + n ≤ k) :
    readSign (p := p) buf off n = .ok (viewSign buf off n) := (readSign_wp (F := False) buf off n h).eq_ok

theorem slice_eq {n : Nat} (a : Vector UInt8 n) (off len : Nat) :
    slice a off len = if off + len ≤ n then .ok (seg a off len) else .error .oob := rfl

/-- The count byte of a signed message. -/
def countByte {smlen : Nat} (sm : Vector UInt8 smlen) : Nat := (g sm (smlen - 1)).toNat

/-- What `crypto_sign_open` does with any input. -/
theorem cryptoSignOpen_eq (hp : p.WF) {smlen : Nat} (fuel : Nat) (sl : Nat → Stale p) (mcap : Nat) (sm : Vector UInt8 smlen)
    (pk : Vector UInt8 p.pkLen) (hlen : smlen < 2 ^ 64) (hpos : 0 < smlen) :
    cryptoSignOpen fuel sl mcap sm pk =
      if p.maxPublishedSeeds ≤ countByte sm then .ok (-1, none)
      else if p.cryptoBytes (countByte sm) ≤ smlen ∧ smlen - p.cryptoBytes (countByte sm) ≤ mcap then
        (lessVerify fuel sl (readPub pk) (seg sm 0 (smlen - p.cryptoBytes (countByte sm)))
          (viewSign (p := p) sm (smlen - p.cryptoBytes (countByte sm)) (countByte sm * p.seedLen + 1))) >>= fun ok =>
            .ok ((ok : Int) - 1, some (seg sm 0 (smlen - p.cryptoBytes (countByte sm))))
      else .error .oob := by
  have hc : countByte sm ≤ 255 := by unfold countByte; have := (g sm (smlen - 1)).toNat_lt; omega
  unfold cryptoSignOpen
  have e1 : (smlen + 2 ^ 64 - 1) % 2 ^ 64 = smlen - 1 := by omega
  have hrd : rdB sm ((smlen + 2 ^ 64 - 1) % 2 ^ 64) = .ok (countByte sm) := by
    rw [e1]
    unfold rdB rd countByte
    rw [dif_pos (by omega), g_eq_getElem _ _ (by omega)]
    rfl
  rw [hrd]
  generalize countByte sm = num at hc ⊢
  have hcb := hp.cryptoBytes_lt hc
  show (if p.maxPublishedSeeds ≤ num then _ else _) = _
  by_cases hmax : p.maxPublishedSeeds ≤ num
  · rw [if_pos hmax, if_pos hmax]; rfl
  · rw [if_neg hmax, if_neg hmax]
    by_cases hs : p.cryptoBytes num ≤ smlen
    · have e2 : (smlen + 2 ^ 64 - p.cryptoBytes num) % 2 ^ 64 = smlen - p.cryptoBytes num := by omega
      generalize (smlen + 2 ^ 64 - p.cryptoBytes num) % 2 ^ 64 = mlen at e2 ⊢
      have hfix := fixedLen_cryptoBytes (p := p) num
      have hsl : slice sm 0 mlen = .ok (seg sm 0 mlen) := by rw [slice_eq, if_pos (by omega)]
      rw [hsl, bind_ok]
      by_cases hm : mcap < mlen
      · rw [if_pos hm, if_neg (by omega)]
      · rw [if_neg hm, if_pos (by omega)]
        have e3 : smlen - mlen - p.fixedLen = num * p.seedLen + 1 := by omega
        generalize smlen - mlen - p.fixedLen = n at e3 ⊢
        subst e3
        subst e2
        rw [readSign_eq _ _ _ (by omega)]
        rfl
    · rw [if_neg (by omega)]
      have e2 : (smlen + 2 ^ 64 - p.cryptoBytes num) % 2 ^ 64 = smlen + 2 ^ 64 - p.cryptoBytes num := by omega
      have hsl : slice sm 0 (smlen + 2 ^ 64 - p.cryptoBytes num) = .error .oob := by rw [slice_eq, if_neg (by omega)]
      rw [e2, hsl]
      rfl

/-- A message that was opened. -/
theorem open_ok_inv (hp : p.WF) {smlen : Nat} {fuel : Nat} {sl : Nat → Stale p} {mcap : Nat} {sm : Vector UInt8 smlen}
    {pk : Vector UInt8 p.pkLen} (hlen : smlen < 2 ^ 64) {r : Int} {m : Bytes} (h : cryptoSignOpen fuel sl mcap sm pk = .ok (r, some m)) :
    0 < smlen ∧ countByte sm < p.maxPublishedSeeds ∧ p.cryptoBytes (countByte sm) ≤ smlen ∧
      smlen - p.cryptoBytes (countByte sm) ≤ mcap ∧ m = seg sm 0 (smlen - p.cryptoBytes (countByte sm)) ∧
      ∃ ok : Nat, r = (ok : Int) - 1 ∧ lessVerify fuel sl (readPub pk) m
        (viewSign (p := p) sm (smlen - p.cryptoBytes (countByte sm)) (countByte sm * p.seedLen + 1)) = .ok ok := by
  rcases Nat.eq_zero_or_pos smlen with rfl | hpos
  · exfalso
    unfold cryptoSignOpen at h
    rw [show rdB sm ((0 + 2 ^ 64 - 1) % 2 ^ 64) = .error .oob by unfold rdB rd; rw [dif_neg (by omega)]; rfl] at h
    cases h
  rw [cryptoSignOpen_eq hp fuel sl mcap sm pk hlen hpos] at h
  by_cases h1 : p.maxPublishedSeeds ≤ countByte sm
  · rw [if_pos h1] at h; cases h
  · rw [if_neg h1] at h
    by_cases h2 : p.cryptoBytes (countByte sm) ≤ smlen ∧ smlen - p.cryptoBytes (countByte sm) ≤ mcap
    · rw [if_pos h2] at h
      cases hv : lessVerify fuel sl (readPub pk) (seg sm 0 (smlen - p.cryptoBytes (countByte sm)))
          (viewSign (p := p) sm (smlen - p.cryptoBytes (countByte sm)) (countByte sm * p.seedLen + 1)) with
      | error e => rw [hv] at h; cases h
      | ok v =>
        rw [hv] at h
        cases h
        exact ⟨hpos, by omega, h2.1, h2.2, rfl, v, rfl, hv⟩
    · rw [if_neg h2] at h; cases h

/-- At least one seed is always to be published: leaf `T` of the tree belongs to no round. -/
theorem pubCount_pos (hp : p.WF) {hidden : Nat → Bool} (hr : ∃ k < p.T, hidden k = true) : 0 < pubCount p hidden := by
  have hL := hp.T_lt_leaves
  have hnc : ¬ Covers p.numLeaves p.T hidden (p.numLeaves - 1 + p.T) := by
    rw [covers_leaf_iff (by omega) p.T hL]
    omega
  obtain ⟨i, ⟨hi, -⟩, -⟩ := published_unique_above hr (by omega) hnc
  exact lt_of_le_of_lt (Nat.zero_le _) (rank_lt_pubCount hi)

/-- Acceptance looks only at the stored seeds that are to be used. -/
theorem rebuiltSeed_congr {H : List UInt8 → List UInt8 × List UInt8} {L T : Nat} {hidden : Nat → Bool} {st st' : Nat → List UInt8}
    (h : ∀ k < (publishedNodes L T hidden).length, st k = st' k) (i : Nat) :
    rebuiltSeed H L T hidden st i = rebuiltSeed H L T hidden st' i := by
  induction i using Nat.strong_induction_on with
  | _ i ih =>
    match i with
    | 0 => unfold rebuiltSeed; rfl
    | i + 1 =>
      unfold rebuiltSeed
      by_cases hP : Published L T hidden (i + 1)
      · rw [if_pos hP, if_pos hP]
        apply h
        have h1 := rank_succ (L := L) (T := T) (hidden := hidden) (i + 1)
        rw [if_pos hP] at h1
        have h2 := rank_mono (L := L) (T := T) (hidden := hidden) (i := i + 1 + 1) (j := 2 * L - 1) hP.2.1
        rw [rank_total] at h2
        omega
      · rw [if_neg hP, if_neg hP, ih (i / 2) (by omega)]

/-- Two actions agree in the fields that are used. -/
def Spec.Action.Same (a b : Action p) : Prop := ∀ t < p.K, a.perm t = b.perm t ∧ a.coef t = b.coef t

theorem Spec.Action.Same.refl (a : Action p) : a.Same a := fun _ _ => ⟨rfl, rfl⟩

theorem Spec.Action.Valid.congr {a b : Action p} (h : a.Valid) (hs : b.Same a) : b.Valid := by
  obtain ⟨h1, h2, h3⟩ := h
  refine ⟨fun t ht => ?_, fun t ht => ?_, fun s hs' t ht e => ?_⟩
  · rw [(hs t ht).2]; exact h1 t ht
  · rw [(hs t ht).1]; exact h2 t ht
  · rw [(hs t ht).1, (hs s hs').1] at e; exact h3 s hs' t ht e

theorem Spec.actOn_congr (A : Matrix (Fin p.K) (Fin p.N) (ZMod 127)) {a b : Action p} (hs : b.Same a) : actOn A b = actOn A a := by
  have hrest : restCols p b.perm = restCols p a.perm := by
    unfold restCols
    apply List.filter_congr
    intro j _
    rw [decide_eq_decide]
    constructor
    · intro h t ht; rw [← (hs t ht).1]; exact h t ht
    · intro h t ht; rw [(hs t ht).1]; exact h t ht
  funext i j
  unfold actOn
  rw [hrest]
  by_cases hj : j.val < p.K
  · rw [if_pos hj, if_pos hj, (hs _ hj).1, (hs _ hj).2]
  · rw [if_neg hj, if_neg hj]

theorem fieldAt_congr {n : Nat} {a b : Vector UInt8 n} {w pos : Nat} (h : ∀ k < w, Spec.bitAt a (pos + k) = Spec.bitAt b (pos + k)) :
    fieldAt w a pos = fieldAt w b pos := by
  unfold fieldAt
  rw [List.map_congr_left fun k hk => by rw [h k (List.mem_range.1 hk)]]

theorem Spec.RoundCommit.congr {B : Nat} {pk : PK p} {sig sig' : Sig p} {v : Nat → Nat} {i : Nat} {c : List (List Nat)}
    (h : RoundCommit p B pk sig v i c) (h1 : sig'.salt = sig.salt)
    (h2 : v i ≠ 0 → (Spec.decodeAction p (sig'.responses (responsesBefore v i))).Same
      (Spec.decodeAction p (sig.responses (responsesBefore v i))))
    (h3 : ∀ k < pubCount p (hides v), sig'.stored k = sig.stored k) : RoundCommit p B pk sig' v i c := by
  unfold RoundCommit at h ⊢
  by_cases hv : v i = 0
  · rw [if_pos hv] at h ⊢
    have : rebuiltLeaf p sig' v i = rebuiltLeaf p sig v i := by
      unfold rebuiltLeaf
      rw [h1]
      exact rebuiltSeed_congr h3 _
    rw [this, h1]
    exact h
  · rw [if_neg hv] at h ⊢
    rw [actOn_congr _ (h2 hv)]
    exact ⟨h.1.congr (h2 hv), h.2⟩

theorem Spec.Accepts.congr {B : Nat} {pk : PK p} {m : List UInt8} {sig sig' : Sig p} (h : Accepts p B pk m sig)
    (h1 : sig'.salt = sig.salt) (h0 : sig'.digest = sig.digest)
    (h2 : ∀ v i, i < p.T → IsChallenge p B (xof p sig.digest) v → v i ≠ 0 → (Spec.decodeAction p (sig'.responses (responsesBefore v i))).Same
      (Spec.decodeAction p (sig.responses (responsesBefore v i))))
    (h3 : ∀ v, IsChallenge p B (xof p sig.digest) v → ∀ k < pubCount p (hides v), sig'.stored k = sig.stored k) :
    Accepts p B pk m sig' := by
  obtain ⟨v, coms, a1, a2, a3⟩ := h
  refine ⟨v, coms, by rw [h0]; exact a1, fun i hi => (a2 i hi).congr h1 (h2 v i hi a1) (h3 v a1), by rw [h0, h1]; exact a3⟩

/-- An accepted signature can be checked within the bound. -/
theorem Spec.Accepts.fits {B : Nat} {pk : PK p} {m : List UInt8} {sig : Sig p} (h : Accepts p B pk m sig)
    (hG : ∃ G0, IsG0 p B (xof p pk.seed) G0) : VerifierFits p B pk sig := by
  obtain ⟨v, coms, a1, a2, a3⟩ := h
  refine ⟨hG, v, a1, fun i hi hv => ?_⟩
  have := a2 i hi
  unfold RoundCommit at this
  rw [if_pos hv] at this
  obtain ⟨G0, M, _, hM, _⟩ := this
  exact ⟨M, hM⟩

/-- Verification returns only if the code with number 0 could be expanded within the bound. -/
theorem lessVerify_G0 (hp : p.WF) {n fuel : Nat} {sl : Nat → Stale p} {pk : PubKey p} {m : Bytes} {sig : SignT p n} {r : Nat}
    (h : lessVerify fuel sl pk m sig = .ok r) : ∃ G0, IsG0 p fuel (xof p pk.spec.seed) G0 := by
  have hany : ∀ {α β : Type} (x : C α) (f : α → C β) (Q : Prop), (∀ a, Wq True True (f a) fun _ => Q) →
      Wq True True (x >>= f) (fun _ => Q) := by
    intro α β x f Q h
    cases x with
    | ok a => exact h a
    | error e => cases e <;> trivial
  have : Wq True True (lessVerify fuel sl pk m sig) (fun _ => ∃ G0, IsG0 p fuel (xof p pk.spec.seed) G0) := by
    unfold lessVerify
    refine hany _ _ _ fun fws => hany _ _ _ fun ind => hany _ _ _ fun t => ?_
    rw [Wq.bind_iff]
    refine ((Wq.of_wp (generatorSFSeedExpand_wp fuel _ _ hp)).monoF (fun _ => trivial)).mono ?_
    rintro G ⟨A, hA⟩
    have hall : ∀ x : C Nat, Wq True True x (fun _ => ∃ G0, IsG0 p fuel (xof p pk.spec.seed) G0) := by
      intro x
      cases x with
      | ok a => exact ⟨_, hA.isG0⟩
      | error e => cases e <;> trivial
    exact hall _
  exact this.of_ok h

end LESS
