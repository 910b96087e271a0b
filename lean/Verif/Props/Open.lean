import Verif.Props.Api
import Verif.Proofs.Open
import Verif.Proofs.Overread
/-!
# What the result of `crypto_sign_open` means

C55: the result is 0 exactly if the string ends with a signature on the rest that the specification accepts.
C56: whether a message is handed out although its signature is refused.
-/
namespace LESS
open Spec

variable {p : Params}

/-- The signature found in a string of `smlen` bytes that announces `num` seeds: fields in the order salt, responses,
digest, seeds, directly after the message. -/
def SigIn {smlen : Nat} (sm : Vector UInt8 smlen) (num : Nat) (sig : Sig p) : Prop :=
  let off := smlen - p.cryptoBytes num
  sig.salt = seg sm off p.hashLen ∧
  (∀ j < p.W, (sig.responses j).toList = seg sm (off + p.hashLen + j * p.monoBytes) p.monoBytes) ∧
  sig.digest = seg sm (off + p.hashLen + p.W * p.monoBytes) p.hashLen ∧
  ∀ k < num, sig.stored k = seg sm (off + 2 * p.hashLen + p.W * p.monoBytes + k * p.seedLen) p.seedLen

theorem seg_view {smlen : Nat} (sm : Vector UInt8 smlen) (off n a l : Nat) (h : a + l ≤ n) :
    seg (toVec n (seg sm off n)) a l = seg sm (off + a) l := by
  apply seg_ext
  intro i hi
  rw [g_toVec _ _ _ (by omega), getD_seg _ _ _ _ (by omega), Nat.add_assoc]

theorem sigIn_view {smlen : Nat} (sm : Vector UInt8 smlen) (num : Nat) :
    SigIn sm num (viewSign (p := p) sm (smlen - p.cryptoBytes num) (num * p.seedLen + 1)).spec := by
  refine ⟨?_, fun j hj => ?_, ?_, fun k hk => ?_⟩
  · exact toVec_toList (by simp)
  · show Vector.toList (g (viewSign (p := p) sm _ _).monomActions j) = _
    unfold viewSign
    rw [g_ofFn _ _ hj]
    exact toVec_toList (by simp)
  · exact toVec_toList (by simp)
  · show seg (toVec _ (seg sm _ (num * p.seedLen + 1))) (p.seedLen * k) p.seedLen = _
    have h : (k + 1) * p.seedLen ≤ num * p.seedLen := Nat.mul_le_mul_right _ hk
    rw [Nat.succ_mul] at h
    have hc := Nat.mul_comm p.seedLen k
    have hf : p.fixedLen = p.hashLen + p.W * p.monoBytes + p.hashLen := rfl
    rw [seg_view _ _ _ _ _ (by omega)]
    congr 1
    omega

/-- An opening that returns has found all the seeds the challenge requires inside the string. -/
theorem open_count (hp : p.WF) {n fuel : Nat} {sl : Nat → Stale p} {pk : PubKey p} {m : Bytes} {sig : SignT p n} {r : Nat}
    (h : lessVerify fuel sl pk m sig = .ok r) : ∀ v, IsChallenge p fuel (xof p sig.spec.digest) v → pubCount p (hides v) * p.seedLen ≤ n := by
  intro v hv
  by_contra hlt
  rw [lessVerify_overread hp fuel sl pk m sig hv (by omega)] at h
  cases h

theorem count_of_bytes {c num : Nat} (h : c * p.seedLen ≤ num * p.seedLen + 1) : c ≤ num := by
  by_contra hlt
  have h1 : (num + 1) * p.seedLen ≤ c * p.seedLen := Nat.mul_le_mul_right _ (by omega)
  have := p.seedLen_bounds
  rw [Nat.succ_mul] at h1
  omega

/-- Under a key for which verification decides acceptance, the outcome of `crypto_sign_open`. -/
theorem open_result_of (hp : p.WF) {smlen : Nat} {pk : Vector UInt8 p.pkLen} {fuel : Nat} {sl : Nat → Stale p}
    (hdec : ∀ {n : Nat} (m : Bytes) (sig : SignT p n),
      (∀ v, IsChallenge p fuel (xof p sig.spec.digest) v → pubCount p (hides v) * p.seedLen ≤ n) → ∀ ok,
      lessVerify fuel sl (readPub pk) m sig = .ok ok →
        (ok = 1 ∧ Accepts p fuel (readPub pk).spec m sig.spec) ∨ (ok = 0 ∧ ∀ B, ¬ Accepts p B (readPub pk).spec m sig.spec))
    {mcap : Nat} {sm : Vector UInt8 smlen} (hlen : smlen < 2 ^ 64) {r : Int} {out : Option Bytes}
    (hopen : cryptoSignOpen fuel sl mcap sm pk = .ok (r, out)) :
    (r = 0 ∨ r = -1) ∧
    (p.maxPublishedSeeds ≤ (g sm (smlen - 1)).toNat → r = -1 ∧ out = none) ∧
    ∀ num, (g sm (smlen - 1)).toNat = num → num < p.maxPublishedSeeds →
      p.cryptoBytes num ≤ smlen ∧ out = some (seg sm 0 (smlen - p.cryptoBytes num)) ∧
      ∀ sig, SigIn sm num sig → (r = 0 ↔ Accepts p fuel (readPub pk).spec (seg sm 0 (smlen - p.cryptoBytes num)) sig) := by
  rcases Nat.eq_zero_or_pos smlen with rfl | hpos
  · exfalso
    unfold cryptoSignOpen at hopen
    rw [show rdB sm ((0 + 2 ^ 64 - 1) % 2 ^ 64) = .error .oob by unfold rdB rd; rw [dif_neg (by omega)]; rfl] at hopen
    cases hopen
  rcases out with - | m
  · rw [cryptoSignOpen_eq hp fuel sl mcap sm pk hlen hpos] at hopen
    by_cases h1 : p.maxPublishedSeeds ≤ countByte sm
    · rw [if_pos h1] at hopen
      cases hopen
      refine ⟨.inr rfl, fun _ => ⟨rfl, rfl⟩, fun num e h => ?_⟩
      unfold countByte at h1
      omega
    · exfalso
      rw [if_neg h1] at hopen
      split at hopen
      · revert hopen
        generalize lessVerify fuel sl (readPub pk) _ _ = x
        intro h
        cases x with
        | error e => cases h
        | ok a => cases h
      · cases hopen
  · obtain ⟨-, hnum, hcb, hcap, hm, ok, hok, hver⟩ := open_ok_inv hp hlen hopen
    have hc := open_count hp hver
    have hw := hdec m _ hc ok hver
    refine ⟨?_, fun h => ?_, ?_⟩
    · rcases hw with ⟨h, -⟩ | ⟨h, -⟩ <;> omega
    · unfold countByte at hnum; omega
    · rintro num rfl hmax
      refine ⟨hcb, congrArg some hm, fun sig hsig => ?_⟩
      have hv := sigIn_view (p := p) sm (countByte sm)
      have hcount : ∀ v, IsChallenge p fuel (xof p (viewSign (p := p) sm (smlen - p.cryptoBytes (countByte sm))
          (countByte sm * p.seedLen + 1)).spec.digest) v → pubCount p (hides v) ≤ countByte sm :=
        fun v h => count_of_bytes (hc v h)
      generalize (viewSign (p := p) sm (smlen - p.cryptoBytes (countByte sm)) (countByte sm * p.seedLen + 1)).spec = sig₀ at hv hw hcount
      obtain ⟨a1, a2, a3, a4⟩ := hsig
      obtain ⟨b1, b2, b3, b4⟩ := hv
      have hresp : ∀ j < p.W, sig.responses j = sig₀.responses j := fun j hj =>
        Vector.toList_inj.1 ((a2 j hj).trans (b2 j hj).symm)
      have hd : sig.digest = sig₀.digest := a3.trans b3.symm
      have hs : ∀ k < countByte sm, sig.stored k = sig₀.stored k := fun k hk => (a4 k hk).trans (b4 k hk).symm
      have hiff : Accepts p fuel (readPub pk).spec m sig ↔ Accepts p fuel (readPub pk).spec m sig₀ := by
        constructor
        · intro h
          refine h.congr (b1.trans a1.symm) hd.symm (fun v i hi hv hvi => ?_) (fun v hv k hk => ?_)
          · rw [hresp _ (by rw [← hv.weight]; exact weight_lt hi v hvi)]
            exact fun t _ => ⟨rfl, rfl⟩
          · exact (hs k (lt_of_lt_of_le hk (hcount v (by rw [← hd]; exact hv)))).symm
        · intro h
          refine h.congr (a1.trans b1.symm) hd (fun v i hi hv hvi => ?_) (fun v hv k hk => ?_)
          · rw [hresp _ (by rw [← hv.weight]; exact weight_lt hi v hvi)]
            exact fun t _ => ⟨rfl, rfl⟩
          · exact hs k (lt_of_lt_of_le hk (hcount v hv))
      have e : seg sm 0 (smlen - p.cryptoBytes (g sm (smlen - 1)).toNat) = m := hm.symm
      rw [e, hiff]
      rcases hw with ⟨h, h'⟩ | ⟨h, h'⟩
      · exact iff_of_true (by omega) h'
      · exact iff_of_false (by omega) (h' _)

/-- Whenever `crypto_sign_open` returns under an honest key: the result is 0 or -1; if the last byte announces too many
seeds, it is -1 and no message is stored; otherwise the message is the part of the string before the signature, and the
result is 0 exactly if the specification accepts the signature found behind it for that message. -/
theorem C55_open_result (hp : p.WF) {smlen : Nat} {fuel₁ : Nat} {sl₁ : Nat → Stale p} {rng rng' : Inc} (hr : RngOk p rng)
    {pk : Vector UInt8 p.pkLen} {sk : Vector UInt8 p.skLen} (hkeygen : cryptoSignKeypair fuel₁ sl₁ rng = .ok (pk, sk, rng'))
    {fuel : Nat} {sl : Nat → Stale p} {mcap : Nat} {sm : Vector UInt8 smlen} (hlen : smlen < 2 ^ 64) {r : Int} {out : Option Bytes}
    (hopen : cryptoSignOpen fuel sl mcap sm pk = .ok (r, out)) :
    (r = 0 ∨ r = -1) ∧
    (p.maxPublishedSeeds ≤ (g sm (smlen - 1)).toNat → r = -1 ∧ out = none) ∧
    ∀ num, (g sm (smlen - 1)).toNat = num → num < p.maxPublishedSeeds →
      p.cryptoBytes num ≤ smlen ∧ out = some (seg sm 0 (smlen - p.cryptoBytes num)) ∧
      ∀ sig, SigIn sm num sig → (r = 0 ↔ Accepts p fuel (readPub pk).spec (seg sm 0 (smlen - p.cryptoBytes num)) sig) :=
  open_result_of hp (fun m sig hc _ hver =>
    (lessVerify_wp hp fuel sl _ m sig (api_keygen_good hp hr hkeygen) hc).of_ok hver) hlen hopen

/-! ## C56 -/

/-- The string `m'` followed by the signature of `sm` (which announces `num` seeds) with all responses overwritten by zeros. -/
def zeroResponses (p : Params) {smlen : Nat} (sm : Vector UInt8 smlen) (num : Nat) (m' : Bytes) : Vector UInt8 (m'.length + p.cryptoBytes num) :=
  Vector.ofFn fun i =>
    if i.val < m'.length then m'.getD i.val 0
    else if p.hashLen ≤ i.val - m'.length ∧ i.val - m'.length < p.hashLen + p.W * p.monoBytes then 0
    else g sm (smlen - p.cryptoBytes num + (i.val - m'.length))

/-- Refutes the claim: from any signed message that opens, and for every message `m'` whatsoever, a string is obtained whose
signature is refused, but `m'` and its length have been stored in the caller's variables. -/
theorem C56_fails_unverified_message (hp : p.WF) {smlen : Nat} {fuel₁ : Nat} {sl₁ : Nat → Stale p} {rng rng' : Inc} (hr : RngOk p rng)
    {pk : Vector UInt8 p.pkLen} {sk : Vector UInt8 p.skLen} (hkeygen : cryptoSignKeypair fuel₁ sl₁ rng = .ok (pk, sk, rng'))
    {fuel : Nat} {sl : Nat → Stale p} {mcap : Nat} {sm : Vector UInt8 smlen} (hlen : smlen < 2 ^ 64) {m : Bytes}
    (hopen : cryptoSignOpen fuel sl mcap sm pk = .ok (0, some m)) {num : Nat} (hnum : (g sm (smlen - 1)).toNat = num)
    (m' : Bytes) (hm' : m'.length + p.cryptoBytes num < 2 ^ 64) {mcap' : Nat} (hcap' : m'.length ≤ mcap') (sl' : Nat → Stale p) :
    cryptoSignOpen fuel sl' mcap' (zeroResponses p sm num m') pk = .ok (-1, some m') := by
  obtain ⟨hpos, hmax, hcb, hcap, hm, ok, hok, hver⟩ := open_ok_inv hp hlen hopen
  obtain rfl : ok = 1 := by omega
  have hce : countByte sm = num := hnum
  rw [hce] at hmax hcb hcap hm hver
  have hgood := api_keygen_good hp hr hkeygen
  have hc := open_count hp hver
  obtain ⟨v, coms, a1, a2, a3⟩ : Accepts p fuel (readPub pk).spec m _ := by
    rcases (lessVerify_wp hp fuel sl _ m _ hgood hc).of_ok hver with ⟨-, h⟩ | ⟨h, -⟩
    · exact h
    · omega
  have hfits := Spec.Accepts.fits ⟨v, coms, a1, a2, a3⟩ (lessVerify_G0 hp hver)
  have hfix := fixedLen_cryptoBytes (p := p) num
  have hf : p.fixedLen = p.hashLen + p.W * p.monoBytes + p.hashLen := rfl
  -- bytes of the new string
  have hmsg : ∀ i < m'.length, g (zeroResponses p sm num m') i = m'.getD i 0 := by
    intro i hi
    unfold zeroResponses
    rw [g_ofFn _ _ (by omega)]
    dsimp only
    rw [if_pos hi]
  have hzero : ∀ i, p.hashLen ≤ i → i < p.hashLen + p.W * p.monoBytes → g (zeroResponses p sm num m') (m'.length + i) = 0 := by
    intro i h1 h2
    unfold zeroResponses
    rw [g_ofFn _ _ (by omega)]
    dsimp only
    rw [if_neg (by omega), if_pos (by omega)]
  have hsame : ∀ i < p.cryptoBytes num, ¬ (p.hashLen ≤ i ∧ i < p.hashLen + p.W * p.monoBytes) →
      g (zeroResponses p sm num m') (m'.length + i) = g sm (smlen - p.cryptoBytes num + i) := by
    intro i h1 h2
    unfold zeroResponses
    rw [g_ofFn _ _ (by omega)]
    dsimp only
    rw [if_neg (by omega), if_neg (by omega), Nat.add_sub_cancel_left]
  generalize zeroResponses p sm num m' = sm' at *
  have hcnt : countByte sm' = num := by
    unfold countByte
    rw [show m'.length + p.cryptoBytes num - 1 = m'.length + (p.cryptoBytes num - 1) by omega, hsame _ (by omega) (by omega),
      show smlen - p.cryptoBytes num + (p.cryptoBytes num - 1) = smlen - 1 by omega]
    exact hnum
  have hpre : seg sm' 0 m'.length = m' := by
    apply List.ext_getElem
    · simp
    · intro i h1 h2
      rw [getElem_seg, Nat.zero_add, hmsg i h2, getD_of_lt _ _ h2]
  have e1 : m'.length + p.cryptoBytes num - p.cryptoBytes num = m'.length := by omega
  rw [cryptoSignOpen_eq hp fuel sl' mcap' sm' pk hm' (by omega), hcnt, if_neg (by omega), if_pos (by omega), e1, hpre]
  -- the fields other than the responses
  have s1 : (viewSign (p := p) sm' m'.length (num * p.seedLen + 1)).spec.salt =
      (viewSign (p := p) sm (smlen - p.cryptoBytes num) (num * p.seedLen + 1)).spec.salt := by
    show (toVec p.hashLen _).toList = (toVec p.hashLen _).toList
    rw [toVec_toList (by simp), toVec_toList (by simp)]
    exact seg_ext fun i hi => hsame i (by omega) (by omega)
  have s2 : (viewSign (p := p) sm' m'.length (num * p.seedLen + 1)).spec.digest =
      (viewSign (p := p) sm (smlen - p.cryptoBytes num) (num * p.seedLen + 1)).spec.digest := by
    show (toVec p.hashLen _).toList = (toVec p.hashLen _).toList
    rw [toVec_toList (by simp), toVec_toList (by simp)]
    refine seg_ext fun i hi => ?_
    have := hsame (p.hashLen + p.W * p.monoBytes + i) (by omega) (by omega)
    rw [← Nat.add_assoc, ← Nat.add_assoc, ← Nat.add_assoc, ← Nat.add_assoc] at this
    exact this
  have s3 : (viewSign (p := p) sm' m'.length (num * p.seedLen + 1)).spec.stored =
      (viewSign (p := p) sm (smlen - p.cryptoBytes num) (num * p.seedLen + 1)).spec.stored := by
    show (fun k => seg (toVec _ (seg sm' (m'.length + p.fixedLen) _)) _ _) = (fun k => seg (toVec _ (seg sm (_ + p.fixedLen) _)) _ _)
    rw [show seg sm' (m'.length + p.fixedLen) (num * p.seedLen + 1) = seg sm (smlen - p.cryptoBytes num + p.fixedLen) (num * p.seedLen + 1) from
      seg_ext fun i hi => by
        have := hsame (p.fixedLen + i) (by omega) (by omega)
        rw [← Nat.add_assoc, ← Nat.add_assoc] at this
        exact this]
  have s4 : ∀ j < p.W, ∀ b, bitAt ((viewSign (p := p) sm' m'.length (num * p.seedLen + 1)).spec.responses j) b = false := by
    intro j hj b
    have hz : g ((viewSign (p := p) sm' m'.length (num * p.seedLen + 1)).spec.responses j) (b / 8) = 0 := by
      show g (g (viewSign (p := p) sm' m'.length (num * p.seedLen + 1)).monomActions j) _ = _
      unfold viewSign
      rw [g_ofFn _ _ hj]
      by_cases hb : b / 8 < p.monoBytes
      · have hj' : (j + 1) * p.monoBytes ≤ p.W * p.monoBytes := Nat.mul_le_mul_right _ hj
        rw [Nat.succ_mul] at hj'
        rw [g_toVec _ _ _ hb, getD_seg _ _ _ _ hb, Nat.add_assoc, Nat.add_assoc]
        dsimp only
        exact hzero _ (by omega) (by omega)
      · unfold g; rw [dif_neg hb]; rfl
    unfold bitAt
    rw [hz]
    simp
  have hno : ∀ B, ¬ Accepts p B (readPub pk).spec m' (viewSign (p := p) sm' m'.length (num * p.seedLen + 1)).spec := by
    rintro B ⟨v', coms', b1, b2, -⟩
    obtain ⟨i, hi, hvi, hrb⟩ := exists_response (v := v') (n := p.T) (k := 0) (by rw [b1.weight]; exact hp.W_pos)
    have := b2 i hi
    unfold RoundCommit at this
    rw [if_neg hvi] at this
    have h0 := (this.1.1 0 hp.K_pos).1
    rw [hrb] at h0
    have hz : (Spec.decodeAction p ((viewSign (p := p) sm' m'.length (num * p.seedLen + 1)).spec.responses 0)).coef 0 = 0 := by
      show fieldAt 7 _ _ = 0
      unfold fieldAt
      rw [List.map_congr_left (g := fun _ => 0) fun k _ => by rw [s4 0 hp.W_pos]; rfl]
      simp
    omega
  have hfits' : VerifierFits p fuel (readPub pk).spec (viewSign (p := p) sm' m'.length (num * p.seedLen + 1)).spec := by
    unfold VerifierFits rebuiltLeaf at hfits ⊢
    rw [s1, s2, s3]
    exact hfits
  have hw := lessVerify_wp hp fuel sl' (readPub pk) m' (viewSign (p := p) sm' m'.length (num * p.seedLen + 1)) hgood
    (by rw [s2]; exact hc)
  obtain ⟨r, e, hr'⟩ := (hw.monoF (F' := False) (fun h => h hfits')).exists_ok
  rw [e]
  rcases hr' with ⟨rfl, h⟩ | ⟨rfl, -⟩
  · exact absurd h (hno _)
  · rfl

/-- What holds: nothing is stored if the last byte announces too many seeds, and a message whose signature the
specification accepts is stored unchanged.  Missing: a message is stored whatever the verdict
(`C56_fails_unverified_message`); only the returned value distinguishes. -/
theorem C56_verdict_partial (hp : p.WF) {smlen : Nat} {fuel₁ : Nat} {sl₁ : Nat → Stale p} {rng rng' : Inc} (hr : RngOk p rng)
    {pk : Vector UInt8 p.pkLen} {sk : Vector UInt8 p.skLen} (hkeygen : cryptoSignKeypair fuel₁ sl₁ rng = .ok (pk, sk, rng'))
    {fuel : Nat} {sl : Nat → Stale p} {mcap : Nat} {sm : Vector UInt8 smlen} (hlen : smlen < 2 ^ 64) {m : Bytes}
    (hopen : cryptoSignOpen fuel sl mcap sm pk = .ok (0, some m)) :
    ∃ num sig, (g sm (smlen - 1)).toNat = num ∧ SigIn sm num sig ∧ m.length + p.cryptoBytes num = smlen ∧ m.length ≤ mcap ∧
      seg sm 0 m.length = m ∧ Accepts p fuel (readPub pk).spec m sig := by
  obtain ⟨-, h1, h2⟩ := C55_open_result hp hr hkeygen hlen hopen
  have hmax : (g sm (smlen - 1)).toNat < p.maxPublishedSeeds := by
    by_contra h
    exact absurd (h1 (by omega)).1 (by decide)
  obtain ⟨a1, a2, a3⟩ := h2 _ rfl hmax
  obtain rfl : m = _ := by injection a2
  obtain ⟨-, -, -, hcap, -⟩ := open_ok_inv hp hlen hopen
  refine ⟨_, _, rfl, sigIn_view sm _, ?_, ?_, ?_, (a3 _ (sigIn_view sm _)).1 rfl⟩
  · simp; omega
  · rw [seg_length]; exact hcap
  · simp

end LESS
