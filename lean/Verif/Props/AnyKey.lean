import Verif.Proofs.AnyKey
import Verif.Props.Open
/-!
# Verification and opening under arbitrary public keys

For the seven parameter sets every string of the right length is a public key for which the outcome of verification
and of opening is determined: an out-of-bounds access in exactly the listed cases, otherwise the verdict of the
specification.  (C07, C08, C09, C44, C47, C55, C61)
-/
namespace LESS
open Spec

variable {p : Params}

/-- Each code of the key either has room for its dense columns, or is oversized. -/
def SortedKey (pk : PubKey p) : Prop :=
  ∀ j < p.numKeypairs - 1, GoodCode p (pk.spec.codes j) ∨ Oversized p (pk.spec.codes j)

/-- For the seven parameter sets this is no condition on the key. -/
theorem C44_every_key : ∀ p ∈ Params.all, p.WF ∧ 2 ≤ p.K ∧ ∀ pk : PubKey p, SortedKey pk := by
  intro p hp
  have h : 2 ≤ p.K ∧ p.N ≤ 2 * p.K := by revert p; decide
  refine ⟨Params.all_WF p hp, h.1, fun pk j _ => ?_⟩
  by_cases ho : Oversized p (pk.spec.codes j)
  · exact .inr ho
  · exact .inl ⟨Nat.le_of_not_lt ho, .inl h.2⟩

/-! ## Verification -/

/-- Verification accesses memory out of bounds exactly if, under the challenge of the signature, a round is answered
for an oversized code before any malformed response is met. -/
theorem C44_oob_iff (hp : p.WF) (hK : 2 ≤ p.K) (fuel : Nat) (sl : Nat → Stale p) (pk : PubKey p) (hpk : SortedKey pk) (m : Bytes)
    (sig : SignT p p.storageLen) (hfits : VerifierFits p fuel pk.spec sig.spec) :
    lessVerify fuel sl pk m sig = .error .oob ↔ MeetsOversized p fuel pk.spec sig.spec := by
  have hw := lessVerify_any hp hK fuel sl pk m sig hpk (storage_fits hp (by unfold Params.storageLen; omega))
  revert hw
  cases lessVerify fuel sl pk m sig with
  | ok r => intro h; exact iff_of_false (by simp) h.1
  | error e =>
    cases e with
    | oob => intro h; exact iff_of_true rfl h
    | fuel => intro h; exact absurd hfits h

/-- Without any assumption on the samplers: no oversized code met, no access out of bounds. -/
theorem C44_oob_only_if (hp : p.WF) (hK : 2 ≤ p.K) (fuel : Nat) (sl : Nat → Stale p) (pk : PubKey p) (hpk : SortedKey pk) (m : Bytes)
    (sig : SignT p p.storageLen) (h : lessVerify fuel sl pk m sig = .error .oob) : MeetsOversized p fuel pk.spec sig.spec := by
  have hw := lessVerify_any hp hK fuel sl pk m sig hpk (storage_fits hp (by unfold Params.storageLen; omega))
  rw [h] at hw
  exact hw

/-- Whenever verification returns, whatever the key, the result is 1 if the specification accepts and 0 otherwise; and
it returns if the samplers finish and no oversized code is met. -/
theorem C09_any_key (hp : p.WF) (hK : 2 ≤ p.K) {n : Nat} (hn : p.maxPublishedBytes ≤ n) (fuel : Nat) (sl : Nat → Stale p)
    (pk : PubKey p) (hpk : SortedKey pk) (m : Bytes) (sig : SignT p n) :
    (∀ r, lessVerify fuel sl pk m sig = .ok r → (r = 0 ∨ r = 1) ∧ (r = 1 ↔ Accepts p fuel pk.spec m sig.spec)) ∧
    (VerifierFits p fuel pk.spec sig.spec → ¬ MeetsOversized p fuel pk.spec sig.spec → ∃ r, lessVerify fuel sl pk m sig = .ok r) := by
  have hw := lessVerify_any hp hK fuel sl pk m sig hpk (storage_fits hp hn)
  revert hw
  cases lessVerify fuel sl pk m sig with
  | error e =>
    intro h
    refine ⟨fun r h => (by cases h), fun hf hm => ?_⟩
    cases e with
    | oob => exact absurd h hm
    | fuel => exact absurd hf h
  | ok a =>
    intro hw
    obtain ⟨-, ⟨rfl, h⟩ | ⟨rfl, h⟩⟩ := hw
    · exact ⟨fun r e => by injection e with e; subst e; exact ⟨.inr rfl, iff_of_true rfl h⟩, fun _ _ => ⟨_, rfl⟩⟩
    · exact ⟨fun r e => by injection e with e; subst e; exact ⟨.inl rfl, iff_of_false (by decide) (h _)⟩, fun _ _ => ⟨_, rfl⟩⟩

/-- A malformed response that the challenge makes use of is never accepted, whatever the key. -/
theorem C08_any_key (hp : p.WF) (hK : 2 ≤ p.K) {n : Nat} (hn : p.maxPublishedBytes ≤ n) (fuel : Nat) (sl : Nat → Stale p)
    (pk : PubKey p) (hpk : SortedKey pk) (m : Bytes) (sig : SignT p n)
    {v : Nat → Nat} (hv : IsChallenge p fuel (xof p sig.digest.toList) v) {i : Nat} (hi : i < p.T) (hvi : v i ≠ 0)
    (a : Action p) (ha : a = Spec.decodeAction p (g sig.monomActions (responsesBefore v i)))
    (hbad : (∃ t < p.K, a.coef t = 0 ∨ 127 ≤ a.coef t) ∨ (∃ t < p.K, p.N ≤ a.perm t) ∨
      ∃ s < p.K, ∃ t < p.K, s ≠ t ∧ a.perm s = a.perm t) :
    ∀ r, lessVerify fuel sl pk m sig = .ok r → r = 0 := by
  intro r e
  obtain ⟨h01, hiff⟩ := (C09_any_key hp hK hn fuel sl pk hpk m sig).1 r e
  rcases h01 with h | h
  · exact h
  · exfalso
    obtain ⟨v', coms, hv', hc, _⟩ := hiff.1 h
    have hvv : v = v' := hv.unique hv'
    subst hvv
    have := hc i hi
    unfold RoundCommit at this
    rw [if_neg hvi] at this
    obtain ⟨⟨h1, h2, h3⟩, _⟩ := this
    have e2 : Spec.decodeAction p (sig.spec.responses (responsesBefore v i)) = a := ha.symm
    rw [e2] at h1 h2 h3
    rcases hbad with ⟨t, ht, h0⟩ | ⟨t, ht, h0⟩ | ⟨s, hs, t, ht, hne, h0⟩
    · have := h1 t ht; omega
    · have := h2 t ht; omega
    · exact hne (h3 s hs t ht h0)

/-- Two verifications of the same signature agree, whatever the key, the stale memory and the budgets: if both return,
they return the same, and if the samplers fit, one is out of bounds exactly if the other is. -/
theorem C47_any_key (hp : p.WF) (hK : 2 ≤ p.K) {n : Nat} (hn : p.maxPublishedBytes ≤ n) {pk : PubKey p} (hpk : SortedKey pk)
    {fuel : Nat} (sl sl' : Nat → Stale p) (m : Bytes) (sig : SignT p n) (hfits : VerifierFits p fuel pk.spec sig.spec) :
    lessVerify fuel sl pk m sig = lessVerify fuel sl' pk m sig := by
  have h1 := lessVerify_any hp hK fuel sl pk m sig hpk (storage_fits hp hn)
  have h2 := lessVerify_any hp hK fuel sl' pk m sig hpk (storage_fits hp hn)
  generalize lessVerify fuel sl pk m sig = x at h1
  generalize lessVerify fuel sl' pk m sig = y at h2
  rcases x with (_ | _) | a <;> rcases y with (_ | _) | b
  · rfl
  · exact absurd hfits h2
  · exact absurd h1 h2.1
  · exact absurd hfits h1
  · rfl
  · exact absurd hfits h1
  · exact absurd h2 h1.1
  · exact absurd hfits h2
  · obtain ⟨-, ⟨rfl, h⟩ | ⟨rfl, h⟩⟩ := h1 <;> obtain ⟨-, ⟨rfl, h'⟩ | ⟨rfl, h'⟩⟩ := h2
    · rfl
    · exact absurd h (h' _)
    · exact absurd h' (h _)
    · rfl

/-! ## Opening -/

/-- The cases in which `crypto_sign_open` leaves its buffers.  `mcap` is the size of the buffer for the message. -/
def OpenLeaves (fuel mcap : Nat) {smlen : Nat} (sm : Vector UInt8 smlen) (pk : Vector UInt8 p.pkLen) : Prop :=
  smlen = 0 ∨ ∃ num, (g sm (smlen - 1)).toNat = num ∧ num < p.maxPublishedSeeds ∧
    (smlen < p.cryptoBytes num ∨ mcap + p.cryptoBytes num < smlen ∨ ∃ sig, SigIn (p := p) sm num sig ∧
      ((∃ v, IsChallenge p fuel (xof p sig.digest) v ∧ num < (publishedNodes p.numLeaves p.T (hides v)).length) ∨
        MeetsOversized p fuel (readPub pk).spec sig))


theorem Spec.MeetsOversized.congr {B : Nat} {pk : PK p} {sig sig' : Sig p} (h : MeetsOversized p B pk sig) (hd : sig'.digest = sig.digest)
    (hr : ∀ j < p.W, sig'.responses j = sig.responses j) : MeetsOversized p B pk sig' := by
  obtain ⟨v, hv, i, hi, h1, h2, h3⟩ := h
  refine ⟨v, by rw [hd]; exact hv, i, hi, h1, h2, fun j hj hvj => ?_⟩
  rw [hr _ (by rw [← hv.weight]; exact weight_lt (by omega) v hvj)]
  exact h3 j hj hvj

theorem SigIn.meets {smlen : Nat} {sm : Vector UInt8 smlen} {num B : Nat} {pk : PK p} {sig sig' : Sig p} (h : SigIn sm num sig)
    (h' : SigIn sm num sig') : MeetsOversized p B pk sig → MeetsOversized p B pk sig' := fun hm =>
  hm.congr (h'.2.2.1.trans h.2.2.1.symm) fun j hj => Vector.toList_inj.1 ((h'.2.1 j hj).trans (h.2.1 j hj).symm)

theorem SigIn.fits {smlen : Nat} {sm : Vector UInt8 smlen} {num B : Nat} {pk : PK p} {sig sig' : Sig p} (h : SigIn sm num sig)
    (h' : SigIn sm num sig') (hc : ∀ v, IsChallenge p B (xof p sig'.digest) v → pubCount p (hides v) ≤ num)
    (hf : VerifierFits p B pk sig) : VerifierFits p B pk sig' := by
  obtain ⟨hG, v, hv, hM⟩ := hf
  have hd : sig'.digest = sig.digest := h'.2.2.1.trans h.2.2.1.symm
  rw [hd] at hc
  refine ⟨hG, v, by rw [hd]; exact hv, fun i hi hvi => ?_⟩
  have e : rebuiltLeaf p sig' v i = rebuiltLeaf p sig v i := by
    unfold rebuiltLeaf
    rw [h'.1.trans h.1.symm]
    exact rebuiltSeed_congr (fun k hk => (h'.2.2.2 k (lt_of_lt_of_le hk (hc v hv))).trans (h.2.2.2 k (lt_of_lt_of_le hk (hc v hv))).symm) _
  rw [e, h'.1.trans h.1.symm]
  exact hM i hi hvi

/-- `crypto_sign_open` accesses memory out of bounds exactly in these cases: the string is empty; it is shorter than
its last byte announces; the message does not fit the buffer; the challenge requires more seeds than announced; or
verification meets an oversized code. -/
theorem C07_oob_iff (hp : p.WF) (hK : 2 ≤ p.K) {smlen : Nat} (hlen : smlen < 2 ^ 64) (fuel : Nat) (sl : Nat → Stale p) (mcap : Nat)
    (sm : Vector UInt8 smlen) (pk : Vector UInt8 p.pkLen) (hpk : SortedKey (readPub pk))
    (hfits : ∃ sig, SigIn sm (g sm (smlen - 1)).toNat sig ∧ VerifierFits p fuel (readPub pk).spec sig) :
    cryptoSignOpen fuel sl mcap sm pk = .error .oob ↔ OpenLeaves fuel mcap sm pk := by
  rcases Nat.eq_zero_or_pos smlen with rfl | hpos
  · refine iff_of_true ?_ (.inl rfl)
    unfold cryptoSignOpen
    rw [show rdB sm ((0 + 2 ^ 64 - 1) % 2 ^ 64) = .error .oob by unfold rdB rd; rw [dif_neg (by omega)]; rfl]
    rfl
  rw [cryptoSignOpen_eq hp fuel sl mcap sm pk hlen hpos]
  have hc : countByte sm = (g sm (smlen - 1)).toNat := rfl
  generalize hnum : (g sm (smlen - 1)).toNat = num at hc hfits
  rw [hc]
  by_cases h1 : p.maxPublishedSeeds ≤ num
  · rw [if_pos h1]
    refine iff_of_false (by simp) ?_
    rintro (h | ⟨_, rfl, h, -⟩) <;> omega
  rw [if_neg h1]
  by_cases h2 : p.cryptoBytes num ≤ smlen ∧ smlen - p.cryptoBytes num ≤ mcap
  swap
  · rw [if_neg h2]
    refine iff_of_true rfl (.inr ⟨_, hnum, by omega, ?_⟩)
    by_cases h3 : p.cryptoBytes num ≤ smlen
    · exact .inr (.inl (by omega))
    · exact .inl (by omega)
  rw [if_pos h2]
  have hview := sigIn_view (p := p) sm num
  generalize (viewSign (p := p) sm (smlen - p.cryptoBytes num) (num * p.seedLen + 1)) = sig at hview
  have hleaves : OpenLeaves fuel mcap sm pk ↔
      (∃ v, IsChallenge p fuel (xof p sig.spec.digest) v ∧ num < pubCount p (hides v)) ∨ MeetsOversized p fuel (readPub pk).spec sig.spec := by
    constructor
    · rintro (h | ⟨_, e, h, h' | h' | ⟨sig', hs, h' | h'⟩⟩)
      · omega
      · rw [← e.symm.trans hnum] at h2; omega
      · rw [← e.symm.trans hnum] at h2; omega
      · obtain rfl := e.symm.trans hnum
        left
        rw [hview.2.2.1, ← hs.2.2.1]
        exact h'
      · obtain rfl := e.symm.trans hnum
        exact .inr (hs.meets hview h')
    · intro h
      exact .inr ⟨_, hnum, by omega, .inr (.inr ⟨_, hview, h⟩)⟩
  rw [hleaves]
  by_cases h3 : ∃ v, IsChallenge p fuel (xof p sig.spec.digest) v ∧ num < pubCount p (hides v)
  · obtain ⟨v, hv, hlt⟩ := h3
    rw [lessVerify_overread hp fuel sl _ _ _ hv]
    · exact iff_of_true rfl (.inl ⟨v, hv, hlt⟩)
    · have := Nat.mul_le_mul_right p.seedLen (show num + 1 ≤ _ from hlt)
      have hb := p.seedLen_bounds
      rw [Nat.add_mul] at this
      omega
  · rw [or_iff_right h3]
    have hcount : ∀ v, IsChallenge p fuel (xof p sig.spec.digest) v → pubCount p (hides v) ≤ num := by
      intro v hv
      by_contra hlt
      exact h3 ⟨v, hv, by omega⟩
    have hF : VerifierFits p fuel (readPub pk).spec sig.spec := by
      obtain ⟨sig', h, h'⟩ := hfits
      exact h.fits hview hcount h'
    have hw := lessVerify_any hp hK fuel sl (readPub pk) (seg sm 0 (smlen - p.cryptoBytes num)) sig hpk (fun v hv => by
      have := Nat.mul_le_mul_right p.seedLen (hcount v hv)
      omega)
    revert hw
    cases lessVerify fuel sl (readPub pk) (seg sm 0 (smlen - p.cryptoBytes num)) sig with
    | ok r => intro h; exact iff_of_false (fun h => by cases h) h.1
    | error e =>
      cases e with
      | oob => intro h; exact iff_of_true rfl h
      | fuel => intro h; exact absurd hF h

/-- `C55_open_result` for every key. -/
theorem C55_any_key (hp : p.WF) (hK : 2 ≤ p.K) {smlen : Nat} {pk : Vector UInt8 p.pkLen} (hpk : SortedKey (readPub pk))
    {fuel : Nat} {sl : Nat → Stale p} {mcap : Nat} {sm : Vector UInt8 smlen} (hlen : smlen < 2 ^ 64) {r : Int} {out : Option Bytes}
    (hopen : cryptoSignOpen fuel sl mcap sm pk = .ok (r, out)) :
    (r = 0 ∨ r = -1) ∧
    (p.maxPublishedSeeds ≤ (g sm (smlen - 1)).toNat → r = -1 ∧ out = none) ∧
    ∀ num, (g sm (smlen - 1)).toNat = num → num < p.maxPublishedSeeds →
      p.cryptoBytes num ≤ smlen ∧ out = some (seg sm 0 (smlen - p.cryptoBytes num)) ∧
      ∀ sig, SigIn sm num sig → (r = 0 ↔ Accepts p fuel (readPub pk).spec (seg sm 0 (smlen - p.cryptoBytes num)) sig) :=
  open_result_of hp (fun m sig hc _ hver => ((lessVerify_any hp hK fuel sl _ m sig hpk hc).of_ok hver).2) hlen hopen

/-! ## C61 -/

/-- For every string of bytes as public key, every message and every signature: once the samplers finish, verification
leaves its buffers exactly if it meets an oversized code, and otherwise returns the verdict of the specification. -/
theorem C61_verify_outcome (hp : p.WF) (hK : 2 ≤ p.K) (fuel : Nat) (sl : Nat → Stale p) (pk : PubKey p) (hpk : SortedKey pk) (m : Bytes)
    (sig : SignT p p.storageLen) (hfits : VerifierFits p fuel pk.spec sig.spec) :
    (MeetsOversized p fuel pk.spec sig.spec ∧ lessVerify fuel sl pk m sig = .error .oob) ∨
    (¬ MeetsOversized p fuel pk.spec sig.spec ∧
      ((Accepts p fuel pk.spec m sig.spec ∧ lessVerify fuel sl pk m sig = .ok 1) ∨
        (¬ Accepts p fuel pk.spec m sig.spec ∧ lessVerify fuel sl pk m sig = .ok 0))) := by
  by_cases h : MeetsOversized p fuel pk.spec sig.spec
  · exact .inl ⟨h, (C44_oob_iff hp hK fuel sl pk hpk m sig hfits).2 h⟩
  · obtain ⟨h1, h2⟩ := C09_any_key hp hK (by unfold Params.storageLen; omega) fuel sl pk hpk m sig
    obtain ⟨r, e⟩ := h2 hfits h
    obtain ⟨h01, hacc⟩ := h1 r e
    rcases h01 with rfl | rfl
    · exact .inr ⟨h, .inr ⟨fun h => absurd (hacc.2 h) (by decide), e⟩⟩
    · exact .inr ⟨h, .inl ⟨hacc.1 rfl, e⟩⟩

/-- The same for opening: for every string as signed message, every string as public key and every size of the message
buffer, either one of the listed accesses out of bounds happens, or the result is the one that the specification
prescribes. -/
theorem C61_open_outcome (hp : p.WF) (hK : 2 ≤ p.K) {smlen : Nat} (hlen : smlen < 2 ^ 64) (fuel : Nat) (sl : Nat → Stale p) (mcap : Nat)
    (sm : Vector UInt8 smlen) (pk : Vector UInt8 p.pkLen) (hpk : SortedKey (readPub pk)) (num : Nat) (sig : Sig p)
    (hnum : (g sm (smlen - 1)).toNat = num) (hsig : SigIn sm num sig) (hfits : VerifierFits p fuel (readPub pk).spec sig) :
    (OpenLeaves fuel mcap sm pk ∧ cryptoSignOpen fuel sl mcap sm pk = .error .oob) ∨
    (¬ OpenLeaves fuel mcap sm pk ∧
      ((p.maxPublishedSeeds ≤ num ∧ cryptoSignOpen fuel sl mcap sm pk = .ok (-1, none)) ∨
      (num < p.maxPublishedSeeds ∧ ∃ m, seg sm 0 m.length = m ∧ m.length + p.cryptoBytes num = smlen ∧
        ((Accepts p fuel (readPub pk).spec m sig ∧ cryptoSignOpen fuel sl mcap sm pk = .ok (0, some m)) ∨
          (¬ Accepts p fuel (readPub pk).spec m sig ∧ cryptoSignOpen fuel sl mcap sm pk = .ok (-1, some m)))))) := by
  subst hnum
  have hiff := C07_oob_iff hp hK hlen fuel sl mcap sm pk hpk ⟨sig, hsig, hfits⟩
  by_cases h : OpenLeaves fuel mcap sm pk
  · exact .inl ⟨h, hiff.2 h⟩
  refine .inr ⟨h, ?_⟩
  have hret : ∃ x, cryptoSignOpen fuel sl mcap sm pk = .ok x := by
    have hpos : 0 < smlen := by
      by_contra h0
      exact h (.inl (by omega))
    have hne := mt hiff.1 h
    by_contra hno
    have hnf : cryptoSignOpen fuel sl mcap sm pk ≠ .error .fuel := by
      rw [cryptoSignOpen_eq hp fuel sl mcap sm pk hlen hpos] at hne ⊢
      split
      · simp
      · rename_i h1
        rw [if_neg h1] at hne
        split
        · rename_i h2
          rw [if_pos h2] at hne
          have hview := sigIn_view (p := p) sm (countByte sm)
          have hcount : ∀ v, IsChallenge p fuel (xof p (viewSign (p := p) sm (smlen - p.cryptoBytes (countByte sm))
              (countByte sm * p.seedLen + 1)).spec.digest) v → pubCount p (hides v) ≤ countByte sm := by
            intro v hv
            by_contra hlt
            exact h (.inr ⟨_, rfl, Nat.lt_of_not_le h1, .inr (.inr ⟨_, hview, .inl ⟨v, hv, Nat.lt_of_not_le hlt⟩⟩)⟩)
          have hF := hsig.fits hview hcount hfits
          have hw := lessVerify_any hp hK fuel sl (readPub pk) (seg sm 0 (smlen - p.cryptoBytes (countByte sm)))
            (viewSign (p := p) sm (smlen - p.cryptoBytes (countByte sm)) (countByte sm * p.seedLen + 1)) hpk (fun v hv => by
              have := Nat.mul_le_mul_right p.seedLen (hcount v hv)
              omega)
          intro he
          revert hw he
          cases lessVerify fuel sl (readPub pk) (seg sm 0 (smlen - p.cryptoBytes (countByte sm)))
            (viewSign (p := p) sm (smlen - p.cryptoBytes (countByte sm)) (countByte sm * p.seedLen + 1)) with
          | ok r => intro _ h; cases h
          | error e =>
            cases e with
            | oob => intro _ h; cases h
            | fuel => intro h _; exact h hF
        · simp
    revert hne hno hnf
    cases cryptoSignOpen fuel sl mcap sm pk with
    | ok x => intro _ h _; exact h ⟨x, rfl⟩
    | error e => cases e with
      | oob => intro h; exact absurd rfl h
      | fuel => intro _ _ h; exact h rfl
  obtain ⟨⟨r, out⟩, e⟩ := hret
  obtain ⟨h01, hbig, hres⟩ := C55_any_key hp hK hpk hlen e
  by_cases hn : p.maxPublishedSeeds ≤ (g sm (smlen - 1)).toNat
  · obtain ⟨rfl, rfl⟩ := hbig hn
    exact .inl ⟨hn, e⟩
  · obtain ⟨h1, h2, h3⟩ := hres _ rfl (Nat.lt_of_not_le hn)
    subst h2
    have hacc := h3 sig hsig
    refine .inr ⟨Nat.lt_of_not_le hn, seg sm 0 (smlen - p.cryptoBytes (g sm (smlen - 1)).toNat), ?_, ?_, ?_⟩
    · simp
    · simp; omega
    · rcases h01 with rfl | rfl
      · exact .inl ⟨hacc.1 rfl, e⟩
      · exact .inr ⟨fun h => absurd (hacc.2 h) (by decide), e⟩

/-- For the seven parameter sets the key is arbitrary: the two theorems apply to every string of the right length. -/
theorem C61_parameter_sets : ∀ p ∈ Params.all, ∀ (fuel : Nat) (sl : Nat → Stale p) (pk : Vector UInt8 p.pkLen),
    (∀ (m : Bytes) (sig : SignT p p.storageLen), VerifierFits p fuel (readPub pk).spec sig.spec →
      (lessVerify fuel sl (readPub pk) m sig = .error .oob ↔ MeetsOversized p fuel (readPub pk).spec sig.spec) ∧
      (lessVerify fuel sl (readPub pk) m sig = .ok 1 ↔
        ¬ MeetsOversized p fuel (readPub pk).spec sig.spec ∧ Accepts p fuel (readPub pk).spec m sig.spec) ∧
      (lessVerify fuel sl (readPub pk) m sig = .ok 0 ↔
        ¬ MeetsOversized p fuel (readPub pk).spec sig.spec ∧ ¬ Accepts p fuel (readPub pk).spec m sig.spec)) ∧
    ∀ (smlen : Nat) (sm : Vector UInt8 smlen) (mcap : Nat) (sig : Sig p), smlen < 2 ^ 64 → SigIn sm (g sm (smlen - 1)).toNat sig →
      VerifierFits p fuel (readPub pk).spec sig →
      (cryptoSignOpen fuel sl mcap sm pk = .error .oob ↔ OpenLeaves fuel mcap sm pk) ∧
      ∀ m, cryptoSignOpen fuel sl mcap sm pk = .ok (0, some m) ↔
        ¬ OpenLeaves fuel mcap sm pk ∧ (g sm (smlen - 1)).toNat < p.maxPublishedSeeds ∧ seg sm 0 m.length = m ∧
          m.length + p.cryptoBytes (g sm (smlen - 1)).toNat = smlen ∧ Accepts p fuel (readPub pk).spec m sig := by
  intro p hmem fuel sl pk
  obtain ⟨hp, hK, hkey⟩ := C44_every_key p hmem
  constructor
  · intro m sig hf
    rcases C61_verify_outcome hp hK fuel sl (readPub pk) (hkey _) m sig hf with ⟨h, e⟩ | ⟨h, ⟨h', e⟩ | ⟨h', e⟩⟩
    · simp [e, h]
    · simp [e, h, h']
    · simp [e, h, h']
  · intro smlen sm mcap sig hlen hs hf
    rcases C61_open_outcome hp hK hlen fuel sl mcap sm pk (hkey _) _ sig rfl hs hf with
      ⟨h, e⟩ | ⟨h, ⟨h', e⟩ | ⟨h', m', h1, h2, ⟨h3, e⟩ | ⟨h3, e⟩⟩⟩
    · simp [e, h]
    · simp [e, h]; intro m hlt; omega
    · rw [e]
      refine ⟨iff_of_false (by simp) h, fun m => ⟨fun hm => ?_, fun hm => ?_⟩⟩
      · injection hm with hm; injection hm with _ hm; injection hm with hm; subst hm
        exact ⟨h, h', h1, h2, h3⟩
      · obtain ⟨-, -, b1, b2, -⟩ := hm
        rw [← h1, ← b1, show m.length = m'.length by omega]
    · rw [e]
      refine ⟨iff_of_false (by simp) h, fun m => iff_of_false (by simp) ?_⟩
      rintro ⟨-, -, b1, b2, b3⟩
      rw [← b1, show m.length = m'.length by omega, h1] at b3
      exact h3 b3

end LESS
