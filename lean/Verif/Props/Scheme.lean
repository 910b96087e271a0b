import Verif.Proofs.Api
/-!
# Properties of key generation, signing and verification

`p.WF` holds for the seven parameter sets of parameters.h (`C43_parameter_sets_wellformed`); `RngOk` is the
invariant of the generator state kept by every call and established by its initialisation.  `fuel` bounds the
number of draws of each rejection loop; a result `.ok` says that the loops ended within that bound.  `sl` is the
content of uninitialised memory.
-/
namespace LESS

open Spec

variable {p : Params}

/-- A call under a larger bound. -/
theorem keygen_ok_mono {f f' : Nat} (h : f ≤ f') {sl : Nat → Stale p} {rng : Inc} {r} (hk : lessKeygen f sl rng = .ok r) :
    lessKeygen f' sl rng = .ok r := (lessKeygen_below h sl rng).ok hk

theorem sign_ok_mono {n f f' : Nat} (h : f ≤ f') {sl : Nat → Stale p} {rng : Inc} {sk : PriKey p} {m : Bytes} {out : SignT p n} {r}
    (hk : lessSign f sl rng sk m out = .ok r) : lessSign f' sl rng sk m out = .ok r := (lessSign_below h sl rng sk m out).ok hk

/-- Key generation produces a key pair in the sense of the specification. -/
theorem keygen_pair (hp : p.WF) {fuel : Nat} {sl : Nat → Stale p} {rng : Inc} (hr : RngOk p rng) {sk : PriKey p} {pk : PubKey p}
    {rng' : Inc} (hk : lessKeygen fuel sl rng = .ok (sk, pk, rng')) : KeyPair p fuel sk.spec pk.spec ∧ RngOk p rng' := by
  obtain ⟨s, hs⟩ := exists_stream p rng hr
  have h := (lessKeygen_wp hp fuel sl rng s hs).of_ok hk
  exact ⟨by rw [h.1]; exact h.2.1, h.2.2.1⟩

theorem keygen_canon (hp : p.WF) {fuel : Nat} {sl : Nat → Stale p} {rng : Inc} (hr : RngOk p rng) {sk : PriKey p} {pk : PubKey p}
    {rng' : Inc} (hk : lessKeygen fuel sl rng = .ok (sk, pk, rng')) : ∀ j < p.numKeypairs - 1, CanonCode p (pk.spec.codes j) :=
  fun j hj => ((keygen_pair hp hr hk).1.2 j hj).canon

theorem keygen_good (hp : p.WF) {fuel : Nat} {sl : Nat → Stale p} {rng : Inc} (hr : RngOk p rng) {sk : PriKey p} {pk : PubKey p}
    {rng' : Inc} (hk : lessKeygen fuel sl rng = .ok (sk, pk, rng')) : ∀ j < p.numKeypairs - 1, GoodCode p (pk.spec.codes j) :=
  fun j hj => ((keygen_pair hp hr hk).1.2 j hj).good

/-- Signing produces a signature in the sense of the specification. -/
theorem sign_signed (hp : p.WF) {n fuel : Nat} {sl : Nat → Stale p} {rng : Inc} (hr : RngOk p rng) {sk : PriKey p} {m : Bytes}
    {out sig : SignT p n} {num : Nat} {rng' : Inc} (hn : p.storageLen ≤ n)
    (hs : lessSign fuel sl rng sk m out = .ok (sig, num, rng')) :
    (∃ root, Signed p fuel sk.spec root m sig.spec num) ∧ RngOk p rng' := by
  obtain ⟨s, hst⟩ := exists_stream p rng hr
  have h := (lessSign_wp hp fuel sl rng sk m out s hst hn).of_ok hs
  exact ⟨⟨_, h.2.1⟩, h.2.2.2.2.1⟩

theorem storage_fits (hp : p.WF) {n fuel : Nat} (hn : p.maxPublishedBytes ≤ n) {s : Stream} :
    ∀ v, IsChallenge p fuel s v → pubCount p (hides v) * p.seedLen ≤ n :=
  fun _ hv => (pubCount_le hp hv.weight).trans hn

/-! ## C01 -/

/-- Every honest signature verifies: verification returns 1 (so it neither runs out of draws nor accesses memory
out of bounds) as soon as it may use as many draws as key generation and signing used. -/
theorem C01_honest_signature_verifies (hp : p.WF) {n : Nat} (hn : p.storageLen ≤ n) {fuel₁ fuel₂ : Nat}
    {sl₁ sl₂ : Nat → Stale p} {rng₁ rng₂ rng₁' rng₂' : Inc} (hr₁ : RngOk p rng₁) (hr₂ : RngOk p rng₂)
    {sk : PriKey p} {pk : PubKey p} (hkeygen : lessKeygen fuel₁ sl₁ rng₁ = .ok (sk, pk, rng₁'))
    {m : Bytes} {out sig : SignT p n} {num : Nat} (hsign : lessSign fuel₂ sl₂ rng₂ sk m out = .ok (sig, num, rng₂'))
    {fuel₃ : Nat} (h₁ : fuel₁ ≤ fuel₃) (h₂ : fuel₂ ≤ fuel₃) (sl₃ : Nat → Stale p) :
    lessVerify fuel₃ sl₃ pk m sig = .ok 1 := by
  have hk := keygen_ok_mono h₁ hkeygen
  have hs := sign_ok_mono h₂ hsign
  obtain ⟨⟨root, hS⟩, _⟩ := sign_signed hp hr₂ hn hs
  have hst : p.storageLen = p.maxPublishedBytes + 1 := rfl
  obtain ⟨hacc, hfits⟩ := complete hp (keygen_pair hp hr₁ hk).1 hS
  have h := lessVerify_wp hp fuel₃ sl₃ pk m sig (keygen_good hp hr₁ hk) (storage_fits hp (by omega))
  obtain ⟨r, hr, h⟩ := (h.monoF (fun hF => hF hfits)).exists_ok
  rcases h with ⟨rfl, _⟩ | ⟨_, h⟩
  · exact hr
  · exact absurd hacc (h _)

/-! ## C05, C06 -/

/-- Key generation performs no out-of-bounds access, and fails to return only if one of its rejection loops needs
more draws than allowed. -/
theorem C05_keygen_memory_safe (hp : p.WF) (fuel : Nat) (sl : Nat → Stale p) {rng : Inc} (hr : RngOk p rng) :
    lessKeygen fuel sl rng ≠ .error .oob := by
  obtain ⟨s, hs⟩ := exists_stream p rng hr
  intro h
  have := lessKeygen_wp hp fuel sl rng s hs
  rw [h] at this
  exact this

/-- Signing performs no out-of-bounds access, for any private key bytes. -/
theorem C05_sign_memory_safe (hp : p.WF) {n : Nat} (hn : p.storageLen ≤ n) (fuel : Nat) (sl : Nat → Stale p) {rng : Inc}
    (hr : RngOk p rng) (sk : PriKey p) (m : Bytes) (out : SignT p n) :
    lessSign fuel sl rng sk m out ≠ .error .oob := by
  obtain ⟨s, hs⟩ := exists_stream p rng hr
  intro h
  have := lessSign_wp hp fuel sl rng sk m out s hs hn
  rw [h] at this
  exact this

/-- Verification under an honest key performs no out-of-bounds access, whatever the signature and the message.
Not even the count byte need be present. -/
theorem C06_verify_memory_safe (hp : p.WF) {n : Nat} (hn : p.maxPublishedBytes ≤ n) {fuel₁ : Nat} {sl₁ : Nat → Stale p}
    {rng rng' : Inc} (hr : RngOk p rng) {sk : PriKey p} {pk : PubKey p}
    (hkeygen : lessKeygen fuel₁ sl₁ rng = .ok (sk, pk, rng')) (fuel : Nat) (sl : Nat → Stale p) (m : Bytes) (sig : SignT p n) :
    lessVerify fuel sl pk m sig ≠ .error .oob := by
  intro h
  have := lessVerify_wp hp fuel sl pk m sig (keygen_good hp hr hkeygen) (storage_fits hp hn)
  rw [h] at this
  exact this

/-! ## C08, C09, C10 -/

/-- Verification returns 0 or 1; it returns 1 exactly if the signature is accepted by the specification: the
challenge is expanded from the digest, all responses are valid, and the digest is the hash of the recomputed
commitments, the message and the salt.  It returns whenever the samplers finish within the bound. -/
theorem C09_accept_iff_digest_matches (hp : p.WF) {n : Nat} (hn : p.maxPublishedBytes ≤ n) {fuel₁ : Nat} {sl₁ : Nat → Stale p}
    {rng rng' : Inc} (hr : RngOk p rng) {sk : PriKey p} {pk : PubKey p}
    (hkeygen : lessKeygen fuel₁ sl₁ rng = .ok (sk, pk, rng')) (fuel : Nat) (sl : Nat → Stale p) (m : Bytes) (sig : SignT p n) :
    (∀ r, lessVerify fuel sl pk m sig = .ok r → (r = 0 ∨ r = 1) ∧ (r = 1 ↔ Accepts p fuel pk.spec m sig.spec)) ∧
    (VerifierFits p fuel pk.spec sig.spec → ∃ r, lessVerify fuel sl pk m sig = .ok r) := by
  have h := lessVerify_wp hp fuel sl pk m sig (keygen_good hp hr hkeygen) (storage_fits hp hn)
  constructor
  · intro r e
    rcases h.of_ok e with ⟨rfl, h⟩ | ⟨rfl, h⟩
    · exact ⟨Or.inr rfl, iff_of_true rfl h⟩
    · exact ⟨Or.inl rfl, iff_of_false (by decide) (h _)⟩
  · intro hf
    obtain ⟨r, e, _⟩ := (h.monoF (fun hF => hF hf)).exists_ok
    exact ⟨r, e⟩

/-- A response that is used (round `i` has challenge `v i ≠ 0`) and that contains a factor 0 or ≥ 127, a column
index ≥ N or a repeated column index is rejected. -/
theorem C08_malformed_action_rejected (hp : p.WF) {n : Nat} (hn : p.maxPublishedBytes ≤ n) {fuel₁ : Nat} {sl₁ : Nat → Stale p}
    {rng rng' : Inc} (hr : RngOk p rng) {sk : PriKey p} {pk : PubKey p}
    (hkeygen : lessKeygen fuel₁ sl₁ rng = .ok (sk, pk, rng')) (fuel : Nat) (sl : Nat → Stale p) (m : Bytes) (sig : SignT p n)
    {v : Nat → Nat} (hv : IsChallenge p fuel (xof p sig.digest.toList) v) {i : Nat} (hi : i < p.T) (hvi : v i ≠ 0)
    (a : Action p) (ha : a = Spec.decodeAction p (g sig.monomActions (responsesBefore v i)))
    (hbad : (∃ t < p.K, a.coef t = 0 ∨ 127 ≤ a.coef t) ∨ (∃ t < p.K, p.N ≤ a.perm t) ∨
      ∃ s < p.K, ∃ t < p.K, s ≠ t ∧ a.perm s = a.perm t) :
    ∀ r, lessVerify fuel sl pk m sig = .ok r → r = 0 := by
  intro r e
  obtain ⟨h01, hiff⟩ := (C09_accept_iff_digest_matches hp hn hr hkeygen fuel sl m sig).1 r e
  rcases h01 with h | h
  · exact h
  · exfalso
    obtain ⟨v', coms, hv', hc, _⟩ := hiff.1 h
    have hvv : v = v' := hv.unique hv'
    subst hvv
    have := hc i hi
    unfold RoundCommit at this
    rw [if_neg hvi] at this
    obtain ⟨⟨h1, h2, h3⟩, _⟩ := this
    have e2 : Spec.decodeAction p (sig.spec.responses (responsesBefore v i)) = a := ha.symm
    rw [e2] at h1 h2 h3
    rcases hbad with ⟨t, ht, h0⟩ | ⟨t, ht, h0⟩ | ⟨s, hs, t, ht, hne, h0⟩
    · have := h1 t ht; omega
    · have := h2 t ht; omega
    · exact hne (h3 s hs t ht h0)

theorem flatMap_commit_cancel {coms coms' : Nat → List (List Nat)} {x y : Bytes} {n : Nat} (h : ∀ i < n, coms i = coms' i) :
    (List.range n).flatMap (fun i => commitBytes p.K (coms i)) ++ x = (List.range n).flatMap (fun i => commitBytes p.K (coms' i)) ++ y ↔
      x = y := by
  rw [commits_congr h, List.append_cancel_left_eq]

/-- Two messages accepted with the same signature: the two strings that the two verifications hash are different
and have the same hash.  The strings are the transcripts with the commitments recomputed from the signature. -/
theorem C10_no_transfer_without_collision (hp : p.WF) {n : Nat} (hn : p.maxPublishedBytes ≤ n) {fuel₁ : Nat} {sl₁ : Nat → Stale p}
    {rng rng' : Inc} (hr : RngOk p rng) {sk : PriKey p} {pk : PubKey p}
    (hkeygen : lessKeygen fuel₁ sl₁ rng = .ok (sk, pk, rng')) {fuel fuel' : Nat} {sl sl' : Nat → Stale p} {m m' : Bytes}
    {sig : SignT p n} (hm : m ≠ m') (h : lessVerify fuel sl pk m sig = .ok 1) (h' : lessVerify fuel' sl' pk m' sig = .ok 1) :
    ∃ v coms, IsChallenge p fuel (xof p sig.digest.toList) v ∧
      (∀ i < p.T, RoundCommit p fuel pk.spec sig.spec v i (coms i)) ∧
      transcript p coms m sig.treeSalt.toList ≠ transcript p coms m' sig.treeSalt.toList ∧
      hash p (transcript p coms m sig.treeSalt.toList) = sig.digest.toList ∧
      hash p (transcript p coms m' sig.treeSalt.toList) = sig.digest.toList := by
  obtain ⟨v, coms, a1, a2, a3⟩ := ((C09_accept_iff_digest_matches hp hn hr hkeygen fuel sl m sig).1 1 h).2.1 rfl
  obtain ⟨v', coms', b1, b2, b3⟩ := ((C09_accept_iff_digest_matches hp hn hr hkeygen fuel' sl' m' sig).1 1 h').2.1 rfl
  have hv : v = v' := a1.unique b1
  subst hv
  have hc : ∀ i < p.T, coms i = coms' i := fun i hi => (a2 i hi).unique (b2 i hi)
  refine ⟨v, coms, a1, a2, ?_, a3.symm, ?_⟩
  · intro e
    unfold transcript at e
    rw [List.append_cancel_right_eq, List.append_cancel_left_eq] at e
    exact hm e
  · rw [show sig.digest.toList = sig.spec.digest from rfl, b3]
    unfold transcript
    rw [commits_congr hc]
    rfl

/-! ## C46 -/

/-- The seed of the public code is the same in both keys, and each public code is the encoding of the reduced
form `R` of `G0 * M⁻¹`, where `M` is expanded from the private seed with the same number. -/
theorem C46_public_key_bound_to_secret (hp : p.WF) {fuel : Nat} {sl : Nat → Stale p} {rng rng' : Inc} (hr : RngOk p rng)
    {sk : PriKey p} {pk : PubKey p} (hkeygen : lessKeygen fuel sl rng = .ok (sk, pk, rng')) :
    pk.G0seed = sk.G0seed ∧ ∀ i < p.numKeypairs - 1, ∃ G0 M Minv R piv,
      IsG0 p fuel (xof p sk.G0seed.toList) G0 ∧ IsSecret p fuel sk.compressedSk.toList i M ∧ M * Minv = 1 ∧
      RowEq (G0 * Minv) R ∧ IsRREF R piv ∧ decodeCode p (g pk.SFG i) = R := by
  obtain ⟨h1, h2⟩ := (keygen_pair hp hr hkeygen).1
  refine ⟨Vector.toList_inj.1 h1, fun i hi => ?_⟩
  obtain ⟨G0, M, R, piv, a1, a2, a3, a4, a5⟩ := h2 i hi
  obtain ⟨m, hm, rfl⟩ := IsMonomial.valid hp a2
  obtain ⟨r, _, hinv⟩ := hm.rightInv (Nat.le_of_lt hp.N_lt)
  refine ⟨G0, m.mat, r.mat, R, piv, a1, a2, hinv, ?_, a4, ?_⟩
  · obtain ⟨P, hP, e⟩ := a3
    exact ⟨P, hP, by rw [← Matrix.mul_assoc, ← e, Matrix.mul_assoc, hinv, Matrix.mul_one]⟩
  · rw [show g pk.SFG i = pk.spec.codes i from rfl, a5]
    exact (canonCode_codeBits p a4).2

end LESS
