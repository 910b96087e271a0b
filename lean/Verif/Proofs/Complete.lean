import Verif.Proofs.Sign
/-!
# An honest signature is accepted
-/
namespace LESS
open Spec

variable {p : Params} {F : Prop}

/-- A matrix expanded from a seed comes from a valid monomial. -/
theorem Spec.IsMonomial.valid (hp : p.WF) {B : Nat} {seed : Bytes} {M : Matrix (Fin p.N) (Fin p.N) Fq}
    (h : IsMonomial p B (xof p seed) M) : ∃ m : Monomial p, m.Valid ∧ m.mat = M := by
  have h1 := monomialFromState_stream B (⟨Vector.replicate _ 0, Vector.replicate _ 0⟩ : Monomial p) (initCsprng p seed)
    (xof p seed) (by have := hp.K_lt_N; omega) hp.N_lt.le (xof_at p seed)
  obtain ⟨r, _, hr1, hr2, _⟩ := (h1.monoF (F' := False) (fun hn => hn ⟨M, h⟩)).exists_ok
  exact ⟨r.1, hr1, hr2.unique h⟩

/-- Monomial matrices as maps of coordinates. -/
theorem Monomial.Valid.perm {m : Monomial p} (h : m.Valid) :
    ∃ (π : Equiv.Perm (Fin p.N)) (c : Fin p.N → Fq), (∀ i, c i ≠ 0) ∧
      ∀ i j, m.mat i j = if π i = j then c i else 0 := by
  let f : Fin p.N → Fin p.N := fun i => ⟨g m.permutation i, h.1.1 i i.2⟩
  have hf : Function.Bijective f := by
    rw [Finite.injective_iff_bijective.symm]
    intro a b hab
    exact Fin.ext (h.1.2 a b a.2 b.2 (congrArg Fin.val hab))
  refine ⟨Equiv.ofBijective f hf, fun i => ((g m.coefficients i : Nat) : Fq), fun i e => ?_, fun i j => ?_⟩
  · dsimp only at e
    have := h.2 i i.2
    have e2 : ((g m.coefficients i : Nat) : Fq) = ((0 : Nat) : Fq) := by rw [e]; rfl
    have := cast_inj this.2 (by decide) e2
    omega
  · simp only [Monomial.mat, Equiv.ofBijective_apply, f, Fin.ext_iff]

theorem exists_perm_mul (hp : p.WF) {B B' : Nat} {s s' : Bytes} {S M : Matrix (Fin p.N) (Fin p.N) Fq}
    (hS : IsMonomial p B (xof p s) S) (hM : IsMonomial p B' (xof p s') M) :
    ∃ (π : Equiv.Perm (Fin p.N)) (c : Fin p.N → Fq), (∀ i, c i ≠ 0) ∧
      ∀ i j, (S * M) i j = if π i = j then c i else 0 := by
  obtain ⟨a, ha, rfl⟩ := hS.valid hp
  obtain ⟨b, hb, rfl⟩ := hM.valid hp
  obtain ⟨r, _, hr⟩ := (monomialMul_wp a a b ha.1).exists_ok
  rw [← mat_mul ha hb hr]
  exact (mul_valid ha hb hr).perm

/-- The response an honest signer gives leads the verifier to the committed code. -/
theorem response_commit (hp : p.WF) {G0 Q R : Matrix (Fin p.K) (Fin p.N) Fq} {N : Matrix (Fin p.N) (Fin p.N) Fq}
    {M S : Matrix (Fin p.N) (Fin p.N) Fq} {piv piv' : Fin p.K → Fin p.N}
    (hN : N = S * M)
    (hperm : ∃ (π : Equiv.Perm (Fin p.N)) (c : Fin p.N → Fq), (∀ i, c i ≠ 0) ∧ ∀ i j, N i j = if π i = j then c i else 0)
    (hQ : RowEq G0 (Q * S)) (hQr : IsRREF Q piv') (h1 : RowEq (G0 * M) R) (h2 : IsRREF R piv)
    (a : Action p) (ha : a.Valid)
    (hresp : ∀ t : Fin p.K, ∀ h : a.perm t < p.N, N ⟨a.perm t, h⟩ (piv t) = ((a.coef t : Nat) : Fq)) :
    IsCommit (actOn Q a) (commitment R piv) := by
  have hKN := Nat.le_of_lt hp.K_lt_N
  obtain ⟨π, c, hc, hNe⟩ := hperm
  obtain ⟨σ, d, hd, hact, hσ⟩ := actOn_colMap hp Q a ha
  obtain ⟨P, hP, hPG⟩ := hQ
  have hPA : P * (G0 * M) = Q * N := by rw [← Matrix.mul_assoc, ← hPG, Matrix.mul_assoc, hN]
  have hcol : ∀ i j, (Q * N) i (π j) = Q i j * c j := by
    intro i j
    rw [Matrix.mul_apply, Finset.sum_eq_single j]
    · rw [hNe, if_pos rfl]
    · intro b _ hb
      rw [hNe, if_neg (fun e => hb (π.injective e)), mul_zero]
    · intro h; exact absurd (Finset.mem_univ _) h
  refine commitment_colMap hKN h1 h2 ?_ P hP (σ.trans π) (fun j => (c (σ j))⁻¹ * d j)
    (fun j => mul_ne_zero (inv_ne_zero (hc _)) (hd _)) ?_ ?_
  · rw [hact]
    exact (monoEq_colMap Q σ d hd).fullRank (IsRREF.fullRank hQr)
  · intro i j
    rw [hact, hPA, Equiv.trans_apply, hcol, colMap]
    rw [mul_assoc, ← mul_assoc (c _), mul_inv_cancel₀ (hc _), one_mul]
  · intro t
    have hlt := ha.2.1 t t.2
    have he : σ (Fin.castLE hKN t) = ⟨a.perm t, hlt⟩ := Fin.ext (hσ t).1
    have hr := hresp t hlt
    have hne : ((a.coef t : Nat) : Fq) ≠ 0 := by rw [← (hσ t).2]; exact hd _
    rw [hNe] at hr
    by_cases hπ : π ⟨a.perm t, hlt⟩ = piv t
    · rw [if_pos hπ] at hr
      refine ⟨by rw [Equiv.trans_apply, he, hπ], ?_⟩
      show (c (σ _))⁻¹ * d _ = 1
      rw [he, (hσ t).2, hr, inv_mul_cancel₀ hne]
    · rw [if_neg hπ] at hr
      exact absurd hr.symm hne

/-- The encoding of a response. -/
def encodeAction (p : Params) (a : Action p) : Vector UInt8 p.monoBytes := packed p.monoBytes
  (bitFields (indexBits p) ((List.range p.K).map a.perm) ++ bitFields 7 ((List.range p.K).map a.coef))

theorem decode_encode (hp : p.WF) (a : Action p) (ha : a.Valid) :
    (∀ t < p.K, (Spec.decodeAction p (encodeAction p a)).perm t = a.perm t) ∧
      ∀ t < p.K, (Spec.decodeAction p (encodeAction p a)).coef t = a.coef t := by
  let m : MonoAction p := ⟨Vector.ofFn fun t => a.coef t, Vector.ofFn fun t => a.perm t⟩
  have hm1 : ∀ t < p.K, g m.permutation t = a.perm t := fun t ht => by simp only [m]; rw [g_ofFn _ _ ht]
  have hm2 : ∀ t < p.K, g m.coefficients t = a.coef t := fun t ht => by simp only [m]; rw [g_ofFn _ _ ht]
  have hbits : encodeAction p a = packed p.monoBytes (actionBits m) := by
    unfold encodeAction
    rw [actionBits_eq]
    congr 3
    · exact List.map_congr_left fun t ht => (hm1 t (List.mem_range.mp ht)).symm
    · exact List.map_congr_left fun t ht => (hm2 t (List.mem_range.mp ht)).symm
  have hv := valid_congr (b := ⟨g m.permutation, g m.coefficients⟩) (fun t ht => (hm1 t ht).symm)
    (fun t ht => (hm2 t ht).symm) ha
  have hfits : m.Fits := MonoAction.Valid.fits hp ⟨hv.1, hv.2.1, fun s t hs ht => hv.2.2 s hs t ht⟩
  rw [hbits]
  have := decode_packed hp m hfits
  refine ⟨fun t ht => ?_, fun t ht => ?_⟩
  · rw [← decodeAction_perm _ t ht, this, hm1 t ht]
  · rw [← decodeAction_coef _ t ht, this, hm2 t ht]

/-- The rounds of an honest signature: the commitments the signer made are those a verifier recomputes. -/
theorem signed_rounds (hp : p.WF) {B : Nat} {sk : SK p} {pk : PK p} {root m : List UInt8} {sig : Sig p} {count : Nat}
    (hk : KeyPair p B sk pk) (hs : Signed p B sk root m sig count) :
    ∃ v coms G0, IsG0 p B (xof p sk.seed) G0 ∧ IsChallenge p B (xof p sig.digest) v ∧
      sig.digest = hash p (transcript p coms m sig.salt) ∧
      ∀ i < p.T, RoundCommit p B pk sig v i (coms i) ∧
        ∃ M, IsMonomial p B (roundStream p sig.salt (signerLeaf p root sig.salt i) i) M ∧ IsCommit (G0 * M) (coms i) ∧
          (v i = 0 → IsMonomial p B (roundStream p sig.salt (rebuiltLeaf p sig v i) i) M) := by
  obtain ⟨hroot, v, coms, G0, hG0, hch, hdig, hround, hcount, hstored⟩ := hs
  have hhid := hidden_exists hp hch.weight
  have hTl := hp.T_lt_leaves
  have hleaf : ∀ i < p.T, v i = 0 → rebuiltLeaf p sig v i = signerLeaf p root sig.salt i := by
    intro i hi hv
    unfold rebuiltLeaf signerLeaf
    apply rebuilt_eq_nodeSeed _ _ _ hhid hstored
    · omega
    · rw [covers_leaf_iff (by omega) i (by omega)]
      rintro ⟨-, h⟩
      simp [hides, hv] at h
  refine ⟨v, coms, G0, hG0, hch, hdig, fun i hi => ?_⟩
  obtain ⟨M, R, piv, g1, g2, g3, g4, g5⟩ := hround i hi
  refine ⟨?_, M, g1, ⟨R, piv, g2, g3, g4⟩, fun hv => by rw [hleaf i hi hv]; exact g1⟩
  unfold RoundCommit
  by_cases hv : v i = 0
  · rw [if_pos hv, hleaf i hi hv, hk.1]
    exact ⟨G0, M, hG0, g1, R, piv, g2, g3, g4⟩
  · rw [if_neg hv]
    obtain ⟨S, hS, a, ha, hbuf, hent⟩ := g5 hv
    have hrange := (hch.range (by have := hp.numKeypairs_ge; omega) i).1
    obtain ⟨G0', S', Q, piv', hG0', hS', hQ, hQr, hcode⟩ := hk.2 (v i - 1) (by omega)
    obtain rfl := hG0.unique hG0'
    obtain rfl := IsMonomial.unique hS hS'
    have hdec := decode_encode hp a ha
    have e1 : sig.responses (responsesBefore v i) = encodeAction p a := hbuf
    rw [e1]
    refine ⟨valid_congr (fun t ht => (hdec.1 t ht).symm) (fun t ht => (hdec.2 t ht).symm) ha, ?_⟩
    rw [actOn_congr hdec.1 hdec.2, hcode, (canonCode_codeBits p hQr).2, g4]
    exact response_commit hp rfl (exists_perm_mul hp hS g1) hQ hQr g2 g3 a ha hent

theorem complete (hp : p.WF) {B : Nat} {sk : SK p} {pk : PK p} {root m : List UInt8} {sig : Sig p} {count : Nat}
    (hk : KeyPair p B sk pk) (hs : Signed p B sk root m sig count) :
    Accepts p B pk m sig ∧ VerifierFits p B pk sig := by
  obtain ⟨v, coms, G0, hG0, hch, hdig, hr⟩ := signed_rounds hp hk hs
  refine ⟨⟨v, coms, hch, fun i hi => (hr i hi).1, hdig⟩, ⟨G0, by rw [hk.1]; exact hG0⟩, v, hch, fun i hi hv => ?_⟩
  obtain ⟨-, M, -, -, h⟩ := hr i hi
  exact ⟨M, h hv⟩

end LESS
