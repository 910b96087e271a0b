import Verif.Proofs.Commit
import Verif.Spec.Less
/-!
# Responses: the verifier's recomputation of a commitment
-/
namespace LESS

open Spec (RowEq IsRREF FullRank MonoEq)

variable {p : Params}

/-! ## Monomial equivalence -/

theorem monoEq_of_rowEq {k n : Nat} {A B : Matrix (Fin k) (Fin n) Fq} (h : RowEq A B) : MonoEq A B := by
  obtain ⟨P, hP, rfl⟩ := h
  exact ⟨P, hP, Equiv.refl _, fun _ => 1, fun _ => one_ne_zero, fun i j => by simp⟩

theorem Spec.MonoEq.trans {k n : Nat} {A B C : Matrix (Fin k) (Fin n) Fq} (h1 : MonoEq A B) (h2 : MonoEq B C) :
    MonoEq A C := by
  obtain ⟨P, hP, σ, d, hd, h⟩ := h1
  obtain ⟨P', hP', σ', d', hd', h'⟩ := h2
  refine ⟨P' * P, hP'.mul hP, σ'.trans σ, fun j => d (σ' j) * d' j, fun j => mul_ne_zero (hd _) (hd' _), ?_⟩
  intro i j
  rw [h', Matrix.mul_apply, Matrix.mul_assoc, Matrix.mul_apply]
  simp only [h, Equiv.trans_apply, Finset.sum_mul]
  exact Finset.sum_congr rfl fun _ _ => by ring

theorem Spec.MonoEq.symm {k n : Nat} {A B : Matrix (Fin k) (Fin n) Fq} (h : MonoEq A B) : MonoEq B A := by
  obtain ⟨P, hP, σ, d, hd, h⟩ := h
  obtain ⟨u, rfl⟩ := hP
  refine ⟨_, (u⁻¹).isUnit, σ.symm, fun j => (d (σ.symm j))⁻¹, fun j => inv_ne_zero (hd _), ?_⟩
  have hB : ∀ i j, B i (σ.symm j) * (d (σ.symm j))⁻¹ = ((u : Matrix (Fin k) (Fin k) Fq) * A) i j := by
    intro i j
    rw [h, Equiv.apply_symm_apply, mul_assoc, mul_inv_cancel₀ (hd _), mul_one]
  intro i j
  rw [Matrix.mul_apply, Finset.sum_mul]
  simp only [mul_assoc, hB]
  rw [← Matrix.mul_apply, ← Matrix.mul_assoc, Units.inv_mul, Matrix.one_mul]

theorem Spec.MonoEq.refl {k n : Nat} (A : Matrix (Fin k) (Fin n) Fq) : MonoEq A A := monoEq_of_rowEq (RowEq.refl A)

theorem Spec.MonoEq.fullRank {k n : Nat} {A B : Matrix (Fin k) (Fin n) Fq} (h : MonoEq A B) (hA : FullRank A) :
    FullRank B := by
  obtain ⟨P, hP, σ, d, hd, h⟩ := h
  have hPA : FullRank (P * A) := RowEq.fullRank ⟨P, hP, rfl⟩ hA
  intro v hv
  apply hPA
  ext j
  have := congrFun hv (σ.symm j)
  simp only [Matrix.vecMul, dotProduct, Pi.zero_apply, h, Equiv.apply_symm_apply] at this ⊢
  have e : (∑ x, v x * ((P * A) x j * d (σ.symm j))) = (∑ x, v x * (P * A) x j) * d (σ.symm j) := by
    rw [Finset.sum_mul]; exact Finset.sum_congr rfl fun _ _ => by ring
  rw [e] at this
  exact (mul_eq_zero.mp this).resolve_right (hd _)

/-- Columns `σ j` of `A`, scaled by `d j`. -/
def colMap {k n : Nat} (A : Matrix (Fin k) (Fin n) Fq) (σ : Equiv.Perm (Fin n)) (d : Fin n → Fq) :
    Matrix (Fin k) (Fin n) Fq := fun i j => A i (σ j) * d j

theorem monoEq_colMap {k n : Nat} (A : Matrix (Fin k) (Fin n) Fq) (σ : Equiv.Perm (Fin n)) (d : Fin n → Fq)
    (hd : ∀ j, d j ≠ 0) : MonoEq A (colMap A σ d) := ⟨1, isUnit_one, σ, d, hd, fun i j => by simp [colMap]⟩

/-! ## `apply_action_to_G` as a map of columns -/

theorem applyActionToG_mat (res G : GenMat p) (a : MonoAction p) (hKN : p.K ≤ p.N) (ha : a.Valid) (hG : Reduced G) :
    Wp False (applyActionToG res G a) (fun R => Reduced R ∧ ∃ σ d, (∀ j, d j ≠ 0) ∧
      matOf R = colMap (matOf G) σ d ∧
      matOf R = Spec.actOn (matOf G) ⟨g a.permutation, g a.coefficients⟩ ∧
      ∀ t : Fin p.K, (σ (Fin.castLE hKN t)).val = g a.permutation t ∧
        d (Fin.castLE hKN t) = ((g a.coefficients t : Nat) : Fq)) := by
  refine (applyActionToG_wp res G a hKN ha).mono ?_
  rintro R ⟨hR, picked, hcount, hp, h1, h2⟩
  refine ⟨hR hG, ?_⟩
  -- source of column `j`
  have hsrc : ∀ j : Fin p.N, ∃ s : Fin p.N, (j.val < p.K → s.val = g a.permutation j) ∧
      (¬ j.val < p.K → g picked s = 0 ∧ (nonPiv picked s).length = j.val - p.K) := by
    intro j
    by_cases hj : j.val < p.K
    · exact ⟨⟨_, ha.2.1 j hj⟩, fun _ => rfl, fun h => absurd hj h⟩
    · have hz : j.val - p.K < (nonPiv picked p.N).length := by omega
      obtain ⟨r1, r2, r3⟩ := nonPiv_rank picked p.N (j.val - p.K) _ (List.getElem?_eq_getElem hz)
      exact ⟨⟨_, r2⟩, fun h => absurd h hj, fun _ => ⟨r3, r1⟩⟩
  choose src hs1 hs2 using hsrc
  have hsinj : Function.Injective src := by
    intro j k h
    by_cases hj : j.val < p.K
    · by_cases hk : k.val < p.K
      · exact Fin.ext (ha.2.2 j k hj hk (by rw [← hs1 j hj, ← hs1 k hk, h]))
      · exfalso
        have := (hs2 k hk).1
        rw [← h, hp _ (src j).2, if_pos ⟨j, hj, (hs1 j hj).symm⟩] at this
        exact absurd this (by decide)
    · by_cases hk : k.val < p.K
      · exfalso
        have := (hs2 j hj).1
        rw [h, hp _ (src k).2, if_pos ⟨k, hk, (hs1 k hk).symm⟩] at this
        exact absurd this (by decide)
      · have h3 := (hs2 j hj).2
        have h4 := (hs2 k hk).2
        rw [h, h4] at h3
        exact Fin.ext (by omega)
  refine ⟨Equiv.ofBijective src (Finite.injective_iff_bijective.mp hsinj),
    fun j => if j.val < p.K then ((g a.coefficients j : Nat) : Fq) else 1, ?_, ?_, ?_, ?_⟩
  · intro j
    dsimp only
    split
    · rename_i hj
      have := ha.1 j hj
      intro h0
      have := (cast_eq_zero (by omega)).mp h0
      omega
    · exact one_ne_zero
  · ext i j
    simp only [colMap, Equiv.ofBijective_apply]
    by_cases hj : j.val < p.K
    · have := ha.1 j hj
      rw [if_pos hj]
      show ((g2 R i j : Nat) : Fq) = ((g2 G i (src j) : Nat) : Fq) * _
      rw [h1 i j i.2 hj, hs1 j hj, fqRed_mul_cast (hG _ _ i.2 (ha.2.1 j hj)) (by omega)]
    · rw [if_neg hj, mul_one]
      show ((g2 R i j : Nat) : Fq) = ((g2 G i (src j) : Nat) : Fq)
      have := hs2 j hj
      have h3 := h2 i (src j) i.2 (src j).2 this.1
      rw [this.2, show p.K + (j.val - p.K) = j.val by omega] at h3
      rw [h3]
  · have hrest : Spec.restCols p (g a.permutation) = nonPiv picked p.N := by
      unfold Spec.restCols nonPiv
      apply List.filter_congr
      intro j hj
      rw [List.mem_range] at hj
      rw [hp j hj]
      by_cases h : ∃ t, t < p.K ∧ g a.permutation t = j
      · rw [if_pos h]
        obtain ⟨t, ht, e⟩ := h
        simp only [one_ne_zero, decide_false, decide_eq_false_iff_not]
        intro h; exact h t ht e
      · rw [if_neg h]
        simp only [decide_true, decide_eq_true_eq]
        intro t ht e; exact h ⟨t, ht, e⟩
    ext i j
    unfold Spec.actOn Spec.entry
    rw [hrest]
    by_cases hj : j.val < p.K
    · have := ha.1 j hj
      have hlt := ha.2.1 j hj
      rw [if_pos hj, dif_pos hlt]
      show ((g2 R i j : Nat) : Fq) = ((g2 G i _ : Nat) : Fq) * _
      rw [h1 i j i.2 hj, fqRed_mul_cast (hG _ _ i.2 (ha.2.1 j hj)) (by omega)]
    · have h4 := hs2 j hj
      have h3 := h2 i (src j) i.2 (src j).2 h4.1
      rw [h4.2, show p.K + (j.val - p.K) = j.val by omega] at h3
      have h5 := nonPiv_getElem picked p.N (src j) (src j).2 h4.1
      rw [h4.2] at h5
      have h6 : (nonPiv picked p.N).getD (j.val - p.K) 0 = (src j).val := by
        rw [List.getD_eq_getElem?_getD, h5]; rfl
      rw [if_neg hj]
      simp only [h6, (src j).2, dite_true]
      show ((g2 R i j : Nat) : Fq) = ((g2 G i _ : Nat) : Fq)
      rw [h3]
  · intro t
    exact ⟨hs1 _ t.2, by simp⟩

/-! ## The verifier's commitment -/

/-- The verifier's computation on a matrix and a valid response. -/
def verifyTail (sl : Stale p) (G : GenMat p) (act : MonoAction p) : C (Option (NormIS p)) := do
  let Gh ← applyActionToG (Vector.replicate p.K (Vector.replicate p.N 0)) G act
  let (_, Gh, isPivot) ← generatorRREF Gh (Vector.replicate p.N 0)
  let (V, _) ← forUp p.N (fun col (s : NormIS p × Nat) => do
    let (V, placed) := s
    let f ← rd isPivot col
    if f = 0 then do
      let V ← lexMinimize V placed Gh (col % p.posMod)
      pure (V, (placed + 1) % p.posMod)
    else pure (V, placed)) (sl.norm, 0)
  let V ← lexSortCols V
  pure (some V)

/-- Outcome of the commitment computation of `LESS_verify`, for codes that the computation cannot tell from a reduced
matrix of full rank. -/
theorem verifyResponse_wp (hp : p.WF) (sl : Stale p) (sfg : Vector UInt8 p.rrefBytes)
    (resp : Vector UInt8 p.monoBytes) (hz : (nonPiv (decFlags sfg) p.N).length ≤ p.N - p.K) (C : GenMat p)
    (hred : Reduced C) (hfull : FullRank (matOf C)) (hC : matOf (decodeRref sfg) = matOf C)
    (htail : ∀ a : MonoAction p, a.Valid → verifyTail sl (decodeRref sfg) a = verifyTail sl C a) :
    Wp False (verifyResponse sl sfg resp) (fun o => match o with
      | none => ¬ (decodeAction resp).Valid
      | some V => (decodeAction resp).Valid ∧ ∃ σ d, (∀ j, d j ≠ 0) ∧
        colMap (matOf (decodeRref sfg)) σ d = Spec.actOn (matOf (decodeRref sfg))
          ⟨g (decodeAction resp).permutation, g (decodeAction resp).coefficients⟩ ∧
        (∀ t : Fin p.K, (σ (Fin.castLE (Nat.le_of_lt hp.K_lt_N) t)).val = g (decodeAction resp).permutation t ∧
          d (Fin.castLE (Nat.le_of_lt hp.K_lt_N) t) = ((g (decodeAction resp).coefficients t : Nat) : Fq)) ∧
        ∃ R f piv, RrefOut (colMap (matOf (decodeRref sfg)) σ d) R f piv ∧
          (colsOf V).Perm (normCols R f) ∧ (colsOf V).Pairwise (· ≤ ·)) := by
  have hKN := hp.K_lt_N
  have hNp := hp.N_lt
  unfold verifyResponse
  rw [expandToRref_eq hp _ _ hz, expandToMonomAction_eq hp]
  simp only [Wp.bind_iff, Wp.ok_iff]
  refine (isMonomActionValid_wp _).mono ?_
  rintro r (⟨rfl, hv⟩ | ⟨rfl, hv⟩)
  · rw [if_neg (by decide)]
    refine Eq.mpr (congrArg (fun x => Wp False x _) (htail _ hv)) ?_
    rw [hC]
    unfold verifyTail
    simp only [Wp.bind_iff]
    refine (applyActionToG_mat _ _ _ (Nat.le_of_lt hKN) hv hred).mono ?_
    rintro Gh ⟨hGh, σ, d, hd, hmat, hact, hσ⟩
    refine (generatorRREF_full Gh (Nat.le_of_lt hKN) hGh (by
      rw [hmat]; exact (monoEq_colMap _ σ d hd).fullRank hfull)).mono ?_
    rintro ⟨ok, R, f⟩ ⟨-, piv, hR⟩
    rw [hmat] at hR
    simp only at hR ⊢
    have hcount := nonPiv_count hR.flags hR.rref.mono
    refine Wp.forUp (fun col (s : NormIS p × Nat) =>
      (∀ c, c < col → g f c = 0 → colOf s.1 (nonPiv f c).length = normCol (colOf R c)) ∧
      s.2 = (nonPiv f col).length) ⟨by simp, by simp [nonPiv]⟩ ?_ ?_
    · rintro col ⟨V, placed⟩ hcol ⟨i1, i2⟩
      simp only at i1 i2
      simp only [Wp.bind_iff, Wp.rd_iff, Wp.ite_iff, Wp.pure_iff]
      refine ⟨hcol, fun h0 => ?_, fun h0 => ⟨fun c hlt hf => ?_, ?_⟩⟩
      · have hlt := nonPiv_length_lt f hcol h0
        rw [Nat.mod_eq_of_lt (show col < p.posMod by omega), i2]
        refine (lexMinimize_wp V _ R col (by omega) hcol
          (fun i hi => Nat.lt_trans (hR.reduced i col hi hcol) (by decide))).mono ?_
        rintro V' ⟨v1, v2⟩
        refine ⟨fill_step hcount hcol h0 i1 v1 v2, ?_⟩
        rw [nonPiv_length_succ, if_pos h0, Nat.mod_eq_of_lt (by omega)]
      · refine i1 c ?_ hf
        rcases Nat.lt_succ_iff_lt_or_eq.mp hlt with h | h
        · exact h
        · subst h; exact absurd hf h0
      · rw [nonPiv_length_succ, if_neg h0, i2]; rfl
    · rintro ⟨V, placed⟩ ⟨i1, i2⟩
      simp only at i1 i2 ⊢
      have hcols := colsOf_eq_of_rank hcount i1
      refine (lexSortCols_wp V (by omega) (by omega) (bytes8_of_normCols hcols)).mono ?_
      rintro V' ⟨_, v2, v3⟩
      rw [Wp.pure_iff]
      refine ⟨hv, σ, d, hd, hmat.symm.trans hact, hσ, R, f, piv, hR, ?_, v3⟩
      rw [← hcols]; exact v2
  · rw [if_pos rfl, Wp.pure_iff]
    exact hv

/-! ## The signer's and the verifier's commitments agree -/

/-- Codes that differ by an invertible matrix, a permutation of the columns and non-zero factors, such that the
first `K` columns of the second are, unscaled, the pivot columns of the first, have the same commitment. -/
theorem normCols_perm (hKN : p.K ≤ p.N) {A B : Matrix (Fin p.K) (Fin p.N) Fq} {R R' : GenMat p} {f f' : Vector Nat p.N}
    {piv piv' : Fin p.K → Fin p.N} (hA : RrefOut A R f piv) (hB : RrefOut B R' f' piv')
    (P : Matrix (Fin p.K) (Fin p.K) Fq) (hP : IsUnit P) (σ : Equiv.Perm (Fin p.N)) (d : Fin p.N → Fq)
    (hd : ∀ j, d j ≠ 0) (h : ∀ i j, B i j = (P * A) i (σ j) * d j)
    (ht : ∀ t, σ (Fin.castLE hKN t) = piv t ∧ d (Fin.castLE hKN t) = 1) :
    (normCols R' f').Perm (normCols R f) := by
  -- the reduced form of `B`
  have hrow : RowEq (colMap (matOf R) σ d) B := by
    obtain ⟨P1, hP1, hR⟩ := hA.rowEq
    obtain ⟨u, rfl⟩ := hP1
    refine ⟨P * (u⁻¹ : (Matrix (Fin p.K) (Fin p.K) Fq)ˣ), hP.mul (u⁻¹).isUnit, ?_⟩
    have e : ((u⁻¹ : (Matrix (Fin p.K) (Fin p.K) Fq)ˣ) : Matrix (Fin p.K) (Fin p.K) Fq) * matOf R = A := by
      rw [hR, ← Matrix.mul_assoc, Units.inv_mul, Matrix.one_mul]
    ext i j
    rw [h, ← e, ← Matrix.mul_assoc]
    simp only [Matrix.mul_apply, colMap, Finset.sum_mul, mul_assoc]
  have hrref : IsRREF (colMap (matOf R) σ d) (Fin.castLE hKN) := by
    refine ⟨Fin.strictMono_castLE hKN, fun i t => ?_, fun t j hj => ?_⟩
    · simp only [colMap, (ht t).1, (ht t).2, mul_one]
      exact hA.rref.unit i t
    · have hjK : j.val < p.K := by have := t.2; have : j.val < t.val := hj; omega
      have ej : j = Fin.castLE hKN ⟨j.val, hjK⟩ := rfl
      simp only [colMap]
      rw [ej, (ht _).1, hA.rref.unit, if_neg, zero_mul]
      intro e
      have : j.val < t.val := hj
      rw [e] at this
      exact Nat.lt_irrefl _ this
  obtain ⟨hm, hpv⟩ := rref_unique hrref hB.rref (hrow.trans hB.rowEq)
  -- columns of `R'`
  have hcol : ∀ c, (hc : c < p.N) → normCol (colOf R' c) = normCol (colOf R (σ ⟨c, hc⟩)) := by
    intro c hc
    refine normCol_colOf hA.reduced hB.reduced _ _ (σ ⟨c, hc⟩).2 hc (d ⟨c, hc⟩) (hd _) ?_
    intro i hi
    have := congrFun (congrFun hm ⟨i, hi⟩) ⟨c, hc⟩
    simp only [colMap, matOf] at this
    rw [← this, mul_comm]
  have hflag : ∀ c, (hc : c < p.N) → (g f' c = 0 ↔ g f (σ ⟨c, hc⟩) = 0) := by
    intro c hc
    rw [← not_iff_not]
    show g f' c ≠ 0 ↔ g f (σ ⟨c, hc⟩) ≠ 0
    rw [hB.flags.ne_zero_iff c hc, hA.flags.ne_zero_iff _ (σ ⟨c, hc⟩).2, ← hpv]
    constructor
    · rintro ⟨t, e⟩; exact ⟨t, by rw [← (ht t).1, e]⟩
    · rintro ⟨t, e⟩; exact ⟨t, σ.injective (by rw [(ht t).1, e])⟩
  let σ' : Nat → Nat := fun c => if hc : c < p.N then (σ ⟨c, hc⟩).val else c
  have hσ' : ∀ c, (hc : c < p.N) → σ' c = (σ ⟨c, hc⟩).val := fun c hc => by simp [σ', hc]
  have hperm : ((nonPiv f' p.N).map σ').Perm (nonPiv f p.N) := by
    rw [List.perm_ext_iff_of_nodup ?_ (nonPiv_nodup _ _)]
    · intro x
      rw [List.mem_map, mem_nonPiv]
      constructor
      · rintro ⟨c, hc, rfl⟩
        rw [mem_nonPiv] at hc
        rw [hσ' c hc.1]
        exact ⟨(σ _).2, (hflag c hc.1).mp hc.2⟩
      · rintro ⟨hx, hx0⟩
        refine ⟨σ.symm ⟨x, hx⟩, ?_, ?_⟩
        · rw [mem_nonPiv]
          refine ⟨(σ.symm _).2, (hflag _ (σ.symm _).2).mpr ?_⟩
          simpa using hx0
        · rw [hσ' _ (σ.symm _).2]; simp
    · refine (List.nodup_map_iff_inj_on (nonPiv_nodup _ _)).mpr ?_
      intro c hc e he h
      rw [mem_nonPiv] at hc he
      rw [hσ' c hc.1, hσ' e he.1] at h
      exact congrArg Fin.val (σ.injective (Fin.ext h))
  unfold normCols
  have : (nonPiv f' p.N).map (fun c => normCol (colOf R' c)) =
      ((nonPiv f' p.N).map σ').map (fun c => normCol (colOf R c)) := by
    rw [List.map_map]
    apply List.map_congr_left
    intro c hc
    rw [mem_nonPiv] at hc
    rw [Function.comp, hσ' c hc.1, hcol c hc.1]
  rw [this]
  exact hperm.map _

end LESS
