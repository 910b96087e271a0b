import Mathlib.LinearAlgebra.Matrix.Transvection
import Mathlib.LinearAlgebra.Matrix.Swap
import Mathlib.Order.Fin.Basic
import Verif.Spec.Rref
import Verif.Proofs.Fq
/-!
# Row equivalence and uniqueness of the reduced row echelon form
-/
namespace LESS
open Spec Matrix

variable {k n : Nat}

theorem Spec.RowEq.refl (A : Matrix (Fin k) (Fin n) Fq) : RowEq A A := ⟨1, isUnit_one, by simp⟩

theorem Spec.RowEq.trans {A B C : Matrix (Fin k) (Fin n) Fq} (h1 : RowEq A B) (h2 : RowEq B C) : RowEq A C := by
  obtain ⟨P, hP, rfl⟩ := h1
  obtain ⟨P', hP', rfl⟩ := h2
  exact ⟨P' * P, hP'.mul hP, by rw [Matrix.mul_assoc]⟩

theorem Spec.RowEq.symm {A B : Matrix (Fin k) (Fin n) Fq} (h : RowEq A B) : RowEq B A := by
  obtain ⟨P, hP, rfl⟩ := h
  obtain ⟨u, rfl⟩ := hP
  exact ⟨_, (u⁻¹).isUnit, by rw [← Matrix.mul_assoc, Units.inv_mul, Matrix.one_mul]⟩

theorem Spec.RowEq.mul_right {m : Nat} {A B : Matrix (Fin k) (Fin n) Fq} (h : RowEq A B)
    (M : Matrix (Fin n) (Fin m) Fq) : RowEq (A * M) (B * M) := by
  obtain ⟨P, hP, rfl⟩ := h
  exact ⟨P, hP, by rw [Matrix.mul_assoc]⟩

theorem Spec.RowEq.fullRank {A B : Matrix (Fin k) (Fin n) Fq} (h : RowEq A B) (hA : FullRank A) : FullRank B := by
  obtain ⟨P, hP, rfl⟩ := h
  obtain ⟨u, rfl⟩ := hP
  intro v hv
  rw [← Matrix.vecMul_vecMul] at hv
  have h0 := hA _ hv
  have : Matrix.vecMul (Matrix.vecMul v (u : Matrix (Fin k) (Fin k) Fq)) (u⁻¹ : (Matrix (Fin k) (Fin k) Fq)ˣ) = v := by
    rw [Matrix.vecMul_vecMul, Units.mul_inv, Matrix.vecMul_one]
  rw [← this, h0, Matrix.zero_vecMul]

theorem Spec.RowEq.fullRank_iff {A B : Matrix (Fin k) (Fin n) Fq} (h : RowEq A B) : FullRank A ↔ FullRank B :=
  ⟨h.fullRank, h.symm.fullRank⟩

theorem Spec.IsRREF.fullRank {A : Matrix (Fin k) (Fin n) Fq} {piv : Fin k → Fin n} (h : IsRREF A piv) :
    FullRank A := by
  intro v hv
  ext t
  have := congrFun hv (piv t)
  simp only [Matrix.vecMul, dotProduct, Pi.zero_apply] at this
  rw [Finset.sum_eq_single t] at this
  · simpa [h.unit] using this
  · intro b _ hb; simp [h.unit, hb]
  · simp

theorem not_fullRank_of_zero_row {A : Matrix (Fin k) (Fin n) Fq} (r : Fin k) (h : ∀ j, A r j = 0) :
    ¬ FullRank A := by
  intro hA
  have := hA (Pi.single r 1) (by
    ext j
    simp [h])
  have := congrFun this r
  simp at this

/-- Swapping two rows. -/
theorem rowEq_swap (A B : Matrix (Fin k) (Fin n) Fq) (r s : Fin k)
    (h : ∀ i j, B i j = if i = r then A s j else if i = s then A r j else A i j) : RowEq A B := by
  refine ⟨Matrix.swap Fq r s, ?_, ?_⟩
  · exact (Matrix.GeneralLinearGroup.swap Fq r s).isUnit
  · ext i j
    rw [h]
    by_cases hr : i = r
    · subst hr; simp
    · by_cases hs : i = s
      · subst hs; simp [hr]
      · rw [Matrix.swap_mul_of_ne hr hs]; simp [hr, hs]

/-- Scaling a row by a non-zero factor. -/
theorem rowEq_scale (A B : Matrix (Fin k) (Fin n) Fq) (r : Fin k) (c : Fq) (hc : c ≠ 0)
    (h : ∀ i j, B i j = if i = r then c * A r j else A i j) : RowEq A B := by
  refine ⟨Matrix.diagonal (fun i => if i = r then c else 1), ?_, ?_⟩
  · rw [Matrix.isUnit_iff_isUnit_det, Matrix.det_diagonal, isUnit_iff_ne_zero, Finset.prod_ne_zero_iff]
    intro i _
    by_cases hi : i = r <;> simp [hi, hc]
  · ext i j
    rw [h, Matrix.diagonal_mul]
    by_cases hi : i = r <;> simp [hi]

/-- Subtracting a multiple of one row from another. -/
theorem rowEq_sub (A B : Matrix (Fin k) (Fin n) Fq) (r s : Fin k) (hrs : s ≠ r) (c : Fq)
    (h : ∀ i j, B i j = if i = s then A s j - c * A r j else A i j) : RowEq A B := by
  refine ⟨Matrix.transvection s r (-c), ?_, ?_⟩
  · rw [Matrix.isUnit_iff_isUnit_det, Matrix.det_transvection_of_ne _ _ hrs]
    exact isUnit_one
  · ext i j
    rw [h]
    by_cases hi : i = s
    · subst hi; rw [Matrix.transvection_mul_apply_same]; simp; ring
    · rw [Matrix.transvection_mul_apply_of_ne _ _ _ _ hi]; simp [hi]

/-! ## Uniqueness -/

theorem rref_piv_le {A B : Matrix (Fin k) (Fin n) Fq} {pa pb : Fin k → Fin n} (hA : IsRREF A pa)
    (hB : IsRREF B pb) (h : RowEq A B) (t : Fin k) (heq : ∀ t' < t, pa t' = pb t') : pb t ≤ pa t := by
  by_contra hlt
  have hlt : pa t < pb t := not_le.mp hlt
  obtain ⟨P, hP, rfl⟩ := h
  -- the columns of `P`
  have hcol : ∀ i s, (P * A) i (pa s) = P i s := by
    intro i s
    rw [Matrix.mul_apply, Finset.sum_eq_single s]
    · simp [hA.unit]
    · intro b _ hb; simp [hA.unit, hb]
    · simp
  have h1 : ∀ i s, s < t → P i s = if i = s then 1 else 0 := by
    intro i s hs
    rw [← hcol, heq s hs, hB.unit]
  have h2 : ∀ i, t ≤ i → P i t = 0 := by
    intro i hi
    rw [← hcol]
    apply hB.left
    exact lt_of_lt_of_le hlt (hB.mono.monotone hi)
  -- a non-trivial kernel vector
  let v : Fin k → Fq := fun s => if s = t then 1 else if s < t then - P s t else 0
  have hv : P *ᵥ v = 0 := by
    ext i
    rw [Matrix.mulVec, dotProduct, Pi.zero_apply, ← Finset.add_sum_erase _ _ (Finset.mem_univ t)]
    have e1 : P i t * v t = P i t := by simp [v]
    rw [e1]
    by_cases hi : i < t
    · rw [Finset.sum_eq_single i]
      · simp [v, hi, ne_of_lt hi, h1]
      · intro b hb hbi
        by_cases hbt : b < t
        · simp [h1 i b hbt, Ne.symm hbi]
        · have : b ≠ t := by simpa using hb
          simp [v, this, hbt]
      · intro hni; simp [ne_of_lt hi] at hni
    · rw [h2 i (not_lt.mp hi), zero_add]
      apply Finset.sum_eq_zero
      intro b hb
      have hbt : b ≠ t := by simpa using hb
      by_cases hb' : b < t
      · have : i ≠ b := fun e => hi (e ▸ hb')
        simp [h1 i b hb', this]
      · simp [v, hbt, hb']
  obtain ⟨u, rfl⟩ := hP
  have : v = 0 := by
    have e : (↑u⁻¹ : Matrix (Fin k) (Fin k) Fq) *ᵥ ((u : Matrix (Fin k) (Fin k) Fq) *ᵥ v) = v := by
      rw [Matrix.mulVec_mulVec, Units.inv_mul, Matrix.one_mulVec]
    rw [← e, hv, Matrix.mulVec_zero]
  have := congrFun this t
  simp [v] at this

/-- The reduced row echelon form and its pivots are determined by the row space. -/
theorem rref_unique {A B : Matrix (Fin k) (Fin n) Fq} {pa pb : Fin k → Fin n} (hA : IsRREF A pa)
    (hB : IsRREF B pb) (h : RowEq A B) : A = B ∧ pa = pb := by
  have hp : ∀ t, pa t = pb t := by
    intro t
    induction t using WellFoundedLT.induction with
    | _ t ih =>
      apply le_antisymm
      · exact rref_piv_le hB hA h.symm t (fun s hs => (ih s hs).symm)
      · exact rref_piv_le hA hB h t (fun s hs => ih s hs)
  have hp' : pa = pb := funext hp
  refine ⟨?_, hp'⟩
  subst hp'
  obtain ⟨P, hP, rfl⟩ := h
  have hP1 : P = 1 := by
    ext i s
    have : (P * A) i (pa s) = P i s := by
      rw [Matrix.mul_apply, Finset.sum_eq_single s]
      · simp [hA.unit]
      · intro b _ hb; simp [hA.unit, hb]
      · simp
    rw [← this, hB.unit, Matrix.one_apply]
  rw [hP1, Matrix.one_mul]

end LESS
