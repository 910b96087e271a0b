import Mathlib.Logic.Equiv.Fin.Basic
import Verif.Proofs.Response
/-!
# Equal commitments come from equivalent codes
-/
namespace LESS

open Spec (RowEq IsRREF FullRank MonoEq)

variable {p : Params}

/-- A permutation of a list is a bijection of its positions. -/
theorem perm_index {α : Type} {l l' : List α} (h : l.Perm l') :
    ∃ e : Fin l.length ≃ Fin l'.length, ∀ i, l'.get (e i) = l.get i := by
  induction h with
  | nil => exact ⟨Equiv.refl _, fun _ => rfl⟩
  | @cons x l l' _ ih =>
    obtain ⟨e, he⟩ := ih
    refine ⟨(finSuccEquiv l.length).trans ((Equiv.optionCongr e).trans (finSuccEquiv l'.length).symm), ?_⟩
    intro i
    refine Fin.cases ?_ (fun i => ?_) i
    · simp
    · have := he i
      simpa using this
  | @swap x y l =>
    refine ⟨Equiv.swap (0 : Fin (l.length + 2)) 1, ?_⟩
    intro i
    refine Fin.cases ?_ (fun i => Fin.cases ?_ (fun i => ?_) i) i
    · rw [Equiv.swap_apply_left]; rfl
    · rw [show (Fin.succ (0 : Fin (l.length + 1))) = (1 : Fin (l.length + 2)) from rfl, Equiv.swap_apply_right]; rfl
    · rw [Equiv.swap_apply_of_ne_of_ne]
      · rfl
      · exact Fin.succ_ne_zero _
      · intro h
        have := congrArg Fin.val h
        simp at this
  | trans _ _ ih1 ih2 =>
    obtain ⟨e1, h1⟩ := ih1
    obtain ⟨e2, h2⟩ := ih2
    exact ⟨e1.trans e2, fun i => by rw [Equiv.trans_apply, h2, h1]⟩

/-- Pivots first, then the other columns in order. -/
theorem stdPerm {f : Vector Nat p.N} {piv : Fin p.K → Fin p.N} (hKN : p.K ≤ p.N) (hf : FlagsOf f piv)
    (hm : StrictMono piv) : ∃ σ : Equiv.Perm (Fin p.N), (∀ t, σ (Fin.castLE hKN t) = piv t) ∧
      ∀ j : Fin p.N, p.K ≤ j.val → (nonPiv f p.N)[j.val - p.K]? = some (σ j).val := by
  have hcount := nonPiv_count hf hm
  have hsrc : ∀ j : Fin p.N, ∃ s : Fin p.N, (∀ h : j.val < p.K, s = piv ⟨j, h⟩) ∧
      (p.K ≤ j.val → (nonPiv f p.N)[j.val - p.K]? = some s.val) := by
    intro j
    by_cases hj : j.val < p.K
    · exact ⟨piv ⟨j, hj⟩, fun _ => rfl, fun h => by omega⟩
    · have hz : j.val - p.K < (nonPiv f p.N).length := by omega
      have hs := List.getElem?_eq_getElem hz
      have := nonPiv_rank f p.N _ _ hs
      exact ⟨⟨_, this.2.1⟩, fun h => absurd h hj, fun _ => hs⟩
  choose src h1 h2 using hsrc
  have hinj : Function.Injective src := by
    intro j k h
    by_cases hj : j.val < p.K
    · by_cases hk : k.val < p.K
      · rw [h1 j hj, h1 k hk] at h
        exact Fin.ext (Fin.mk.inj_iff.mp (hm.injective h))
      · exfalso
        have h3 := (nonPiv_rank f p.N _ _ (h2 k (by omega))).2.2
        rw [← h, h1 j hj] at h3
        exact (hf.ne_zero_iff _ (piv ⟨j, hj⟩).2).mpr ⟨_, rfl⟩ h3
    · by_cases hk : k.val < p.K
      · exfalso
        have h3 := (nonPiv_rank f p.N _ _ (h2 j (by omega))).2.2
        rw [h, h1 k hk] at h3
        exact (hf.ne_zero_iff _ (piv ⟨k, hk⟩).2).mpr ⟨_, rfl⟩ h3
      · have h3 := (nonPiv_rank f p.N _ _ (h2 j (by omega))).1
        have h4 := (nonPiv_rank f p.N _ _ (h2 k (by omega))).1
        rw [h, h4] at h3
        exact Fin.ext (by omega)
  exact ⟨Equiv.ofBijective src (Finite.injective_iff_bijective.mp hinj), fun t => h1 _ t.2, h2⟩

/-- The matrix `(I | columns)`. -/
def stdMat (p : Params) (cols : List (List Nat)) : Matrix (Fin p.K) (Fin p.N) Fq := fun i j =>
  if j.val < p.K then (if i.val = j.val then 1 else 0)
  else (((cols.getD (j.val - p.K) []).getD i 0 : Nat) : Fq)

theorem getD_colOf {r c : Nat} (V : Vector (Vector Nat c) r) (j i : Nat) (hi : i < r) :
    (colOf V j).getD i 0 = g2 V i j := by
  simp [colOf, hi]

/-- The factor `lex_minimize` divides by; 1 for the zero column. -/
theorem normCol_factor (l : List Nat) (hl : ∀ x ∈ l, x < 127) :
    ∃ k : Fq, k ≠ 0 ∧ ∀ i, (((normCol l).getD i 0 : Nat) : Fq) = ((l.getD i 0 : Nat) : Fq) * k := by
  have hlt := firstNZ_lt hl
  have hget : ∀ i, (normCol l).getD i 0 = if i < l.length then fqRed (l.getD i 0 * fqInv (firstNZ l)) else 0 := by
    intro i
    by_cases hi : i < l.length
    · simp [normCol, hi]
    · simp [normCol, hi]
  by_cases h0 : firstNZ l = 0
  · refine ⟨1, one_ne_zero, fun i => ?_⟩
    rw [hget, h0]
    by_cases hi : i < l.length
    · rw [if_pos hi, mul_one]
      have hz : l.getD i 0 = 0 := by
        rw [List.getD_eq_getElem _ _ hi]
        unfold firstNZ at h0
        by_contra hc
        cases hfind : l.find? (fun x => x ≠ 0) with
        | none => exact hc (by simpa using List.find?_eq_none.mp hfind _ (List.getElem_mem hi))
        | some y =>
          rw [hfind] at h0
          have := List.find?_some hfind
          simp at this h0
          exact this h0
      rw [hz]; simp [fqRed, u8, u16]
    · rw [if_neg hi]; simp [hi]
  · refine ⟨((firstNZ l : Nat) : Fq)⁻¹, ?_, fun i => ?_⟩
    · rw [Ne, inv_eq_zero, cast_eq_zero hlt]; exact h0
    · rw [hget]
      by_cases hi : i < l.length
      · rw [if_pos hi, List.getD_eq_getElem _ _ hi, fqRed_mul_cast (hl _ (List.getElem_mem hi)) (fqInv_lt _), fqInv_cast _ (by omega)]
      · rw [if_neg hi]; simp [hi]

/-- A code is equivalent to the code generated by the identity and its normalised non-pivot columns. -/
theorem RrefOut.monoEq_std (hKN : p.K ≤ p.N) {A : Matrix (Fin p.K) (Fin p.N) Fq} {R : GenMat p} {f : Vector Nat p.N}
    {piv : Fin p.K → Fin p.N} (h : RrefOut A R f piv) : MonoEq A (stdMat p (normCols R f)) := by
  refine (monoEq_of_rowEq h.rowEq).trans ?_
  obtain ⟨σ, h1, h2⟩ := stdPerm hKN h.flags h.rref.mono
  have hfac : ∀ j : Fin p.N, ∃ k : Fq, k ≠ 0 ∧ ∀ i, (((normCol (colOf R (σ j))).getD i 0 : Nat) : Fq) =
      (((colOf R (σ j)).getD i 0 : Nat) : Fq) * k :=
    fun j => normCol_factor _ (colOf_lt h.reduced _ (σ j).2)
  choose k hk0 hk using hfac
  refine ⟨1, isUnit_one, σ, fun j => if j.val < p.K then 1 else k j, ?_, ?_⟩
  · intro j
    dsimp only
    split
    · exact one_ne_zero
    · exact hk0 j
  · intro i j
    rw [Matrix.one_mul]
    unfold stdMat
    by_cases hj : j.val < p.K
    · simp only [hj, if_true, mul_one]
      have ej : j = Fin.castLE hKN ⟨j, hj⟩ := rfl
      have := h1 ⟨j, hj⟩
      rw [← ej] at this
      rw [this, h.rref.unit]
      simp [Fin.ext_iff]
    · simp only [hj, if_false]
      have hs := h2 j (by omega)
      have : (normCols R f).getD (j.val - p.K) [] = normCol (colOf R (σ j)) := by
        rw [normCols, List.getD_eq_getElem?_getD, List.getElem?_map, hs]; rfl
      rw [this, hk, getD_colOf _ _ _ i.2]
      rfl

/-- Permuting the columns gives an equivalent code. -/
theorem monoEq_stdMat_perm {l l' : List (List Nat)} (hl : l.length = p.N - p.K) (h : l.Perm l') :
    MonoEq (stdMat p l) (stdMat p l') := by
  obtain ⟨e, he⟩ := perm_index h.symm
  have hl' : l'.length = p.N - p.K := by rw [← h.length_eq, hl]
  have hsrc : ∀ j : Fin p.N, ∃ s : Fin p.N, (j.val < p.K → s = j) ∧
      (∀ hj : ¬ j.val < p.K, s.val = p.K + (e ⟨j.val - p.K, by omega⟩).val) := by
    intro j
    by_cases hj : j.val < p.K
    · exact ⟨j, fun _ => rfl, fun h => absurd hj h⟩
    · have := (e ⟨j.val - p.K, by omega⟩).2
      exact ⟨⟨p.K + (e ⟨j.val - p.K, by omega⟩).val, by omega⟩, fun h => absurd h hj, fun _ => rfl⟩
  choose src h1 h2 using hsrc
  have hinj : Function.Injective src := by
    intro j k hjk
    by_cases hj : j.val < p.K
    · by_cases hk : k.val < p.K
      · rw [h1 j hj, h1 k hk] at hjk; exact hjk
      · have := h2 k hk
        rw [← hjk, h1 j hj] at this; omega
    · by_cases hk : k.val < p.K
      · have := h2 j hj
        rw [hjk, h1 k hk] at this; omega
      · have a := h2 j hj
        have b := h2 k hk
        rw [hjk, b] at a
        have : e ⟨k.val - p.K, by omega⟩ = e ⟨j.val - p.K, by omega⟩ := Fin.ext (by omega)
        have := congrArg Fin.val (e.injective this)
        simp only at this
        exact Fin.ext (by omega)
  refine ⟨1, isUnit_one, Equiv.ofBijective src (Finite.injective_iff_bijective.mp hinj), fun _ => 1,
    fun _ => one_ne_zero, ?_⟩
  intro i j
  rw [Matrix.one_mul, mul_one, Equiv.ofBijective_apply]
  unfold stdMat
  by_cases hj : j.val < p.K
  · rw [h1 j hj, if_pos hj, if_pos hj]
  · have hs := h2 j hj
    have hlt := (e ⟨j.val - p.K, by omega⟩).2
    have hv := he ⟨j.val - p.K, by omega⟩
    simp only [List.get_eq_getElem] at hv
    rw [if_neg hj, if_neg (by omega), hs, Nat.add_sub_cancel_left,
      List.getD_eq_getElem l' [] (by omega), List.getD_eq_getElem l [] hlt, hv]

/-- Codes with the same multiset of normalised non-pivot columns are equivalent. -/
theorem monoEq_of_perm (hKN : p.K ≤ p.N) {A B : Matrix (Fin p.K) (Fin p.N) Fq} {R R' : GenMat p} {f f' : Vector Nat p.N}
    {piv piv' : Fin p.K → Fin p.N} (hA : RrefOut A R f piv) (hB : RrefOut B R' f' piv')
    (h : (normCols R f).Perm (normCols R' f')) : MonoEq A B :=
  (hA.monoEq_std hKN).trans
    ((monoEq_stdMat_perm (by simp [normCols, nonPiv_count hA.flags hA.rref.mono]) h).trans (hB.monoEq_std hKN).symm)

end LESS
