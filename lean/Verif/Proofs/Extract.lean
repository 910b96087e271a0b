import Verif.Spec.Extract
import Verif.Proofs.Soundness
import Verif.Proofs.CommitSpec
/-!
# The extractor of Spec/Extract computes an equivalence
-/
namespace LESS

open Spec

variable {p : Params}

namespace Spec.ColOp

variable {n k : Nat}

theorem on_andThen (A : Matrix (Fin k) (Fin n) (ZMod 127)) (v w : ColOp n) : on (on A v) w = on A (v.andThen w) := by
  ext i j
  simp only [on, andThen, mul_assoc]

theorem on_rowEq {A B : Matrix (Fin k) (Fin n) (ZMod 127)} (h : RowEq A B) (w : ColOp n) : RowEq (on A w) (on B w) := by
  obtain ⟨P, hP, rfl⟩ := h
  refine ⟨P, hP, ?_⟩
  ext i j
  simp only [on, Matrix.mul_apply, Finset.sum_mul, mul_assoc]

theorem IsMonomial.andThen {v w : ColOp n} (hv : v.IsMonomial) (hw : w.IsMonomial) : (v.andThen w).IsMonomial :=
  ⟨hv.1.comp hw.1, fun _ => mul_ne_zero (hv.2 _) (hw.2 _)⟩

theorem src_target {w : ColOp n} (hw : w.IsMonomial) (j : Fin n) : w.src (w.target j) = j := by
  obtain ⟨i, hi⟩ := hw.1.2 j
  unfold target
  cases h : (List.finRange n).find? fun i => w.src i = j with
  | none => exact absurd hi (by simpa using List.find?_eq_none.mp h i (List.mem_finRange i))
  | some x => simpa using List.find?_some h

theorem target_src {w : ColOp n} (hw : w.IsMonomial) (j : Fin n) : w.target (w.src j) = j := hw.1.1 (src_target hw _)

theorem IsMonomial.undo {w : ColOp n} (hw : w.IsMonomial) : w.undo.IsMonomial :=
  ⟨⟨fun a b h => by rw [← src_target hw a, ← src_target hw b]; exact congrArg _ h, fun j => ⟨w.src j, target_src hw j⟩⟩,
    fun _ => inv_ne_zero (hw.2 _)⟩

theorem on_undo {w : ColOp n} (hw : w.IsMonomial) (A : Matrix (Fin k) (Fin n) (ZMod 127)) : on (on A w) w.undo = A := by
  ext i j
  show A i (w.src (w.target j)) * w.coef (w.target j) * (w.coef (w.target j))⁻¹ = A i j
  rw [src_target hw, mul_assoc, mul_inv_cancel₀ (hw.2 _), mul_one]

/-! ## Matrices of seeds -/

theorem ofMatrix_spec {M : Matrix (Fin n) (Fin n) (ZMod 127)} {π : Equiv.Perm (Fin n)} {c : Fin n → ZMod 127}
    (hc : ∀ i, c i ≠ 0) (hM : ∀ i j, M i j = if π i = j then c i else 0) :
    (ofMatrix M).IsMonomial ∧ ∀ A : Matrix (Fin k) (Fin n) (ZMod 127), A * M = on A (ofMatrix M) := by
  have hsrc : ∀ j, (ofMatrix M).src j = π.symm j := by
    intro j
    unfold ofMatrix
    dsimp only
    cases h : (List.finRange n).find? fun i => M i j ≠ 0 with
    | none =>
      have := List.find?_eq_none.mp h (π.symm j) (List.mem_finRange _)
      rw [hM, if_pos (by simp)] at this
      exact absurd (hc (π.symm j)) (by simpa using this)
    | some x =>
      have := List.find?_some h
      rw [hM] at this
      have hx : π x = j := by
        by_contra hne
        rw [if_neg hne] at this
        simp at this
      simp [← hx]
  have hcoef : ∀ j, (ofMatrix M).coef j = c (π.symm j) := by
    intro j
    show M ((ofMatrix M).src j) j = _
    rw [hsrc, hM, if_pos (by simp)]
  refine ⟨⟨?_, fun j => by rw [hcoef]; exact hc _⟩, ?_⟩
  · have : (ofMatrix M).src = π.symm := funext hsrc
    rw [this]; exact π.symm.bijective
  · intro A
    ext i j
    rw [Matrix.mul_apply, on, hsrc, hcoef, Finset.sum_eq_single (π.symm j)]
    · rw [hM, if_pos (by simp)]
    · intro x _ hx
      rw [hM, if_neg (fun h => hx (by simp [← h])), mul_zero]
    · intro h; exact absurd (Finset.mem_univ _) h

/-! ## Column orders -/

/-- Reading a rearrangement of the column numbers gives a bijection. -/
theorem clip_order {l : List Nat} (h : l.Perm (List.range n)) :
    Function.Bijective (fun j : Fin n => clip j (l.getD j 0)) ∧ ∀ j : Fin n, l[j.val]? = some (clip j (l.getD j 0)).val := by
  have hlen : l.length = n := by rw [h.length_eq, List.length_range]
  have hval : ∀ j : Fin n, l[j.val]? = some (clip j (l.getD j 0)).val := by
    intro j
    have hj : j.val < l.length := by omega
    have hmem : l.getD j 0 < n := by
      rw [List.getD_eq_getElem _ _ hj, ← List.mem_range]
      exact h.mem_iff.mp (List.getElem_mem hj)
    unfold clip
    rw [dif_pos hmem, List.getElem?_eq_getElem hj]
    simp [hj]
  refine ⟨Finite.injective_iff_bijective.mp ?_, hval⟩
  intro a b hab
  have h1 := hval a
  dsimp only at hab
  rw [hab, ← hval b] at h1
  exact Fin.ext ((List.getElem?_inj (by omega) (h.nodup_iff.mpr List.nodup_range)).mp h1)

theorem ofAction_spec {a : Action p} (ha : a.Valid) :
    (ofAction a).IsMonomial ∧ ∀ A : Matrix (Fin p.K) (Fin p.N) (ZMod 127), actOn A a = on A (ofAction a) := by
  obtain ⟨h1, h2, h3⟩ := ha
  have hperm : ((List.range p.K).map a.perm ++ restCols p a.perm).Perm (List.range p.N) := by
    rw [List.perm_ext_iff_of_nodup]
    · intro x
      simp only [List.mem_append, List.mem_map, List.mem_range, restCols, List.mem_filter, decide_eq_true_eq]
      constructor
      · rintro (⟨t, ht, rfl⟩ | ⟨h, _⟩)
        · exact h2 t ht
        · exact h
      · intro hx
        by_cases hc : ∃ t, t < p.K ∧ a.perm t = x
        · exact Or.inl hc
        · exact Or.inr ⟨hx, fun t ht e => hc ⟨t, ht, e⟩⟩
    · rw [List.nodup_append]
      refine ⟨?_, (List.nodup_range).filter _, ?_⟩
      · rw [List.nodup_map_iff_inj_on List.nodup_range]
        intro s hs t ht e
        exact h3 s (List.mem_range.mp hs) t (List.mem_range.mp ht) e
      · intro x hx y hy
        rw [List.mem_map] at hx
        obtain ⟨t, ht, rfl⟩ := hx
        rw [restCols, List.mem_filter, decide_eq_true_eq] at hy
        exact hy.2 t (List.mem_range.mp ht)
    · exact List.nodup_range
  have hlist : ∀ j : Fin p.N, ((List.range p.K).map a.perm ++ restCols p a.perm).getD j 0 =
      if j.val < p.K then a.perm j else (restCols p a.perm).getD (j.val - p.K) 0 := by
    intro j
    by_cases hj : j.val < p.K
    · rw [if_pos hj, List.getD_eq_getElem?_getD, List.getElem?_append_left (by simpa using hj)]
      simp [hj]
    · rw [if_neg hj, List.getD_eq_getElem?_getD, List.getElem?_append_right (by simpa using hj), List.getD_eq_getElem?_getD]
      simp
  have hsrc : (ofAction a).src = fun j : Fin p.N => clip j (((List.range p.K).map a.perm ++ restCols p a.perm).getD j 0) := by
    funext j
    rw [hlist j]
    rfl
  have hlt : ∀ j : Fin p.N, (if j.val < p.K then a.perm j else (restCols p a.perm).getD (j.val - p.K) 0) < p.N := by
    intro j
    rw [← hlist j]
    have hj : j.val < ((List.range p.K).map a.perm ++ restCols p a.perm).length := by
      rw [hperm.length_eq, List.length_range]; exact j.2
    rw [List.getD_eq_getElem _ _ hj, ← List.mem_range]
    exact hperm.mem_iff.mp (List.getElem_mem hj)
  refine ⟨⟨by rw [hsrc]; exact (clip_order hperm).1, ?_⟩, ?_⟩
  · intro j
    show (if j.val < p.K then ((a.coef j : Nat) : ZMod 127) else 1) ≠ 0
    split
    · rename_i hj
      have := h1 j hj
      rw [Ne, cast_eq_zero (by omega)]
      omega
    · exact one_ne_zero
  · intro A
    ext i j
    have hl := hlt j
    have hs : ((ofAction a).src j).val = (if j.val < p.K then a.perm j else (restCols p a.perm).getD (j.val - p.K) 0) := by
      show (clip j _).val = _
      unfold clip
      rw [dif_pos hl]
    have he : ∀ c, (h : c < p.N) → ((ofAction a).src j).val = c → A i ((ofAction a).src j) = entry A i c := by
      intro c h e
      unfold entry
      rw [dif_pos h]
      congr 1
      exact Fin.ext e
    unfold actOn on
    show _ = _ * (if j.val < p.K then ((a.coef j : Nat) : ZMod 127) else 1)
    by_cases hj : j.val < p.K
    · rw [if_pos hj] at hl hs
      rw [if_pos hj, if_pos hj, he _ hl hs]
    · rw [if_neg hj] at hl hs
      rw [if_neg hj, if_neg hj, he _ hl hs, mul_one]

end Spec.ColOp

/-! ## The canonical form -/

/-- The flagged columns in increasing order are the pivots. -/
theorem pivots_list {f : Vector Nat p.N} {piv : Fin p.K → Fin p.N} (hf : FlagsOf f piv) (hm : StrictMono piv) :
    (List.range p.N).filter (fun j => g f j ≠ 0) = (List.finRange p.K).map fun t => (piv t).val := by
  apply List.Perm.eq_of_pairwise (le := (· < ·)) (fun a b _ _ h1 h2 => absurd h1 (by omega))
  · exact List.pairwise_lt_range.filter _
  · rw [List.pairwise_map]
    exact (List.pairwise_lt_finRange p.K).imp fun h => hm h
  · rw [List.perm_ext_iff_of_nodup (List.nodup_range.filter _)]
    · intro x
      simp only [List.mem_filter, List.mem_range, decide_eq_true_eq, List.mem_map, List.mem_finRange, true_and]
      constructor
      · rintro ⟨hx, h⟩
        obtain ⟨t, ht⟩ := (hf.ne_zero_iff x hx).mp h
        exact ⟨t, congrArg Fin.val ht⟩
      · rintro ⟨t, rfl⟩
        exact ⟨(piv t).2, (hf.ne_zero_iff _ (piv t).2).mpr ⟨t, rfl⟩⟩
    · rw [List.nodup_map_iff (fun a b h => hm.injective (Fin.ext h))]
      exact List.nodup_finRange _

theorem canonical_spec (hKN : p.K ≤ p.N) {A : Matrix (Fin p.K) (Fin p.N) Fq} {cols : List (List Nat)} (h : IsCommit A cols) :
    (ColOp.canonical p A).IsMonomial ∧ RowEq (ColOp.on A (ColOp.canonical p A)) (stdMat p cols) := by
  obtain ⟨R₀, piv₀, hA, hR₀, rfl⟩ := h
  have hfull : FullRank A := (hA.fullRank_iff).mpr hR₀.fullRank
  let G : GenMat p := Vector.ofFn fun i => Vector.ofFn fun j => ZMod.val (A i j)
  have hG : Reduced G := by
    intro i j hi hj
    simp only [G]
    rw [g2_ofFn _ i j hi hj]
    exact ZMod.val_lt _
  have hmat : matOf G = A := by
    ext i j
    unfold matOf
    simp only [G]
    rw [g2_ofFn _ i j i.2 j.2, ZMod.natCast_val, ZMod.cast_id', id]
  obtain ⟨⟨ok, R, f⟩, hrun, -, piv, hout⟩ := (generatorRREF_full G hKN hG (by rw [hmat]; exact hfull)).exists_ok
  rw [hmat] at hout
  dsimp only at hout
  -- the spec commitment is the one of R
  have hcom : commitment R₀ piv₀ = commitment (matOf R) piv :=
    IsCommit.unique ⟨R₀, piv₀, hA, hR₀, rfl⟩ ⟨matOf R, piv, hout.rowEq, hout.rref, rfl⟩
  let col := fun j : Nat => (List.range p.K).map fun i => ((g2 R i j : Nat) : ZMod 127)
  let key := fun j : Nat => (normalise (col j)).map ZMod.val
  let rest := ((List.range p.N).filter fun j => g f j = 0).mergeSort fun a b => decide (key a ≤ key b)
  let order := (List.range p.N).filter (fun j => g f j ≠ 0) ++ rest
  let src := fun j : Fin p.N => ColOp.clip j (order.getD j 0)
  have hcan : ColOp.canonical p A =
      ⟨src, fun j => if j.val < p.K ∨ lead (col (src j)) = 0 then 1 else (lead (col (src j)))⁻¹⟩ := by
    unfold ColOp.canonical
    rw [show generatorRREF (p := p) (Vector.ofFn fun i => Vector.ofFn fun j => ZMod.val (A i j)) (Vector.replicate p.N 0) = _ from hrun]
  have hkey : ∀ j, j < p.N → key j = normCol (colOf R j) := by
    intro j hj
    simp only [key, col]
    rw [← normalise_cast _ (colOf_lt hout.reduced j hj)]
    simp [colOf, Function.comp_def]
  have hrestperm : rest.Perm (nonPiv f p.N) := List.mergeSort_perm _ _
  have hpiv := pivots_list hout.flags hout.rref.mono
  have hperm : order.Perm (List.range p.N) := by
    refine (List.Perm.append_left _ (List.mergeSort_perm _ _)).trans ?_
    have := List.filter_append_perm (fun j => decide (g f j ≠ 0)) (List.range p.N)
    refine List.Perm.trans ?_ this
    apply List.Perm.append_left
    apply List.Perm.of_eq
    apply List.filter_congr
    intro x _
    by_cases h0 : g f x = 0 <;> simp [h0]
  have hcols : rest.map key = commitment (matOf R) piv := by
    apply commitment_eq hout.reduced hout.flags
    · refine (hrestperm.map key).trans ?_
      apply List.Perm.of_eq
      unfold normCols
      apply List.map_congr_left
      intro x hx
      exact hkey x ((mem_nonPiv f p.N x).mp hx).1
    · have := List.pairwise_mergeSort (le := fun a b : Nat => decide (key a ≤ key b))
        (fun a b c h1 h2 => by simp only [decide_eq_true_eq] at *; exact le_trans h1 h2)
        (fun a b => by simp only [Bool.or_eq_true, decide_eq_true_eq]; exact le_total (key a) (key b)) ((List.range p.N).filter fun j => g f j = 0)
      rw [List.pairwise_map]
      exact this.imp fun h => by simpa using h
  obtain ⟨hbij, hord⟩ := ColOp.clip_order hperm
  have hplen : ((List.range p.N).filter (fun j => g f j ≠ 0)).length = p.K := by rw [hpiv]; simp
  rw [hcan]
  refine ⟨⟨hbij, ?_⟩, ?_⟩
  · intro j
    dsimp only
    split
    · exact one_ne_zero
    · rename_i hn
      exact inv_ne_zero (fun h0 => hn (Or.inr h0))
  · refine (ColOp.on_rowEq hout.rowEq _).trans ?_
    have heq : ColOp.on (matOf R) ⟨src, fun j => if j.val < p.K ∨ lead (col (src j)) = 0 then 1 else (lead (col (src j)))⁻¹⟩ =
        stdMat p (commitment R₀ piv₀) := ?_
    · rw [heq]; exact RowEq.refl _
    ext i j
    rw [hcom, ← hcols]
    unfold ColOp.on stdMat
    dsimp only
    have ho := hord j
    by_cases hj : j.val < p.K
    · rw [if_pos (Or.inl hj), mul_one, if_pos hj]
      rw [List.getElem?_append_left (by omega), hpiv] at ho
      have hs : src j = piv ⟨j, hj⟩ := by
        apply Fin.ext
        simp [hj] at ho
        exact ho.symm
      rw [hs, hout.rref.unit]
      simp [Fin.ext_iff]
    · rw [if_neg hj]
      rw [List.getElem?_append_right (by omega), hplen] at ho
      have hk : (rest.map key).getD (j.val - p.K) [] = key (src j) := by
        rw [List.getD_eq_getElem?_getD, List.getElem?_map, ho]
        rfl
      have hcolget : (col (src j)).getD i 0 = matOf R i (src j) := by simp [col, matOf]
      rw [hk]
      simp only [key]
      have hv : (((((normalise (col (src j))).map ZMod.val).getD i 0 : Nat)) : ZMod 127) = (normalise (col (src j))).getD i 0 := by
        have hlen : i.val < (normalise (col (src j))).length := by simp [normalise, col]
        rw [List.getD_eq_getElem _ _ (by simpa using hlen), List.getD_eq_getElem _ _ hlen, List.getElem_map,
          ZMod.natCast_val, ZMod.cast_id', id]
      rw [hv]
      have hn : (normalise (col (src j))).getD i 0 = (col (src j)).getD i 0 * (lead (col (src j)))⁻¹ := by
        have hlen : i.val < (col (src j)).length := by simp [col]
        rw [List.getD_eq_getElem _ _ hlen, List.getD_eq_getElem _ _ (by simpa [normalise] using hlen)]
        simp [normalise]
      rw [hn, hcolget]
      by_cases h0 : lead (col (src j)) = 0
      · rw [if_pos (Or.inr h0), mul_one, h0, inv_zero, mul_zero, ← hcolget]
        have hfind : ∀ x ∈ col (src j), x = 0 := by
          intro x hx
          unfold lead at h0
          cases hf : (col (src j)).find? (· ≠ 0) with
          | none => simpa using List.find?_eq_none.mp hf x hx
          | some y =>
            rw [hf] at h0
            have := List.find?_some hf
            simp at this h0
            exact absurd h0 this
        have hlen : i.val < (col (src j)).length := by simp [col]
        rw [List.getD_eq_getElem _ _ hlen]
        exact hfind _ (List.getElem_mem hlen)
      · rw [if_neg (by rintro (h | h); exacts [hj h, h0 h])]

/-! ## The extractor -/

theorem Spec.Answer.op_spec {x : Answer p} (hx : x.Valid) :
    x.op.IsMonomial ∧ ∀ A, x.apply A = ColOp.on A x.op := by
  cases x with
  | seed M =>
    obtain ⟨π, c, hc, hM⟩ := hx
    exact ColOp.ofMatrix_spec hc hM
  | response a => exact ColOp.ofAction_spec hx

theorem extract_spec (hKN : p.K ≤ p.N) {A B : Matrix (Fin p.K) (Fin p.N) (ZMod 127)} {x y : Answer p} (hx : x.Valid) (hy : y.Valid)
    {cols : List (List Nat)} (hA : IsCommit (x.apply A) cols) (hB : IsCommit (y.apply B) cols) :
    (extract p A x B y).IsMonomial ∧ RowEq (ColOp.on A (extract p A x B y)) B := by
  obtain ⟨x1, x2⟩ := Answer.op_spec hx
  obtain ⟨y1, y2⟩ := Answer.op_spec hy
  obtain ⟨a1, a2⟩ := canonical_spec hKN hA
  obtain ⟨b1, b2⟩ := canonical_spec hKN hB
  have hw := y1.andThen b1
  refine ⟨(x1.andThen a1).andThen hw.undo, ?_⟩
  unfold extract
  rw [← ColOp.on_andThen, ← ColOp.on_andThen, ← x2]
  have h := a2.trans b2.symm
  rw [y2 B, ColOp.on_andThen, ← y2 B] at h
  have := ColOp.on_rowEq h (y.op.andThen (.canonical p (y.apply B))).undo
  rwa [ColOp.on_undo hw] at this

end LESS
