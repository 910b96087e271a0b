import Verif.Proofs.Unreduced
import Verif.Proofs.G0
/-!
# Commitments and encodings as specified
-/
namespace LESS
open Spec

variable {p : Params} {F : Prop}

/-! ## The commitment -/

theorem zmod_val_cast {x : Nat} (h : x < 127) : ZMod.val ((x : Nat) : Fq) = x := ZMod.val_natCast_of_lt h

theorem lead_cast (l : List Nat) (hl : ∀ x ∈ l, x < 127) :
    lead (l.map fun x : Nat => ((x : Nat) : Fq)) = ((firstNZ l : Nat) : Fq) := by
  induction l with
  | nil => simp [lead, firstNZ]
  | cons a l ih =>
    have ha := hl a (by simp)
    have ih := ih fun x hx => hl x (by simp [hx])
    rw [firstNZ_cons]
    unfold lead at ih ⊢
    by_cases h : a = 0
    · subst h; simpa using ih
    · have : ((a : Nat) : Fq) ≠ 0 := fun h' => h ((cast_eq_zero ha).mp h')
      simp [h, this]

theorem normalise_cast (l : List Nat) (hl : ∀ x ∈ l, x < 127) :
    (normalise (l.map fun x : Nat => ((x : Nat) : Fq))).map ZMod.val = normCol l := by
  unfold normalise normCol
  rw [lead_cast l hl, List.map_map, List.map_map]
  apply List.map_congr_left
  intro x hx
  have hf := firstNZ_lt hl
  simp only [Function.comp]
  rw [← fqInv_cast _ (by omega : firstNZ l < 256), ← fqRed_mul_cast (hl x hx) (fqInv_lt _), zmod_val_cast (fqRed_lt _)]

theorem column_matOf {r c : Nat} (R : Vector (Vector Nat c) r) (j : Fin c) :
    column (matOf R) j = (colOf R j).map fun x : Nat => ((x : Nat) : Fq) := by
  unfold column colOf matOf
  rw [List.map_map]
  apply List.ext_getElem
  · simp
  · intro i h1 h2; simp

theorem nonPiv_finRange {f : Vector Nat p.N} {piv : Fin p.K → Fin p.N} (h : FlagsOf f piv) :
    nonPiv f p.N = ((List.finRange p.N).filter fun j => ∀ t, piv t ≠ j).map Fin.val := by
  unfold nonPiv
  rw [← List.map_coe_finRange_eq_range, List.filter_map]
  congr 1
  apply List.filter_congr
  intro j _
  have := h.ne_zero_iff j j.2
  by_cases hj : g f j = 0
  · simp only [Function.comp, hj, decide_true]
    symm
    rw [decide_eq_true_eq]
    intro t ht
    exact this.mpr ⟨t, ht⟩ hj
  · simp only [Function.comp, hj, decide_false]
    symm
    rw [decide_eq_false_iff_not]
    obtain ⟨t, ht⟩ := this.mp hj
    intro h'; exact h' t ht

theorem normCols_spec {R : GenMat p} {f : Vector Nat p.N} {piv : Fin p.K → Fin p.N} (hR : Reduced R) (h : FlagsOf f piv) :
    normCols R f = ((List.finRange p.N).filter fun j => ∀ t, piv t ≠ j).map fun j =>
      (normalise (column (matOf R) j)).map ZMod.val := by
  unfold normCols
  rw [nonPiv_finRange h, List.map_map]
  apply List.map_congr_left
  intro j _
  rw [column_matOf, normalise_cast _ (colOf_lt hR j j.2)]
  rfl

theorem commitment_eq {R : GenMat p} {f : Vector Nat p.N} {piv : Fin p.K → Fin p.N} (hR : Reduced R) (h : FlagsOf f piv)
    {cols : List (List Nat)} (hperm : cols.Perm (normCols R f)) (hs : cols.Pairwise (· ≤ ·)) :
    cols = commitment (matOf R) piv := by
  unfold commitment
  rw [← normCols_spec hR h]
  apply List.Perm.eq_of_pairwise (fun _ _ _ _ h1 h2 => le_antisymm h1 h2) hs
  · have := List.pairwise_mergeSort (le := fun a b : List Nat => decide (a ≤ b))
      (fun a b c h1 h2 => by simp only [decide_eq_true_eq] at *; exact le_trans h1 h2)
      (fun a b => by simp only [Bool.or_eq_true, decide_eq_true_eq]; exact le_total a b) (normCols R f)
    exact this.imp fun h => by simpa using h
  · exact hperm.trans (List.mergeSort_perm _ _).symm

theorem isCommit_of_out {A : Matrix (Fin p.K) (Fin p.N) Fq} {R : GenMat p} {f : Vector Nat p.N}
    {piv : Fin p.K → Fin p.N} (h : RrefOut A R f piv) {cols : List (List Nat)} (hperm : cols.Perm (normCols R f))
    (hs : cols.Pairwise (· ≤ ·)) : IsCommit A cols :=
  ⟨matOf R, piv, h.rowEq, h.rref, commitment_eq h.reduced h.flags hperm hs⟩

theorem Spec.IsCommit.unique {k n : Nat} {A : Matrix (Fin k) (Fin n) (ZMod 127)} {c c' : List (List Nat)}
    (h : IsCommit A c) (h' : IsCommit A c') : c = c' := by
  obtain ⟨R, piv, h1, h2, rfl⟩ := h
  obtain ⟨R', piv', h1', h2', rfl⟩ := h'
  obtain ⟨e1, e2⟩ := rref_unique h2 h2' (h1.symm.trans h1')
  rw [e1, e2]

theorem Spec.IsCommit.rowEq {k n : Nat} {A B : Matrix (Fin k) (Fin n) (ZMod 127)} {c : List (List Nat)}
    (h : IsCommit A c) (hAB : RowEq A B) : IsCommit B c := by
  obtain ⟨R, piv, h1, h2, rfl⟩ := h
  exact ⟨R, piv, hAB.symm.trans h1, h2, rfl⟩

/-- Any matrix over the field comes from an array. -/
theorem exists_matOf {k n : Nat} (A : Matrix (Fin k) (Fin n) Fq) : ∃ G : Vector (Vector Nat n) k, Reduced G ∧ matOf G = A := by
  refine ⟨Vector.ofFn fun i => Vector.ofFn fun j => ZMod.val (A i j), ?_, ?_⟩
  · intro i j hi hj
    rw [g2_ofFn _ i j hi hj]
    exact ZMod.val_lt _
  · ext i j
    unfold matOf
    rw [g2_ofFn _ i j i.2 j.2, ZMod.natCast_val, ZMod.cast_id', id]

/-- The flags of a list of pivots. -/
theorem exists_flags {k n : Nat} (piv : Fin k → Fin n) : ∃ f : Vector Nat n, FlagsOf f piv := by
  classical
  refine ⟨Vector.ofFn fun j => if ∃ t, piv t = j then 1 else 0, ?_⟩
  intro j
  rw [g_ofFn _ _ j.2]

theorem exists_out {A R : Matrix (Fin p.K) (Fin p.N) Fq} {piv} (h1 : RowEq A R) (h2 : IsRREF R piv) :
    ∃ R' f, RrefOut A R' f piv ∧ matOf R' = R := by
  obtain ⟨R', hr, rfl⟩ := exists_matOf R
  obtain ⟨f, hf⟩ := exists_flags piv
  exact ⟨R', f, ⟨hr, h1, h2, hf⟩, rfl⟩

theorem commitment_perm {R : GenMat p} {f : Vector Nat p.N} {piv : Fin p.K → Fin p.N} (hR : Reduced R) (h : FlagsOf f piv) :
    (commitment (matOf R) piv).Perm (normCols R f) := by
  unfold commitment
  rw [← normCols_spec hR h]
  exact List.mergeSort_perm _ _

theorem commitment_sorted {k n : Nat} (R : Matrix (Fin k) (Fin n) (ZMod 127)) (piv : Fin k → Fin n) :
    (commitment R piv).Pairwise (· ≤ ·) := by
  unfold commitment
  have := List.pairwise_mergeSort (le := fun a b : List Nat => decide (a ≤ b))
    (fun a b c h1 h2 => by simp only [decide_eq_true_eq] at *; exact le_trans h1 h2)
    (fun a b => by simp only [Bool.or_eq_true, decide_eq_true_eq]; exact le_total a b)
    (((List.finRange n).filter fun j => ∀ t, piv t ≠ j).map fun j => (normalise (column R j)).map ZMod.val)
  exact this.imp fun h => by simpa using h

/-- Codes that differ by a column map whose first `K` columns are, unscaled, the pivot columns have the same
commitment. -/
theorem commitment_colMap (hKN : p.K ≤ p.N) {A R B : Matrix (Fin p.K) (Fin p.N) Fq} {piv : Fin p.K → Fin p.N}
    (h1 : RowEq A R) (h2 : IsRREF R piv) (hB : FullRank B)
    (P : Matrix (Fin p.K) (Fin p.K) Fq) (hP : IsUnit P) (σ : Equiv.Perm (Fin p.N)) (d : Fin p.N → Fq)
    (hd : ∀ j, d j ≠ 0) (h : ∀ i j, B i j = (P * A) i (σ j) * d j)
    (ht : ∀ t, σ (Fin.castLE hKN t) = piv t ∧ d (Fin.castLE hKN t) = 1) :
    IsCommit B (commitment R piv) := by
  obtain ⟨R', f, hO, rfl⟩ := exists_out h1 h2
  obtain ⟨G, hG, rfl⟩ := exists_matOf B
  obtain ⟨⟨ok, R2, f2⟩, _, hout⟩ := (generatorRREF_full G hKN hG hB).exists_ok
  obtain ⟨-, piv2, hO2⟩ := hout
  have hp := normCols_perm hKN hO hO2 P hP σ d hd h ht
  exact isCommit_of_out hO2 ((commitment_perm hO.reduced hO.flags).trans hp.symm) (commitment_sorted _ _)

/-! ## Bytes -/

theorem normBytes_eq (V : NormIS p) : normBytes V = commitBytes p.K (colsOf V) := by
  unfold normBytes commitBytes colsOf
  rw [← List.flatMap_def]
  have : V.toList = (List.range p.K).map fun i => if h : i < p.K then V[i] else Vector.replicate _ 0 := by
    apply List.ext_getElem
    · simp
    · intro i h1 h2
      have : i < p.K := by simpa using h1
      simp [this]
  rw [this, List.flatMap_map]
  apply List.flatMap_congr
  intro i hi
  rw [List.mem_range] at hi
  rw [dif_pos hi, List.map_map]
  apply List.ext_getElem
  · simp
  · intro j h1 h2
    have hj : j < p.N - p.K := by simpa using h1
    simp only [List.getElem_map, List.getElem_range, Function.comp, Vector.getElem_toList]
    congr 1
    rw [colOf, List.getD_eq_getElem?_getD, List.getElem?_map, List.getElem?_range hi]
    simp only [Option.map_some, Option.getD_some]
    rw [g2_eq _ _ _ hi, g_eq_getElem _ _ hj]

/-! ## Responses -/

theorem idxBits_eq : p.idxBits = indexBits p := by unfold Params.idxBits indexBits; cases p.cat <;> rfl

theorem valid_congr {a b : Action p} (h1 : ∀ t < p.K, a.perm t = b.perm t) (h2 : ∀ t < p.K, a.coef t = b.coef t)
    (h : a.Valid) : b.Valid := by
  refine ⟨fun t ht => by rw [← h2 t ht]; exact h.1 t ht, fun t ht => by rw [← h1 t ht]; exact h.2.1 t ht, ?_⟩
  intro s hs t ht e
  rw [← h1 s hs, ← h1 t ht] at e
  exact h.2.2 s hs t ht e

theorem actOn_congr {a b : Action p} (h1 : ∀ t < p.K, a.perm t = b.perm t) (h2 : ∀ t < p.K, a.coef t = b.coef t)
    (A : Matrix (Fin p.K) (Fin p.N) Fq) : actOn A a = actOn A b := by
  have hr : restCols p a.perm = restCols p b.perm := by
    unfold restCols
    apply List.filter_congr
    intro j _
    have : (∀ t < p.K, a.perm t ≠ j) ↔ ∀ t < p.K, b.perm t ≠ j :=
      forall₂_congr fun t ht => by rw [h1 t ht]
    simp only [this]
  funext i j
  unfold actOn
  by_cases hj : j.val < p.K
  · rw [if_pos hj, if_pos hj, h1 j hj, h2 j hj]
  · rw [if_neg hj, if_neg hj, hr]

/-- The model's decoder and the specified one agree. -/
theorem decodeAction_perm (resp : Vector UInt8 p.monoBytes) (t : Nat) (ht : t < p.K) :
    g (decodeAction resp).permutation t = (Spec.decodeAction p resp).perm t := by
  rw [decodeAction, g_ofFn _ _ ht, Spec.decodeAction, idxBits_eq]

theorem decodeAction_coef (resp : Vector UInt8 p.monoBytes) (t : Nat) (ht : t < p.K) :
    g (decodeAction resp).coefficients t = (Spec.decodeAction p resp).coef t := by
  rw [decodeAction, g_ofFn _ _ ht, Spec.decodeAction, idxBits_eq]

theorem decodeAction_valid (resp : Vector UInt8 p.monoBytes) :
    (decodeAction resp).Valid ↔ (Spec.decodeAction p resp).Valid := by
  constructor
  · intro h
    exact valid_congr (a := ⟨g (decodeAction resp).permutation, g (decodeAction resp).coefficients⟩)
      (decodeAction_perm resp) (decodeAction_coef resp) ⟨h.1, h.2.1, fun s hs t ht => h.2.2 s t hs ht⟩
  · intro h
    have := valid_congr (b := ⟨g (decodeAction resp).permutation, g (decodeAction resp).coefficients⟩)
      (fun t ht => (decodeAction_perm resp t ht).symm) (fun t ht => (decodeAction_coef resp t ht).symm) h
    exact ⟨this.1, this.2.1, fun s t hs ht => this.2.2 s hs t ht⟩

/-! ## Public codes -/

theorem denseBelow_eq (buf : Vector UInt8 p.rrefBytes) (n : Nat) (hn : n ≤ p.N) :
    nonPiv (decFlags buf) n = denseBelow buf n := by
  unfold nonPiv denseBelow
  apply List.filter_congr
  intro j hj
  rw [List.mem_range] at hj
  rw [decFlags, g_ofFn _ _ (by omega)]
  cases bitAt buf j <;> simp

theorem decodeRref_entry (buf : Vector UInt8 p.rrefBytes) (i j : Nat) (hi : i < p.K) (hj : j < p.N) :
    g2 (decodeRref buf) i j = codeEntry p buf i j := by
  unfold decodeRref
  rw [g2_ofFn _ i j hi hj]
  simp only
  rw [denseBelow_eq _ _ (Nat.le_refl _), denseBelow_eq _ _ (Nat.le_of_lt hj), codeEntry, decFlags, g_ofFn _ _ hj]
  cases bitAt buf j <;> simp [b2n]

theorem decodeRref_mat (buf : Vector UInt8 p.rrefBytes) : matOf (decodeRref buf) = decodeCode p buf := by
  funext i j
  rw [matOf, decodeRref_entry buf i j i.2 j.2, decodeCode]

theorem CanonCode.reduced {buf : Vector UInt8 p.rrefBytes} (h : ∀ i < p.K, ∀ j < p.N, codeEntry p buf i j < 127) :
    Reduced (decodeRref buf) := by
  intro i j hi hj
  rw [decodeRref_entry buf i j hi hj]
  exact h i hi j hj

/-- The codes of a key that passes the size condition have full rank. -/
theorem GoodCode.fullRank (hp : p.WF) {buf : Vector UInt8 p.rrefBytes} (h : (denseBelow buf p.N).length ≤ p.N - p.K) :
    FullRank (decodeCode p buf) := by
  rw [← decodeRref_mat]
  exact fullRank_decodeRref hp buf (by rw [denseBelow_eq _ _ (Nat.le_refl _)]; exact h)

/-- One round with a response, as specified. -/
theorem verifyResponse_spec (hp : p.WF) (sl : Stale p) (sfg : Vector UInt8 p.rrefBytes)
    (resp : Vector UInt8 p.monoBytes) (hgood : GoodCode p sfg) :
    Wp F (verifyResponse sl sfg resp) (fun o => match o with
      | none => ¬ (Spec.decodeAction p resp).Valid
      | some V => (Spec.decodeAction p resp).Valid ∧
        IsCommit (actOn (decodeCode p sfg) (Spec.decodeAction p resp)) (colsOf V)) := by
  have hz : (nonPiv (decFlags sfg) p.N).length ≤ p.N - p.K := by
    rw [denseBelow_eq _ _ (Nat.le_refl _)]; exact hgood.1
  have := verifyResponse_wp hp sl sfg resp hz (canonM (decodeRref sfg)) (canonM_reduced _)
    (by rw [matOf_canonM]; exact fullRank_decodeRref hp sfg hz) (matOf_canonM _).symm (fun a ha => by
      rcases hgood.2 with hN | hred
      · exact verifyTail_canon hp hN sl sfg hz a ha
      · rw [canonM_of_reduced (CanonCode.reduced hred)])
  refine (this.monoF False.elim).mono ?_
  rintro (_ | V) h
  · exact fun hv => h ((decodeAction_valid resp).mpr hv)
  · obtain ⟨h1, σ, d, hd, hact, hσ, R, f, piv, hR, h2, h3⟩ := h
    refine ⟨(decodeAction_valid resp).mp h1, ?_⟩
    rw [hact, decodeRref_mat] at hR
    have e := actOn_congr (a := ⟨g (decodeAction resp).permutation, g (decodeAction resp).coefficients⟩)
      (decodeAction_perm resp) (decodeAction_coef resp) (decodeCode p sfg)
    rw [e] at hR
    exact isCommit_of_out hR h2 h3

/-- A response acts as a map of the columns. -/
theorem actOn_colMap (hp : p.WF) (A : Matrix (Fin p.K) (Fin p.N) Fq) (a : Action p) (ha : a.Valid) :
    ∃ σ d, (∀ j, d j ≠ 0) ∧ actOn A a = colMap A σ d ∧
      ∀ t : Fin p.K, (σ (Fin.castLE (Nat.le_of_lt hp.K_lt_N) t)).val = a.perm t ∧
        d (Fin.castLE (Nat.le_of_lt hp.K_lt_N) t) = ((a.coef t : Nat) : Fq) := by
  obtain ⟨G, hG, rfl⟩ := exists_matOf A
  let m : MonoAction p := ⟨Vector.ofFn fun t => a.coef t, Vector.ofFn fun t => a.perm t⟩
  have hm1 : ∀ t < p.K, g m.permutation t = a.perm t := fun t ht => by simp only [m]; rw [g_ofFn _ _ ht]
  have hm2 : ∀ t < p.K, g m.coefficients t = a.coef t := fun t ht => by simp only [m]; rw [g_ofFn _ _ ht]
  have hv := valid_congr (b := ⟨g m.permutation, g m.coefficients⟩) (fun t ht => (hm1 t ht).symm)
    (fun t ht => (hm2 t ht).symm) ha
  obtain ⟨R, _, _, σ, d, hd, h1, h2, h3⟩ := (applyActionToG_mat G G m (Nat.le_of_lt hp.K_lt_N)
    ⟨hv.1, hv.2.1, fun s t hs ht => hv.2.2 s hs t ht⟩ hG).exists_ok
  refine ⟨σ, d, hd, ?_, fun t => ?_⟩
  · rw [← h1, h2]
    exact actOn_congr (fun t ht => (hm1 t ht).symm) (fun t ht => (hm2 t ht).symm) _
  · rw [(h3 t).1, (h3 t).2, hm1 t t.2, hm2 t t.2]; exact ⟨rfl, rfl⟩

end LESS
