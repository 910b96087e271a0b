import Verif.Spec.SameCode
import Verif.Proofs.Complete
import Verif.Proofs.G0
import Verif.Props.Monomials
/-!
# Generator matrices: reduction, encodings, normalisation, sorting, commitments (C23 to C29)

`matOf G` is the matrix over the field with 127 elements with the entries of `G`; `Reduced G` says that all
entries are below 127, `FullRank` that the rows are linearly independent.
-/
namespace LESS

open Spec Matrix

variable {p : Params}

/-! ## Row equivalence and codes -/

theorem Spec.RowEq.sameCode {k n : Nat} {A B : Matrix (Fin k) (Fin n) Fq} (h : RowEq A B) : SameCode A B := by
  have key : ∀ {A B : Matrix (Fin k) (Fin n) Fq}, RowEq A B → ∀ y, ∃ x, vecMul x A = vecMul y B := by
    rintro A B ⟨P, -, rfl⟩ y
    exact ⟨vecMul y P, by rw [vecMul_vecMul]⟩
  intro v
  constructor
  · rintro ⟨x, rfl⟩; exact key h.symm x
  · rintro ⟨y, rfl⟩; exact key h y

theorem Spec.SameCode.rowEq {k n : Nat} {A B : Matrix (Fin k) (Fin n) Fq} (h : SameCode A B) (hA : FullRank A) :
    RowEq A B := by
  have h1 : ∀ i, ∃ x, vecMul x A = B i := fun i => (h (B i)).mpr ⟨Pi.single i 1, by
    rw [Matrix.single_one_vecMul]; rfl⟩
  have h2 : ∀ i, ∃ y, vecMul y B = A i := fun i => (h (A i)).mp ⟨Pi.single i 1, by
    rw [Matrix.single_one_vecMul]; rfl⟩
  choose X hX using h1
  choose Y hY using h2
  have e1 : B = Matrix.of X * A := by
    ext i j; rw [← hX i]; rfl
  have e2 : A = Matrix.of Y * B := by
    ext i j; rw [← hY i]; rfl
  have e3 : Matrix.of Y * Matrix.of X = 1 := by
    have e4 : (Matrix.of Y * Matrix.of X - 1) * A = 0 := by
      rw [Matrix.sub_mul, Matrix.mul_assoc, ← e1, ← e2, Matrix.one_mul, sub_self]
    rw [← sub_eq_zero]
    ext i j
    have := hA ((Matrix.of Y * Matrix.of X - 1) i) (by
      have := congrFun e4 i
      exact this)
    exact congrFun this j
  refine ⟨Matrix.of X, ?_, e1⟩
  exact IsUnit.of_mul_eq_one (Matrix.of Y) (mul_eq_one_comm.mp e3)

/-! ## C23 -/

/-- `generator_RREF` on any matrix with reduced entries: no access out of bounds, the return value is 1 exactly if
the rows are linearly independent (0 otherwise), and the result generates the same code, has reduced entries and,
when 1 is returned, is in reduced row echelon form with the indicator 1 at the pivot columns and 0 elsewhere. -/
theorem C23_rref_correct (G : GenMat p) (hKN : p.K ≤ p.N) (hG : Reduced G) :
    ∃ ok R f, generatorRREF G (Vector.replicate p.N 0) = .ok (ok, R, f) ∧
      (ok = 0 ∨ ok = 1) ∧ (ok = 1 ↔ FullRank (matOf G)) ∧ Reduced R ∧ SameCode (matOf G) (matOf R) ∧
      (ok = 1 → ∃ piv : Fin p.K → Fin p.N, IsRREF (matOf R) piv ∧
        ∀ j : Fin p.N, g f j = if ∃ t, piv t = j then 1 else 0) := by
  obtain ⟨⟨ok, R, f⟩, e, h1, h2, h3⟩ := (generatorRREF_wp G hKN hG).exists_ok
  refine ⟨ok, R, f, e, ?_, ?_, h1, h2.sameCode, ?_⟩ <;> rcases h3 with ⟨a, b⟩ | ⟨a, b, c⟩ <;> dsimp only at a
  · exact .inl a
  · exact .inr a
  · subst a; exact ⟨fun h => absurd h (by decide), fun h => absurd h b⟩
  · exact ⟨fun _ => b, fun _ => a⟩
  · subst a; exact fun h => absurd h (by decide)
  · exact fun _ => c

/-! ## C24 -/

/-- Two generators of one code are reduced to the same matrix with the same indicator. -/
theorem C24_rref_canonical (G H : GenMat p) (hKN : p.K ≤ p.N) (hG : Reduced G) (hH : Reduced H)
    (hr : FullRank (matOf G)) (h : SameCode (matOf G) (matOf H)) :
    ∃ R f, generatorRREF G (Vector.replicate p.N 0) = .ok (1, R, f) ∧
      generatorRREF H (Vector.replicate p.N 0) = .ok (1, R, f) := by
  have hrow := h.rowEq hr
  obtain ⟨⟨ok, R, f⟩, e, h1, piv, hO⟩ := (generatorRREF_full G hKN hG hr).exists_ok
  obtain ⟨⟨ok', R', f'⟩, e', h1', piv', hO'⟩ := (generatorRREF_full H hKN hH (hrow.fullRank hr)).exists_ok
  dsimp only at h1 h1' hO hO'
  subst h1 h1'
  obtain ⟨hm, hp⟩ := rref_unique hO.rref hO'.rref ((hO.rowEq.symm.trans hrow).trans hO'.rowEq)
  have hR := matOf_inj hO.reduced hO'.reduced hm
  have hf : f = f' := by
    apply vec_ext
    intro i hi
    have a := hO.flags ⟨i, hi⟩
    have b := hO'.flags ⟨i, hi⟩
    dsimp only at a b
    rw [a, b, hp]
  subst hR hf
  exact ⟨R, f, e, e'⟩

/-- Conversely different codes are reduced to different matrices. -/
theorem C24_rref_separates (G H : GenMat p) (hKN : p.K ≤ p.N) (hG : Reduced G) (hH : Reduced H) {a b f f'} {R : GenMat p}
    (e : generatorRREF G (Vector.replicate p.N 0) = .ok (a, R, f))
    (e' : generatorRREF H (Vector.replicate p.N 0) = .ok (b, R, f')) : SameCode (matOf G) (matOf H) := by
  have h1 := ((generatorRREF_wp G hKN hG).of_ok e).2.1.sameCode
  have h2 := ((generatorRREF_wp H hKN hH).of_ok e').2.1.sameCode
  exact fun v => (h1 v).trans (h2 v).symm

/-! ## C25, C26 -/

/-- A generator in reduced row echelon form with its indicator. -/
structure IsCode (R : GenMat p) (f : Vector Nat p.N) (piv : Fin p.K → Fin p.N) : Prop where
  reduced : Reduced R
  rref : IsRREF (matOf R) piv
  flags : ∀ j : Fin p.N, g f j = if ∃ t, piv t = j then 1 else 0

theorem IsCode.out {R : GenMat p} {f : Vector Nat p.N} {piv : Fin p.K → Fin p.N} (h : IsCode R f piv) :
    RrefOut (matOf R) R f piv := ⟨h.reduced, RowEq.refl _, h.rref, h.flags⟩

/-- Encoding a generator in reduced row echelon form and decoding it gives it back, whatever the output buffers
contained before; the encoding consists of the indicator bits, padded to whole bytes, and seven bits for each entry
outside the pivot columns, in `RREF_MAT_PACKEDBYTES` bytes. -/
theorem C25_code_round_trip (hp : p.WF) {R : GenMat p} {f : Vector Nat p.N} {piv : Fin p.K → Fin p.N}
    (h : IsCode R f piv) : ∃ b : Vector UInt8 p.rrefBytes,
      (∀ buf, compressRref buf R f = .ok b) ∧ (∀ full, expandToRref full b = .ok R) ∧
      b = packed p.rrefBytes (codeBits p (matOf R) piv) := by
  have hO := h.out
  refine ⟨packed p.rrefBytes (rrefBits R f), fun buf => compressRref_eq hp buf R f hO.fits, fun full => ?_, ?_⟩
  · rw [expandToRref_eq hp full _ (by
      rw [decFlags_packed R f hO.fits.flag]; exact le_of_eq hO.fits.count), hO.roundTrip]
  · rw [codeBits_eq hO]

/-- Different generators have different encodings. -/
theorem C25_code_injective (hp : p.WF) {R R' : GenMat p} {f f' : Vector Nat p.N} {piv piv' : Fin p.K → Fin p.N}
    (h : IsCode R f piv) (h' : IsCode R' f' piv') (buf buf' : Vector UInt8 p.rrefBytes)
    (e : compressRref buf R f = compressRref buf' R' f') : R = R' ∧ f = f' := by
  obtain ⟨b, h1, h2, -⟩ := C25_code_round_trip hp h
  obtain ⟨b', h1', h2', -⟩ := C25_code_round_trip hp h'
  rw [h1, h1'] at e
  cases e
  have := h2 R
  rw [h2' R] at this
  cases this
  refine ⟨rfl, vec_ext fun i hi => ?_⟩
  have a := h.flags ⟨i, hi⟩
  have b := h'.flags ⟨i, hi⟩
  dsimp only at a b
  rw [a, b, (rref_unique h.rref h'.rref (RowEq.refl _)).2]

/-- The compact form of a generator in reduced row echelon form expands to it, whatever the output structures
contained before. -/
theorem C26_compact_round_trip (hp : p.WF) {R : GenMat p} {f : Vector Nat p.N} {piv : Fin p.K → Fin p.N}
    (h : IsCode R f piv) (stale : RrefMat p) (full : GenMat p) :
    ∃ c, generatorRrefCompact stale R f = .ok c ∧ generatorRrefExpand full c = .ok R := by
  have e := compact_expand h.out stale full hp.N_lt.le
  cases hc : generatorRrefCompact stale R f with
  | ok c => rw [hc] at e; exact ⟨c, rfl, e⟩
  | error x => rw [hc] at e; cases e

/-! ## C27 -/

theorem normCol_zero {l : List Nat} (h : firstNZ l = 0) : ∀ x ∈ l, x = 0 := by
  intro x hx
  unfold firstNZ at h
  cases e : l.find? (· ≠ 0) with
  | none =>
    have := List.find?_eq_none.mp e x hx
    simpa using this
  | some y =>
    rw [e] at h
    have := List.find?_some e
    simp at this h
    exact absurd h this

/-- `lex_minimize` writes a column that is a non-zero multiple of the source column, reduced, with first non-zero
entry 1, and leaves the other columns as they are. -/
theorem C27_normalise (V : NormIS p) (G : GenMat p) (dst col : Nat) (hdst : dst < p.N - p.K) (hcol : col < p.N)
    (hG : Reduced G) :
    ∃ R, lexMinimize V dst G col = .ok R ∧ (∀ i < p.K, ∀ j < p.N - p.K, j ≠ dst → g2 R i j = g2 V i j) ∧
      (∀ i < p.K, g2 R i dst < 127) ∧
      (∃ k : ZMod 127, k ≠ 0 ∧ ∀ i < p.K, ((g2 R i dst : Nat) : ZMod 127) = k * ((g2 G i col : Nat) : ZMod 127)) ∧
      ∀ i < p.K, g2 R i dst ≠ 0 → (∀ i' < i, g2 R i' dst = 0) → g2 R i dst = 1 := by
  obtain ⟨R, e, h1, h2⟩ := (lexMinimize_wp V dst G col hdst hcol
    (fun i hi => (hG i col hi hcol).trans (by decide))).exists_ok
  have hlt := colOf_lt hG col hcol
  have hent : ∀ i < p.K, g2 R i dst = fqRed (g2 G i col * fqInv (firstNZ (colOf G col))) := by
    intro i hi
    have a : (colOf R dst)[i]? = (normCol (colOf G col))[i]? := by rw [h1]
    unfold normCol at a
    rw [List.getElem?_map] at a
    simpa [colOf, hi] using a
  have hf := firstNZ_lt hlt
  have hcast : ∀ i < p.K, ((g2 R i dst : Nat) : Fq) =
      ((g2 G i col : Nat) : Fq) * ((firstNZ (colOf G col) : Nat) : Fq)⁻¹ := by
    intro i hi
    rw [hent i hi, fqRed_mul_cast (hG i col hi hcol) (fqInv_lt _), fqInv_cast _ (hf.trans (by decide))]
  have hne : ∀ i, i < p.K → (g2 R i dst = 0 ↔ firstNZ (colOf G col) = 0 ∨ g2 G i col = 0) := by
    intro i hi
    have a := hcast i hi
    have b : g2 R i dst < 127 := by rw [hent i hi]; exact fqRed_lt _
    rw [← cast_eq_zero b, a, mul_eq_zero, inv_eq_zero, cast_eq_zero (hG i col hi hcol), cast_eq_zero hf, or_comm]
  refine ⟨R, e, fun i hi j hj => h2 i j hi hj, fun i hi => by rw [hent i hi]; exact fqRed_lt _, ?_, ?_⟩
  · by_cases hz : firstNZ (colOf G col) = 0
    · refine ⟨1, one_ne_zero, fun i hi => ?_⟩
      have e0 : g2 G i col = 0 := normCol_zero hz _ (List.mem_map.mpr ⟨i, List.mem_range.mpr hi, rfl⟩)
      have e1 := (hne i hi).mpr (.inl hz)
      rw [e0, e1]; simp
    · refine ⟨((firstNZ (colOf G col) : Nat) : Fq)⁻¹, ?_, fun i hi => by rw [hcast i hi, mul_comm]⟩
      exact inv_ne_zero (fun h => hz ((cast_eq_zero hf).mp h))
  · intro i hi hn hlow
    have hz : firstNZ (colOf G col) ≠ 0 := fun h => hn ((hne i hi).mpr (.inl h))
    have hgi : g2 G i col ≠ 0 := fun h => hn ((hne i hi).mpr (.inr h))
    have hfirst : firstNZ (colOf G col) = g2 G i col := by
      unfold firstNZ colOf
      rw [List.find?_map]
      have : (List.range p.K).find? ((fun x => decide (x ≠ 0)) ∘ fun i => g2 G i col) = some i := by
        rw [List.find?_range_eq_some]
        refine ⟨by simpa using hgi, by simpa using hi, fun j hj => ?_⟩
        have := (hne j (hj.trans hi)).mp (hlow j hj)
        simpa using this.resolve_left hz
      rw [this]; rfl
    apply cast_inj (by rw [hent i hi]; exact fqRed_lt _) (by decide)
    rw [hcast i hi, hfirst, mul_inv_cancel₀ (fun h => hgi ((cast_eq_zero (hG i col hi hcol)).mp h))]
    simp

/-- Two columns are normalised to the same column exactly if one is a non-zero multiple of the other. -/
theorem C27_same_iff_multiple (V V' : NormIS p) (G G' : GenMat p) (dst dst' col col' : Nat) (hdst : dst < p.N - p.K)
    (hdst' : dst' < p.N - p.K) (hcol : col < p.N) (hcol' : col' < p.N) (hG : Reduced G) (hG' : Reduced G')
    {R R' : NormIS p} (e : lexMinimize V dst G col = .ok R) (e' : lexMinimize V' dst' G' col' = .ok R') :
    (∀ i < p.K, g2 R i dst = g2 R' i dst') ↔
      ∃ k : ZMod 127, k ≠ 0 ∧ ∀ i < p.K, ((g2 G' i col' : Nat) : ZMod 127) = k * ((g2 G i col : Nat) : ZMod 127) := by
  constructor
  · intro h
    obtain ⟨_, a, -, -, ⟨k, hk, hk2⟩, -⟩ := C27_normalise V G dst col hdst hcol hG
    obtain ⟨_, a', -, -, ⟨k', hk', hk2'⟩, -⟩ := C27_normalise V' G' dst' col' hdst' hcol' hG'
    rw [e] at a; rw [e'] at a'; cases a; cases a'
    refine ⟨k'⁻¹ * k, mul_ne_zero (inv_ne_zero hk') hk, fun i hi => ?_⟩
    have := hk2' i hi
    rw [← h i hi, hk2 i hi] at this
    rw [mul_assoc, this, inv_mul_cancel_left₀ hk']
  · rintro ⟨k, hk, h⟩
    have h1 := ((lexMinimize_wp V dst G col hdst hcol (fun i hi => (hG i col hi hcol).trans (by decide))).of_ok e).1
    have h2 := ((lexMinimize_wp V' dst' G' col' hdst' hcol' (fun i hi => (hG' i col' hi hcol').trans (by decide))).of_ok e').1
    have h3 := normCol_colOf hG hG' col col' hcol hcol' k hk h
    rw [← colOf_eq_iff, h1, h2, h3]

/-! ## C28 -/

/-- `lex_sort_cols` on any matrix of bytes: it ends without access out of bounds, the result has the same columns
with the same multiplicities, in non-decreasing lexicographic order. -/
theorem C28_sorts (hp : p.WF) (V : NormIS p) (hV : ∀ i j, i < p.K → j < p.N - p.K → g2 V i j < 256) :
    ∃ R, lexSortCols V = .ok R ∧ (colsOf R).Perm (colsOf V) ∧ (colsOf R).Pairwise (· ≤ ·) := by
  obtain ⟨R, e, -, h1, h2⟩ := (lexSortCols_wp V (by have := hp.N_lt; omega) (by have := hp.K_lt_N; omega) hV).exists_ok
  exact ⟨R, e, h1, h2⟩

/-- The result depends only on the multiset of columns. -/
theorem C28_depends_on_multiset (hp : p.WF) (V W : NormIS p) (hV : ∀ i j, i < p.K → j < p.N - p.K → g2 V i j < 256)
    (hW : ∀ i j, i < p.K → j < p.N - p.K → g2 W i j < 256) :
    lexSortCols V = lexSortCols W ↔ (colsOf V).Perm (colsOf W) := by
  obtain ⟨R, e, h1, h2⟩ := C28_sorts hp V hV
  obtain ⟨R', e', h1', h2'⟩ := C28_sorts hp W hW
  constructor
  · intro h
    rw [e, e'] at h
    cases h
    exact h1.symm.trans h1'
  · intro h
    rw [e, e', sorted_unique h2 h2' (h1.trans (h.trans h1'.symm))]

/-! ## C29 -/

theorem fullRank_valid {A : Matrix (Fin p.K) (Fin p.N) Fq} (hA : FullRank A) {m : Monomial p} (hm : m.Valid)
    (hN : p.N ≤ p.posMod) : FullRank (A * m.mat) := by
  obtain ⟨r, -, hr⟩ := (monomialInv_wp m m hm hN).exists_ok
  exact fullRank_mul hA (mat_inv hm hr)

/-- `prepare_digest_input` gives the same commitment and the same action for any two generators of one code,
whatever the output structures contained before. -/
theorem C29_depends_on_code (hp : p.WF) (V V' : NormIS p) (Qb Qb' : MonoAction p) (G H : GenMat p) (m : Monomial p)
    (hm : m.Valid) (hG : Reduced G) (hH : Reduced H) (hr : FullRank (matOf G)) (h : SameCode (matOf G) (matOf H)) :
    ∃ W a, prepareDigestInput V Qb G m = .ok (W, a, 1) ∧ prepareDigestInput V' Qb' H m = .ok (W, a, 1) := by
  have hN := hp.N_lt
  have hrow := h.rowEq hr
  obtain ⟨⟨W, a, ok⟩, e, h1, R, f, piv, hO, hperm, hs, ha⟩ := (prepareDigestInput_wp V Qb G m hp.K_lt_N hN hm hG
    (fullRank_valid hr hm hN.le)).exists_ok
  obtain ⟨⟨W', a', ok'⟩, e', h1', R', f', piv', hO', hperm', hs', ha'⟩ := (prepareDigestInput_wp V' Qb' H m hp.K_lt_N hN hm hH
    (fullRank_valid (hrow.fullRank hr) hm hN.le)).exists_ok
  dsimp only at h1 h1' hperm hs ha hperm' hs' ha'
  subst h1 h1'
  have hc := isCommit_of_out hO hperm hs
  have hc' := isCommit_of_out hO' hperm' hs'
  have hW : W = W' := colsOf_inj ((hc.rowEq (hrow.mul_right m.mat)).unique hc')
  have hpiv := (rref_unique hO.rref hO'.rref ((hO.rowEq.symm.trans (hrow.mul_right m.mat)).trans hO'.rowEq)).2
  have hp1 : a.permutation = a'.permutation := by
    apply vec_ext
    intro t ht
    have x := ha ⟨t, ht⟩
    have y := ha' ⟨t, ht⟩
    dsimp only at x y
    exact hm.1.2 _ _ x.1 y.1 (by rw [x.2.1, y.2.1, hpiv])
  have hc1 : a.coefficients = a'.coefficients := by
    apply vec_ext
    intro t ht
    have x := ha ⟨t, ht⟩
    have y := ha' ⟨t, ht⟩
    dsimp only at x y
    rw [x.2.2, y.2.2, hp1]
  have haa : a = a' := by
    cases a; cases a'; simp_all
  subst hW haa
  exact ⟨W, a, e, e'⟩

/-- What the signer and the verifier do in a round with non-zero challenge: `pkCode` is the encoding of the reduced
form of `G0 * S⁻¹` as key generation computes it; the signer commits to `G0 * M` and answers with the composition
of `S` and the action it got from the commitment; the verifier recomputes the signer's commitment from the public
code and the answer.  The two sides may run on any memory contents. -/
theorem C29_verifier_agrees (hp : p.WF) (sl sl' sl'' : Stale p) (G0 : GenMat p) (S M : Monomial p) (hS : S.Valid)
    (hM : M.Valid) (hG : Reduced G0) (hr : FullRank (matOf G0)) (buf : Vector UInt8 p.rrefBytes)
    (rbuf : Vector UInt8 p.monoBytes) :
    ∃ Si A R f pkCode V a act resp,
      monomialInv sl.mono S = .ok Si ∧ generatorMonomialMul sl.gen G0 Si = .ok A ∧
      generatorRREF A (Vector.replicate p.N 0) = .ok (1, R, f) ∧ compressRref buf R f = .ok pkCode ∧
      prepareDigestInput sl'.norm sl'.act G0 M = .ok (V, a, 1) ∧ composeAction sl'.mono sl'.act' S a = .ok act ∧
      compressMonomAction rbuf act = .ok resp ∧
      verifyResponse sl'' pkCode resp = .ok (some V) := by
  have hN := hp.N_lt
  have hKN := hp.K_lt_N
  obtain ⟨Si, e1, hSi⟩ := (monomialInv_wp sl.mono S hS hN.le).exists_ok
  have hinv' : Si.mat * S.mat = 1 := mul_eq_one_comm.mp (mat_inv hS hSi)
  obtain ⟨A, e2, hAr, hAm⟩ := (generatorMonomialMul_mat sl.gen G0 Si (inv_valid hS hSi) hG).exists_ok
  have hfr : FullRank (matOf A) := by rw [hAm]; exact fullRank_mul hr hinv'
  obtain ⟨⟨ok, R, f⟩, e3, h1, piv', hO'⟩ := (generatorRREF_full A hKN.le hAr hfr).exists_ok
  dsimp only at h1 hO'
  subst h1
  have e4 := compressRref_eq hp buf R f hO'.fits
  obtain ⟨⟨V, a, ok⟩, e5, h1, R', f', piv, hO, hperm, hs, ht⟩ := (prepareDigestInput_wp sl'.norm sl'.act G0 M hKN hN hM hG
    (fullRank_valid hr hM hN.le)).exists_ok
  dsimp only at h1 hO hperm hs ht
  subst h1
  obtain ⟨act, e6, hact⟩ := (composeAction_wp sl'.mono sl'.act' S a hN.le hS (fun t ht' => (ht ⟨t, ht'⟩).1)).exists_ok
  have hcoef : ∀ t < p.K, 1 ≤ g act.coefficients t ∧ g act.coefficients t < 127 := by
    intro t ht'
    obtain ⟨h1, h2, h3⟩ := hact t ht'
    obtain ⟨g1, g2, g3⟩ := ht ⟨t, ht'⟩
    have c1 := hS.2 _ h1
    have c2 := hM.2 _ g1
    rw [← g3] at c2
    refine ⟨?_, by rw [h3]; exact fqRed_lt _⟩
    apply Nat.one_le_iff_ne_zero.mpr
    rw [h3]
    intro e
    have e2 := fqRed_mul_cast c2.2 c1.2
    dsimp only at e e2
    rw [e] at e2
    rw [Nat.cast_zero] at e2
    rcases mul_eq_zero.mp e2.symm with h | h
    · have := (cast_eq_zero c2.2).mp h; omega
    · have := (cast_eq_zero c1.2).mp h; omega
  have hv : act.Valid := by
    refine ⟨hcoef, fun t ht' => (hact t ht').1, fun s t hs' ht' e => ?_⟩
    have e1 := (ht ⟨s, hs'⟩).2.1
    have e2 := (ht ⟨t, ht'⟩).2.1
    have e3 := (hact s hs').2.1
    have e4 := (hact t ht').2.1
    rw [e, e4] at e3
    dsimp only at e1 e2
    rw [e3] at e2
    have := hO.rref.mono.injective (Fin.ext (e1.symm.trans e2))
    exact congrArg Fin.val this
  have e7 := compressMonomAction_eq hp rbuf act (hv.fits hp)
  refine ⟨Si, A, R, f, _, V, a, act, _, e1, e2, e3, e4, e5, e6, e7, ?_⟩
  let sa : Action p := ⟨g act.permutation, g act.coefficients⟩
  have hsa : sa.Valid := ⟨hv.1, hv.2.1, fun s hs t ht => hv.2.2 s t hs ht⟩
  have hrow : RowEq (matOf G0) (matOf R * S.mat) := by
    obtain ⟨P, hP, e⟩ := hO'.rowEq
    refine ⟨P, hP, ?_⟩
    rw [e, hAm, Matrix.mul_assoc, Matrix.mul_assoc, hinv', Matrix.mul_one]
  have hpermN : ∃ (π : Equiv.Perm (Fin p.N)) (c : Fin p.N → Fq), (∀ i, c i ≠ 0) ∧
      ∀ i j, (S.mat * M.mat) i j = if π i = j then c i else 0 := by
    obtain ⟨r, _, hr⟩ := (monomialMul_wp S S M hS.1).exists_ok
    rw [← mat_mul hS hM hr]
    exact (mul_valid hS hM hr).perm
  have hcommit := response_commit hp (N := S.mat * M.mat) rfl hpermN hrow hO'.rref hO.rowEq hO.rref sa hsa (by
    intro t hlt
    obtain ⟨h1, h2, h3⟩ := hact t t.2
    obtain ⟨g1, g2, g3⟩ := ht t
    dsimp only [sa] at hlt ⊢
    rw [mul_mat_entry S M hS ⟨g act.permutation t, hlt⟩ (piv t) (by dsimp only; rw [h2, g2])]
    dsimp only
    rw [h3, fqRed_mul_cast (by rw [g3]; exact (hM.2 _ g1).2) (hS.2 _ h1).2, h2, g3, mul_comm])
  obtain ⟨d1, d2⟩ := decode_encode hp sa hsa
  have hgood := canonCode_codeBits p hO'.rref
  rw [codeBits_eq hO'] at hgood
  obtain ⟨o, eo, ho⟩ := (verifyResponse_spec (F := False) hp sl'' (packed p.rrefBytes (rrefBits R f))
    (packed p.monoBytes (actionBits act)) hgood.1.good).exists_ok
  rw [actionBits_eq] at eo ho ⊢
  have henc : encodeAction p sa = packed p.monoBytes
      (bitFields (indexBits p) ((List.range p.K).map (g act.permutation)) ++ bitFields 7 ((List.range p.K).map (g act.coefficients))) := rfl
  rw [← henc] at eo ho ⊢
  rw [eo]
  have hvd := valid_congr (fun t ht => (d1 t ht).symm) (fun t ht => (d2 t ht).symm) hsa
  cases o with
  | none => exact absurd hvd ho
  | some V' =>
    obtain ⟨-, ho⟩ := ho
    rw [hgood.2, actOn_congr d1 d2] at ho
    have hc := commitment_eq hO.reduced hO.flags hperm hs
    have := ho.unique hcommit
    rw [← hc] at this
    rw [colsOf_inj this]

/-! ## A concrete case

A generator with a zero column in front of the identity, so that the pivots are the columns `1..K`. -/

/-- A zero column, the identity, then entries depending on row and column. -/
def stdCode (p : Params) : GenMat p := Vector.ofFn fun i => Vector.ofFn fun j =>
  if j.val = 0 then 0 else if j.val ≤ p.K then (if j.val = i.val + 1 then 1 else 0) else (i.val + 2 * j.val) % 127

/-- The same code, rows multiplied by 2. -/
def stdCode2 (p : Params) : GenMat p := Vector.ofFn fun i => Vector.ofFn fun j => (2 * g2 (stdCode p) i j) % 127

/-- Pivot columns of `stdCode`. -/
def stdPiv (hp : p.WF) (t : Fin p.K) : Fin p.N := ⟨t.val + 1, by have := hp.K_lt_N; omega⟩

/-- Indicator of `stdCode`. -/
def stdFlags (p : Params) : Vector Nat p.N := Vector.ofFn fun j => if j.val = 0 then 0 else if j.val ≤ p.K then 1 else 0

theorem stdCode_entry (i j : Nat) (hi : i < p.K) (hj : j < p.N) : g2 (stdCode p) i j =
    if j = 0 then 0 else if j ≤ p.K then (if j = i + 1 then 1 else 0) else (i + 2 * j) % 127 := by
  unfold stdCode; rw [g2_ofFn _ i j hi hj]

theorem stdCode_reduced : Reduced (stdCode p) := by
  intro i j hi hj
  rw [stdCode_entry i j hi hj]
  split
  · decide
  · split
    · split <;> decide
    · exact Nat.mod_lt _ (by decide)

theorem stdCode_isCode (hp : p.WF) : IsCode (stdCode p) (stdFlags p) (stdPiv hp) := by
  refine ⟨stdCode_reduced, ⟨fun a b h => ?_, fun i t => ?_, fun t j h => ?_⟩, fun j => ?_⟩
  · have : a.val < b.val := h
    show a.val + 1 < b.val + 1
    omega
  · have h1 := t.2
    simp only [matOf, stdPiv]
    rw [stdCode_entry _ _ i.2 (by have := hp.K_lt_N; omega), if_neg (by omega), if_pos (by omega)]
    by_cases e : i = t
    · subst e; simp
    · rw [if_neg (fun h => e (Fin.ext (by omega))), if_neg e]; simp
  · have h1 : j.val < t.val + 1 := h
    have h2 := t.2
    simp only [matOf]
    rw [stdCode_entry _ _ t.2 j.2]
    split
    · simp
    · rw [if_pos (by omega), if_neg (by omega)]; simp
  · unfold stdFlags
    rw [g_ofFn _ _ j.2]
    by_cases e : ∃ t, stdPiv hp t = j
    · rw [if_pos e]
      obtain ⟨t, rfl⟩ := e
      have := t.2
      have e0 : (stdPiv hp t).val = t.val + 1 := rfl
      dsimp only
      rw [e0, if_neg (by omega), if_pos (by omega)]
    · rw [if_neg e]
      dsimp only
      by_cases h0 : j.val = 0
      · rw [if_pos h0]
      · rw [if_neg h0, if_neg]
        intro hle
        exact e ⟨⟨j.val - 1, by omega⟩, Fin.ext (by simp only [stdPiv]; omega)⟩

theorem stdCode2_reduced : Reduced (stdCode2 p) := by
  intro i j hi hj
  unfold stdCode2
  rw [g2_ofFn _ i j hi hj]
  exact Nat.mod_lt _ (by decide)

theorem stdCode_same : SameCode (matOf (stdCode p)) (matOf (stdCode2 p)) := by
  apply Spec.RowEq.sameCode
  refine ⟨(2 : Fq) • 1, ?_, ?_⟩
  · have h2 : IsUnit (2 : Fq) := IsUnit.mk0 _ (by decide)
    obtain ⟨u, hu⟩ := h2
    rw [← hu]
    refine IsUnit.of_mul_eq_one ((↑u⁻¹ : Fq) • (1 : Matrix (Fin p.K) (Fin p.K) Fq)) ?_
    rw [Matrix.smul_mul, Matrix.one_mul, smul_smul, Units.mul_inv, one_smul]
  · rw [Matrix.smul_mul, Matrix.one_mul]
    ext i j
    simp only [matOf, Matrix.smul_apply]
    unfold stdCode2
    rw [g2_ofFn _ _ _ i.2 j.2]
    dsimp only
    rw [ZMod.natCast_mod]
    push_cast
    rfl

/-- Two different generators of one code for the category 5 parameters: both are reduced, of full rank, and their
reduction, encoding and commitment are as the theorems say. -/
example : ∃ R f b W a, generatorRREF (stdCode Params.cat5Balanced) (Vector.replicate _ 0) = .ok (1, R, f) ∧
    generatorRREF (stdCode2 Params.cat5Balanced) (Vector.replicate _ 0) = .ok (1, R, f) ∧
    stdCode Params.cat5Balanced ≠ stdCode2 Params.cat5Balanced ∧
    compressRref (Vector.replicate _ 255) (stdCode Params.cat5Balanced) (stdFlags _) = .ok b ∧
    expandToRref (stdCode2 _) b = .ok (stdCode Params.cat5Balanced) ∧
    prepareDigestInput (Vector.replicate _ (Vector.replicate _ 0)) default (stdCode Params.cat5Balanced) (shiftMono _) = .ok (W, a, 1) ∧
    prepareDigestInput (Vector.replicate _ (Vector.replicate _ 9)) default (stdCode2 Params.cat5Balanced) (shiftMono _) = .ok (W, a, 1) := by
  have hp := cat5Balanced_WF
  have hc := stdCode_isCode hp
  obtain ⟨R, f, h1, h2⟩ := C24_rref_canonical _ _ hp.K_lt_N.le stdCode_reduced stdCode2_reduced hc.rref.fullRank stdCode_same
  obtain ⟨b, h3, h4, -⟩ := C25_code_round_trip hp hc
  obtain ⟨W, a, h5, h6⟩ := C29_depends_on_code hp (Vector.replicate _ (Vector.replicate _ 0)) (Vector.replicate _ (Vector.replicate _ 9))
    default default _ _ (shiftMono _) (shiftMono_valid _) stdCode_reduced stdCode2_reduced hc.rref.fullRank stdCode_same
  refine ⟨R, f, b, W, a, h1, h2, fun e => ?_, h3 _, h4 _, h5, h6⟩
  have e2 : g2 (stdCode Params.cat5Balanced) 0 1 = g2 (stdCode2 Params.cat5Balanced) 0 1 := by rw [← e]
  have e3 : g2 (stdCode2 Params.cat5Balanced) 0 1 = (2 * g2 (stdCode Params.cat5Balanced) 0 1) % 127 := by
    unfold stdCode2; rw [g2_ofFn _ 0 1 (by decide) (by decide)]
  rw [e3, stdCode_entry 0 1 (by decide) (by decide)] at e2
  revert e2
  decide

/-- A matrix of linearly dependent rows (all zero) is reported as such. -/
example : ∃ R f, generatorRREF (Vector.replicate Params.cat1Balanced.K (Vector.replicate _ 0)) (Vector.replicate _ 0) =
    .ok (0, R, f) := by
  have hz : ∀ i j, i < Params.cat1Balanced.K → j < Params.cat1Balanced.N →
      g2 (Vector.replicate Params.cat1Balanced.K (Vector.replicate Params.cat1Balanced.N 0)) i j = 0 := by
    intro i j hi hj
    rw [g2, dif_pos hi, Vector.getElem_replicate, g_replicate _ _ hj]
  obtain ⟨ok, R, f, e, h01, hiff, -⟩ := C23_rref_correct (p := Params.cat1Balanced)
    (Vector.replicate _ (Vector.replicate _ 0)) (by decide) (fun i j hi hj => by rw [hz i j hi hj]; decide)
  rcases h01 with rfl | rfl
  · exact ⟨R, f, e⟩
  · refine absurd (hiff.mp rfl) (not_fullRank_of_zero_row (⟨0, by decide⟩ : Fin Params.cat1Balanced.K) fun j => ?_)
    simp only [matOf]
    rw [hz 0 j (by decide) j.2]
    simp

end LESS
