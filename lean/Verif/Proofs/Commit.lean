import Verif.Spec.Commit
import Verif.Proofs.Pivots
import Verif.Proofs.Lex
import Verif.Model.Less
/-!
# Commitments: proofs
-/
namespace LESS

open Spec (RowEq IsRREF FullRank)

variable {p : Params}

/-! ## Normalised columns -/

theorem normCol_lt {l : List Nat} {x : Nat} (h : x ∈ normCol l) : x < 127 := by
  unfold normCol at h
  obtain ⟨y, _, rfl⟩ := List.mem_map.mp h
  exact fqRed_lt _

theorem firstNZ_lt {l : List Nat} (h : ∀ x ∈ l, x < 127) : firstNZ l < 127 := by
  by_cases e : firstNZ l = 0
  · omega
  · exact h _ (firstNZ_mem e)

theorem firstNZ_cons (a : Nat) (l : List Nat) : firstNZ (a :: l) = if a = 0 then firstNZ l else a := by
  unfold firstNZ
  by_cases h : a = 0 <;> simp [h]

/-- The first non-zero element scales with the column. -/
theorem firstNZ_scale (l l' : List Nat) (k : Fq) (hk : k ≠ 0) (hl : ∀ x ∈ l, x < 127) (hl' : ∀ x ∈ l', x < 127)
    (h : l'.map (Nat.cast : Nat → Fq) = l.map fun x : Nat => k * ((x : Nat) : Fq)) :
    ((firstNZ l' : Nat) : Fq) = k * ((firstNZ l : Nat) : Fq) := by
  induction l generalizing l' with
  | nil =>
    have : l' = [] := by simpa using h
    subst this; simp [firstNZ]
  | cons a l ih =>
    cases l' with
    | nil => simp at h
    | cons a' l' =>
      simp only [List.map_cons, List.cons.injEq] at h
      rw [firstNZ_cons, firstNZ_cons]
      have ha := hl a (by simp)
      have ha' := hl' a' (by simp)
      have : a' = 0 ↔ a = 0 := by
        rw [← cast_eq_zero ha, ← cast_eq_zero ha', h.1]
        simp [hk]
      by_cases e : a = 0
      · rw [if_pos e, if_pos (this.mpr e)]
        exact ih l' (fun x hx => hl x (by simp [hx])) (fun x hx => hl' x (by simp [hx])) h.2
      · rw [if_neg e, if_neg (fun h => e (this.mp h))]
        exact h.1

/-- Normalisation forgets a scalar. -/
theorem normCol_scale (l l' : List Nat) (k : Fq) (hk : k ≠ 0) (hl : ∀ x ∈ l, x < 127) (hl' : ∀ x ∈ l', x < 127)
    (h : l'.map (Nat.cast : Nat → Fq) = l.map fun x : Nat => k * ((x : Nat) : Fq)) : normCol l' = normCol l := by
  have hf := firstNZ_scale l l' k hk hl hl' h
  have hlt := firstNZ_lt hl
  have hlt' := firstNZ_lt hl'
  have hlen : l'.length = l.length := by simpa using congrArg List.length h
  apply List.ext_getElem
  · simp [normCol, hlen]
  · intro i h1 h2
    have hi : i < l'.length := by simpa [normCol] using h1
    have hi2 : i < l.length := by omega
    simp only [normCol, List.getElem_map]
    apply cast_inj (fqRed_lt _) (fqRed_lt _)
    rw [fqRed_mul_cast (hl' _ (List.getElem_mem hi)) (fqInv_lt _),
      fqRed_mul_cast (hl _ (List.getElem_mem hi2)) (fqInv_lt _), fqInv_cast _ (by omega), fqInv_cast _ (by omega), hf]
    have e := congrArg (fun l => l[i]?) h
    simp only [List.getElem?_map, List.getElem?_eq_getElem hi, List.getElem?_eq_getElem hi2, Option.map_some,
      Option.some.injEq] at e
    rw [e, mul_inv]
    field_simp

theorem colOf_lt {r c : Nat} {V : Vector (Vector Nat c) r} (hV : Reduced V) (j : Nat) (hj : j < c) :
    ∀ x ∈ colOf V j, x < 127 := by
  intro x hx
  unfold colOf at hx
  obtain ⟨i, hi, rfl⟩ := List.mem_map.mp hx
  exact hV i j (by simpa using hi) hj

/-- Columns that differ by a scalar have the same normal form. -/
theorem normCol_colOf {r c c' : Nat} {V : Vector (Vector Nat c) r} {W : Vector (Vector Nat c') r} (hV : Reduced V)
    (hW : Reduced W) (j k : Nat) (hj : j < c) (hk : k < c') (s : Fq) (hs : s ≠ 0)
    (h : ∀ i, i < r → ((g2 W i k : Nat) : Fq) = s * ((g2 V i j : Nat) : Fq)) :
    normCol (colOf W k) = normCol (colOf V j) := by
  refine normCol_scale _ _ s hs (colOf_lt hV j hj) (colOf_lt hW k hk) ?_
  unfold colOf
  rw [List.map_map, List.map_map]
  apply List.map_congr_left
  intro i hi
  exact h i (by simpa using hi)

/-! ## The unsorted array -/

/-- The normal forms of the unflagged columns, in order. -/
def normCols (R : GenMat p) (f : Vector Nat p.N) : List (List Nat) :=
  (nonPiv f p.N).map fun c => normCol (colOf R c)

theorem colsOf_eq_of_rank {V : NormIS p} {R : GenMat p} {f : Vector Nat p.N}
    (hc : (nonPiv f p.N).length = p.N - p.K)
    (h : ∀ c, c < p.N → g f c = 0 → colOf V (nonPiv f c).length = normCol (colOf R c)) :
    colsOf V = normCols R f := by
  unfold colsOf normCols
  apply List.ext_getElem
  · simp [hc]
  · intro z h1 h2
    have hz : z < (nonPiv f p.N).length := by simpa using h2
    have := nonPiv_rank f p.N z _ (List.getElem?_eq_getElem hz)
    simp only [List.getElem_map, List.getElem_range]
    rw [← h _ this.2.1 this.2.2, this.1]

theorem bytes8_of_normCols {V : NormIS p} {R : GenMat p} {f : Vector Nat p.N} (h : colsOf V = normCols R f) :
    Bytes8 V := by
  intro i j hi hj
  have hmem : colOf V j ∈ colsOf V := List.mem_map.mpr ⟨j, by simpa using hj, rfl⟩
  rw [h] at hmem
  obtain ⟨c, _, hc⟩ := List.mem_map.mp hmem
  have : g2 V i j ∈ colOf V j := List.mem_map.mpr ⟨i, by simpa using hi, rfl⟩
  rw [← hc] at this
  have := normCol_lt this
  omega

/-- The common inner loop of `prepare_digest_input` and `LESS_verify`: one step. -/
theorem fill_step {V V' : NormIS p} {R : GenMat p} {f : Vector Nat p.N} {col : Nat}
    (hc : (nonPiv f p.N).length = p.N - p.K) (hcol : col < p.N) (h0 : g f col = 0)
    (hI : ∀ c, c < col → g f c = 0 → colOf V (nonPiv f c).length = normCol (colOf R c))
    (h1 : colOf V' (nonPiv f col).length = normCol (colOf R col))
    (h2 : ∀ i j, i < p.K → j < p.N - p.K → j ≠ (nonPiv f col).length → g2 V' i j = g2 V i j) :
    ∀ c, c < col + 1 → g f c = 0 → colOf V' (nonPiv f c).length = normCol (colOf R c) := by
  intro c hlt hf
  by_cases e : c = col
  · subst e; exact h1
  · have hr := nonPiv_length_lt f (show c < col by omega) hf
    have hr2 := nonPiv_length_lt f hcol h0
    rw [← hI c (by omega) hf]
    apply colOf_ext
    intro i hi
    exact h2 i _ hi (by omega) (by omega)

/-! ## `prepare_digest_input` -/

theorem findSource_wp (m : Monomial p) (col : Nat) (hm : IsPerm m.permutation) (hN : p.N ≤ p.posMod)
    (hcol : col < p.N) :
    Wp False (findSource m col) (fun s => s.1 < p.N ∧ g m.permutation s.1 = col ∧ s.2 = g m.coefficients s.1) := by
  obtain ⟨i0, hi0, he0⟩ := hm.surj col hcol
  unfold findSource
  refine Wp.forUp (fun n (s : Nat × Nat) => i0 < n → s = (i0, g m.coefficients i0)) (by simp) ?_ ?_
  · intro i s hi hs
    simp only [Wp.bind_iff, Wp.rd_iff, Wp.ite_iff, Wp.pure_iff]
    refine ⟨hi, fun h => ⟨hi, fun _ => ?_⟩, fun h hlt => ?_⟩
    · have : i = i0 := hm.2 i i0 hi hi0 (by rw [h, he0])
      subst this
      rw [Nat.mod_eq_of_lt (by omega)]
    · apply hs
      by_contra hc
      have : i0 = i := by omega
      subst this; exact h he0
  · intro s hs
    rw [hs hi0]
    exact ⟨hi0, he0, rfl⟩

/-- Outcome of `prepare_digest_input` on a full-rank matrix and a monomial matrix. -/
theorem prepareDigestInput_wp (V : NormIS p) (Qb : MonoAction p) (G : GenMat p) (m : Monomial p) (hKN : p.K < p.N)
    (hN : p.N < p.posMod) (hm : m.Valid) (hG : Reduced G) (hr : FullRank (matOf G * m.mat)) :
    Wp False (prepareDigestInput V Qb G m) (fun out => out.2.2 = 1 ∧ ∃ R f piv,
      RrefOut (matOf G * m.mat) R f piv ∧
      (colsOf out.1).Perm (normCols R f) ∧ (colsOf out.1).Pairwise (· ≤ ·) ∧
      ∀ t : Fin p.K, g out.2.1.permutation t < p.N ∧ g m.permutation (g out.2.1.permutation t) = piv t ∧
        g out.2.1.coefficients t = g m.coefficients (g out.2.1.permutation t)) := by
  unfold prepareDigestInput
  rw [Wp.bind_iff]
  refine (generatorMonomialMul_mat _ G m hm hG).mono ?_
  rintro Gd ⟨hGd, hmat⟩
  rw [Wp.bind_iff]
  refine (generatorRREF_full Gd (Nat.le_of_lt hKN) hGd (by rw [hmat]; exact hr)).mono ?_
  rintro ⟨ok, R, f⟩ ⟨hok, piv, hR⟩
  rw [hmat] at hR
  simp only at hok hR
  simp only [Wp.bind_iff]
  have hcount := nonPiv_count hR.flags hR.rref.mono
  refine Wp.forUp (fun col (s : NormIS p × MonoAction p × Nat × Nat) =>
    (∀ c, c < col → g f c = 0 → colOf s.1 (nonPiv f c).length = normCol (colOf R c)) ∧
    (∀ t : Fin p.K, (piv t).val < col → g s.2.1.permutation t < p.N ∧
      g m.permutation (g s.2.1.permutation t) = piv t ∧
      g s.2.1.coefficients t = g m.coefficients (g s.2.1.permutation t)) ∧
    s.2.2.1 = col - (nonPiv f col).length ∧ s.2.2.2 = p.K + (nonPiv f col).length) ?_ ?_ ?_
  · refine ⟨by simp, by simp, by simp, by simp [nonPiv]⟩
  · rintro col ⟨V, Qb, pi, npi⟩ hcol ⟨i1, i2, i3, i4⟩
    simp only at i1 i2 i3 i4
    rw [Wp.bind_iff]
    refine (findSource_wp m col hm.1 (Nat.le_of_lt hN) hcol).mono ?_
    rintro ⟨src, val⟩ ⟨s1, s2, s3⟩
    simp only at s1 s2 s3
    simp only [Wp.bind_iff, Wp.rd_iff]
    refine ⟨hcol, ?_⟩
    have hle := nonPiv_length_le f col
    have hmono := nonPiv_length_mono f (Nat.le_of_lt hcol)
    by_cases h0 : g f col = 0
    · rw [if_pos h0, Wp.bind_iff]
      have hlt := nonPiv_length_lt f hcol h0
      have hd : (npi + p.posMod - p.K) % p.posMod = (nonPiv f col).length := by
        rw [i4, show p.K + (nonPiv f col).length + p.posMod - p.K = (nonPiv f col).length + p.posMod by omega,
          Nat.add_mod_right]
        exact Nat.mod_eq_of_lt (by omega)
      rw [hd]
      refine (lexMinimize_wp V _ R col (by omega) hcol
        (fun i hi => Nat.lt_trans (hR.reduced i col hi hcol) (by decide))).mono ?_
      rintro V' ⟨v1, v2⟩
      rw [Wp.pure_iff]
      refine ⟨fill_step hcount hcol h0 i1 v1 v2, ?_, ?_, ?_⟩
      · intro t ht
        apply i2 t
        rcases Nat.lt_succ_iff_lt_or_eq.mp ht with h | h
        · exact h
        · exact absurd h0 ((hR.flags.ne_zero_iff col hcol).mpr ⟨t, Fin.ext h⟩)
      · dsimp only; rw [nonPiv_length_succ, if_pos h0, i3]; omega
      · dsimp only; rw [nonPiv_length_succ, if_pos h0, i4, Nat.mod_eq_of_lt (by omega)]; omega
    · rw [if_neg h0]
      obtain ⟨t0, ht0⟩ := (hR.flags.ne_zero_iff col hcol).mp h0
      have hrk := rank_piv hR.flags hR.rref.mono t0
      rw [ht0] at hrk
      simp only at hrk
      have hpi : pi = t0 := by rw [i3, hrk]
      simp only [Wp.bind_iff, Wp.wr_iff, Wp.pure_iff]
      have ht0K : pi < p.K := by rw [hpi]; exact t0.2
      refine ⟨ht0K, ht0K, ?_, ?_, ?_, ?_⟩
      · intro c hlt hf
        refine i1 c ?_ hf
        rcases Nat.lt_succ_iff_lt_or_eq.mp hlt with h | h
        · exact h
        · subst h; exact absurd hf h0
      · intro t ht
        rw [g_upd _ _ _ _ ht0K, g_upd _ _ _ _ ht0K]
        by_cases e : pi = t.val
        · have : t = t0 := Fin.ext (by omega)
          subst this
          rw [if_pos e, if_pos e]
          have hlt := (hm.2 src s1).2
          refine ⟨s1, ?_, ?_⟩
          · rw [s2, ht0]
          · rw [s3]; exact Nat.mod_eq_of_lt (by omega)
        · rw [if_neg e, if_neg e]
          apply i2 t
          rcases Nat.lt_succ_iff_lt_or_eq.mp ht with h | h
          · exact h
          · exfalso
            apply e
            have : t = t0 := hR.rref.mono.injective (by rw [ht0]; exact Fin.ext h)
            rw [hpi, this]
      · rw [nonPiv_length_succ, if_neg h0, i3, Nat.mod_eq_of_lt (by omega)]; omega
      · rw [nonPiv_length_succ, if_neg h0, i4]; omega
  · rintro ⟨V, Qb, pi, npi⟩ ⟨i1, i2, i3, i4⟩
    simp only at i1 i2 i3 i4
    have hcols := colsOf_eq_of_rank hcount i1
    refine (lexSortCols_wp V (by omega) (by omega) (bytes8_of_normCols hcols)).mono ?_
    rintro V' ⟨_, v2, v3⟩
    rw [Wp.pure_iff]
    refine ⟨hok, R, f, piv, hR, ?_, v3, fun t => i2 t (piv t).2⟩
    rw [← hcols]; exact v2

/-! ## `apply_action_to_G` -/

theorem applyActionToG_wp (res G : GenMat p) (a : MonoAction p) (hKN : p.K ≤ p.N) (ha : a.Valid) :
    Wp False (applyActionToG res G a) (fun R => (Reduced G → Reduced R) ∧
      ∃ picked : Vector Nat p.N, (nonPiv picked p.N).length = p.N - p.K ∧ (∀ x, x < p.N → g picked x = if ∃ t, t < p.K ∧ g a.permutation t = x then 1 else 0) ∧
      (∀ i t, i < p.K → t < p.K → g2 R i t = fqRed (g2 G i (g a.permutation t) * g a.coefficients t)) ∧
      (∀ i s, i < p.K → s < p.N → g picked s = 0 → g2 R i (p.K + (nonPiv picked s).length) = g2 G i s)) := by
  unfold applyActionToG
  rw [Wp.bind_iff]
  refine Wp.forUp (fun n (s : GenMat p × Vector Nat p.N) =>
    (∀ x, x < p.N → g s.2 x = if ∃ t, t < n ∧ g a.permutation t = x then 1 else 0) ∧
    (∀ i t, i < p.K → t < n → g2 s.1 i t = fqRed (g2 G i (g a.permutation t) * g a.coefficients t))) ?_ ?_ ?_
  · refine ⟨fun x hx => ?_, by simp⟩
    rw [g_replicate _ _ hx]; simp
  · rintro dst ⟨R, picked⟩ hdst ⟨h1, h2⟩
    simp only at h1 h2
    have hsrc := ha.2.1 dst hdst
    simp only [Wp.bind_iff, Wp.rd_iff]
    refine ⟨hdst, ?_⟩
    refine Wp.forUp (fun n (R : GenMat p) =>
      (∀ i t, i < p.K → t < dst → g2 R i t = fqRed (g2 G i (g a.permutation t) * g a.coefficients t)) ∧
      (∀ i, i < n → g2 R i dst = fqRed (g2 G i (g a.permutation dst) * g a.coefficients dst))) ⟨h2, by simp⟩ ?_ ?_
    · rintro i R hi ⟨a1, a2⟩
      simp only [Wp.bind_iff, Wp.rd2_iff, Wp.rd_iff, Wp.wr2_iff]
      refine ⟨hi, hsrc, hdst, hi, by omega, fun k t hk ht => ?_, fun k hk => ?_⟩
      · rw [g2_upd2 _ _ _ _ _ _ hi (by omega), if_neg (by omega)]; exact a1 k t hk ht
      · rw [g2_upd2 _ _ _ _ _ _ hi (by omega)]
        by_cases e : i = k
        · subst e; simp
        · rw [if_neg (by simp [e])]; exact a2 k (by omega)
    · rintro R ⟨a1, a2⟩
      simp only [Wp.wr_iff, Wp.pure_iff]
      refine ⟨hsrc, fun x hx => ?_, fun i t hi ht => ?_⟩
      · rw [g_upd _ _ _ _ hsrc, h1 x hx]
        by_cases e : g a.permutation dst = x
        · rw [if_pos e, if_pos ⟨dst, by omega, e⟩]
        · rw [if_neg e]
          have : (∃ k, k < dst + 1 ∧ g a.permutation k = x) ↔ ∃ k, k < dst ∧ g a.permutation k = x := by
            constructor
            · rintro ⟨k, hk, he⟩
              refine ⟨k, ?_, he⟩
              by_contra hc
              have : k = dst := by omega
              subst this; exact e he
            · rintro ⟨k, hk, he⟩; exact ⟨k, by omega, he⟩
          simp only [this]
      · by_cases e : t = dst
        · subst e; exact a2 i hi
        · exact a1 i t hi (by omega)
  · rintro ⟨R, picked⟩ ⟨h1, h2⟩
    simp only at h1 h2
    rw [Wp.bind_iff]
    have hfl : FlagsOf picked (fun t : Fin p.K => (⟨g a.permutation t, ha.2.1 t t.2⟩ : Fin p.N)) := by
      intro j
      rw [h1 j j.2]
      have : (∃ t, t < p.K ∧ g a.permutation t = j) ↔
          ∃ t : Fin p.K, (⟨g a.permutation t, ha.2.1 t t.2⟩ : Fin p.N) = j := by
        constructor
        · rintro ⟨t, ht, he⟩; exact ⟨⟨t, ht⟩, Fin.ext he⟩
        · rintro ⟨t, he⟩; exact ⟨t, t.2, congrArg Fin.val he⟩
      simp [this]
    have hcount : (nonPiv picked p.N).length = p.N - p.K := by
      have h1 := rank_card hfl (fun s t h => Fin.ext (ha.2.2 s t s.2 t.2 (congrArg Fin.val h))) p.N (Nat.le_refl _)
      have h2 : (Finset.univ.filter fun t : Fin p.K => g a.permutation t < p.N) = Finset.univ := by
        ext t; simp [ha.2.1 t t.2]
      rw [h2, Finset.card_univ, Fintype.card_fin] at h1
      have := nonPiv_length_le picked p.N
      omega
    refine Wp.forUp (fun n (s : GenMat p × Nat) => s.2 = p.K + (nonPiv picked n).length ∧
      (∀ i t, i < p.K → t < p.K → g2 s.1 i t = fqRed (g2 G i (g a.permutation t) * g a.coefficients t)) ∧
      (∀ i c, i < p.K → c < n → g picked c = 0 → g2 s.1 i (p.K + (nonPiv picked c).length) = g2 G i c)) ?_ ?_ ?_
    · exact ⟨by simp [nonPiv], h2, by simp⟩
    · rintro src ⟨R, dst⟩ hs ⟨b1, b2, b3⟩
      simp only at b1 b2 b3
      simp only [Wp.bind_iff, Wp.rd_iff, Wp.ite_iff, Wp.pure_iff]
      refine ⟨hs, fun h0 => ?_, fun h0 => ⟨?_, b2, ?_⟩⟩
      · have hlt := nonPiv_length_lt picked hs h0
        refine Wp.forUp (fun n (R : GenMat p) =>
          (∀ i t, i < p.K → t < p.K → g2 R i t = fqRed (g2 G i (g a.permutation t) * g a.coefficients t)) ∧
          (∀ i c, i < p.K → c < src → g picked c = 0 → g2 R i (p.K + (nonPiv picked c).length) = g2 G i c) ∧
          (∀ i, i < n → g2 R i dst = g2 G i src)) ⟨b2, b3, by simp⟩ ?_ ?_
        · rintro i R hi ⟨c1, c2, c3⟩
          simp only [Wp.bind_iff, Wp.rd2_iff, Wp.wr2_iff]
          refine ⟨hi, hs, hi, by omega, fun k t hk ht => ?_, fun k c hk hc h0c => ?_, fun k hk => ?_⟩
          · rw [g2_upd2 _ _ _ _ _ _ hi (by omega), if_neg (by omega)]; exact c1 k t hk ht
          · have := nonPiv_length_lt picked hc h0c
            rw [g2_upd2 _ _ _ _ _ _ hi (by omega), if_neg (by omega)]; exact c2 k c hk hc h0c
          · rw [g2_upd2 _ _ _ _ _ _ hi (by omega)]
            by_cases e : i = k
            · subst e; simp
            · rw [if_neg (by simp [e])]; exact c3 k (by omega)
        · rintro R ⟨c1, c2, c3⟩
          refine ⟨by rw [nonPiv_length_succ, if_pos h0, b1]; omega, c1, fun i c hi hc h0c => ?_⟩
          by_cases e : c = src
          · subst e; rw [← b1]; exact c3 i hi
          · exact c2 i c hi (by omega) h0c
      · rw [nonPiv_length_succ, if_neg h0, b1]; omega
      · intro i c hi hc h0c
        by_cases e : c = src
        · subst e; exact absurd h0c h0
        · exact b3 i c hi (by omega) h0c
    · rintro ⟨R, dst⟩ ⟨b1, b2, b3⟩
      rw [Wp.pure_iff]
      refine ⟨fun hG i j hi hj => ?_, picked, hcount, h1, b2, b3⟩
      by_cases e : j < p.K
      · rw [b2 i j hi e]; exact fqRed_lt _
      · have hz : j - p.K < (nonPiv picked p.N).length := by omega
        obtain ⟨r1, r2, r3⟩ := nonPiv_rank picked p.N (j - p.K) _ (List.getElem?_eq_getElem hz)
        have := b3 i _ hi r2 r3
        rw [r1, show p.K + (j - p.K) = j by omega] at this
        rw [this]
        exact hG _ _ hi r2

/-! ## `monomial_compose_action` -/

theorem composeAction_wp (stale : Monomial p) (out : MonoAction p) (m : Monomial p) (a : MonoAction p)
    (hN : p.N ≤ p.posMod) (hm : m.Valid) (ha : ∀ t, t < p.K → g a.permutation t < p.N) :
    Wp False (composeAction stale out m a) (fun r => ∀ t, t < p.K → g r.permutation t < p.N ∧
      g m.permutation (g r.permutation t) = g a.permutation t ∧
      g r.coefficients t = fqRed (g a.coefficients t * g m.coefficients (g r.permutation t))) := by
  unfold composeAction
  rw [Wp.bind_iff]
  refine Wp.forUp (fun n (r : Monomial p) => ∀ i, i < n → g r.permutation (g m.permutation i) = i ∧
    g r.coefficients (g m.permutation i) = g m.coefficients i) (by simp) ?_ ?_
  · intro i r hi hr
    simp only [Wp.bind_iff, Wp.rd_iff, Wp.wr_iff, Wp.pure_iff]
    have hlt := hm.1.1 i hi
    refine ⟨hi, hlt, hi, hlt, fun j hj => ?_⟩
    rw [g_upd _ _ _ _ hlt, g_upd _ _ _ _ hlt]
    by_cases e : j = i
    · subst e; simp [Nat.mod_eq_of_lt (show j < p.posMod by omega)]
    · have : g m.permutation i ≠ g m.permutation j := fun h => e (hm.1.2 _ _ hi (by omega) h).symm
      simp only [this, if_false]
      exact hr j (by omega)
  · intro rev hrev
    refine Wp.forUp (fun n (r : MonoAction p) => ∀ t, t < n → g r.permutation t < p.N ∧
      g m.permutation (g r.permutation t) = g a.permutation t ∧
      g r.coefficients t = fqRed (g a.coefficients t * g m.coefficients (g r.permutation t))) (by simp) ?_
      (fun _ h => h)
    intro i r hi hr
    simp only [Wp.bind_iff, Wp.rd_iff, Wp.wr_iff, Wp.pure_iff]
    have hs := ha i hi
    obtain ⟨k, hk, he⟩ := hm.1.surj _ hs
    refine ⟨hi, hs, hi, hi, hs, hi, fun t ht => ?_⟩
    rw [g_upd _ _ _ _ hi, g_upd _ _ _ _ hi]
    by_cases e : i = t
    · subst e
      rw [if_pos rfl, if_pos rfl, ← he, (hrev k hk).1, (hrev k hk).2]
      exact ⟨hk, rfl, rfl⟩
    · rw [if_neg e, if_neg e]
      exact hr t (by omega)

end LESS
