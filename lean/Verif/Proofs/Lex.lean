import Mathlib.Logic.Equiv.Basic
import Mathlib.Data.List.Lex
import Mathlib.Algebra.Group.End
import Verif.Model.Codes
import Verif.Proofs.Fq
/-!
# `lex_minimize` and the column sort: proofs
-/
namespace LESS

variable {p : Params}

/-- Column `j` of an array as a list. -/
def colOf {r c : Nat} (V : Vector (Vector Nat c) r) (j : Nat) : List Nat :=
  (List.range r).map fun i => g2 V i j

@[simp] theorem colOf_length {r c : Nat} (V : Vector (Vector Nat c) r) (j : Nat) : (colOf V j).length = r := by
  simp [colOf]

theorem getElem_colOf {r c : Nat} (V : Vector (Vector Nat c) r) (i j : Nat) (h : i < (colOf V j).length) :
    (colOf V j)[i] = g2 V i j := by
  simp [colOf]

theorem colOf_ext {r c c' : Nat} {V : Vector (Vector Nat c) r} {W : Vector (Vector Nat c') r} {j k : Nat}
    (h : ∀ i, i < r → g2 V i j = g2 W i k) : colOf V j = colOf W k := by
  unfold colOf
  apply List.map_congr_left
  intro i hi
  exact h i (by simpa using hi)

theorem colOf_eq_iff {r c c' : Nat} {V : Vector (Vector Nat c) r} {W : Vector (Vector Nat c') r} {j k : Nat} :
    colOf V j = colOf W k ↔ ∀ i, i < r → g2 V i j = g2 W i k := by
  refine ⟨fun h i hi => ?_, colOf_ext⟩
  have e1 := getElem_colOf V i j (by simpa using hi)
  have e2 := getElem_colOf W i k (by simpa using hi)
  rw [← e1, ← e2]
  simp only [h]

/-! ## `lex_minimize` -/

/-- First non-zero element, or 0. -/
def firstNZ (l : List Nat) : Nat := (l.find? (· ≠ 0)).getD 0

theorem firstNZ_append_singleton (l : List Nat) (x : Nat) :
    firstNZ (l ++ [x]) = if firstNZ l = 0 then x else firstNZ l := by
  unfold firstNZ
  rw [List.find?_append]
  cases h : l.find? (· ≠ 0) with
  | none => by_cases hx : x = 0 <;> simp [hx]
  | some y =>
    have : y ≠ 0 := by simpa using List.find?_some h
    simp [this]

theorem firstNZ_mem {l : List Nat} (h : firstNZ l ≠ 0) : firstNZ l ∈ l := by
  unfold firstNZ at *
  cases e : l.find? (· ≠ 0) with
  | none => rw [e] at h; simp at h
  | some y => exact List.mem_of_find?_eq_some e

/-- Division of a column by its first non-zero element. -/
def normCol (l : List Nat) : List Nat := l.map fun x => fqRed (x * fqInv (firstNZ l))

theorem lexMinimize_wp (V : NormIS p) (dst : Nat) (G : GenMat p) (col : Nat) (hdst : dst < p.N - p.K)
    (hcol : col < p.N) (hG : ∀ i, i < p.K → g2 G i col < 256) :
    Wp False (lexMinimize V dst G col) (fun R => colOf R dst = normCol (colOf G col) ∧
      ∀ i j, i < p.K → j < p.N - p.K → j ≠ dst → g2 R i j = g2 V i j) := by
  unfold lexMinimize
  rw [Wp.bind_iff]
  refine Wp.forUp (fun n (s : Nat × Bool) => s.1 = firstNZ ((List.range n).map fun i => g2 G i col) ∧
    s.2 = decide (s.1 ≠ 0) ∧ s.1 < 256) (by simp [firstNZ]) ?_ ?_
  · rintro i ⟨val, found⟩ hi ⟨h1, h2, h3⟩
    simp only at h1 h2 h3
    simp only [Wp.bind_iff, Wp.rd2_iff, Wp.pure_iff]
    refine ⟨hi, hcol, ?_⟩
    have hx := hG i hi
    rw [List.range_succ, List.map_append, List.map_singleton, firstNZ_append_singleton, ← h1, h2]
    by_cases hv : val = 0
    · subst hv
      by_cases hx0 : g2 G i col = 0
      · simp [hx0, b2n, u8]
      · have : u8 (g2 G i col) = g2 G i col := Nat.mod_eq_of_lt hx
        simp [hx0, b2n, this, hx]
    · have : u8 val = val := Nat.mod_eq_of_lt h3
      simp [hv, b2n, this, h3]
  · rintro ⟨val, found⟩ ⟨h1, h2, h3⟩
    simp only at h1
    refine Wp.forUp (fun n (R : NormIS p) => (∀ i, i < n → g2 R i dst = fqRed (g2 G i col * fqInv val)) ∧
      ∀ i j, i < p.K → j < p.N - p.K → j ≠ dst → g2 R i j = g2 V i j) (by simp) ?_ ?_
    · rintro i R hi ⟨a1, a2⟩
      simp only [Wp.bind_iff, Wp.rd2_iff, Wp.wr2_iff]
      refine ⟨hi, hcol, hi, hdst, fun k hk => ?_, fun k j hk hj hjd => ?_⟩
      · rw [g2_upd2 _ _ _ _ _ _ hi hdst]
        by_cases e : i = k
        · subst e; simp
        · rw [if_neg (by simp [e])]; exact a1 k (by omega)
      · rw [g2_upd2 _ _ _ _ _ _ hi hdst, if_neg (by omega)]
        exact a2 k j hk hj hjd
    · rintro R ⟨a1, a2⟩
      refine ⟨?_, a2⟩
      apply List.ext_getElem
      · simp [normCol]
      · intro i hi _
        have hiK : i < p.K := by simpa using hi
        rw [getElem_colOf, a1 i hiK]
        simp only [normCol, List.getElem_map, getElem_colOf]
        rw [h1]; rfl

/-! ## Column exchange and comparison -/

/-- All entries are bytes. -/
def Bytes8 {r c : Nat} (V : Vector (Vector Nat c) r) : Prop := ∀ i j, i < r → j < c → g2 V i j < 256

theorem columnSwap_wp (V : NormIS p) (a b : Nat) (ha : a < p.N - p.K) (hb : b < p.N - p.K) (hab : a ≠ b)
    (hV : Bytes8 V) :
    Wp False (columnSwap V a b) (fun R => Bytes8 R ∧ ∀ x, colOf R x = colOf V (Equiv.swap a b x)) := by
  have hpos : 256 ≤ p.posMod := by unfold Params.posMod; cases p.cat <;> simp
  have key : Wp False (columnSwap V a b) (fun R => ∀ i x, i < p.K →
      g2 R i x = g2 V i (Equiv.swap a b x)) := by
    unfold columnSwap
    refine Wp.forUp (fun n (R : NormIS p) => ∀ i x, i < p.K →
      g2 R i x = if i < n then g2 V i (Equiv.swap a b x) else g2 V i x) (by simp) ?_ ?_
    · intro i R hi hR
      simp only [Wp.bind_iff, Wp.rd2_iff, Wp.wr2_iff]
      refine ⟨hi, hb, hi, ha, hi, hb, hi, ha, fun k x hk => ?_⟩
      rw [g2_upd2 _ _ _ _ _ _ hi ha, g2_upd2 _ _ _ _ _ _ hi hb, hR i b hi, hR i a hi, hR k x hk]
      have hlt := hV i b hi hb
      have : u8 (g2 V i b % p.posMod) = g2 V i b := by
        rw [Nat.mod_eq_of_lt (by omega)]; exact Nat.mod_eq_of_lt hlt
      simp only [lt_irrefl, if_false, this]
      by_cases e : i = k
      · subst e
        by_cases e1 : a = x
        · subst e1; simp
        · by_cases e2 : b = x
          · subst e2; simp [e1]
          · simp [e1, e2, Equiv.swap_apply_of_ne_of_ne (Ne.symm e1) (Ne.symm e2)]
      · have : k < i + 1 ↔ k < i := by omega
        simp [e, this]
    · intro R hR i x hi
      rw [hR i x hi, if_pos hi]
  refine key.mono ?_
  intro R hR
  refine ⟨fun i j hi hj => ?_, fun x => colOf_ext fun i hi => hR i x hi⟩
  rw [hR i j hi]
  apply hV i _ hi
  by_cases e1 : j = a
  · subst e1; simpa using hb
  · by_cases e2 : j = b
    · subst e2; simpa using ha
    · rw [Equiv.swap_apply_of_ne_of_ne e1 e2]; exact hj

theorem lexScan_wp (V : NormIS p) (col : Nat) (pivot : Vector Nat p.K) (hcol : col < p.N - p.K)
    (n i : Nat) (h : i + n = p.K) (heq : ∀ j, j < i → g2 V j col = g pivot j) :
    Wp False (lexScan V col pivot n i) (fun r => r ≤ p.K ∧ (∀ j, j < r → g2 V j col = g pivot j) ∧
      (r < p.K → g2 V r col ≠ g pivot r)) := by
  induction n generalizing i with
  | zero =>
    unfold lexScan
    rw [Wp.pure_iff]
    exact ⟨by omega, heq, by intros; omega⟩
  | succ n ih =>
    unfold lexScan
    simp only [Wp.bind_iff, Wp.rd2_iff, Wp.rd_iff]
    refine ⟨by omega, hcol, by omega, ?_⟩
    rw [Wp.ite_iff]
    refine ⟨fun he => ih (i + 1) (by omega) ?_, fun hne => ?_⟩
    · intro j hj
      by_cases e : j = i
      · subst e; exact he
      · exact heq j (by omega)
    · rw [Wp.pure_iff]
      exact ⟨by omega, heq, fun _ => hne⟩

theorem lt_of_first_diff {l m : List Nat} (i : Nat) (h1 : i < l.length) (h2 : i < m.length)
    (heq : ∀ j (hj : j < i), l[j] = m[j]) (hlt : l[i] < m[i]) : l < m :=
  List.lt_iff_exists.mpr (Or.inr ⟨i, h1, h2, heq, hlt⟩)

/-- `lex_compare_with_pivot` compares in lexicographic order. -/
theorem lexCompare_wp (V : NormIS p) (col : Nat) (pivot : Vector Nat p.K) (hcol : col < p.N - p.K) :
    Wp False (lexCompareWithPivot V col pivot) (fun c =>
      (c = 0 ∧ colOf V col = pivot.toList) ∨ (c = -1 ∧ pivot.toList < colOf V col) ∨
      (c = 1 ∧ colOf V col < pivot.toList)) := by
  unfold lexCompareWithPivot
  rw [Wp.bind_iff]
  refine (lexScan_wp V col pivot hcol p.K 0 (by omega) (by simp)).mono ?_
  rintro i ⟨h1, h2, h3⟩
  have hg : ∀ j (hj : j < p.K), pivot.toList[j]'(by simpa using hj) = g pivot j := by
    intro j hj; rw [g_eq_getElem _ _ hj]; simp
  rw [Wp.ite_iff]
  refine ⟨fun e => ?_, fun e => ?_⟩
  · rw [Wp.pure_iff]
    left
    refine ⟨rfl, ?_⟩
    apply List.ext_getElem
    · simp
    · intro j hj hj'
      have : j < p.K := by simpa using hj
      rw [getElem_colOf, hg j this, h2 j (by omega)]
  · have hi : i < p.K := by omega
    have hne := h3 hi
    simp only [Wp.bind_iff, Wp.rd2_iff, Wp.rd_iff, Wp.ite_iff, Wp.pure_iff]
    refine ⟨hi, hcol, hi, fun hlt => ?_, fun hlt => ?_⟩
    · refine Or.inr (Or.inl ⟨by simp, lt_of_first_diff i (by simpa using hi) (by simpa using hi) ?_ ?_⟩)
      · intro j hj
        rw [getElem_colOf, hg j (by omega), h2 j hj]
      · rw [getElem_colOf, hg i hi]; exact hlt
    · refine Or.inr (Or.inr ⟨by simp, lt_of_first_diff i (by simpa using hi) (by simpa using hi) ?_ ?_⟩)
      · intro j hj
        rw [getElem_colOf, hg j (by omega), h2 j hj]
      · rw [getElem_colOf, hg i hi]; omega

/-! ## Hoare partition -/

theorem hoareUp_wp (V : NormIS p) (pivot : Vector Nat p.K) (b : Nat) (hb : b < p.N - p.K)
    (hpos : p.N - p.K < p.posMod) (hstop : pivot.toList ≤ colOf V b) (fuel i s : Nat)
    (hs : (i + 1) % p.posMod = s) (hsb : s ≤ b) (hfuel : b + 1 ≤ fuel + s) :
    Wp False (hoareUp V pivot fuel i) (fun i' => s ≤ i' ∧ i' ≤ b ∧ pivot.toList ≤ colOf V i' ∧
      ∀ x, s ≤ x → x < i' → colOf V x < pivot.toList) := by
  induction fuel generalizing i s with
  | zero => omega
  | succ fuel ih =>
    unfold hoareUp
    simp only [hs, Wp.bind_iff]
    refine (lexCompare_wp V s pivot (by omega)).mono ?_
    intro c hc
    have stop : pivot.toList ≤ colOf V s → (s ≤ s ∧ s ≤ b ∧ pivot.toList ≤ colOf V s ∧
        ∀ x, s ≤ x → x < s → colOf V x < pivot.toList) :=
      fun h => ⟨Nat.le_refl _, hsb, h, by intros; omega⟩
    rcases hc with ⟨rfl, h⟩ | ⟨rfl, h⟩ | ⟨rfl, h⟩
    · rw [if_neg (by decide), Wp.pure_iff]
      exact stop (by rw [h])
    · rw [if_neg (by decide), Wp.pure_iff]
      exact stop (le_of_lt h)
    · rw [if_pos rfl]
      have hne : s ≠ b := by
        rintro rfl
        exact not_lt.mpr hstop h
      have hs1 : (s + 1) % p.posMod = s + 1 := Nat.mod_eq_of_lt (by omega)
      refine (ih s (s + 1) hs1 (by omega) (by omega)).mono ?_
      rintro i' ⟨h1, h2, h3, h4⟩
      refine ⟨by omega, h2, h3, fun x hx hx' => ?_⟩
      by_cases e : x = s
      · subst e; exact h
      · exact h4 x (by omega) hx'

theorem hoareDown_wp (V : NormIS p) (pivot : Vector Nat p.K) (b : Nat)
    (hpos : p.N - p.K < p.posMod) (hstop : colOf V b ≤ pivot.toList) (fuel j : Nat)
    (hj : j ≤ p.N - p.K) (hbj : b < j) (hfuel : j ≤ fuel + b) :
    Wp False (hoareDown V pivot fuel j) (fun j' => b ≤ j' ∧ j' < j ∧ colOf V j' ≤ pivot.toList ∧
      ∀ x, j' < x → x < j → pivot.toList < colOf V x) := by
  induction fuel generalizing j with
  | zero => omega
  | succ fuel ih =>
    unfold hoareDown
    have hs : (j + p.posMod - 1) % p.posMod = j - 1 := by
      rw [show j + p.posMod - 1 = (j - 1) + p.posMod by omega, Nat.add_mod_right]
      exact Nat.mod_eq_of_lt (by omega)
    simp only [hs, Wp.bind_iff]
    refine (lexCompare_wp V (j - 1) pivot (by omega)).mono ?_
    intro c hc
    have stop : colOf V (j - 1) ≤ pivot.toList → (b ≤ j - 1 ∧ j - 1 < j ∧ colOf V (j - 1) ≤ pivot.toList ∧
        ∀ x, j - 1 < x → x < j → pivot.toList < colOf V x) :=
      fun h => ⟨by omega, by omega, h, by intros; omega⟩
    rcases hc with ⟨rfl, h⟩ | ⟨rfl, h⟩ | ⟨rfl, h⟩
    · rw [if_neg (by decide), Wp.pure_iff]
      exact stop (by rw [h])
    · rw [if_pos rfl]
      have hne : j - 1 ≠ b := by
        rintro rfl
        exact not_lt.mpr hstop h
      refine (ih (j - 1) (by omega) (by omega) (by omega)).mono ?_
      rintro j' ⟨h1, h2, h3, h4⟩
      refine ⟨h1, by omega, h3, fun x hx hx' => ?_⟩
      by_cases e : x = j - 1
      · subst e; exact h
      · exact h4 x hx (by omega)
    · rw [if_neg (by decide), Wp.pure_iff]
      exact stop (le_of_lt h)

/-- `W` has the columns of `V`, rearranged within positions `l..h`. -/
def RangePerm (l h : Nat) (V W : NormIS p) : Prop :=
  ∃ σ : Equiv.Perm Nat, (∀ x, x < l ∨ h < x → σ x = x) ∧ ∀ x, colOf W x = colOf V (σ x)

theorem RangePerm.refl (l h : Nat) (V : NormIS p) : RangePerm l h V V := ⟨1, by simp, by simp⟩

theorem RangePerm.trans {l h : Nat} {V W X : NormIS p} (h1 : RangePerm l h V W) (h2 : RangePerm l h W X) :
    RangePerm l h V X := by
  obtain ⟨σ, a1, a2⟩ := h1
  obtain ⟨τ, b1, b2⟩ := h2
  refine ⟨σ * τ, fun x hx => ?_, fun x => ?_⟩
  · rw [Equiv.Perm.mul_apply, b1 x hx, a1 x hx]
  · rw [b2, a2, Equiv.Perm.mul_apply]

theorem RangePerm.mono {l h l' h' : Nat} {V W : NormIS p} (h1 : RangePerm l h V W) (hl : l' ≤ l) (hh : h ≤ h') :
    RangePerm l' h' V W := by
  obtain ⟨σ, a1, a2⟩ := h1
  exact ⟨σ, fun x hx => a1 x (by omega), a2⟩

theorem RangePerm.outside {l h : Nat} {V W : NormIS p} (h1 : RangePerm l h V W) (x : Nat) (hx : x < l ∨ h < x) :
    colOf W x = colOf V x := by
  obtain ⟨σ, a1, a2⟩ := h1
  rw [a2, a1 x hx]

theorem range_stable {l h : Nat} {σ : Equiv.Perm Nat} (a1 : ∀ x, x < l ∨ h < x → σ x = x) (x : Nat)
    (h1 : l ≤ x) (h2 : x ≤ h) : l ≤ σ x ∧ σ x ≤ h := by
  by_contra hc
  have := a1 (σ x) (by omega)
  have := σ.injective this
  omega

/-- A property of all columns in the range survives. -/
theorem RangePerm.forall {l h : Nat} {V W : NormIS p} (h1 : RangePerm l h V W) {P : List Nat → Prop}
    (hP : ∀ x, l ≤ x → x ≤ h → P (colOf V x)) (x : Nat) (hl : l ≤ x) (hh : x ≤ h) : P (colOf W x) := by
  obtain ⟨σ, a1, a2⟩ := h1
  have := range_stable a1 x hl hh
  rw [a2]
  exact hP _ this.1 this.2

theorem rangePerm_swap {l h a b : Nat} {V W : NormIS p} (ha : l ≤ a ∧ a ≤ h) (hb : l ≤ b ∧ b ≤ h)
    (hW : ∀ x, colOf W x = colOf V (Equiv.swap a b x)) : RangePerm l h V W :=
  ⟨Equiv.swap a b, fun x hx => Equiv.swap_apply_of_ne_of_ne (by omega) (by omega), hW⟩

theorem hoareLoop_wp (pivot : Vector Nat p.K) (l h : Nat) (hlh : l < h) (hh : h < p.N - p.K)
    (hpos : p.N - p.K < p.posMod) (fuel : Nat) (V : NormIS p) (i j s : Nat) (hV : Bytes8 V)
    (hs : (i + 1) % p.posMod = s) (hls : l ≤ s) (hsj : s ≤ j) (hjh : j ≤ h + 1)
    (hA : ∀ x, l ≤ x → x < s → colOf V x ≤ pivot.toList)
    (hB : ∀ x, j ≤ x → x ≤ h → pivot.toList ≤ colOf V x)
    (hC : (s = l ∧ j = h + 1 ∧ colOf V l = pivot.toList) ∨ (l < s ∧ j ≤ h))
    (hfuel : j + 1 ≤ fuel + s) :
    Wp False (hoareLoop pivot fuel V i j) (fun r => Bytes8 r.1 ∧ RangePerm l h V r.1 ∧ l ≤ r.2 ∧ r.2 < h ∧
      (∀ x, l ≤ x → x ≤ r.2 → colOf r.1 x ≤ pivot.toList) ∧
      (∀ x, r.2 < x → x ≤ h → pivot.toList ≤ colOf r.1 x)) := by
  induction fuel generalizing V i j s with
  | zero => omega
  | succ fuel ih =>
    unfold hoareLoop
    have hup : ∃ b, b < p.N - p.K ∧ s ≤ b ∧ b ≤ j ∧ b ≤ h ∧ pivot.toList ≤ colOf V b ∧
        ((s = l ∧ b = l) ∨ (l < s ∧ j ≤ h)) := by
      rcases hC with ⟨h1, h2, h3⟩ | ⟨h1, h2⟩
      · exact ⟨l, by omega, by omega, by omega, by omega, by rw [h3], Or.inl ⟨h1, rfl⟩⟩
      · exact ⟨j, by omega, by omega, by omega, by omega, hB j (Nat.le_refl _) h2, Or.inr ⟨h1, h2⟩⟩
    have hdown : ∃ b, l ≤ b ∧ b < j ∧ s ≤ b + 1 ∧ colOf V b ≤ pivot.toList := by
      rcases hC with ⟨h1, h2, h3⟩ | ⟨h1, h2⟩
      · exact ⟨l, by omega, by omega, by omega, by rw [h3]⟩
      · exact ⟨s - 1, by omega, by omega, by omega, hA (s - 1) (by omega) (by omega)⟩
    obtain ⟨b, hb1, hb2, hb3, hb4, hb5, hb6⟩ := hup
    obtain ⟨d, hd1, hd2, hd3, hd4⟩ := hdown
    rw [Wp.bind_iff]
    refine (hoareUp_wp V pivot b hb1 hpos hb5 (p.N - p.K + 2) i s hs hb2 (by omega)).mono ?_
    rintro i' ⟨u1, u2, u3, u4⟩
    rw [Wp.bind_iff]
    refine (hoareDown_wp V pivot d hpos hd4 (p.N - p.K + 2) j (by omega) hd2 (by omega)).mono ?_
    rintro j' ⟨v1, v2, v3, v4⟩
    rw [Wp.ite_iff]
    refine ⟨fun hle => ?_, fun hlt => ?_⟩
    · rw [Wp.pure_iff]
      refine ⟨hV, RangePerm.refl _ _ _, by show l ≤ j'; omega, ?_, ?_, ?_⟩
      · show j' < h
        rcases hb6 with ⟨_, h2⟩ | ⟨_, h2⟩ <;> omega
      · intro x hx hx'
        by_cases e1 : x < s
        · exact hA x hx e1
        · by_cases e2 : x < i'
          · exact le_of_lt (u4 x (by omega) e2)
          · have : x = j' := by simp only at hx'; omega
            rw [this]; exact v3
      · intro x hx hx'
        simp only at hx
        by_cases e1 : x < j
        · exact le_of_lt (v4 x hx e1)
        · exact hB x (by omega) hx'
    · rw [Wp.bind_iff]
      refine (columnSwap_wp V i' j' (by omega) (by omega) (by omega) hV).mono ?_
      rintro W ⟨hW, hcols⟩
      have hi's : (i' + 1) % p.posMod = i' + 1 := Nat.mod_eq_of_lt (by omega)
      refine (ih W i' j' (i' + 1) hW hi's (by omega) (by omega) (by omega) ?_ ?_ (Or.inr ⟨by omega, by omega⟩)
        (by omega)).mono ?_
      · intro x hx hx'
        rw [hcols]
        by_cases e : x = i'
        · subst e; rw [Equiv.swap_apply_left]; exact v3
        · rw [Equiv.swap_apply_of_ne_of_ne e (by omega)]
          by_cases e1 : x < s
          · exact hA x hx e1
          · exact le_of_lt (u4 x (by omega) (by omega))
      · intro x hx hx'
        rw [hcols]
        by_cases e : x = j'
        · subst e; rw [Equiv.swap_apply_right]; exact u3
        · rw [Equiv.swap_apply_of_ne_of_ne (by omega) e]
          by_cases e1 : x < j
          · exact le_of_lt (v4 x (by omega) e1)
          · exact hB x (by omega) hx'
      · rintro r ⟨r1, r2, r3, r4, r5, r6⟩
        exact ⟨r1, (rangePerm_swap ⟨by omega, by omega⟩ ⟨by omega, by omega⟩ hcols).trans r2, r3, r4, r5, r6⟩

theorem hoarePartition_wp (V : NormIS p) (l h : Nat) (hlh : l < h) (hh : h < p.N - p.K)
    (hpos : p.N - p.K < p.posMod) (hV : Bytes8 V) :
    Wp False (hoarePartition V l h) (fun r => Bytes8 r.1 ∧ RangePerm l h V r.1 ∧ l ≤ r.2 ∧ r.2 < h ∧
      ∃ pv, (∀ x, l ≤ x → x ≤ r.2 → colOf r.1 x ≤ pv) ∧ (∀ x, r.2 < x → x ≤ h → pv ≤ colOf r.1 x)) := by
  unfold hoarePartition
  rw [Wp.bind_iff]
  refine Wp.forUp (fun n (pv : Vector Nat p.K) => ∀ i, i < n → g pv i = g2 V i l) (by simp) ?_ ?_
  · intro i pv hi hpv
    simp only [Wp.bind_iff, Wp.rd2_iff, Wp.wr_iff]
    refine ⟨hi, by omega, hi, fun k hk => ?_⟩
    rw [g_upd _ _ _ _ hi]
    by_cases e : i = k
    · subst e; simp
    · rw [if_neg e]; exact hpv k (by omega)
  · intro pv hpv
    have hcol : colOf V l = pv.toList := by
      apply List.ext_getElem
      · simp
      · intro i hi _
        have : i < p.K := by simpa using hi
        rw [getElem_colOf, ← hpv i this, g_eq_getElem _ _ this]; simp
    have hs : ((l + p.posMod - 1) % p.posMod + 1) % p.posMod = l := by
      rw [Nat.mod_add_mod, show l + p.posMod - 1 + 1 = l + p.posMod by omega, Nat.add_mod_right]
      exact Nat.mod_eq_of_lt (by omega)
    have hj : (h + 1) % p.posMod = h + 1 := Nat.mod_eq_of_lt (by omega)
    rw [hj]
    refine (hoareLoop_wp pv l h hlh hh hpos (p.N - p.K + 2) V _ (h + 1) l hV hs (Nat.le_refl _) (by omega)
      (Nat.le_refl _) (by intros; omega) (by intros; omega) (Or.inl ⟨rfl, rfl, hcol⟩) (by omega)).mono ?_
    rintro r ⟨r1, r2, r3, r4, r5, r6⟩
    exact ⟨r1, r2, r3, r4, _, r5, r6⟩

/-! ## Quicksort -/

theorem colLexQuicksort_wp (hpos : p.N - p.K < p.posMod) (fuel : Nat) (V : NormIS p) (start stop : Nat)
    (hstop : stop < p.N - p.K) (hss : start ≤ stop) (hfuel : stop + 1 ≤ fuel + start) (hV : Bytes8 V) :
    Wp False (colLexQuicksort fuel V start stop) (fun R => Bytes8 R ∧ RangePerm start stop V R ∧
      ∀ x y, start ≤ x → x ≤ y → y ≤ stop → colOf R x ≤ colOf R y) := by
  induction fuel generalizing V start stop with
  | zero => omega
  | succ fuel ih =>
    unfold colLexQuicksort
    rw [Wp.ite_iff]
    refine ⟨fun hlt => ?_, fun hge => ?_⟩
    · rw [Nat.mod_eq_of_lt (show start < p.posMod by omega), Nat.mod_eq_of_lt (show stop < p.posMod by omega),
        Wp.bind_iff]
      refine (hoarePartition_wp V start stop hlt hstop hpos hV).mono ?_
      rintro ⟨V1, q⟩ ⟨a1, a2, a3, a4, pv, a5, a6⟩
      simp only at a1 a2 a3 a4 a5 a6
      simp only [Wp.bind_iff]
      refine (ih V1 start q (by omega) a3 (by omega) a1).mono ?_
      rintro V2 ⟨b1, b2, b3⟩
      refine (ih V2 (q + 1) stop hstop (by omega) (by omega) b1).mono ?_
      rintro V3 ⟨c1, c2, c3⟩
      refine ⟨c1, (a2.trans (b2.mono (Nat.le_refl _) (by omega))).trans (c2.mono (by omega) (Nat.le_refl _)), ?_⟩
      have hlo : ∀ x, start ≤ x → x ≤ q → colOf V3 x = colOf V2 x :=
        fun x _ hx => c2.outside x (by omega)
      have hhi : ∀ x, q < x → x ≤ stop → colOf V2 x = colOf V1 x :=
        fun x hx _ => b2.outside x (by omega)
      intro x y hx hxy hy
      by_cases e1 : y ≤ q
      · rw [hlo x hx (by omega), hlo y (by omega) e1]
        exact b3 x y hx hxy e1
      · by_cases e2 : x ≤ q
        · have l1 : colOf V3 x ≤ pv := by
            rw [hlo x hx e2]
            exact b2.forall (P := (· ≤ pv)) a5 x hx e2
          have l2 : pv ≤ colOf V3 y := by
            refine c2.forall (P := (pv ≤ ·)) ?_ y (by omega) hy
            intro z hz hz'
            rw [hhi z (by omega) hz']
            exact a6 z (by omega) hz'
          exact le_trans l1 l2
        · exact c3 x y (by omega) hxy hy
    · rw [Wp.pure_iff]
      refine ⟨hV, RangePerm.refl _ _ _, fun x y h1 h2 h3 => ?_⟩
      have : x = y := by omega
      rw [this]

/-- The columns of an array, from left to right. -/
def colsOf {r c : Nat} (V : Vector (Vector Nat c) r) : List (List Nat) := (List.range c).map (colOf V)

theorem colsOf_inj {r c : Nat} {V W : Vector (Vector Nat c) r} (h : colsOf V = colsOf W) : V = W := by
  apply mat_ext
  intro i j hi hj
  have : colOf V j = colOf W j := by
    have e := congrArg (fun l => l[j]?) h
    simpa [colsOf, hj] using e
  exact colOf_eq_iff.mp this i hi

theorem rangePerm_perm {V W : NormIS p} (h : RangePerm 0 (p.N - p.K - 1) V W) (hlt : 0 < p.N - p.K) :
    (colsOf W).Perm (colsOf V) := by
  obtain ⟨σ, a1, a2⟩ := h
  have hr : ((List.range (p.N - p.K)).map σ).Perm (List.range (p.N - p.K)) := by
    apply (List.perm_ext_iff_of_nodup _ List.nodup_range).mpr
    · intro x
      simp only [List.mem_map, List.mem_range]
      constructor
      · rintro ⟨y, hy, rfl⟩
        have := range_stable a1 y (Nat.zero_le _) (by omega)
        omega
      · intro hx
        refine ⟨σ.symm x, ?_, by simp⟩
        by_contra hc
        have := a1 (σ.symm x) (by omega)
        rw [Equiv.apply_symm_apply] at this
        omega
    · exact List.nodup_range.map σ.injective
  have e : colsOf W = ((List.range (p.N - p.K)).map σ).map (colOf V) := by
    unfold colsOf
    rw [List.map_map]
    apply List.map_congr_left
    intro x _
    rw [a2]; rfl
  rw [e]
  exact hr.map _

theorem lexSortCols_wp (V : NormIS p) (hpos : p.N - p.K < p.posMod) (hlt : 0 < p.N - p.K) (hV : Bytes8 V) :
    Wp False (lexSortCols V) (fun R => Bytes8 R ∧ (colsOf R).Perm (colsOf V) ∧
      (colsOf R).Pairwise (· ≤ ·)) := by
  unfold lexSortCols
  refine (colLexQuicksort_wp hpos (p.N - p.K + 1) V 0 (p.N - p.K - 1) (by omega) (by omega) (by omega) hV).mono ?_
  rintro R ⟨h1, h2, h3⟩
  refine ⟨h1, rangePerm_perm h2 hlt, ?_⟩
  rw [List.pairwise_iff_getElem]
  intro i j hi hj hij
  have hj' : j < p.N - p.K := by simpa [colsOf] using hj
  simp only [colsOf, List.getElem_map, List.getElem_range]
  exact h3 i j (Nat.zero_le _) (by omega) (by omega)

/-- The sorted array depends on the columns as a multiset only. -/
theorem sorted_unique {V W : NormIS p} (hV : (colsOf V).Pairwise (· ≤ ·)) (hW : (colsOf W).Pairwise (· ≤ ·))
    (h : (colsOf V).Perm (colsOf W)) : V = W :=
  colsOf_inj (List.Perm.eq_of_pairwise (fun _ _ _ _ h1 h2 => le_antisymm h1 h2) hV hW h)

end LESS
