import Verif.Proofs.Monomial
import Verif.Proofs.RowEq
/-!
# `generator_RREF`: proofs
-/
namespace LESS
open Spec

variable {p : Params}

theorem swapRows_wp (G : GenMat p) (r s : Nat) (hr : r < p.K) (hs : s < p.K) (hrs : r ≠ s) :
    Wp False (swapRows G r s) (fun R => ∀ i j, i < p.K → j < p.N →
      g2 R i j = if i = r then g2 G s j else if i = s then g2 G r j else g2 G i j) := by
  unfold swapRows
  refine Wp.forUp (fun n (R : GenMat p) => ∀ i j, i < p.K → j < p.N →
      g2 R i j = if j < n then (if i = r then g2 G s j else if i = s then g2 G r j else g2 G i j)
        else g2 G i j) (by simp) ?_ ?_
  · intro c R hc hR
    simp only [Wp.bind_iff, Wp.rd2_iff, Wp.wr2_iff]
    refine ⟨hr, hc, hs, hc, hr, hc, hs, hc, fun i j hi hj => ?_⟩
    rw [g2_upd2 _ _ _ _ _ _ hs hc, g2_upd2 _ _ _ _ _ _ hr hc, hR i j hi hj, hR r c hr hc, hR s c hs hc]
    simp only [lt_irrefl, if_false]
    by_cases e : c = j
    · subst e
      simp only [and_true, lt_irrefl, if_false, Nat.lt_succ_self, if_true]
      by_cases e1 : s = i
      · subst e1; simp [Ne.symm hrs]
      · by_cases e2 : r = i
        · subst e2; simp [e1]
        · simp [e1, e2, Ne.symm e1, Ne.symm e2]
    · have : (j < c + 1) ↔ j < c := by omega
      simp [e, this]
  · intro R hR i j hi hj
    rw [hR i j hi hj, if_pos hj]

theorem scaleRow_wp (G : GenMat p) (row c s : Nat) (hr : row < p.K) (hc : c < p.N) :
    Wp False (scaleRow G row c s) (fun R => ∀ i j, i < p.K → j < p.N →
      g2 R i j = if i = row ∧ c ≤ j then fqRed (s * g2 G row j) else g2 G i j) := by
  unfold scaleRow
  refine Wp.forUp (fun n (R : GenMat p) => ∀ i j, i < p.K → j < p.N →
      g2 R i j = if i = row ∧ c ≤ j ∧ j < c + n then fqRed (s * g2 G row j) else g2 G i j) ?_ ?_ ?_
  · intro i j hi hj
    rw [if_neg (by omega)]
  · intro k R hk hR
    simp only [Wp.bind_iff, Wp.rd2_iff, Wp.wr2_iff]
    refine ⟨hr, by omega, hr, by omega, fun i j hi hj => ?_⟩
    rw [g2_upd2 _ _ _ _ _ _ hr (by omega), hR i j hi hj, hR row (c + k) hr (by omega), if_neg (by omega : ¬ (row = row ∧ c ≤ c + k ∧ c + k < c + k))]
    by_cases e : row = i ∧ c + k = j
    · obtain ⟨rfl, rfl⟩ := e; simp
    · rw [if_neg e]
      by_cases e2 : i = row ∧ c ≤ j ∧ j < c + k
      · rw [if_pos e2, if_pos (by omega)]
      · rw [if_neg e2, if_neg (by omega)]
  · intro R hR i j hi hj
    rw [hR i j hi hj]
    by_cases e : i = row ∧ c ≤ j
    · rw [if_pos e, if_pos (by omega)]
    · rw [if_neg e, if_neg (by omega)]

/-- The value stored by the elimination loop. -/
def elimVal (x m y : Nat) : Nat := fqRed (u16 (Q + x - fqRed (m * y)))

theorem elimVal_lt (x m y : Nat) : elimVal x m y < 127 := fqRed_lt _

theorem elimVal_cast {x m y : Nat} (hx : x < 127) (hm : m < 127) (hy : y < 127) :
    (elimVal x m y : Fq) = x - m * y := by
  unfold elimVal
  have h := fqRed_lt (m * y)
  have hu : u16 (Q + x - fqRed (m * y)) = Q + x - fqRed (m * y) := by unfold u16 Q; omega
  rw [hu, fqRed_cast _ (by unfold Q; omega), Nat.cast_sub (by unfold Q; omega), fqRed_mul_cast hm hy]
  have : ((Q + x : Nat) : Fq) = (x : Fq) := by
    unfold Q; push_cast
    have : (127 : Fq) = 0 := by exact_mod_cast ZMod.natCast_self 127
    rw [this, zero_add]
  rw [this]

theorem elimVal_zero {x m : Nat} (hx : x < 127) : elimVal x m 0 = x := by
  unfold elimVal fqRed u16 u8 Q
  simp; omega

theorem eliminateRow_wp (G : GenMat p) (pr c row : Nat) (hpr : pr < p.K) (hc : c < p.N) (hrow : row < p.K) :
    Wp False (eliminateRow G pr c row) (fun R => ∀ i j, i < p.K → j < p.N →
      g2 R i j = if i = row then elimVal (g2 G row j) (g2 G row c) (g2 G pr j) else g2 G i j) := by
  unfold eliminateRow
  simp only [Wp.bind_iff, Wp.rd2_iff]
  refine ⟨hrow, hc, ?_⟩
  refine Wp.forUp (fun n (R : GenMat p) => ∀ i j, i < p.K → j < p.N →
      g2 R i j = if i = row ∧ j < n then elimVal (g2 G row j) (g2 G row c) (g2 G pr j) else g2 G i j)
      (by simp) ?_ ?_
  · intro k R hk hR
    simp only [Wp.bind_iff, Wp.rd2_iff, Wp.wr2_iff]
    refine ⟨hpr, hk, hrow, hk, hrow, hk, fun i j hi hj => ?_⟩
    rw [g2_upd2 _ _ _ _ _ _ hrow hk, hR i j hi hj, hR row k hrow hk, hR pr k hpr hk,
      if_neg (by omega : ¬ (row = row ∧ k < k)), if_neg (by omega : ¬ (pr = row ∧ k < k))]
    by_cases e : row = i ∧ k = j
    · obtain ⟨rfl, rfl⟩ := e; simp [elimVal]
    · rw [if_neg e]
      by_cases e2 : i = row ∧ j < k
      · rw [if_pos e2, if_pos (by omega)]
      · rw [if_neg e2, if_neg (by omega)]
  · intro R hR i j hi hj
    rw [hR i j hi hj]; simp [hj]

theorem eliminateRows_wp (G : GenMat p) (pr c : Nat) (hpr : pr < p.K) (hc : c < p.N) (hG : Reduced G) :
    Wp False (eliminateRows G pr c) (fun R => Reduced R ∧ RowEq (matOf G) (matOf R) ∧
      ∀ i j, i < p.K → j < p.N →
      g2 R i j = if i = pr then g2 G i j else elimVal (g2 G i j) (g2 G i c) (g2 G pr j)) := by
  unfold eliminateRows
  refine Wp.forUp (fun n (R : GenMat p) => Reduced R ∧ RowEq (matOf G) (matOf R) ∧
      ∀ i j, i < p.K → j < p.N →
      g2 R i j = if i = pr ∨ n ≤ i then g2 G i j else elimVal (g2 G i j) (g2 G i c) (g2 G pr j))
      ⟨hG, RowEq.refl _, by simp⟩ ?_ ?_
  · rintro n R hn ⟨h1, h2, h3⟩
    rw [Wp.ite_iff]
    refine ⟨fun hne => ?_, fun hne => ?_⟩
    · refine (eliminateRow_wp R pr c n hpr hc hn).mono ?_
      intro R' hR'
      have hred : Reduced R' := by
        intro i j hi hj
        rw [hR' i j hi hj]
        split
        · exact elimVal_lt _ _ _
        · exact h1 i j hi hj
      refine ⟨hred, h2.trans (rowEq_sub _ _ ⟨pr, hpr⟩ ⟨n, hn⟩ (by simpa using hne) ((g2 R n c : Nat) : Fq) ?_), ?_⟩
      · intro i j
        show ((g2 R' i j : Nat) : Fq) = _
        rw [hR' i j i.2 j.2]
        by_cases e : i = ⟨n, hn⟩
        · subst e
          simp only [if_true]
          rw [elimVal_cast (h1 _ _ hn j.2) (h1 _ _ hn hc) (h1 _ _ hpr j.2)]
          rfl
        · have : ¬ i.val = n := fun h => e (Fin.ext h)
          simp only [e, this, if_false]
          rfl
      · intro i j hi hj
        rw [hR' i j hi hj]
        by_cases e : i = n
        · subst e
          rw [if_pos rfl, if_neg (by omega), h3 i j hi hj, h3 i c hi hc, h3 pr j hpr hj]
          simp
        · rw [if_neg e, h3 i j hi hj]
          by_cases e2 : i = pr ∨ n ≤ i
          · rw [if_pos e2, if_pos (by omega)]
          · rw [if_neg e2, if_neg (by omega)]
    · have hne : n = pr := by simpa using hne
      rw [Wp.pure_iff]
      refine ⟨h1, h2, fun i j hi hj => ?_⟩
      rw [h3 i j hi hj]
      by_cases e2 : i = pr ∨ n ≤ i
      · rw [if_pos e2]
        by_cases e3 : i = pr
        · rw [if_pos (by omega)]
        · rw [if_pos (by omega)]
      · rw [if_neg e2, if_neg (by omega)]
  · rintro R ⟨h1, h2, h3⟩
    refine ⟨h1, h2, fun i j hi hj => ?_⟩
    rw [h3 i j hi hj]
    have : ¬ p.K ≤ i := by omega
    simp [this]

theorem scanRows_wp (G : GenMat p) (col : Nat) (hc : col < p.N) (n row : Nat) (h : row + n = p.K) :
    Wp False (scanRows G col n row) (fun r => row ≤ r ∧ r ≤ p.K ∧ (∀ i, row ≤ i → i < r → g2 G i col = 0) ∧
      (r < p.K → g2 G r col ≠ 0)) := by
  induction n generalizing row with
  | zero =>
    unfold scanRows
    rw [Wp.pure_iff]
    exact ⟨Nat.le_refl _, by omega, by intros; omega, by intros; omega⟩
  | succ n ih =>
    unfold scanRows
    simp only [Wp.bind_iff, Wp.rd2_iff]
    refine ⟨by omega, hc, ?_⟩
    rw [Wp.ite_iff]
    refine ⟨fun hz => ?_, fun hz => ?_⟩
    · refine (ih (row + 1) (by omega)).mono ?_
      rintro r ⟨h1, h2, h3, h4⟩
      refine ⟨by omega, h2, fun i hi hir => ?_, h4⟩
      by_cases e : i = row
      · subst e; exact hz
      · exact h3 i (by omega) hir
    · rw [Wp.pure_iff]
      exact ⟨Nat.le_refl _, by omega, by intros; omega, fun _ => hz⟩

theorem findPivot_wp (G : GenMat p) (r : Nat) (hr : r < p.K) (fuel col : Nat) (hcol : col ≤ p.N)
    (hfuel : p.N + 2 ≤ fuel + col) (hz : ∀ i j, r ≤ i → i < p.K → j < col → g2 G i j = 0) :
    Wp False (findPivot G r fuel r col) (fun rc =>
      (rc.2 = p.N ∧ ∀ i j, r ≤ i → i < p.K → j < p.N → g2 G i j = 0) ∨
      (rc.2 < p.N ∧ r ≤ rc.1 ∧ rc.1 < p.K ∧ g2 G rc.1 rc.2 ≠ 0 ∧
        ∀ i j, r ≤ i → i < p.K → j < rc.2 → g2 G i j = 0)) := by
  induction fuel generalizing col with
  | zero => omega
  | succ fuel ih =>
    unfold findPivot
    rw [Wp.ite_iff]
    refine ⟨fun hc => ?_, fun hc => ?_⟩
    · simp only [Wp.bind_iff, Wp.rd2_iff]
      refine ⟨hr, hc, ?_⟩
      rw [Wp.ite_iff]
      refine ⟨fun hx => ?_, fun hx => ?_⟩
      · rw [Wp.bind_iff]
        refine (scanRows_wp G col hc (p.K - r) r (by omega)).mono ?_
        rintro row' ⟨h1, h2, h3, h4⟩
        rw [Wp.ite_iff]
        refine ⟨fun hk => ?_, fun hk => ?_⟩
        · apply ih (col + 1) (by omega) (by omega)
          intro i j hi hiK hj
          by_cases e : j = col
          · subst e; exact h3 i hi (by omega)
          · exact hz i j hi hiK (by omega)
        · obtain ⟨f, rfl⟩ : ∃ f, fuel = f + 1 := ⟨fuel - 1, by omega⟩
          unfold findPivot
          rw [if_pos hc]
          simp only [Wp.bind_iff, Wp.rd2_iff]
          refine ⟨by omega, hc, ?_⟩
          rw [if_neg (h4 (by omega)), Wp.pure_iff]
          exact Or.inr ⟨hc, h1, by omega, h4 (by omega), hz⟩
      · rw [Wp.pure_iff]
        exact Or.inr ⟨hc, Nat.le_refl _, hr, hx, hz⟩
    · rw [Wp.pure_iff]
      refine Or.inl ⟨by show col = p.N; omega, fun i j hi hiK hj => hz i j hi hiK (by omega)⟩

/-- Loop invariant of `generator_RREF` after `r` pivots `piv 0 < ... < piv (r-1)`. -/
structure RInv (A0 : Matrix (Fin p.K) (Fin p.N) Fq) (r : Nat) (piv : Nat → Nat) (G : GenMat p)
    (isPivot : Vector Nat p.N) : Prop where
  red : Reduced G
  eqv : RowEq A0 (matOf G)
  lt : ∀ t, t < r → piv t < p.N
  mono : ∀ t t', t < t' → t' < r → piv t < piv t'
  unit : ∀ t i, t < r → i < p.K → g2 G i (piv t) = if i = t then 1 else 0
  left : ∀ t j, t < r → j < piv t → g2 G t j = 0
  below : ∀ t i j, t < r → r ≤ i → i < p.K → j ≤ piv t → g2 G i j = 0
  flag1 : ∀ t, t < r → g isPivot (piv t) = 1
  flag0 : ∀ j, j < p.N → (∀ t, t < r → piv t ≠ j) → g isPivot j = 0

theorem RInv.ge {A0 : Matrix (Fin p.K) (Fin p.N) Fq} {r : Nat} {piv : Nat → Nat} {G : GenMat p}
    {isPivot : Vector Nat p.N} (h : RInv A0 r piv G isPivot) (t : Nat) (ht : t < r) : t ≤ piv t := by
  induction t with
  | zero => omega
  | succ t ih => have := ih (by omega); have := h.mono t (t + 1) (by omega) ht; omega

theorem rrefStep_wp {A0 : Matrix (Fin p.K) (Fin p.N) Fq} {r : Nat} {piv : Nat → Nat} {G : GenMat p}
    {isPivot : Vector Nat p.N} (hr : r < p.K) (hKN : p.K ≤ p.N) (h : RInv A0 r piv G isPivot) :
    Wp False (rrefStep r (G, isPivot)) (fun o => match o with
      | .inl res => res.1 = 0 ∧ Reduced res.2.1 ∧ RowEq A0 (matOf res.2.1) ∧ ∃ r, r < p.K ∧ ∀ j, j < p.N → g2 res.2.1 r j = 0
      | .inr s => ∃ piv', RInv A0 (r + 1) piv' s.1 s.2) := by
  unfold rrefStep
  simp only [Wp.bind_iff]
  refine (findPivot_wp G r hr (2 * p.N + 2) r (by omega) (by omega) ?_).mono ?_
  · intro i j hi hiK hj
    have := h.ge (r - 1) (by omega)
    exact h.below (r - 1) i j (by omega) hi hiK (by omega)
  rintro ⟨row, c⟩ hrc
  simp only at hrc
  rcases hrc with ⟨hcN, hz⟩ | ⟨hcN, h1, h2, h3, h4⟩
  · rw [if_pos (by omega), Wp.pure_iff]
    exact ⟨rfl, h.red, h.eqv, r, hr, fun j hj => hz r j (Nat.le_refl _) hr hj⟩
  rw [if_neg (by omega)]
  have hpc : ∀ t, t < r → piv t < c := by
    intro t ht
    by_contra hle
    exact h3 (h.below t row c ht h1 h2 (by omega))
  simp only [Wp.bind_iff, Wp.wr_iff]
  refine ⟨hcN, ?_⟩
  -- the swap
  have hswap : Wp False (if r ≠ row then swapRows G r row else pure G) (fun R => Reduced R ∧
      RowEq A0 (matOf R) ∧ (∀ t i, t < r → i < p.K → g2 R i (piv t) = if i = t then 1 else 0) ∧
      (∀ t j, t < r → j < piv t → g2 R t j = 0) ∧ g2 R r c ≠ 0 ∧
      ∀ i j, r ≤ i → i < p.K → j < c → g2 R i j = 0) := by
    rw [Wp.ite_iff]
    refine ⟨fun hne => ?_, fun hne => ?_⟩
    · refine (swapRows_wp G r row hr h2 hne).mono ?_
      intro R hR
      refine ⟨?_, ?_, ?_, ?_, ?_, ?_⟩
      · intro i j hi hj
        rw [hR i j hi hj]
        split
        · exact h.red _ _ h2 hj
        · split
          · exact h.red _ _ hr hj
          · exact h.red _ _ hi hj
      · refine h.eqv.trans (rowEq_swap _ _ ⟨r, hr⟩ ⟨row, h2⟩ ?_)
        intro i j
        show ((g2 R i j : Nat) : Fq) = _
        rw [hR i j i.2 j.2]
        simp only [Fin.ext_iff]
        split <;> [rfl; split <;> rfl]
      · intro t i ht hi
        have hl := h.lt t ht
        rw [hR i _ hi hl]
        by_cases e1 : i = r
        · rw [if_pos e1, h.unit t row ht h2, if_neg (by omega), if_neg (by omega)]
        · by_cases e2 : i = row
          · rw [if_neg e1, if_pos e2, h.unit t r ht hr, if_neg (by omega), if_neg (by omega)]
          · rw [if_neg e1, if_neg e2, h.unit t i ht hi]
      · intro t j ht hj
        have hl := h.lt t ht
        rw [hR t j (by omega) (by omega), if_neg (by omega), if_neg (by omega)]
        exact h.left t j ht hj
      · rw [hR r c hr hcN, if_pos rfl]; exact h3
      · intro i j hi hiK hj
        rw [hR i j hiK (by omega)]
        split
        · exact h4 _ _ h1 h2 hj
        · split
          · exact h4 _ _ (Nat.le_refl _) hr hj
          · exact h4 _ _ hi hiK hj
    · have e : r = row := by simpa using hne
      subst e
      rw [Wp.pure_iff]
      exact ⟨h.red, h.eqv, h.unit, h.left, h3, h4⟩
  refine Wp.ite_bind (hswap.mono ?_)
  simp only [Wp.bind_iff]
  rintro G1 ⟨a1, a2, a3, a4, a5, a6⟩
  rw [Wp.rd2_iff]
  refine ⟨hr, hcN, ?_⟩
  -- the scaling
  have hx := a1 r c hr hcN
  have hs := fqInv_lt (g2 G1 r c)
  refine (scaleRow_wp G1 r c (fqInv (g2 G1 r c)) hr hcN).mono ?_
  intro G2 hG2
  have hscast : ((fqInv (g2 G1 r c) : Nat) : Fq) = ((g2 G1 r c : Nat) : Fq)⁻¹ := fqInv_cast _ (by omega)
  have hxne : ((g2 G1 r c : Nat) : Fq) ≠ 0 := by rw [Ne, cast_eq_zero hx]; exact a5
  have b1 : Reduced G2 := by
    intro i j hi hj
    rw [hG2 i j hi hj]
    split
    · exact fqRed_lt _
    · exact a1 i j hi hj
  have b2 : RowEq A0 (matOf G2) := by
    refine a2.trans (rowEq_scale _ _ ⟨r, hr⟩ ((fqInv (g2 G1 r c) : Nat) : Fq) ?_ ?_)
    · rw [hscast]; exact inv_ne_zero hxne
    · intro i j
      show ((g2 G2 i j : Nat) : Fq) = _
      rw [hG2 i j i.2 j.2]
      by_cases e : i = ⟨r, hr⟩
      · subst e
        by_cases hcj : c ≤ j
        · simp only [hcj, and_true, if_true]
          rw [fqRed_mul_cast hs (a1 r j hr j.2)]; rfl
        · have hz := a6 r j (Nat.le_refl _) hr (by omega)
          simp only [hcj, and_false, if_false, if_true]
          have : matOf G1 ⟨r, hr⟩ j = 0 := by
            show ((g2 G1 r j : Nat) : Fq) = 0
            rw [hz]; simp
          rw [hz, this]; simp
      · have : ¬ i.val = r := fun h => e (Fin.ext h)
        simp only [e, this, false_and, if_false]
        rfl
  have b3 : ∀ t i, t < r → i < p.K → g2 G2 i (piv t) = if i = t then 1 else 0 := by
    intro t i ht hi
    have := hpc t ht
    rw [hG2 i _ hi (by omega), if_neg (by omega), a3 t i ht hi]
  have b4 : ∀ t j, t < r → j < piv t → g2 G2 t j = 0 := by
    intro t j ht hj
    have := h.lt t ht
    rw [hG2 t j (by omega) (by omega), if_neg (by omega), a4 t j ht hj]
  have b5 : g2 G2 r c = 1 := by
    apply cast_inj (b1 r c hr hcN) (by decide)
    rw [hG2 r c hr hcN, if_pos (by omega), fqRed_mul_cast hs hx, hscast, Nat.cast_one]
    exact inv_mul_cancel₀ hxne
  have b6 : ∀ i j, r ≤ i → i < p.K → j < c → g2 G2 i j = 0 := by
    intro i j hi hiK hj
    rw [hG2 i j hiK (by omega), if_neg (by omega)]
    exact a6 i j hi hiK hj
  -- the elimination
  refine (eliminateRows_wp G2 r c hr hcN b1).mono ?_
  rintro R ⟨c1, c2, c3⟩
  rw [Wp.pure_iff]
  refine ⟨fun t => if t = r then c else piv t, c1, b2.trans c2, ?_, ?_, ?_, ?_, ?_, ?_, ?_⟩
  · intro t ht
    split
    · exact hcN
    · exact h.lt t (by omega)
  · intro t t' htt' ht'
    rw [if_neg (by omega)]
    split
    · exact hpc t (by omega)
    · exact h.mono t t' htt' (by omega)
  · intro t i ht hi
    simp only
    by_cases e : t = r
    · subst e
      rw [if_pos rfl, c3 i c hi hcN]
      by_cases e2 : i = t
      · subst e2; rw [if_pos rfl, if_pos rfl, b5]
      · rw [if_neg e2, if_neg e2]
        apply cast_inj (elimVal_lt _ _ _) (by decide)
        rw [elimVal_cast (b1 _ _ hi hcN) (b1 _ _ hi hcN) (b1 _ _ hr hcN), b5]; simp
    · have ht' : t < r := by omega
      have := hpc t ht'
      rw [if_neg e, c3 i _ hi (by omega)]
      by_cases e2 : i = r
      · rw [if_pos e2, b3 t i ht' hi]
      · rw [if_neg e2, b6 r (piv t) (Nat.le_refl _) hr this, elimVal_zero (b1 _ _ hi (by omega)), b3 t i ht' hi]
  · intro t j ht hj
    by_cases e : t = r
    · subst e
      rw [if_pos rfl] at hj
      rw [c3 t j hr (by omega), if_pos rfl]
      exact b6 t j (Nat.le_refl _) hr hj
    · rw [if_neg e] at hj
      have ht' : t < r := by omega
      have := hpc t ht'
      rw [c3 t j (by omega) (by omega), if_neg e, b6 r j (Nat.le_refl _) hr (by omega),
        elimVal_zero (b1 _ _ (by omega) (by omega))]
      exact b4 t j ht' hj
  · intro t i j ht hi hiK hj
    have hjc : j ≤ c := by
      split at hj
      · exact hj
      · have := hpc t (by omega); omega
    rw [c3 i j hiK (by omega), if_neg (by omega)]
    by_cases e : j = c
    · subst e
      apply cast_inj (elimVal_lt _ _ _) (by decide)
      rw [elimVal_cast (b1 _ _ hiK hcN) (b1 _ _ hiK hcN) (b1 _ _ hr hcN), b5]; simp
    · rw [b6 r j (Nat.le_refl _) hr (by omega), elimVal_zero (b1 _ _ hiK (by omega))]
      exact b6 i j (by omega) hiK (by omega)
  · intro t ht
    simp only
    rw [g_upd _ _ _ _ hcN]
    split
    · simp
    · split
      · rfl
      · exact h.flag1 t (by omega)
  · intro j hj hne
    rw [g_upd _ _ _ _ hcN, if_neg]
    · apply h.flag0 j hj
      intro t ht
      have := hne t (by omega)
      rwa [if_neg (by omega)] at this
    · have := hne r (by omega)
      simpa using this

/-- Full specification of `generator_RREF` on canonical entries and cleared flags. -/
theorem generatorRREF_wp (G : GenMat p) (hKN : p.K ≤ p.N) (hG : Reduced G) :
    Wp False (generatorRREF G (Vector.replicate p.N 0)) (fun res =>
      Reduced res.2.1 ∧ RowEq (matOf G) (matOf res.2.1) ∧
      ((res.1 = 0 ∧ ¬ FullRank (matOf G)) ∨
       (res.1 = 1 ∧ FullRank (matOf G) ∧ ∃ piv : Fin p.K → Fin p.N, IsRREF (matOf res.2.1) piv ∧
          ∀ j : Fin p.N, g res.2.2 j = if ∃ t, piv t = j then 1 else 0))) := by
  unfold generatorRREF
  rw [Wp.bind_iff]
  refine Wp.forRet (fun r s => ∃ piv, RInv (matOf G) r piv s.1 s.2)
    (fun res => res.1 = 0 ∧ Reduced res.2.1 ∧ RowEq (matOf G) (matOf res.2.1) ∧
      ∃ r, r < p.K ∧ ∀ j, j < p.N → g2 res.2.1 r j = 0) ?_ ?_ ?_ ?_
  · exact ⟨fun _ => 0, hG, RowEq.refl _, by simp, by simp, by simp, by simp, by simp, by simp,
      fun j hj _ => g_replicate _ _ hj⟩
  · rintro r ⟨G', f'⟩ hr ⟨piv, h⟩
    refine (rrefStep_wp hr hKN h).mono ?_
    rintro (o | o) ho <;> exact ho
  · rintro ⟨ok, G', f'⟩ ⟨h1, h2, h3, r, hr, hz⟩
    simp only [Wp.pure_iff]
    refine ⟨h2, h3, Or.inl ⟨h1, fun hf => ?_⟩⟩
    refine not_fullRank_of_zero_row (A := matOf G') ⟨r, hr⟩ ?_ (h3.fullRank hf)
    intro j
    show ((g2 G' r j : Nat) : Fq) = 0
    rw [hz j j.2]; simp
  · rintro ⟨G', f'⟩ ⟨piv, h⟩
    simp only [Wp.pure_iff]
    have hR : IsRREF (matOf G') (fun t : Fin p.K => (⟨piv t, h.lt t t.2⟩ : Fin p.N)) := by
      refine ⟨?_, ?_, ?_⟩
      · intro t t' htt'
        exact h.mono t t' htt' t'.2
      · intro i t
        show ((g2 G' i (piv t) : Nat) : Fq) = _
        rw [h.unit t i t.2 i.2]
        simp only [Fin.ext_iff]
        split <;> simp
      · intro t j hj
        show ((g2 G' t j : Nat) : Fq) = 0
        rw [h.left t j t.2 hj]; simp
    refine ⟨h.red, h.eqv, Or.inr ⟨by simp, h.eqv.symm.fullRank hR.fullRank, _, hR, ?_⟩⟩
    intro j
    by_cases e : ∃ t : Fin p.K, (⟨piv t, h.lt t t.2⟩ : Fin p.N) = j
    · rw [if_pos e]
      obtain ⟨t, rfl⟩ := e
      exact h.flag1 t t.2
    · rw [if_neg e]
      apply h.flag0 j j.2
      intro t ht hj
      exact e ⟨⟨t, ht⟩, Fin.ext hj⟩

end LESS
