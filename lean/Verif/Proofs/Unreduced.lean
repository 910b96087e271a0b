import Verif.Proofs.Response
/-!
# Public codes with entries equal to 127

A public code is read as 7-bit numbers, so an entry can be 127, a second representation of 0.  When at least half of the
columns are picked by a response (`N ≤ 2 K`), verification treats it as 0.
-/
namespace LESS
open Spec (FullRank)

variable {p : Params}

/-- Every entry modulo 127. -/
def canonM (G : GenMat p) : GenMat p := Vector.ofFn fun i => Vector.ofFn fun j => g2 G i j % 127

theorem g2_canonM (G : GenMat p) (i j : Nat) (hi : i < p.K) (hj : j < p.N) : g2 (canonM G) i j = g2 G i j % 127 :=
  g2_ofFn _ i j hi hj

theorem canonM_reduced (G : GenMat p) : Reduced (canonM G) := by
  intro i j hi hj
  rw [g2_canonM G i j hi hj]
  exact Nat.mod_lt _ (by decide)

theorem matOf_canonM (G : GenMat p) : matOf (canonM G) = matOf G := by
  ext i j
  show ((g2 (canonM G) i j : Nat) : Fq) = ((g2 G i j : Nat) : Fq)
  rw [g2_canonM G i j i.2 j.2, ZMod.natCast_mod]

theorem canonM_of_reduced {G : GenMat p} (h : Reduced G) : canonM G = G :=
  mat_ext fun i j hi hj => by rw [g2_canonM G i j hi hj, Nat.mod_eq_of_lt (h i j hi hj)]

theorem rd2_eq {r c : Nat} (G : Vector (Vector Nat c) r) (i j : Nat) (hi : i < r) (hj : j < c) :
    rd2 G i j = .ok (g2 G i j) := by
  apply Wp.eq_ok
  rw [Wp.rd2_iff]
  exact ⟨hi, hj, rfl⟩

theorem scanRows_congr (G G' : GenMat p) (col : Nat) (hc : col < p.N) (n row : Nat) (h : row + n = p.K)
    (he : ∀ i, i < p.K → g2 G i col = g2 G' i col) : scanRows G col n row = scanRows G' col n row := by
  induction n generalizing row with
  | zero => rfl
  | succ n ih =>
    unfold scanRows
    rw [rd2_eq G _ _ (by omega) hc, rd2_eq G' _ _ (by omega) hc, he row (by omega), ih (row + 1) (by omega)]

/-- The search for the first pivot reads the columns up to the pivot only. -/
theorem findPivot_congr (G G' : GenMat p) (c : Nat) (hc : c < p.N)
    (he : ∀ i j, i < p.K → j ≤ c → g2 G i j = g2 G' i j) (i₀ : Nat) (hi₀ : i₀ < p.K) (hne : g2 G i₀ c ≠ 0)
    (fuel row col : Nat) (hrow : row < p.K) (hcol : col ≤ c) (hz : g2 G row col ≠ 0 ∨ row = 0) :
    findPivot G 0 fuel row col = findPivot G' 0 fuel row col := by
  induction fuel generalizing row col with
  | zero => rfl
  | succ fuel ih =>
    unfold findPivot
    have hlt : col < p.N := by omega
    rw [if_pos hlt, if_pos hlt, rd2_eq G _ _ hrow hlt, rd2_eq G' _ _ hrow hlt, ← he row col hrow hcol,
      ← scanRows_congr G G' col hlt (p.K - row) row (by omega) (fun i hi => he i col hi hcol)]
    show (if g2 G row col = 0 then _ else _) = (if g2 G row col = 0 then _ else _)
    by_cases h0 : g2 G row col = 0
    · rw [if_pos h0, if_pos h0]
      have hr0 : row = 0 := by
        rcases hz with h | h
        · exact absurd h0 h
        · exact h
      obtain ⟨r, hr, h1, h2, h3, h4⟩ := (scanRows_wp G col hlt (p.K - row) row (by omega)).exists_ok
      rw [hr]
      show (if p.K ≤ r then _ else _) = (if p.K ≤ r then _ else _)
      by_cases hk : p.K ≤ r
      · rw [if_pos hk, if_pos hk]
        refine ih 0 (col + 1) (by omega) ?_ (Or.inr rfl)
        by_contra hcon
        have : col = c := by omega
        subst this
        exact hne (h3 i₀ (by omega) (by omega))
      · rw [if_neg hk, if_neg hk]
        exact ih r col (by omega) hcol (Or.inl (h4 (by omega)))
    · rw [if_neg h0, if_neg h0]

theorem eliminateRows_vals (G : GenMat p) (pr c : Nat) (hpr : pr < p.K) (hc : c < p.N) :
    Wp False (eliminateRows G pr c) (fun R => ∀ i j, i < p.K → j < p.N →
      g2 R i j = if i = pr then g2 G i j else elimVal (g2 G i j) (g2 G i c) (g2 G pr j)) := by
  unfold eliminateRows
  refine Wp.forUp (fun n (R : GenMat p) => ∀ i j, i < p.K → j < p.N →
      g2 R i j = if i = pr ∨ n ≤ i then g2 G i j else elimVal (g2 G i j) (g2 G i c) (g2 G pr j))
      (by simp) ?_ ?_
  · intro n R hn h3
    rw [Wp.ite_iff]
    refine ⟨fun hne => ?_, fun hne => ?_⟩
    · refine (eliminateRow_wp R pr c n hpr hc hn).mono ?_
      intro R' hR' i j hi hj
      rw [hR' i j hi hj]
      by_cases e : i = n
      · subst e
        rw [if_pos rfl, if_neg (by omega), h3 i j hi hj, h3 i c hi hc, h3 pr j hpr hj]
        simp
      · rw [if_neg e, h3 i j hi hj]
        by_cases e2 : i = pr ∨ n ≤ i
        · rw [if_pos e2, if_pos (by omega)]
        · rw [if_neg e2, if_neg (by omega)]
    · have hne : n = pr := by simpa using hne
      rw [Wp.pure_iff]
      intro i j hi hj
      rw [h3 i j hi hj]
      by_cases e2 : i = pr ∨ n ≤ i
      · rw [if_pos e2, if_pos (by omega)]
      · rw [if_neg e2, if_neg (by omega)]
  · intro R h3 i j hi hj
    rw [h3 i j hi hj]
    have : ¬ p.K ≤ i := by omega
    simp [this]

theorem fqRed_mul_mod (s x : Nat) (hs : s < 256) (hx : x < 128) : fqRed (s * x) = fqRed (s * (x % 127)) := by
  have h1 : s * x < 65536 := lt_of_le_of_lt (Nat.mul_le_mul (by omega : s ≤ 255) (by omega : x ≤ 127)) (by decide)
  have h2 : s * (x % 127) ≤ s * x := Nat.mul_le_mul_left _ (Nat.mod_le _ _)
  rw [fqRed_eq _ h1, fqRed_eq _ (by omega), Nat.mul_mod_mod]

theorem elimVal_mod (x m y : Nat) (hx : x < 128) : elimVal x m y = elimVal (x % 127) m y := by
  unfold elimVal
  have := fqRed_lt (m * y)
  generalize fqRed (m * y) = z at *
  unfold fqRed u16 u8 Q
  omega

theorem okBind {α β : Type} (a : α) (f : α → C β) : (Except.ok a >>= f : C β) = f a := rfl

/-- A first pivot found in columns without 127 makes the first elimination step canonical. -/
theorem rrefStep_canon (G : GenMat p) (f : Vector Nat p.N) (hG : ∀ i j, i < p.K → j < p.N → g2 G i j < 128)
    (c : Nat) (hc : c < p.N) (hcan : ∀ i j, i < p.K → j ≤ c → g2 G i j < 127) (i₀ : Nat) (hi₀ : i₀ < p.K)
    (hne : g2 G i₀ c ≠ 0) : rrefStep 0 (G, f) = rrefStep 0 (canonM G, f) := by
  have hK : 0 < p.K := by omega
  have he : ∀ i j, i < p.K → j ≤ c → g2 G i j = g2 (canonM G) i j := fun i j hi hj => by
    rw [g2_canonM G i j hi (by omega), Nat.mod_eq_of_lt (hcan i j hi hj)]
  unfold rrefStep
  simp only
  rw [← findPivot_congr G (canonM G) c hc he i₀ hi₀ hne _ 0 0 hK (by omega) (Or.inr rfl)]
  obtain ⟨⟨row, col⟩, hrc, hp⟩ := (findPivot_wp G 0 hK (2 * p.N + 2) 0 (by omega) (by omega) (by intros; omega)).exists_ok
  rw [hrc]
  simp only at hp
  have hcol : col ≤ c ∧ row < p.K ∧ col < p.N ∧ ∀ i j, i < p.K → j < col → g2 G i j = 0 := by
    rcases hp with ⟨_, h⟩ | ⟨h1, _, h2, _, h4⟩
    · exact absurd (h i₀ c (by omega) hi₀ hc) hne
    · refine ⟨?_, h2, h1, fun i j hi hj => h4 i j (by omega) hi hj⟩
      by_contra hcon
      exact hne (h4 i₀ c (by omega) hi₀ (by omega))
  obtain ⟨hcc, hrow, hcN, hzero⟩ := hcol
  have hmain : ∀ H H' : GenMat p, (∀ i j, i < p.K → j < p.N → g2 H i j < 128 ∧ g2 H' i j = g2 H i j % 127) →
      (∀ i j, i < p.K → j ≤ col → g2 H i j < 127) → (∀ i j, i < p.K → j < col → g2 H i j = 0) → ∀ f' : Vector Nat p.N,
      (do
        let x ← rd2 H 0 col
        let G ← scaleRow H 0 col (fqInv x)
        let G ← eliminateRows G 0 col
        pure (Sum.inr (G, f')) : C ((Nat × GenMat p × Vector Nat p.N) ⊕ (GenMat p × Vector Nat p.N))) =
      (do
        let x ← rd2 H' 0 col
        let G ← scaleRow H' 0 col (fqInv x)
        let G ← eliminateRows G 0 col
        pure (Sum.inr (G, f'))) := by
    intro H H' hH hHc hHz f'
    rw [rd2_eq H _ _ hK hcN, rd2_eq H' _ _ hK hcN, okBind, okBind,
      (hH 0 col hK hcN).2, Nat.mod_eq_of_lt (hHc 0 col hK (Nat.le_refl _))]
    -- the pivot row
    obtain ⟨S, s1, s2⟩ := (scaleRow_wp H 0 col (fqInv (g2 H 0 col)) hK hcN).exists_ok
    obtain ⟨S', s1', s2'⟩ := (scaleRow_wp H' 0 col (fqInv (g2 H 0 col)) hK hcN).exists_ok
    rw [s1, s1', okBind, okBind]
    have hS : ∀ i j, i < p.K → j < p.N → g2 S i j < 128 ∧ g2 S' i j = g2 S i j % 127 := by
      intro i j hi hj
      rw [s2 i j hi hj, s2' i j hi hj]
      split_ifs with h
      · have := fqRed_lt (fqInv (g2 H 0 col) * g2 H 0 j)
        rw [(hH 0 j hK hj).2, ← fqRed_mul_mod _ _ (Nat.lt_trans (fqInv_lt _) (by decide)) (hH 0 j hK hj).1, Nat.mod_eq_of_lt this]
        exact ⟨by omega, rfl⟩
      · exact hH i j hi hj
    have hS0 : ∀ j, j < p.N → g2 S 0 j < 127 := by
      intro j hj
      rw [s2 0 j hK hj]
      split_ifs with h
      · exact fqRed_lt _
      · rw [hHz 0 j hK (by omega)]; decide
    have hSc : ∀ i, i < p.K → g2 S i col < 127 := by
      intro i hi
      rw [s2 i col hi hcN]
      split_ifs with h
      · exact fqRed_lt _
      · exact hHc i col hi (Nat.le_refl _)
    -- the other rows
    obtain ⟨E, r1, r2⟩ := (eliminateRows_vals S 0 col hK hcN).exists_ok
    obtain ⟨E', r1', r2'⟩ := (eliminateRows_vals S' 0 col hK hcN).exists_ok
    have hE : E = E' := by
      apply mat_ext
      intro i j hi hj
      rw [r2 i j hi hj, r2' i j hi hj, (hS i j hi hj).2, (hS i col hi hcN).2, (hS 0 j hK hj).2,
        Nat.mod_eq_of_lt (hS0 j hj), Nat.mod_eq_of_lt (hSc i hi)]
      split_ifs with h
      · subst h; rw [Nat.mod_eq_of_lt (hS0 j hj)]
      · exact elimVal_mod _ _ _ (hS i j hi hj).1
    rw [r1, r1', hE]
  rw [okBind, okBind]
  simp only
  rw [if_neg (by omega), if_neg (by omega)]
  cases wr f col 1 with
  | error e => rfl
  | ok f' =>
    rw [okBind, okBind]
    by_cases e : (0 : Nat) ≠ row
    · rw [if_pos e, if_pos e]
      obtain ⟨H, h1, h2⟩ := (swapRows_wp G 0 row hK hrow e).exists_ok
      obtain ⟨H', h1', h2'⟩ := (swapRows_wp (canonM G) 0 row hK hrow e).exists_ok
      rw [h1, h1', okBind, okBind]
      refine hmain H H' (fun i j hi hj => ?_) (fun i j hi hj => ?_) (fun i j hi hj => ?_) f'
      · rw [h2 i j hi hj, h2' i j hi hj, g2_canonM G _ _ hrow hj, g2_canonM G _ _ hK hj, g2_canonM G _ _ hi hj]
        split_ifs <;> exact ⟨hG _ _ (by assumption) hj, rfl⟩
      · rw [h2 i j hi (by omega)]
        split_ifs <;> exact hcan _ _ (by assumption) (by omega)
      · rw [h2 i j hi (by omega)]
        split_ifs <;> exact hzero _ _ (by assumption) hj
    · rw [if_neg e, if_neg e]
      exact hmain G (canonM G) (fun i j hi hj => ⟨hG i j hi hj, g2_canonM G i j hi hj⟩)
        (fun i j hi hj => hcan i j hi (by omega)) hzero f'

theorem forRet_first {ρ σ : Type} (n : Nat) (hn : 0 < n) (body : Nat → σ → C (ρ ⊕ σ)) (s s' : σ) (h : body 0 s = body 0 s') :
    forRet n body s = forRet n body s' := by
  induction n with
  | zero => omega
  | succ n ih =>
    by_cases h0 : n = 0
    · subst h0; exact h
    · unfold forRet
      rw [ih (by omega)]

theorem generatorRREF_canon (G : GenMat p) (f : Vector Nat p.N) (hG : ∀ i j, i < p.K → j < p.N → g2 G i j < 128)
    (h : Reduced G ∨ ∃ c < p.N, (∀ i j, i < p.K → j ≤ c → g2 G i j < 127) ∧ ∃ i < p.K, g2 G i c ≠ 0) :
    generatorRREF G f = generatorRREF (canonM G) f := by
  rcases h with h | ⟨c, hc, hcan, i, hi, hne⟩
  · rw [canonM_of_reduced h]
  · unfold generatorRREF
    rw [forRet_first p.K (by omega) rrefStep (G, f) (canonM G, f) (rrefStep_canon G f hG c hc hcan i hi hne)]

/-! ## The columns of an encoded code -/

/-- The flagged column with `t` flagged columns before it. -/
theorem exists_flagged {m : Nat} (f : Vector Nat m) (n t : Nat) (ht : t + (nonPiv f n).length < n) :
    ∃ c < n, g f c ≠ 0 ∧ c - (nonPiv f c).length = t := by
  induction n with
  | zero => omega
  | succ n ih =>
    rw [nonPiv_length_succ] at ht
    have hle := nonPiv_length_le f n
    by_cases h : t + (nonPiv f n).length < n
    · obtain ⟨c, h1, h2⟩ := ih h
      exact ⟨c, by omega, h2⟩
    · by_cases h0 : g f n = 0
      · rw [if_pos h0] at ht; omega
      · rw [if_neg h0] at ht
        exact ⟨n, by omega, h0, by omega⟩

/-- The columns of the identity matrix inside a decoded code. -/
theorem exists_units (hp : p.WF) (buf : Vector UInt8 p.rrefBytes) (hz : (nonPiv (decFlags buf) p.N).length ≤ p.N - p.K) :
    ∃ u : Fin p.K → Fin p.N, Function.Injective u ∧
      ∀ i t : Fin p.K, g2 (decodeRref buf) i (u t) = if i = t then 1 else 0 := by
  have hKN := hp.K_lt_N
  have h : ∀ t : Fin p.K, ∃ c : Fin p.N, g (decFlags buf) c ≠ 0 ∧ c.val - (nonPiv (decFlags buf) c).length = t.val := by
    intro t
    have := t.2
    obtain ⟨c, h1, h2, h3⟩ := exists_flagged (decFlags buf) p.N t (by omega)
    exact ⟨⟨c, h1⟩, h2, h3⟩
  choose u h1 h2 using h
  refine ⟨u, fun s t e => Fin.ext (by rw [← h2 s, ← h2 t, e]), fun i t => ?_⟩
  unfold decodeRref
  rw [g2_ofFn _ _ _ i.2 (u t).2]
  simp only
  rw [if_neg (h1 t), h2 t]
  by_cases e : i = t
  · subst e; simp [b2n]
  · have : ¬ i.val = t.val := fun h => e (Fin.ext h)
    simp [b2n, e, this]

theorem fullRank_decodeRref (hp : p.WF) (buf : Vector UInt8 p.rrefBytes)
    (hz : (nonPiv (decFlags buf) p.N).length ≤ p.N - p.K) : FullRank (matOf (decodeRref buf)) := by
  obtain ⟨u, -, hu⟩ := exists_units hp buf hz
  intro v hv
  ext t
  have := congrFun hv (u t)
  simp only [Matrix.vecMul, dotProduct, Pi.zero_apply] at this
  have e : ∀ i, matOf (decodeRref buf) i (u t) = if i = t then 1 else 0 := by
    intro i
    show ((g2 (decodeRref buf) i (u t) : Nat) : Fq) = _
    rw [hu i t]
    split <;> simp
  rw [Finset.sum_eq_single t] at this
  · simpa [e] using this
  · intro b _ hb; simp [e, hb]
  · simp

theorem decodeRref_lt (buf : Vector UInt8 p.rrefBytes) (i j : Nat) (hi : i < p.K) (hj : j < p.N) :
    g2 (decodeRref buf) i j < 128 := by
  unfold decodeRref
  rw [g2_ofFn _ _ _ hi hj]
  simp only
  split
  · exact fieldAt_lt 7 _ _
  · unfold b2n; split <;> omega

/-- The matrix a verifier reduces has a canonical first pivot. -/
theorem action_pivot (hp : p.WF) (hN : p.N ≤ 2 * p.K) (buf : Vector UInt8 p.rrefBytes)
    (hz : (nonPiv (decFlags buf) p.N).length ≤ p.N - p.K) (a : MonoAction p) (ha : a.Valid) (R : GenMat p)
    (picked : Vector Nat p.N) (hpick : ∀ x, x < p.N → g picked x = if ∃ t, t < p.K ∧ g a.permutation t = x then 1 else 0)
    (hcount : (nonPiv picked p.N).length = p.N - p.K)
    (h1 : ∀ i t, i < p.K → t < p.K → g2 R i t = fqRed (g2 (decodeRref buf) i (g a.permutation t) * g a.coefficients t))
    (h2 : ∀ i s, i < p.K → s < p.N → g picked s = 0 → g2 R i (p.K + (nonPiv picked s).length) = g2 (decodeRref buf) i s) :
    Reduced R ∨ ∃ c < p.N, (∀ i j, i < p.K → j ≤ c → g2 R i j < 127) ∧ ∃ i < p.K, g2 R i c ≠ 0 := by
  have hKN := hp.K_lt_N
  by_cases hex : ∃ t < p.K, ∃ i < p.K, g2 R i t ≠ 0
  · obtain ⟨t, ht, i, hi, hne⟩ := hex
    refine Or.inr ⟨t, by omega, fun i j hi hj => ?_, i, hi, hne⟩
    rw [h1 i j hi (by omega)]
    exact fqRed_lt _
  · left
    push Not at hex
    obtain ⟨u, hu, hunit⟩ := exists_units hp buf hz
    -- no picked column is a column of the identity
    have hdisj : ∀ t s : Fin p.K, g a.permutation t ≠ (u s).val := by
      intro t s e
      have h0 := hex t t.2 s s.2
      rw [h1 s t s.2 t.2, e, hunit s s, if_pos rfl, Nat.one_mul] at h0
      have := ha.1 t t.2
      rw [fqRed_of_lt this.2] at h0
      omega
    -- the two kinds exhaust the columns
    let F : Fin p.K ⊕ Fin p.K → Fin p.N := Sum.elim u fun t => ⟨g a.permutation t, ha.2.1 t t.2⟩
    have hF : Function.Injective F := by
      rintro (s | s) (t | t) e
      · exact congrArg _ (hu e)
      · exact absurd (congrArg Fin.val e).symm (hdisj t s)
      · exact absurd (congrArg Fin.val e) (hdisj s t)
      · exact congrArg _ (Fin.ext (ha.2.2 s t s.2 t.2 (congrArg Fin.val e)))
    have hcard := Fintype.card_le_of_injective F hF
    simp only [Fintype.card_sum, Fintype.card_fin] at hcard
    have hbij : Function.Bijective F := by
      rw [Fintype.bijective_iff_injective_and_card]
      refine ⟨hF, ?_⟩
      simp only [Fintype.card_sum, Fintype.card_fin]
      omega
    intro i j hi hj
    by_cases e : j < p.K
    · rw [hex j e i hi]; decide
    · have hlt : j - p.K < (nonPiv picked p.N).length := by omega
      obtain ⟨r1, r2, r3⟩ := nonPiv_rank picked p.N (j - p.K) _ (List.getElem?_eq_getElem hlt)
      generalize (nonPiv picked p.N)[j - p.K] = c at r1 r2 r3
      have := h2 i c hi r2 r3
      rw [r1, show p.K + (j - p.K) = j by omega] at this
      rw [this]
      obtain ⟨x, hx⟩ := hbij.2 ⟨c, r2⟩
      rcases x with s | s
      · have : (u s).val = c := congrArg Fin.val hx
        rw [← this, hunit ⟨i, hi⟩ s]
        split <;> decide
      · exfalso
        have : g a.permutation s = c := congrArg Fin.val hx
        rw [hpick c r2, if_pos ⟨s, s.2, this⟩] at r3
        exact absurd r3 (by decide)

/-- The verifier does not distinguish 127 from 0. -/
theorem verifyTail_canon (hp : p.WF) (hN : p.N ≤ 2 * p.K) (sl : Stale p) (buf : Vector UInt8 p.rrefBytes)
    (hz : (nonPiv (decFlags buf) p.N).length ≤ p.N - p.K) (a : MonoAction p) (ha : a.Valid) :
    verifyTail sl (decodeRref buf) a = verifyTail sl (canonM (decodeRref buf)) a := by
  have hKN := hp.K_lt_N
  obtain ⟨R, e, -, picked, hcount, hpick, h1, h2⟩ := (applyActionToG_wp (Vector.replicate p.K (Vector.replicate p.N 0))
    (decodeRref buf) a (Nat.le_of_lt hKN) ha).exists_ok
  obtain ⟨R', e', -, picked', -, hpick', h1', h2'⟩ := (applyActionToG_wp (Vector.replicate p.K (Vector.replicate p.N 0))
    (canonM (decodeRref buf)) a (Nat.le_of_lt hKN) ha).exists_ok
  have hpp : picked' = picked := vec_ext fun x hx => by rw [hpick x hx, hpick' x hx]
  subst hpp
  have hcol : ∀ i j, i < p.K → j < p.N → g2 R i j < 128 ∧ g2 R' i j = g2 R i j % 127 := by
    intro i j hi hj
    by_cases hjK : j < p.K
    · have hc := ha.1 j hjK
      have hx := decodeRref_lt buf i _ hi (ha.2.1 j hjK)
      have := fqRed_lt (g2 (decodeRref buf) i (g a.permutation j) * g a.coefficients j)
      rw [h1 i j hi hjK, h1' i j hi hjK, g2_canonM _ _ _ hi (ha.2.1 j hjK), Nat.mod_eq_of_lt this]
      refine ⟨by omega, ?_⟩
      rw [Nat.mul_comm (_ % 127), ← fqRed_mul_mod (g a.coefficients j) _ (by omega) hx, Nat.mul_comm]
    · have hlt : j - p.K < (nonPiv picked' p.N).length := by omega
      obtain ⟨r1, r2, r3⟩ := nonPiv_rank picked' p.N (j - p.K) _ (List.getElem?_eq_getElem hlt)
      have t1 := h2 i _ hi r2 r3
      have t2 := h2' i _ hi r2 r3
      rw [r1, show p.K + (j - p.K) = j by omega] at t1 t2
      rw [t1, t2, g2_canonM _ _ _ hi r2]
      exact ⟨decodeRref_lt buf i _ hi r2, rfl⟩
  have hR : R' = canonM R := mat_ext fun i j hi hj => by rw [(hcol i j hi hj).2, g2_canonM R i j hi hj]
  unfold verifyTail
  rw [e, e', okBind, okBind, hR, generatorRREF_canon R _ (fun i j hi hj => (hcol i j hi hj).1)
    (action_pivot hp hN buf hz a ha R picked' hpick hcount h1 h2)]

end LESS
