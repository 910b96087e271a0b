import Verif.Proofs.OptMul
import Verif.Proofs.Rref
/-!
# The table-driven row reduction
-/
namespace LESS

variable {p : Params} {F : Prop}

theorem rd2_ok {α : Type} [Inhabited α] {r c : Nat} (m : Vector (Vector α c) r) (i j : Nat) (hi : i < r) (hj : j < c) :
    rd2 m i j = .ok (g2 m i j) :=
  (Wp.rd2_iff.2 ⟨hi, hj, rfl⟩ : Wp False (rd2 m i j) (fun x => x = g2 m i j)).eq_ok

/-! ## The pivot search -/

theorem optScan_sim (G : OGen p) (hN : p.N ≤ p.nPad) (col : Nat) (hc : col < p.N) (n row : Nat) (h : row + n = p.K) :
    ∃ r', scanRows (cut G) col n row = .ok r' ∧
      optScan G col n row = .ok (if r' < p.K then some r' else none) := by
  induction n generalizing row with
  | zero =>
    refine ⟨row, rfl, ?_⟩
    rw [if_neg (by omega)]; rfl
  | succ n ih =>
    unfold scanRows optScan
    rw [rd2_ok _ _ _ (by omega) hc, rd2_ok _ _ _ (by omega) (by omega), g2_cut _ _ _ (by omega) hc]
    by_cases hx : g2 G row col = 0
    · obtain ⟨r', h1, h2⟩ := ih (row + 1) (by omega)
      refine ⟨r', ?_, ?_⟩
      · show (if g2 G row col = 0 then _ else _) = _
        rw [if_pos hx, h1]
      · show (if g2 G row col ≠ 0 then _ else _) = _
        rw [if_neg (by simp [hx]), h2]
    · refine ⟨row, ?_, ?_⟩
      · show (if g2 G row col = 0 then _ else _) = _
        rw [if_neg hx]; rfl
      · show (if g2 G row col ≠ 0 then _ else _) = _
        rw [if_pos hx, if_pos (by omega)]; rfl

theorem optFind_sim (G : OGen p) (hN : p.N ≤ p.nPad) (r : Nat) (hr : r < p.K) (n : Nat) :
    ∀ col fuel, col + n = p.N → n + 2 ≤ fuel →
    ∃ o rc, optFind G r n col = .ok o ∧ findPivot (cut G) r fuel r col = .ok rc ∧
      ((o = none ∧ p.N ≤ rc.2) ∨ (o = some rc ∧ rc.2 < p.N)) := by
  induction n with
  | zero =>
    intro col fuel hcol hfuel
    obtain ⟨f, rfl⟩ : ∃ f, fuel = f + 1 := ⟨fuel - 1, by omega⟩
    refine ⟨none, (r, col), rfl, ?_, Or.inl ⟨rfl, by show p.N ≤ col; omega⟩⟩
    unfold findPivot
    rw [if_neg (by omega)]; rfl
  | succ n ih =>
    intro col fuel hcol hfuel
    obtain ⟨f, rfl⟩ : ∃ f, fuel = f + 2 := ⟨fuel - 2, by omega⟩
    have hc : col < p.N := by omega
    obtain ⟨r', h1, h2⟩ := optScan_sim G hN col hc (p.K - r) r (by omega)
    obtain ⟨h3, h4, h5, h6⟩ := (scanRows_wp (cut G) col hc (p.K - r) r (by omega)).of_ok h1
    have hrd : rd2 (cut G) r col = .ok (g2 (cut G) r col) := rd2_ok _ _ _ hr hc
    by_cases hx : g2 (cut G) r col = 0
    · by_cases hk : p.K ≤ r'
      · obtain ⟨o, rc, ho, hrc, hh⟩ := ih (col + 1) (f + 1) (by omega) (by omega)
        refine ⟨o, rc, ?_, ?_, hh⟩
        · unfold optFind
          rw [h2, if_neg (by omega)]
          exact ho
        · unfold findPivot
          rw [if_pos hc, hrd]
          show (if g2 (cut G) r col = 0 then _ else _) = _
          rw [if_pos hx, h1]
          show (if p.K ≤ r' then _ else _) = _
          rw [if_pos hk, hrc]
      · refine ⟨some (r', col), (r', col), ?_, ?_, Or.inr ⟨rfl, hc⟩⟩
        · unfold optFind
          rw [h2, if_pos (by omega)]; rfl
        · unfold findPivot
          rw [if_pos hc, hrd]
          show (if g2 (cut G) r col = 0 then _ else _) = _
          rw [if_pos hx, h1]
          show (if p.K ≤ r' then _ else _) = _
          rw [if_neg hk]
          unfold findPivot
          rw [if_pos hc, rd2_ok _ _ _ (by omega) hc]
          show (if g2 (cut G) r' col = 0 then _ else _) = _
          rw [if_neg (h6 (by omega))]; rfl
    · have e : r' = r := by
        by_contra hne
        exact hx (h5 r (Nat.le_refl _) (by omega))
      subst e
      refine ⟨some (r', col), (r', col), ?_, ?_, Or.inr ⟨rfl, hc⟩⟩
      · unfold optFind
        rw [h2, if_pos hr]; rfl
      · unfold findPivot
        rw [if_pos hc, hrd]
        show (if g2 (cut G) r' col = 0 then _ else _) = _
        rw [if_neg hx]; rfl

/-! ## Vectors of a row -/

/-- Vector `k` of row `i` replaced. -/
def gmPut (G : OGen p) (i k : Nat) (v : Vec) : OGen p := upd G i (vput (g G i) (32 * k) v)

theorem g2_gmPut (G : OGen p) (i k : Nat) (v : Vec) (hi : i < p.K) (a b : Nat) (ha : a < p.K) (hb : b < p.nPad) :
    g2 (gmPut G i k v) a b = if a = i ∧ 32 * k ≤ b ∧ b < 32 * k + 32 then g v (b - 32 * k) else g2 G a b := by
  unfold gmPut
  rw [g2_row _ _ _ ha, g_upd _ _ _ _ hi]
  by_cases e : i = a
  · subst e
    rw [if_pos rfl, g_vput _ _ _ _ hb, g2_row _ _ _ ha]
    by_cases h : 32 * k ≤ b ∧ b < 32 * k + 32
    · rw [if_pos h, if_pos ⟨rfl, h⟩]
    · rw [if_neg h, if_neg (fun hh => h hh.2)]
  · rw [if_neg e, if_neg (fun hh => e hh.1.symm), g2_row _ _ _ ha]

theorem gmRd_wp {G : OGen p} {i k : Nat} {P : Vec → Prop} (hi : i < p.K) (hk : 32 * k + 32 ≤ p.nPad)
    (h : P (vchunk (g G i) (32 * k))) : Wp F (gmRd G i k) P := by
  unfold gmRd
  rw [Wp.bind_iff, Wp.rd_iff]
  refine ⟨hi, ?_⟩
  rw [Wp.vload_iff]
  exact ⟨hk, h⟩

theorem gmWr_wp {G : OGen p} {i k : Nat} {v : Vec} {P : OGen p → Prop} (hi : i < p.K) (hk : 32 * k + 32 ≤ p.nPad)
    (h : P (gmPut G i k v)) : Wp F (gmWr G i k v) P := by
  unfold gmWr
  rw [Wp.bind_iff, Wp.rd_iff]
  refine ⟨hi, ?_⟩
  rw [Wp.bind_iff, Wp.vstore_iff]
  refine ⟨hk, ?_⟩
  rw [Wp.wr_iff]
  exact ⟨hi, h⟩

theorem g_chunk_row (G : OGen p) (i k l : Nat) (hi : i < p.K) (hl : l < 32) :
    g (vchunk (g G i) (32 * k)) l = g2 G i (32 * k + l) := by
  rw [g_vchunk _ _ _ hl, g2_row _ _ _ hi]

theorem swapRowsO_wp (G : OGen p) (hN : p.N ≤ p.nPad) (i j : Nat) (hi : i < p.K) (hj : j < p.K) (hij : i ≠ j) :
    Wp False (swapRowsO G i j) (fun R => ∀ a b, a < p.K → b < p.N →
      g2 R a b = if a = i then g2 G j b else if a = j then g2 G i b else g2 G a b) := by
  have hw := nw_le hN
  have hw' := le_nw p
  unfold swapRowsO
  refine Wp.forUp (fun n (R : OGen p) => ∀ a b, a < p.K → b < p.nPad →
      g2 R a b = if b < 32 * n then (if a = i then g2 G j b else if a = j then g2 G i b else g2 G a b)
        else g2 G a b) (fun _ _ _ _ => by simp) ?_ (fun R h a b ha hb => by rw [h a b ha (by omega), if_pos (by omega)])
  intro k R hk hR
  rw [Wp.bind_iff]
  refine gmRd_wp hi (by omega) ?_
  rw [Wp.bind_iff]
  refine gmRd_wp hj (by omega) ?_
  rw [Wp.bind_iff]
  refine gmWr_wp hi (by omega) ?_
  refine gmWr_wp hj (by omega) ?_
  intro a b ha hb
  rw [g2_gmPut _ _ _ _ hj _ _ ha hb, g2_gmPut _ _ _ _ hi _ _ ha hb]
  by_cases hb1 : 32 * k ≤ b ∧ b < 32 * k + 32
  · have e : 32 * k + (b - 32 * k) = b := by omega
    rw [if_pos (show b < 32 * (k + 1) by omega), g_chunk_row _ _ _ _ hi (by omega), g_chunk_row _ _ _ _ hj (by omega), e,
      hR i b hi hb, hR j b hj hb, hR a b ha hb, if_neg (show ¬ b < 32 * k by omega), if_neg (show ¬ b < 32 * k by omega),
      if_neg (show ¬ b < 32 * k by omega)]
    by_cases e1 : a = i
    · subst e1; rw [if_neg (fun hh => hij hh.1), if_pos ⟨rfl, hb1⟩, if_pos rfl]
    · by_cases e2 : a = j
      · subst e2; rw [if_pos ⟨rfl, hb1⟩, if_neg e1, if_pos rfl]
      · rw [if_neg (fun hh => e2 hh.1), if_neg (fun hh => e1 hh.1), if_neg e1, if_neg e2]
  · rw [if_neg (fun hh => hb1 hh.2), if_neg (fun hh => hb1 hh.2), hR a b ha hb]
    have : b < 32 * (k + 1) ↔ b < 32 * k := by omega
    simp only [this]

/-! ## The tables -/

theorem buildEm_wp (G : OGen p) (hN : p.N ≤ p.nPad) (i : Nat) (hi : i < p.K) (em : EmTab p) :
    Wp False (buildEm G i em) (fun em => ∀ t k l, 1 ≤ t → t ≤ 126 → k < p.nw → l < 32 →
      g2 G i (32 * k + l) < 127 → g (g2 em t k) l = t * g2 G i (32 * k + l) % 127) := by
  have hw := nw_le hN
  unfold buildEm
  rw [Wp.bind_iff]
  refine Wp.forUp (fun n (em : EmTab p) => ∀ k l, k < n → k < p.nw → l < 32 →
      g2 G i (32 * k + l) < 127 → g (g2 em 1 k) l = g2 G i (32 * k + l)) (fun k l h => by omega) ?_ ?_
  · intro k em hk hem
    rw [Wp.bind_iff]
    refine gmRd_wp hi (by omega) ?_
    rw [Wp.wr2_iff]
    refine ⟨by decide, hk, ?_⟩
    intro k' l hk' hkw hl hx
    rw [g2_upd2 _ _ _ _ _ _ (by decide) hk]
    by_cases e : k = k'
    · subst e
      rw [if_pos ⟨rfl, rfl⟩, g_chunk_row _ _ _ _ hi hl]
    · rw [if_neg (fun hh => e hh.2)]
      exact hem k' l (by omega) hkw hl hx
  · intro em hem
    generalize h125 : 125 = m125
    refine Wp.forUp (fun n (em : EmTab p) => ∀ t k l, 1 ≤ t → t ≤ n + 1 → k < p.nw → l < 32 →
      g2 G i (32 * k + l) < 127 → g (g2 em t k) l = t * g2 G i (32 * k + l) % 127) ?_ ?_ ?_
    · intro t k l h1 h2 hk hl hx
      have : t = 1 := by omega
      subst this
      rw [hem k l hk hk hl hx, Nat.one_mul, Nat.mod_eq_of_lt hx]
    · intro n em hn hem
      refine Wp.forUp (fun m (em' : EmTab p) => ∀ t k l, 1 ≤ t → t ≤ n + 2 → k < p.nw → l < 32 →
        g2 G i (32 * k + l) < 127 → (t ≤ n + 1 ∨ k < m) → g (g2 em' t k) l = t * g2 G i (32 * k + l) % 127) ?_ ?_ ?_
      · intro t k l h1 h2 hk hl hx ht
        exact hem t k l h1 (by omega) hk hl hx
      · intro k em' hk hem'
        rw [Wp.bind_iff, Wp.rd2_iff]
        refine ⟨by omega, hk, ?_⟩
        rw [Wp.bind_iff]
        refine gmRd_wp hi (by omega) ?_
        rw [Wp.wr2_iff]
        refine ⟨by omega, hk, ?_⟩
        intro t k' l h1 h2 hk' hl hx ht
        rw [g2_upd2 _ _ _ _ _ _ (by omega) hk]
        by_cases e : n + 2 = t ∧ k = k'
        · obtain ⟨e1, e2⟩ := e
          subst e1 e2
          rw [if_pos ⟨rfl, rfl⟩, g_wRed127 _ _ hl, g_vadd8 _ _ _ hl, g_chunk_row _ _ _ _ hi hl,
            hem' (n + 2 - 1) k l (by omega) (by omega) hk hl hx (by omega)]
          have e3 : n + 2 - 1 = n + 1 := by omega
          rw [e3]
          generalize g2 G i (32 * k + l) = x at *
          have h127 : (n + 1) * x % 127 < 127 := Nat.mod_lt _ (by decide)
          have eu : u8 ((n + 1) * x % 127 + x) = (n + 1) * x % 127 + x := by unfold u8; omega
          rw [eu, wRedLane_eq (by omega), Nat.mod_add_mod]
          congr 1; ring
        · rw [if_neg e]
          exact hem' t k' l h1 h2 hk' hl hx (by omega)
      · intro em' h t k l h1 h2 hk hl hx
        exact h t k l h1 h2 hk hl hx (Or.inr hk)
    · intro em h t k l h1 h2 hk hl hx
      exact h t k l h1 (by omega) hk hl hx

theorem mul_mod_inj {sc s s' : Nat} (h0 : sc ≠ 0) (hsc : sc < 127) (hs : s < 127) (hs' : s' < 127)
    (h : s * sc % 127 = s' * sc % 127) : s = s' := by
  have hc : ((s * sc : Nat) : Fq) = ((s' * sc : Nat) : Fq) := (ZMod.natCast_eq_natCast_iff _ _ _).2 h
  have hne : (sc : Fq) ≠ 0 := by rw [Ne, cast_eq_zero hsc]; exact h0
  rw [Nat.cast_mul, Nat.cast_mul] at hc
  exact cast_inj hs hs' (mul_right_cancel₀ hne hc)

theorem buildEp_wp (sc : Nat) (h0 : sc ≠ 0) (hsc : sc < 127) (ep : EpTab) :
    Wp False (buildEp sc ep) (fun ep => ∀ s, 1 ≤ s → s ≤ 126 → g ep (s * sc % 127) = some s) := by
  have hnz : ∀ s, 1 ≤ s → s ≤ 126 → s * sc % 127 ≠ 0 := fun s h1 h2 =>
    mul_mod_ne (by omega) hsc (Nat.mul_ne_zero (by omega) h0)
  unfold buildEp
  rw [Wp.bind_iff, Wp.wr_iff]
  refine ⟨by decide, ?_⟩
  rw [Wp.bind_iff]
  generalize h126 : 126 = m126
  refine Wp.forUp (fun n (s : EpTab × Nat) => (n < 126 → s.2 = (n + 1) * sc % 127) ∧
      ∀ t, 1 ≤ t → t ≤ n → g s.1 (t * sc % 127) = some t) ⟨?_, fun t h1 h2 => by omega⟩ ?_ ?_
  · intro _
    show sc = (0 + 1) * sc % 127
    rw [Nat.zero_add, Nat.one_mul, Nat.mod_eq_of_lt hsc]
  · rintro n ⟨ep, tmp⟩ hn ⟨h1, h2⟩
    have ht : tmp = (n + 1) * sc % 127 := h1 (by omega)
    dsimp only at h2 ⊢
    have hlt : tmp < 127 := by rw [ht]; exact Nat.mod_lt _ (by decide)
    rw [Wp.bind_iff, Wp.wr_iff]
    refine ⟨by omega, ?_⟩
    rw [Wp.pure_iff]
    refine ⟨?_, ?_⟩
    · intro hn'
      have e1 : u8 (tmp + sc) = tmp + sc := by unfold u8; omega
      have e2 : (n + 1 + 1) * sc % 127 = (tmp + sc) % 127 := by
        rw [ht, Nat.mod_add_mod]; congr 1; ring
      have e3 : (tmp + sc) % 127 ≠ 0 := by rw [← e2]; exact hnz _ (by omega) (by omega)
      show u8 ((u8 (tmp + sc) + (u8 (tmp + sc) >>> 7)) &&& 0x7F) = _
      rw [e1, e2, and_127, Nat.shiftRight_eq_div_pow]
      unfold u8
      rcases Nat.lt_or_ge (tmp + sc) 128 with h | h
      · rw [show (tmp + sc) / 2 ^ 7 = 0 by omega]; omega
      · rw [show (tmp + sc) / 2 ^ 7 = 1 by omega]; omega
    · intro t ht1 ht2
      show g (upd ep tmp (some (n + 1))) (t * sc % 127) = some t
      rw [g_upd _ _ _ _ (by omega)]
      by_cases e : t = n + 1
      · subst e; rw [if_pos ht]
      · rw [if_neg, h2 t ht1 (by omega)]
        intro hh
        rw [ht] at hh
        exact e (mul_mod_inj h0 hsc (by omega) (by omega) hh).symm
  · rintro ⟨ep, tmp⟩ ⟨_, h2⟩
    show Wp False (wr ep 0x7F (some 0)) _
    rw [Wp.wr_iff]
    refine ⟨by decide, ?_⟩
    intro s hs1 hs2
    have : s * sc % 127 < 127 := Nat.mod_lt _ (by decide)
    rw [g_upd _ _ _ _ (by decide), if_neg (by omega)]
    exact h2 s hs1 hs2

/-- Every non-zero residue is a multiple of a non-zero residue. -/
theorem exists_mul_mod {sc v : Nat} (h0 : sc ≠ 0) (hsc : sc < 127) (hv0 : v ≠ 0) (hv : v < 127) :
    ∃ s, 1 ≤ s ∧ s ≤ 126 ∧ s * sc % 127 = v := by
  have hne : (sc : Fq) ≠ 0 := by rw [Ne, cast_eq_zero hsc]; exact h0
  have hvne : (v : Fq) ≠ 0 := by rw [Ne, cast_eq_zero hv]; exact hv0
  have hlt : ((v : Fq) * (sc : Fq)⁻¹).val < 127 := ZMod.val_lt _
  have hcast : ((((v : Fq) * (sc : Fq)⁻¹).val : Nat) : Fq) = (v : Fq) * (sc : Fq)⁻¹ := natCast_val _
  refine ⟨((v : Fq) * (sc : Fq)⁻¹).val, ?_, by omega, ?_⟩
  · by_contra h
    have hz : ((v : Fq) * (sc : Fq)⁻¹).val = 0 := by omega
    rw [hz, Nat.cast_zero] at hcast
    exact mul_ne_zero hvne (inv_ne_zero hne) hcast.symm
  · apply cast_inj (Nat.mod_lt _ (by decide)) hv
    rw [ZMod.natCast_mod, Nat.cast_mul, hcast, mul_assoc, inv_mul_cancel₀ hne, mul_one]

theorem epGet_wp {ep : EpTab} {i s : Nat} {P : Nat → Prop} (hi : i < 128) (h : g ep i = some s) (hP : P s) :
    Wp F (epGet ep i) P := by
  unfold epGet
  rw [Wp.bind_iff, Wp.rd_iff]
  refine ⟨hi, ?_⟩
  rw [h]
  exact hP

theorem copyBack_wp (G : OGen p) (hN : p.N ≤ p.nPad) (i : Nat) (hi : i < p.K) (em : EmTab p) (e : Nat) (he : e < 128) :
    Wp False (copyBack G i em e) (fun R => ∀ a b, a < p.K → b < p.N →
      g2 R a b = if a = i then g (g2 em e (b / 32)) (b % 32) else g2 G a b) := by
  have hw := nw_le hN
  have hw' := le_nw p
  unfold copyBack
  refine Wp.forUp (fun n (R : OGen p) => ∀ a b, a < p.K → b < p.nPad →
      g2 R a b = if a = i ∧ b < 32 * n then g (g2 em e (b / 32)) (b % 32) else g2 G a b) (fun _ _ _ _ => by simp) ?_
    (fun R h a b ha hb => by
      rw [h a b ha (by omega)]
      have : b < 32 * p.nw := by omega
      simp only [this, and_true])
  intro k R hk hR
  rw [Wp.bind_iff, Wp.rd2_iff]
  refine ⟨he, hk, ?_⟩
  refine gmWr_wp hi (by omega) ?_
  intro a b ha hb
  rw [g2_gmPut _ _ _ _ hi _ _ ha hb]
  by_cases h : a = i ∧ 32 * k ≤ b ∧ b < 32 * k + 32
  · rw [if_pos h, if_pos ⟨h.1, by omega⟩, show b / 32 = k by omega, show b % 32 = b - 32 * k by omega]
  · rw [if_neg h, hR a b ha hb]
    by_cases e : a = i
    · have : b < 32 * (k + 1) ↔ b < 32 * k := by
        have : ¬ (32 * k ≤ b ∧ b < 32 * k + 32) := fun hh => h ⟨e, hh⟩
        omega
      simp only [this]
    · simp [e]

theorem eliminateRowO_wp (G : OGen p) (hN : p.N ≤ p.nPad) (i c : Nat) (hc : c < p.N) (em : EmTab p)
    (ep : EpTab) (j : Nat) (hj : j < p.K) (y : Nat → Nat) (hred : ∀ b, b < p.N → g2 G j b < 127)
    (hep : ∀ m, m ≠ 0 → m < 127 → ∃ s, s < 128 ∧ g ep (127 - m) = some s ∧
      ∀ b, b < p.N → g (g2 em s (b / 32)) (b % 32) = (127 - m) * y b % 127) :
    Wp False (eliminateRowO i c em ep j G) (fun R => ∀ a b, a < p.K → b < p.N →
      g2 R a b = if a = j ∧ j ≠ i then (g2 G j b + (127 - g2 G j c) * y b) % 127 else g2 G a b) := by
  have hw := nw_le hN
  have hw' := le_nw p
  unfold eliminateRowO
  rw [Wp.bind_iff, Wp.rd2_iff]
  refine ⟨hj, by omega, ?_⟩
  have hmlt := hred c hc
  by_cases hm : g2 G j c ≠ 0 ∧ j ≠ i
  · rw [if_pos hm, if_neg (by omega)]
    obtain ⟨s, hs, hs1, hs2⟩ := hep _ hm.1 hmlt
    rw [Wp.bind_iff]
    refine epGet_wp (by omega) hs1 ?_
    refine Wp.forUp (fun n (R : OGen p) => ∀ a b, a < p.K → b < p.nPad →
        g2 R a b = if a = j ∧ b < 32 * n then wRedLane (u8 (g2 G j b + g (g2 em s (b / 32)) (b % 32))) else g2 G a b)
      (fun _ _ _ _ => by simp) ?_ ?_
    · intro k R hk hR
      rw [Wp.bind_iff]
      refine gmRd_wp hj (by omega) ?_
      rw [Wp.bind_iff, Wp.rd2_iff]
      refine ⟨hs, hk, ?_⟩
      refine gmWr_wp hj (by omega) ?_
      intro a b ha hb
      rw [g2_gmPut _ _ _ _ hj _ _ ha hb]
      by_cases h : a = j ∧ 32 * k ≤ b ∧ b < 32 * k + 32
      · have hbl : b - 32 * k < 32 := by omega
        rw [if_pos h, if_pos ⟨h.1, by omega⟩, g_wRed127 _ _ hbl, g_vadd8 _ _ _ hbl, g_chunk_row _ _ _ _ hj hbl,
          show 32 * k + (b - 32 * k) = b by omega, show b / 32 = k by omega, show b % 32 = b - 32 * k by omega,
          hR j b hj hb, if_neg (by omega)]
      · rw [if_neg h, hR a b ha hb]
        by_cases e : a = j
        · have : b < 32 * (k + 1) ↔ b < 32 * k := by
            have : ¬ (32 * k ≤ b ∧ b < 32 * k + 32) := fun hh => h ⟨e, hh⟩
            omega
          simp only [this]
        · simp [e]
    · intro R hR a b ha hb
      rw [hR a b ha (by omega)]
      by_cases e : a = j
      · rw [if_pos ⟨e, by omega⟩, if_pos ⟨e, hm.2⟩, hs2 b hb]
        have h1 := hred b hb
        have h2 : (127 - g2 G j c) * y b % 127 < 127 := Nat.mod_lt _ (by decide)
        rw [show u8 (g2 G j b + (127 - g2 G j c) * y b % 127) = g2 G j b + (127 - g2 G j c) * y b % 127 by
          unfold u8; omega, wRedLane_eq (by omega), Nat.add_mod_mod]
      · rw [if_neg (fun hh => e hh.1), if_neg (fun hh => e hh.1)]
  · rw [if_neg hm, Wp.pure_iff]
    intro a b ha hb
    by_cases e : a = j ∧ j ≠ i
    · have hz : g2 G j c = 0 := by
        by_contra h; exact hm ⟨h, e.2⟩
      rw [if_pos e, hz, e.1, Nat.sub_zero, Nat.add_mul_mod_self_left, Nat.mod_eq_of_lt (hred b hb)]
    · rw [if_neg e]

end LESS
