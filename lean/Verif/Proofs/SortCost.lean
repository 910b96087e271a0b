import Verif.Model.SortCost
import Verif.Proofs.Lex
/-!
# The work of the sort: invariants
-/
namespace LESS

variable {p : Params}

/-! ## The counters change nothing -/

theorem hoareUpN_fst (V : NormIS p) (pivot : Vector Nat p.K) (fuel i n : Nat) :
    (hoareUpN V pivot fuel i n >>= fun r => pure r.1) = hoareUp V pivot fuel i := by
  induction fuel generalizing i n with
  | zero => rfl
  | succ fuel ih =>
    unfold hoareUpN hoareUp
    simp only [bind_assoc]
    refine bind_congr fun c => ?_
    split
    · exact ih _ _
    · rfl

theorem hoareDownN_fst (V : NormIS p) (pivot : Vector Nat p.K) (fuel j n : Nat) :
    (hoareDownN V pivot fuel j n >>= fun r => pure r.1) = hoareDown V pivot fuel j := by
  induction fuel generalizing j n with
  | zero => rfl
  | succ fuel ih =>
    unfold hoareDownN hoareDown
    simp only [bind_assoc]
    refine bind_congr fun c => ?_
    split
    · exact ih _ _
    · rfl

theorem hoareLoopN_fst (pivot : Vector Nat p.K) (fuel : Nat) (V : NormIS p) (i j n w : Nat) :
    (hoareLoopN pivot fuel V i j n w >>= fun r => pure (r.1, r.2.1)) = hoareLoop pivot fuel V i j := by
  induction fuel generalizing V i j n w with
  | zero => rfl
  | succ fuel ih =>
    unfold hoareLoopN hoareLoop
    rw [← hoareUpN_fst V pivot _ i n]
    simp only [bind_assoc, pure_bind]
    refine bind_congr fun a => ?_
    rw [← hoareDownN_fst V pivot _ j a.2]
    simp only [bind_assoc, pure_bind]
    refine bind_congr fun b => ?_
    split
    · rfl
    · rw [bind_assoc]
      exact bind_congr fun V => ih _ _ _ _ _

theorem hoarePartitionN_fst (V : NormIS p) (l h : Nat) :
    (hoarePartitionN V l h >>= fun r => pure (r.1, r.2.1)) = hoarePartition V l h := by
  unfold hoarePartitionN hoarePartition
  rw [bind_assoc]
  exact bind_congr fun pv => hoareLoopN_fst _ _ _ _ _ _ _

theorem colLexQuicksortN_fst (fuel : Nat) (V : NormIS p) (start stop : Nat) :
    (colLexQuicksortN fuel V start stop >>= fun r => pure r.1) = colLexQuicksort fuel V start stop := by
  induction fuel generalizing V start stop with
  | zero => rfl
  | succ fuel ih =>
    unfold colLexQuicksortN colLexQuicksort
    split
    · rw [← hoarePartitionN_fst]
      simp only [bind_assoc, pure_bind]
      refine bind_congr fun a => ?_
      rw [← ih]
      simp only [bind_assoc, pure_bind]
      refine bind_congr fun b => ?_
      rw [← ih]
    · rfl

/-! ## Counting -/

theorem hoareUpN_wp (V : NormIS p) (pivot : Vector Nat p.K) (b : Nat) (hb : b < p.N - p.K)
    (hpos : p.N - p.K < p.posMod) (hstop : pivot.toList ≤ colOf V b) (fuel i s n : Nat)
    (hs : (i + 1) % p.posMod = s) (hsb : s ≤ b) (hfuel : b + 1 ≤ fuel + s) :
    Wp False (hoareUpN V pivot fuel i n) (fun r => s ≤ r.1 ∧ r.1 ≤ b ∧ pivot.toList ≤ colOf V r.1 ∧
      (∀ x, s ≤ x → x < r.1 → colOf V x < pivot.toList) ∧ r.2 + s = n + r.1 + 1) := by
  induction fuel generalizing i s n with
  | zero => omega
  | succ fuel ih =>
    unfold hoareUpN
    simp only [hs, Wp.bind_iff]
    refine (lexCompare_wp V s pivot (by omega)).mono ?_
    intro c hc
    have stop : pivot.toList ≤ colOf V s → (s ≤ s ∧ s ≤ b ∧ pivot.toList ≤ colOf V s ∧
        (∀ x, s ≤ x → x < s → colOf V x < pivot.toList) ∧ n + 1 + s = n + s + 1) :=
      fun h => ⟨Nat.le_refl _, hsb, h, by intros; omega, by omega⟩
    rcases hc with ⟨rfl, h⟩ | ⟨rfl, h⟩ | ⟨rfl, h⟩
    · rw [if_neg (by decide), Wp.pure_iff]
      exact stop (by rw [h])
    · rw [if_neg (by decide), Wp.pure_iff]
      exact stop (le_of_lt h)
    · rw [if_pos rfl]
      have hne : s ≠ b := by
        rintro rfl
        exact not_lt.mpr hstop h
      have hs1 : (s + 1) % p.posMod = s + 1 := Nat.mod_eq_of_lt (by omega)
      refine (ih s (s + 1) (n + 1) hs1 (by omega) (by omega)).mono ?_
      rintro r ⟨h1, h2, h3, h4, h5⟩
      refine ⟨by omega, h2, h3, fun x hx hx' => ?_, by omega⟩
      by_cases e : x = s
      · subst e; exact h
      · exact h4 x (by omega) hx'

theorem hoareDownN_wp (V : NormIS p) (pivot : Vector Nat p.K) (b : Nat)
    (hpos : p.N - p.K < p.posMod) (hstop : colOf V b ≤ pivot.toList) (fuel j n : Nat)
    (hj : j ≤ p.N - p.K) (hbj : b < j) (hfuel : j ≤ fuel + b) :
    Wp False (hoareDownN V pivot fuel j n) (fun r => b ≤ r.1 ∧ r.1 < j ∧ colOf V r.1 ≤ pivot.toList ∧
      (∀ x, r.1 < x → x < j → pivot.toList < colOf V x) ∧ r.2 + r.1 = n + j) := by
  induction fuel generalizing j n with
  | zero => omega
  | succ fuel ih =>
    unfold hoareDownN
    have hs : (j + p.posMod - 1) % p.posMod = j - 1 := by
      rw [show j + p.posMod - 1 = (j - 1) + p.posMod by omega, Nat.add_mod_right]
      exact Nat.mod_eq_of_lt (by omega)
    simp only [hs, Wp.bind_iff]
    refine (lexCompare_wp V (j - 1) pivot (by omega)).mono ?_
    intro c hc
    have stop : colOf V (j - 1) ≤ pivot.toList → (b ≤ j - 1 ∧ j - 1 < j ∧ colOf V (j - 1) ≤ pivot.toList ∧
        (∀ x, j - 1 < x → x < j → pivot.toList < colOf V x) ∧ n + 1 + (j - 1) = n + j) :=
      fun h => ⟨by omega, by omega, h, by intros; omega, by omega⟩
    rcases hc with ⟨rfl, h⟩ | ⟨rfl, h⟩ | ⟨rfl, h⟩
    · rw [if_neg (by decide), Wp.pure_iff]
      exact stop (by rw [h])
    · rw [if_pos rfl]
      have hne : j - 1 ≠ b := by
        rintro rfl
        exact not_lt.mpr hstop h
      refine (ih (j - 1) (n + 1) (by omega) (by omega) (by omega)).mono ?_
      rintro r ⟨h1, h2, h3, h4, h5⟩
      refine ⟨h1, by omega, h3, fun x hx hx' => ?_, by omega⟩
      by_cases e : x = j - 1
      · subst e; exact h
      · exact h4 x hx (by omega)
    · rw [if_neg (by decide), Wp.pure_iff]
      exact stop (le_of_lt h)

theorem hoareLoopN_wp (pivot : Vector Nat p.K) (l h : Nat) (hlh : l < h) (hh : h < p.N - p.K)
    (hpos : p.N - p.K < p.posMod) (fuel : Nat) (V : NormIS p) (i j s n w : Nat) (hV : Bytes8 V)
    (hs : (i + 1) % p.posMod = s) (hls : l ≤ s) (hsj : s ≤ j) (hjh : j ≤ h + 1)
    (hA : ∀ x, l ≤ x → x < s → colOf V x ≤ pivot.toList)
    (hB : ∀ x, j ≤ x → x ≤ h → pivot.toList ≤ colOf V x)
    (hC : (s = l ∧ j = h + 1 ∧ colOf V l = pivot.toList) ∨ (l < s ∧ j ≤ h))
    (hn : n + l + j = s + h + 1) (hw : 2 * w ≤ n)
    (hfuel : j + 1 ≤ fuel + s) :
    Wp False (hoareLoopN pivot fuel V i j n w) (fun r => Bytes8 r.1 ∧ l ≤ r.2.1 ∧ r.2.1 < h ∧
      r.2.2.1 + l ≤ h + 3 ∧ h + 2 ≤ r.2.2.1 + l ∧ 2 * r.2.2.2 + 2 ≤ r.2.2.1) := by
  induction fuel generalizing V i j s n w with
  | zero => omega
  | succ fuel ih =>
    unfold hoareLoopN
    have hup : ∃ b, b < p.N - p.K ∧ s ≤ b ∧ b ≤ j ∧ b ≤ h ∧ pivot.toList ≤ colOf V b ∧
        ((s = l ∧ b = l) ∨ (l < s ∧ j ≤ h)) := by
      rcases hC with ⟨h1, h2, h3⟩ | ⟨h1, h2⟩
      · exact ⟨l, by omega, by omega, by omega, by omega, by rw [h3], Or.inl ⟨h1, rfl⟩⟩
      · exact ⟨j, by omega, by omega, by omega, by omega, hB j (Nat.le_refl _) h2, Or.inr ⟨h1, h2⟩⟩
    have hdown : ∃ b, l ≤ b ∧ b < j ∧ s ≤ b + 1 ∧ colOf V b ≤ pivot.toList := by
      rcases hC with ⟨h1, h2, h3⟩ | ⟨h1, h2⟩
      · exact ⟨l, by omega, by omega, by omega, by rw [h3]⟩
      · exact ⟨s - 1, by omega, by omega, by omega, hA (s - 1) (by omega) (by omega)⟩
    obtain ⟨b, hb1, hb2, hb3, hb4, hb5, hb6⟩ := hup
    obtain ⟨d, hd1, hd2, hd3, hd4⟩ := hdown
    rw [Wp.bind_iff]
    refine (hoareUpN_wp V pivot b hb1 hpos hb5 (p.N - p.K + 2) i s n hs hb2 (by omega)).mono ?_
    rintro ⟨i', n1⟩ ⟨u1, u2, u3, u4, u5⟩
    simp only at u1 u2 u3 u4 u5
    dsimp only
    rw [Wp.bind_iff]
    refine (hoareDownN_wp V pivot d hpos hd4 (p.N - p.K + 2) j n1 (by omega) hd2 (by omega)).mono ?_
    rintro ⟨j', n2⟩ ⟨v1, v2, v3, v4, v5⟩
    simp only at v1 v2 v3 v4 v5
    dsimp only
    rw [Wp.ite_iff]
    refine ⟨fun hle => ?_, fun hlt => ?_⟩
    · rw [Wp.pure_iff]
      -- the column left of `i'` is not above the pivot, so the downward scan stops there at the latest
      have hij : i' ≤ j' + 1 := by
        by_contra hc
        have hgt := v4 (i' - 1) (by omega) (by omega)
        rcases Nat.lt_or_ge (i' - 1) s with e | e
        · have hsl : l < s := by omega
          exact absurd (hA (i' - 1) (by omega) e) (not_le.mpr hgt)
        · exact absurd (u4 (i' - 1) e (by omega)) (not_lt.mpr (le_of_lt hgt))
      refine ⟨hV, by show l ≤ j'; omega, ?_, ?_, ?_, ?_⟩
      · show j' < h
        rcases hb6 with ⟨_, h2⟩ | ⟨_, h2⟩ <;> omega
      all_goals (dsimp only; omega)
    · rw [Wp.bind_iff]
      refine (columnSwap_wp V i' j' (by omega) (by omega) (by omega) hV).mono ?_
      rintro W ⟨hW, hcols⟩
      have hi's : (i' + 1) % p.posMod = i' + 1 := Nat.mod_eq_of_lt (by omega)
      refine ih W i' j' (i' + 1) n2 (w + 1) hW hi's (by omega) (by omega) (by omega) ?_ ?_ (Or.inr ⟨by omega, by omega⟩)
        (by omega) (by omega) (by omega)
      · intro x hx hx'
        rw [hcols]
        by_cases e : x = i'
        · subst e; rw [Equiv.swap_apply_left]; exact v3
        · rw [Equiv.swap_apply_of_ne_of_ne e (by omega)]
          by_cases e1 : x < s
          · exact hA x hx e1
          · exact le_of_lt (u4 x (by omega) (by omega))
      · intro x hx hx'
        rw [hcols]
        by_cases e : x = j'
        · subst e; rw [Equiv.swap_apply_right]; exact u3
        · rw [Equiv.swap_apply_of_ne_of_ne (by omega) e]
          by_cases e1 : x < j
          · exact le_of_lt (v4 x (by omega) e1)
          · exact hB x (by omega) hx'

/-- The column chosen as pivot. -/
theorem pivot_wp (V : NormIS p) (l : Nat) (hl : l < p.N - p.K) (Q : Vector Nat p.K → Prop)
    (hQ : ∀ pv : Vector Nat p.K, colOf V l = pv.toList → Q pv) :
    Wp False (forUp p.K (fun i (pivot : Vector Nat p.K) => do
      let x ← rd2 V i l
      wr pivot i x) (Vector.replicate p.K 0)) Q := by
  refine Wp.forUp (fun n (pv : Vector Nat p.K) => ∀ i, i < n → g pv i = g2 V i l) (by simp) ?_ ?_
  · intro i pv hi hpv
    simp only [Wp.bind_iff, Wp.rd2_iff, Wp.wr_iff]
    refine ⟨hi, by omega, hi, fun k hk => ?_⟩
    rw [g_upd _ _ _ _ hi]
    by_cases e : i = k
    · subst e; simp
    · rw [if_neg e]; exact hpv k (by omega)
  · intro pv hpv
    apply hQ
    apply List.ext_getElem
    · simp
    · intro i hi _
      have : i < p.K := by simpa using hi
      rw [getElem_colOf, ← hpv i this, g_eq_getElem _ _ this]; simp

theorem start_eq (l : Nat) (hl : l < p.posMod) : ((l + p.posMod - 1) % p.posMod + 1) % p.posMod = l := by
  rw [Nat.mod_add_mod, show l + p.posMod - 1 + 1 = l + p.posMod by omega, Nat.add_mod_right]
  exact Nat.mod_eq_of_lt hl

/-- A partition of `m` columns takes `m + 1` or `m + 2` comparisons. -/
theorem hoarePartitionN_wp (V : NormIS p) (l h : Nat) (hlh : l < h) (hh : h < p.N - p.K)
    (hpos : p.N - p.K < p.posMod) (hV : Bytes8 V) :
    Wp False (hoarePartitionN V l h) (fun r => Bytes8 r.1 ∧ l ≤ r.2.1 ∧ r.2.1 < h ∧
      r.2.2.1 + l ≤ h + 3 ∧ h + 2 ≤ r.2.2.1 + l ∧ 2 * r.2.2.2 + 2 ≤ r.2.2.1) := by
  unfold hoarePartitionN
  rw [Wp.bind_iff]
  refine pivot_wp V l (by omega) _ fun pv hcol => ?_
  rw [Nat.mod_eq_of_lt (show h + 1 < p.posMod by omega)]
  exact hoareLoopN_wp pv l h hlh hh hpos (p.N - p.K + 2) V _ (h + 1) l 0 0 hV (start_eq l (by omega)) (Nat.le_refl _)
    (by omega) (Nat.le_refl _) (by intros; omega) (by intros; omega) (Or.inl ⟨rfl, rfl, hcol⟩) (by omega) (by omega)
    (by omega)

/-- `(m - 1) (m + 6)` grows fast enough for a split into two parts. -/
theorem split_le (a b : Nat) (ha : 1 ≤ a) (hb : 1 ≤ b) :
    2 * (a + b + 2) + (a - 1) * (a + 6) + (b - 1) * (b + 6) ≤ (a + b - 1) * (a + b + 6) := by
  obtain ⟨a, rfl⟩ := Nat.exists_eq_add_of_le' ha
  obtain ⟨b, rfl⟩ := Nat.exists_eq_add_of_le' hb
  simp only [Nat.add_sub_cancel, show a + 1 + (b + 1) - 1 = a + b + 1 by omega]
  nlinarith [Nat.zero_le (a * b)]

theorem colLexQuicksortN_wp (hpos : p.N - p.K < p.posMod) (fuel : Nat) (V : NormIS p) (start stop : Nat)
    (hstop : stop < p.N - p.K) (hss : start ≤ stop) (hfuel : stop + 1 ≤ fuel + start) (hV : Bytes8 V) :
    Wp False (colLexQuicksortN fuel V start stop) (fun r => Bytes8 r.1 ∧
      2 * r.2.compares ≤ (stop - start) * (stop - start + 7) ∧
      2 * r.2.swaps + 2 * (stop - start) ≤ r.2.compares ∧
      r.2.calls = 2 * (stop - start) + 1 ∧ r.2.depth ≤ stop - start + 1) := by
  induction fuel generalizing V start stop with
  | zero => omega
  | succ fuel ih =>
    unfold colLexQuicksortN
    rw [Wp.ite_iff]
    refine ⟨fun hlt => ?_, fun hge => ?_⟩
    · rw [Nat.mod_eq_of_lt (show start < p.posMod by omega), Nat.mod_eq_of_lt (show stop < p.posMod by omega),
        Wp.bind_iff]
      refine (hoarePartitionN_wp V start stop hlt hstop hpos hV).mono ?_
      rintro ⟨V1, q, n, w⟩ ⟨a1, a2, a3, a4, a5, a6⟩
      simp only at a1 a2 a3 a4 a5 a6
      simp only [Wp.bind_iff]
      refine (ih V1 start q (by omega) a2 (by omega) a1).mono ?_
      rintro ⟨V2, ca⟩ ⟨b1, b2, b3, b4, b5⟩
      refine (ih V2 (q + 1) stop hstop (by omega) (by omega) b1).mono ?_
      rintro ⟨V3, cb⟩ ⟨c1, c2, c3, c4, c5⟩
      simp only at b2 b3 b4 b5 c2 c3 c4 c5
      rw [Wp.pure_iff]
      refine ⟨c1, ?_, ?_, ?_, ?_⟩
      · dsimp only
        have hs := split_le (q - start + 1) (stop - q) (by omega) (by omega)
        rw [show q - start + 1 - 1 = q - start by omega, show q - start + 1 + 6 = q - start + 7 by omega,
          show stop - q - 1 = stop - (q + 1) by omega, show stop - q + 6 = stop - (q + 1) + 7 by omega,
          show q - start + 1 + (stop - q) - 1 = stop - start by omega,
          show q - start + 1 + (stop - q) + 6 = stop - start + 7 by omega] at hs
        have : 2 * n ≤ 2 * (q - start + 1 + (stop - q) + 2) := by omega
        omega
      · dsimp only; omega
      · dsimp only; omega
      · dsimp only; omega
    · rw [Wp.pure_iff]
      have : stop - start = 0 := by omega
      refine ⟨hV, ?_, ?_, ?_, ?_⟩ <;> simp [this]

/-! ## Columns that are already in order -/

theorem hoarePartitionN_sorted (V : NormIS p) (l h : Nat) (hlh : l < h) (hh : h < p.N - p.K)
    (hpos : p.N - p.K < p.posMod) (hV : ∀ x, l < x → x ≤ h → colOf V l < colOf V x) :
    Wp False (hoarePartitionN V l h) (fun r => r = (V, l, h - l + 2, 0)) := by
  unfold hoarePartitionN
  rw [Wp.bind_iff]
  refine pivot_wp V l (by omega) _ fun pv hcol => ?_
  rw [Nat.mod_eq_of_lt (show h + 1 < p.posMod by omega)]
  rw [show p.N - p.K + 2 = (p.N - p.K + 1) + 1 by omega]
  unfold hoareLoopN
  rw [Wp.bind_iff]
  refine (hoareUpN_wp V pv l (by omega) hpos (by rw [hcol]) (p.N - p.K + 2) _ l 0 (start_eq l (by omega)) (Nat.le_refl _)
    (by omega)).mono ?_
  rintro ⟨i', n1⟩ ⟨u1, u2, _, _, u5⟩
  simp only at u1 u2 u5
  dsimp only
  rw [Wp.bind_iff]
  refine (hoareDownN_wp V pv l hpos (by rw [hcol]) (p.N - p.K + 2) (h + 1) n1 (by omega) (by omega) (by omega)).mono ?_
  rintro ⟨j', n2⟩ ⟨v1, v2, v3, _, v5⟩
  simp only at v1 v2 v3 v5
  have hj : j' = l := by
    by_contra hne
    have := hV j' (by omega) (by omega)
    rw [hcol] at this
    exact absurd v3 (not_le.mpr this)
  subst hj
  have hi : i' = j' := by omega
  subst hi
  dsimp only
  rw [if_pos (Nat.le_refl _), Wp.pure_iff]
  congr 3
  omega

theorem colLexQuicksortN_sorted (hpos : p.N - p.K < p.posMod) (fuel : Nat) (V : NormIS p) (start stop : Nat)
    (hstop : stop < p.N - p.K) (hss : start ≤ stop) (hfuel : stop + 1 ≤ fuel + start)
    (hV : ∀ x y, start ≤ x → x < y → y ≤ stop → colOf V x < colOf V y) :
    Wp False (colLexQuicksortN fuel V start stop) (fun r => r.1 = V ∧
      2 * r.2.compares = (stop - start) * (stop - start + 5) ∧ r.2.swaps = 0 ∧ r.2.depth = stop - start + 1) := by
  induction fuel generalizing start with
  | zero => omega
  | succ fuel ih =>
    unfold colLexQuicksortN
    rw [Wp.ite_iff]
    refine ⟨fun hlt => ?_, fun hge => ?_⟩
    · rw [Nat.mod_eq_of_lt (show start < p.posMod by omega), Nat.mod_eq_of_lt (show stop < p.posMod by omega),
        Wp.bind_iff]
      refine (hoarePartitionN_sorted V start stop hlt hstop hpos fun x hx hx' => hV start x (Nat.le_refl _) hx hx').mono ?_
      rintro _ rfl
      simp only [Wp.bind_iff]
      obtain ⟨f, rfl⟩ : ∃ f, fuel = f + 1 := ⟨fuel - 1, by omega⟩
      rw [show colLexQuicksortN (f + 1) V start start = .ok (V, ⟨0, 0, 1, 1⟩) by
        unfold colLexQuicksortN; rw [if_neg (Nat.lt_irrefl _)]; rfl]
      rw [Wp.ok_iff]
      dsimp only
      refine (ih (start + 1) (by omega) (by omega) fun x y h1 h2 h3 => hV x y (by omega) h2 h3).mono ?_
      rintro ⟨V3, cb⟩ ⟨c1, c2, c3, c4⟩
      simp only at c1 c2 c3 c4
      rw [Wp.pure_iff]
      obtain ⟨d, hd⟩ : ∃ d, stop - start = d + 1 := ⟨stop - start - 1, by omega⟩
      rw [show stop - (start + 1) = d by omega] at c2 c4
      refine ⟨c1, ?_, ?_, ?_⟩
      · dsimp only
        rw [hd]
        nlinarith
      · dsimp only; omega
      · dsimp only; omega
    · rw [Wp.pure_iff]
      have : stop - start = 0 := by omega
      refine ⟨rfl, ?_, rfl, ?_⟩ <;> simp [this]

end LESS
