import Verif.Proofs.OptRref
/-!
# The table-driven row reduction agrees with the reference one
-/
namespace LESS

attribute [local irreducible] buildEp buildEm

open Spec

variable {p : Params}

/-- The entry that the table look-up and the vector addition compute is the one of the reference. -/
theorem elim_entry {x m sc x0 : Nat} (hx : x < 127) (hm : m < 127) (hsc0 : sc ≠ 0) (hsc : sc < 127) (hx0 : x0 < 127)
    {e : Nat} (he : e * sc % 127 = 1) :
    (x + (127 - m) * (e * x0 % 127)) % 127 = elimVal x m (fqRed (fqInv sc * x0)) := by
  have hne : (sc : Fq) ≠ 0 := by rw [Ne, cast_eq_zero hsc]; exact hsc0
  have hcast : (e : Fq) * (sc : Fq) = 1 := by
    have : ((e * sc % 127 : Nat) : Fq) = ((1 : Nat) : Fq) := by rw [he]
    rwa [ZMod.natCast_mod, Nat.cast_mul, Nat.cast_one] at this
  have hinv : (e : Fq) = (sc : Fq)⁻¹ := eq_inv_of_mul_eq_one_left hcast
  apply cast_inj (Nat.mod_lt _ (by decide)) (elimVal_lt _ _ _)
  have hs := fqInv_lt sc
  rw [elimVal_cast hx hm (fqRed_lt _), fqRed_mul_cast hs hx0, fqInv_cast _ (by omega), ZMod.natCast_mod, Nat.cast_add,
    Nat.cast_mul, ZMod.natCast_mod, Nat.cast_mul, Nat.cast_sub (by omega), hinv]
  have h127 : ((127 : Nat) : Fq) = 0 := by decide
  rw [h127]
  ring

theorem scale_entry {sc x0 : Nat} (hsc0 : sc ≠ 0) (hsc : sc < 127) (hx0 : x0 < 127) {e : Nat}
    (he : e * sc % 127 = 1) : e * x0 % 127 = fqRed (fqInv sc * x0) := by
  have hne : (sc : Fq) ≠ 0 := by rw [Ne, cast_eq_zero hsc]; exact hsc0
  have hcast : (e : Fq) * (sc : Fq) = 1 := by
    have : ((e * sc % 127 : Nat) : Fq) = ((1 : Nat) : Fq) := by rw [he]
    rwa [ZMod.natCast_mod, Nat.cast_mul, Nat.cast_one] at this
  have hinv : (e : Fq) = (sc : Fq)⁻¹ := eq_inv_of_mul_eq_one_left hcast
  have hs := fqInv_lt sc
  apply cast_inj (Nat.mod_lt _ (by decide)) (fqRed_lt _)
  rw [fqRed_mul_cast hs hx0, fqInv_cast _ (by omega), ZMod.natCast_mod, Nat.cast_mul, hinv]

theorem rrefStepO_sim {r : Nat} {G : OGen p} {isPivot : Vector Nat p.N} {em : EmTab p} {ep : EpTab}
    (hN : p.N ≤ p.nPad) (hr : r < p.K) (hKN : p.K ≤ p.N) (hred : Reduced (cut G))
    (hz : ∀ i j, r ≤ i → i < p.K → j < r → g2 (cut G) i j = 0) :
    Wp False (rrefStepO r (G, isPivot, em, ep)) (fun o => match o with
      | .inl s => rrefStep r (cut G, isPivot) = .ok (.inl (0, cut s.1, s.2.1))
      | .inr s => rrefStep r (cut G, isPivot) = .ok (.inr (cut s.1, s.2.1))) := by
  obtain ⟨o, rc, ho, hrc, hcase⟩ := optFind_sim G hN r hr (p.N - r) r (2 * p.N + 2) (by omega) (by omega)
  have hfind := (findPivot_wp (cut G) r hr (2 * p.N + 2) r (by omega) (by omega) hz).of_ok hrc
  unfold rrefStepO
  dsimp only
  rw [Wp.bind_iff]
  refine Wp.of_eq ho ?_
  rcases hcase with ⟨rfl, hge⟩ | ⟨rfl, hlt⟩
  · -- no pivot
    show Wp False (pure _) _
    rw [Wp.pure_iff]
    refine Wp.eq_ok ?_
    unfold rrefStep
    dsimp only
    rw [Wp.bind_iff]
    refine Wp.of_eq hrc ?_
    rw [if_pos hge, Wp.pure_iff]
  obtain ⟨row, c⟩ := rc
  simp only at hlt hfind
  rcases hfind with ⟨h, _⟩ | ⟨hcN, h1, h2, h3, h4⟩
  · omega
  dsimp only
  rw [Wp.bind_iff, Wp.wr_iff]
  refine ⟨hcN, ?_⟩
  -- the swap
  have hswap : Wp False (if r ≠ row then swapRowsO G r row else pure G) (fun R =>
      Wp False (if r ≠ row then swapRows (cut G) r row else pure (cut G)) (fun R' => R' = cut R) ∧
      Reduced (cut R) ∧ g2 R r c ≠ 0 ∧ ∀ j, j < c → g2 R r j = 0) := by
    rw [Wp.ite_iff]
    refine ⟨fun hne => ?_, fun hne => ?_⟩
    · refine (swapRowsO_wp G hN r row hr h2 hne).mono ?_
      intro R hR
      refine ⟨?_, ?_, ?_, ?_⟩
      · rw [if_pos hne]
        refine (swapRows_wp (cut G) r row hr h2 hne).mono ?_
        intro R' hR'
        apply mat_ext
        intro i j hi hj
        rw [hR' i j hi hj, g2_cut R _ _ hi hj, hR i j hi hj, g2_cut G _ _ h2 hj, g2_cut G _ _ hr hj, g2_cut G _ _ hi hj]
      · intro i j hi hj
        rw [g2_cut R _ _ hi hj, hR i j hi hj, ← g2_cut G _ _ h2 hj, ← g2_cut G _ _ hr hj, ← g2_cut G _ _ hi hj]
        split
        · exact hred _ _ h2 hj
        · split
          · exact hred _ _ hr hj
          · exact hred _ _ hi hj
      · rw [hR r c hr hcN, if_pos rfl, ← g2_cut G _ _ h2 hcN]; exact h3
      · intro j hj
        rw [hR r j hr (by omega), if_pos rfl, ← g2_cut G _ _ h2 (by omega)]
        exact h4 row j h1 h2 hj
    · rw [Wp.pure_iff, if_neg hne]
      have e : r = row := by simpa using hne
      refine ⟨rfl, hred, ?_, ?_⟩
      · rw [← g2_cut G _ _ hr hcN, e]; exact h3
      · intro j hj
        rw [← g2_cut G _ _ hr (by omega)]
        exact h4 r j (Nat.le_refl _) hr hj
  refine Wp.ite_bind (hswap.mono ?_)
  rintro G1 ⟨href1, a1, a2, a3⟩
  have hred1 : ∀ i j, i < p.K → j < p.N → g2 G1 i j < 127 := fun i j hi hj => by
    rw [← g2_cut G1 _ _ hi hj]; exact a1 i j hi hj
  have hsc := hred1 r c hr hcN
  rw [Wp.bind_iff]
  refine (buildEm_wp G1 hN r hr em).mono ?_
  intro em' hem
  have hem' : ∀ t b, 1 ≤ t → t ≤ 126 → b < p.N → g (g2 em' t (b / 32)) (b % 32) = t * g2 G1 r b % 127 := by
    intro t b ht1 ht2 hb
    have hw' := le_nw p
    have e : 32 * (b / 32) + b % 32 = b := by omega
    have := hem t (b / 32) (b % 32) ht1 ht2 (by omega) (by omega) (by rw [e]; exact hred1 r b hr hb)
    rwa [e] at this
  rw [Wp.bind_iff, Wp.rd2_iff]
  refine ⟨hr, by omega, ?_⟩
  rw [Wp.bind_iff]
  refine (buildEp_wp (g2 G1 r c) a2 hsc ep).mono ?_
  intro ep' hep
  refine Exists.elim (exists_mul_mod a2 hsc (v := 1) (by decide) (by decide)) ?_
  intro e he
  have he1 := he.1
  have he2 := he.2.1
  have he3 := he.2.2
  rw [Wp.bind_iff]
  have hep1 : g ep' 1 = some e := by have := hep e he1 he2; rwa [he3] at this
  refine epGet_wp (by decide) hep1 ?_
  rw [Wp.bind_iff]
  refine (copyBack_wp G1 hN r hr em' e (by omega)).mono ?_
  intro G2 hG2
  have hG2r : ∀ b, b < p.N → g2 G2 r b = e * g2 G1 r b % 127 := fun b hb => by
    rw [hG2 r b hr hb, if_pos rfl, hem' e b he1 he2 hb]
  have hG2o : ∀ a b, a < p.K → b < p.N → a ≠ r → g2 G2 a b = g2 G1 a b := fun a b ha hb hne => by
    rw [hG2 a b ha hb, if_neg hne]
  rw [Wp.bind_iff]
  have hepm : ∀ m, m ≠ 0 → m < 127 → ∃ s, s < 128 ∧ g ep' (127 - m) = some s ∧
      ∀ b, b < p.N → g (g2 em' s (b / 32)) (b % 32) = (127 - m) * (e * g2 G1 r b % 127) % 127 := by
    intro m hm0 hm
    obtain ⟨s, hs1, hs2, hs3⟩ := exists_mul_mod a2 hsc (v := 127 - m) (by omega) (by omega)
    refine ⟨s, by omega, by have := hep s hs1 hs2; rwa [hs3] at this, ?_⟩
    intro b hb
    rw [hem' s b hs1 hs2 hb]
    -- s ≡ (127 - m) * e
    have hse : s = (127 - m) * e % 127 := by
      apply mul_mod_inj a2 hsc (by omega) (Nat.mod_lt _ (by decide))
      rw [hs3, Nat.mod_mul_mod, Nat.mul_assoc, ← Nat.mul_mod_mod, he3, Nat.mul_one, Nat.mod_eq_of_lt (by omega)]
    rw [hse, Nat.mod_mul_mod, Nat.mul_mod_mod, Nat.mul_assoc]
  refine Wp.forUp (fun n (R : OGen p) => ∀ a b, a < p.K → b < p.N →
      g2 R a b = if a < n ∧ a ≠ r then (g2 G1 a b + (127 - g2 G1 a c) * (e * g2 G1 r b % 127)) % 127 else g2 G2 a b)
    (fun _ _ _ _ => by simp) ?_ ?_
  · intro j R hj hR
    have hRj : ∀ b, b < p.N → g2 R j b = g2 G2 j b := fun b hb => by
      rw [hR j b hj hb, if_neg (by omega)]
    have hRlt : ∀ b, b < p.N → g2 R j b < 127 := fun b hb => by
      rw [hRj b hb]
      by_cases e' : j = r
      · rw [e', hG2r b hb]; exact Nat.mod_lt _ (by decide)
      · rw [hG2o j b hj hb e']; exact hred1 j b hj hb
    refine (eliminateRowO_wp R hN r c hcN em' ep' j hj (fun b => e * g2 G1 r b % 127) hRlt hepm).mono ?_
    intro R' hR' a b ha hb
    rw [hR' a b ha hb]
    by_cases ea : a = j
    · subst ea
      by_cases er : a = r
      · rw [if_neg (fun hh => hh.2 er), if_neg (fun hh => hh.2 er), hRj b hb]
      · rw [if_pos ⟨rfl, er⟩, if_pos ⟨by omega, er⟩, hRj b hb, hRj c hcN, hG2o a b ha hb er, hG2o a c ha hcN er]
    · rw [if_neg (fun hh => ea hh.1), hR a b ha hb]
      have : a < j + 1 ↔ a < j := by omega
      simp only [this]
  · intro G3 hG3
    rw [Wp.pure_iff]
    -- the reference
    refine Wp.eq_ok ?_
    unfold rrefStep
    dsimp only
    rw [Wp.bind_iff]
    refine Wp.of_eq hrc ?_
    dsimp only
    rw [if_neg (by omega), Wp.bind_iff, Wp.wr_iff]
    refine ⟨hcN, ?_⟩
    refine Wp.ite_bind (href1.mono ?_)
    rintro _ rfl
    rw [Wp.bind_iff, Wp.rd2_iff]
    refine ⟨hr, hcN, ?_⟩
    rw [Wp.bind_iff]
    refine (scaleRow_wp (cut G1) r c _ hr hcN).mono ?_
    intro S hS
    have hSr : ∀ b, b < p.N → g2 S r b = g2 G2 r b := by
      intro b hb
      rw [hS r b hr hb, hG2r b hb, g2_cut G1 _ _ hr hcN, g2_cut G1 _ _ hr hb, scale_entry a2 hsc (hred1 r b hr hb) he3]
      by_cases hcb : c ≤ b
      · rw [if_pos ⟨rfl, hcb⟩]
      · rw [if_neg (fun hh => hcb hh.2), a3 b (by omega), Nat.mul_zero]
        decide
    have hSo : ∀ a b, a < p.K → b < p.N → a ≠ r → g2 S a b = g2 G1 a b := fun a b ha hb hne => by
      rw [hS a b ha hb, if_neg (fun hh => hne hh.1), g2_cut G1 _ _ ha hb]
    have hSred : Reduced S := by
      intro a b ha hb
      by_cases ea : a = r
      · rw [ea, hSr b hb, hG2r b hb]; exact Nat.mod_lt _ (by decide)
      · rw [hSo a b ha hb ea]; exact hred1 a b ha hb
    rw [Wp.bind_iff]
    refine (eliminateRows_wp S r c hr hcN hSred).mono ?_
    rintro R ⟨_, _, hR⟩
    rw [Wp.pure_iff]
    congr 2
    apply mat_ext
    intro a b ha hb
    rw [hR a b ha hb, g2_cut G3 _ _ ha hb, hG3 a b ha hb]
    by_cases ea : a = r
    · rw [if_pos ea, if_neg (fun hh => hh.2 ea), ea, hSr b hb]
    · rw [if_neg ea, if_pos ⟨ha, ea⟩, hSo a b ha hb ea, hSo a c ha hcN ea, hSr b hb, hG2r b hb,
        elim_entry (hred1 a b ha hb) (hred1 a c ha hcN) a2 hsc (hred1 r b hr hb) he3,
        scale_entry a2 hsc (hred1 r b hr hb) he3]

/-- The optimized `generator_RREF` returns what the reference returns, whatever the padding and the table contain. -/
theorem generatorRREFO_sim (hN : p.N ≤ p.nPad) (hKN : p.K ≤ p.N) (G : OGen p) (hG : Reduced (cut G)) (em : EmTab p) :
    ∃ ret R f, generatorRREFO G (Vector.replicate p.N 0) em = .ok (ret, R, f) ∧
      generatorRREF (cut G) (Vector.replicate p.N 0) = .ok (ret, cut R, f) := by
  suffices h : ∀ n, n ≤ p.K → Wp False (forRet n rrefStepO (G, Vector.replicate p.N 0, em, Vector.replicate 128 none))
      (fun o => match o with
        | .inl s => forRet n rrefStep (cut G, Vector.replicate p.N 0) = .ok (.inl (0, cut s.1, s.2.1))
        | .inr s => forRet n rrefStep (cut G, Vector.replicate p.N 0) = .ok (.inr (cut s.1, s.2.1)) ∧
            ∃ piv, RInv (matOf (cut G)) n piv (cut s.1) s.2.1) by
    obtain ⟨o, ho, hP⟩ := (h p.K (Nat.le_refl _)).exists_ok
    unfold generatorRREFO generatorRREF
    rw [ho]
    cases o with
    | inl s =>
      obtain ⟨R, f, em, ep⟩ := s
      dsimp only at hP
      refine ⟨0, R, f, rfl, ?_⟩
      rw [hP]; rfl
    | inr s =>
      obtain ⟨R, f, em, ep⟩ := s
      dsimp only at hP
      refine ⟨1, R, f, rfl, ?_⟩
      rw [hP.1]; rfl
  intro n
  induction n with
  | zero =>
    intro _
    refine ⟨rfl, fun _ => 0, hG, RowEq.refl _, ?_, ?_, ?_, ?_, ?_, ?_, ?_⟩
    · intro t ht; omega
    · intro t t' _ ht; omega
    · intro t i ht; omega
    · intro t j ht; omega
    · intro t i j ht; omega
    · intro t ht; omega
    · intro j hj _; exact g_replicate _ _ hj
  | succ n ih =>
    intro hn
    show Wp False (forRet n rrefStepO _ >>= _) _
    rw [Wp.bind_iff]
    refine (ih (by omega)).mono ?_
    intro o ho
    cases o with
    | inl s =>
      show Wp False (pure _) _
      rw [Wp.pure_iff]
      dsimp only at ho ⊢
      show (forRet n rrefStep _ >>= _) = _
      rw [ho]; rfl
    | inr s =>
      obtain ⟨G', f, em', ep'⟩ := s
      obtain ⟨ho, piv, hinv⟩ := ho
      dsimp only at ho hinv ⊢
      have hz : ∀ i j, n ≤ i → i < p.K → j < n → g2 (cut G') i j = 0 := by
        intro i j hi hiK hj
        have := hinv.ge (n - 1) (by omega)
        exact hinv.below (n - 1) i j (by omega) hi hiK (by omega)
      refine (rrefStepO_sim hN (by omega) hKN hinv.red hz).mono ?_
      intro o' ho'
      have hwp := rrefStep_wp (by omega) hKN hinv
      have hstep : forRet (n + 1) rrefStep (cut G, Vector.replicate p.N 0) = rrefStep n (cut G', f) := by
        show (forRet n rrefStep _ >>= _) = _
        rw [ho]; rfl
      cases o' with
      | inl s => 
        dsimp only at ho' ⊢
        rw [hstep, ho']
      | inr s =>
        dsimp only at ho' ⊢
        rw [hstep]
        exact ⟨ho', hwp.of_ok ho'⟩

end LESS
