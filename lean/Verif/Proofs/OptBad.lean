import Verif.Proofs.OptSim
import Verif.Proofs.Overread
/-!
# The optimized verifier on public codes with unreduced entries

A 7-bit entry of a public code may be 127.  `br_red (br_mul 127 c)` is 127 again, so a pivot can be 127; its multiples
are all 127, `ep[1]` is never set, and the optimized `generator_RREF` copies from wherever the uninitialised `ep[1]`
points.
-/
namespace LESS

attribute [local irreducible] buildEp buildEm

variable {p : Params} {F : Prop}

theorem Wq.wr_any {α : Type} [Inhabited α] {n : Nat} {v : Vector α n} {i : Nat} {x : α} {P : Vector α n → Prop}
    (h : i < n → P (upd v i x)) : Wq F True (wr v i x) P := by
  by_cases hi : i < n
  · exact Wq.of_wp ((Wp.wr_iff).2 ⟨hi, h hi⟩)
  · refine Wq.of_oob trivial ?_
    unfold wr
    rw [dif_neg hi]

theorem rd_pos {α : Type} [Inhabited α] {n : Nat} {v : Vector α n} {i : Nat} (h : i < n) : rd v i = .ok (g v i) :=
  (Wp.rd_iff.2 ⟨h, rfl⟩ : Wp False (rd v i) (fun x => x = g v i)).eq_ok

theorem rd_neg {α : Type} {n : Nat} {v : Vector α n} {i : Nat} (h : ¬ i < n) : rd v i = .error .oob := by
  unfold rd
  rw [dif_neg h]

theorem wr_neg {α : Type} {n : Nat} {v : Vector α n} {i : Nat} {x : α} (h : ¬ i < n) : wr v i x = .error .oob := by
  unfold wr
  rw [dif_neg h]

theorem Wq.rd2_any {r c : Nat} {G : Vector (Vector Nat c) r} {i j : Nat} {P : Nat → Prop}
    (h : i < r → j < c → P (g2 G i j)) : Wq F True (rd2 G i j) P := by
  by_cases hi : i < r
  · by_cases hj : j < c
    · exact Wq.of_wp (Wp.rd2_iff.2 ⟨hi, hj, h hi hj⟩)
    · refine Wq.of_oob trivial ?_
      unfold rd2
      rw [rd_pos hi]
      exact rd_neg hj
  · refine Wq.of_oob trivial ?_
    unfold rd2
    rw [rd_neg hi]; rfl

theorem Wq.wr2_any {r c : Nat} {G : Vector (Vector Nat c) r} {i j x : Nat} {P : Vector (Vector Nat c) r → Prop}
    (h : i < r → j < c → P (upd2 G i j x)) : Wq F True (wr2 G i j x) P := by
  by_cases hi : i < r
  · by_cases hj : j < c
    · exact Wq.of_wp (Wp.wr2_iff.2 ⟨hi, hj, h hi hj⟩)
    · refine Wq.of_oob trivial ?_
      unfold wr2
      rw [rd_pos hi]
      change (wr (g G i) j x >>= _) = _
      rw [wr_neg hj]; rfl
  · refine Wq.of_oob trivial ?_
    unfold wr2
    rw [rd_neg hi]; rfl

/-- After an action on a code whose entry in row 0 of the first chosen column is 127, the corner entry is 127. -/
theorem applyActionToGO_corner (res G : GenMat p) (a : MonoAction p) (hK : 0 < p.K)
    (ha : 1 ≤ g a.coefficients 0 ∧ g a.coefficients 0 < 127) (hG : g2 G 0 (g a.permutation 0) = 127) :
    Wq False True (applyActionToGO res G a) (fun R => g2 R 0 0 = 127) := by
  unfold applyActionToGO
  rw [Wq.bind_iff]
  refine Wq.forUp (fun t (s : GenMat p × Vector Nat p.N) => 0 < t → g2 s.1 0 0 = 127) (fun h => absurd h (by decide)) ?_ ?_
  · rintro t ⟨R, picked⟩ ht hI
    dsimp only at hI ⊢
    rw [Wq.bind_iff]
    refine Wq.rd trivial fun _ => ?_
    rw [Wq.bind_iff]
    refine Wq.forUp (fun i (R' : GenMat p) => (0 < t → g2 R' 0 0 = 127) ∧ (t = 0 → 0 < i → g2 R' 0 0 = 127))
      ⟨hI, fun _ h => absurd h (by decide)⟩ ?_ ?_
    · rintro i R' hi ⟨h1, h2⟩
      rw [Wq.bind_iff]
      refine Wq.rd2_any fun _ hs => ?_
      rw [Wq.bind_iff]
      refine Wq.rd trivial fun _ => ?_
      refine Wq.wr2_any fun _ htN => ?_
      rw [g2_upd2 _ _ _ _ _ _ hi htN]
      refine ⟨fun h0 => ?_, fun h0 _ => ?_⟩
      · rw [if_neg (fun hh => by omega)]
        exact h1 h0
      · subst h0
        by_cases hi0 : i = 0
        · subst hi0
          rw [if_pos ⟨rfl, rfl⟩, hG, brRed_brMul_val (by decide) (by omega), if_pos]
          refine ⟨?_, by omega⟩
          exact Nat.mul_ne_zero (by decide) (by omega)
        · rw [if_neg (fun hh => hi0 hh.1)]
          exact h2 rfl (by omega)
    · rintro R' ⟨h1, h2⟩
      rw [Wq.bind_iff]
      refine Wq.wr_any fun _ => ?_
      rw [Wq.pure_iff]
      intro _
      rcases Nat.eq_zero_or_pos t with h | h
      · exact h2 h hK
      · exact h1 h
  · rintro ⟨R, picked⟩ hR
    dsimp only at hR ⊢
    have hR := hR hK
    rw [Wq.bind_iff]
    refine Wq.forUp (fun _ (s : GenMat p × Nat) => g2 s.1 0 0 = 127 ∧ p.K ≤ s.2) ⟨hR, Nat.le_refl _⟩ ?_ ?_
    · rintro src ⟨R, dst⟩ hsrc ⟨h1, h2⟩
      dsimp only at h1 h2 ⊢
      rw [Wq.bind_iff]
      refine Wq.rd trivial fun _ => ?_
      by_cases hf : g picked src = 0
      · rw [if_pos hf, Wq.bind_iff]
        refine Wq.forUp (fun _ (R : GenMat p) => g2 R 0 0 = 127) h1 ?_ ?_
        · intro i R hi hI
          rw [Wq.bind_iff]
          refine Wq.rd2_any fun _ _ => Wq.wr2_any fun _ hd => ?_
          rw [g2_upd2 _ _ _ _ _ _ hi hd, if_neg (fun hh => by omega)]
          exact hI
        · intro R hI
          exact ⟨hI, by omega⟩
      · rw [if_neg hf, Wq.pure_iff]
        exact ⟨h1, h2⟩
    · rintro ⟨R, dst⟩ ⟨h1, _⟩
      exact h1

/-- The pointers computed for the pivot 127: `ep[1]` is not set. -/
theorem buildEp_127 (ep : EpTab) (h : g ep 1 = none) : Wp False (buildEp 127 ep) (fun ep => g ep 1 = none) := by
  unfold buildEp
  generalize h126 : 126 = m126
  rw [Wp.bind_iff, Wp.wr_iff]
  refine ⟨by decide, ?_⟩
  rw [Wp.bind_iff]
  refine Wp.forUp (fun _ (s : EpTab × Nat) => s.2 = 127 ∧ g s.1 1 = none) ⟨rfl, ?_⟩ ?_ ?_
  · rw [g_upd _ _ _ _ (by decide), if_neg (by decide)]
    exact h
  · rintro t ⟨ep, tmp⟩ ht ⟨h1, h2⟩
    dsimp only at h1 h2
    subst h1
    dsimp only
    rw [Wp.bind_iff, Wp.wr_iff]
    refine ⟨by decide, ?_⟩
    rw [Wp.pure_iff]
    refine ⟨(by decide : u8 (u8 (127 + 127) + u8 (127 + 127) >>> 7 &&& 127) = 127), ?_⟩
    rw [g_upd _ _ _ _ (by decide), if_neg (by decide)]
    exact h2
  · rintro ⟨ep, tmp⟩ ⟨h1, h2⟩
    dsimp only
    rw [Wp.wr_iff]
    refine ⟨by decide, ?_⟩
    rw [g_upd _ _ _ _ (by decide), if_neg (by decide)]
    exact h2

theorem optScan_hit (G : OGen p) (hK : 0 < p.K) (hN : 0 < p.nPad) (h : g2 G 0 0 ≠ 0) :
    optScan G 0 p.K 0 = .ok (some 0) := by
  obtain ⟨k, hk⟩ := Nat.exists_eq_succ_of_ne_zero (Nat.pos_iff_ne_zero.1 hK)
  generalize hK' : p.K = K' at hk
  have : ∀ n, optScan G 0 (n + 1) 0 = .ok (some 0) := by
    intro n
    unfold optScan
    have e : rd2 G 0 0 = .ok (g2 G 0 0) := (Wp.rd2_iff.2 ⟨hK, hN, rfl⟩ : Wp False (rd2 G 0 0) (fun x => x = g2 G 0 0)).eq_ok
    rw [e]
    change (if g2 G 0 0 ≠ 0 then _ else _) = _
    rw [if_pos h]
    rfl
  rw [hk]
  exact this k

/-- A matrix whose corner entry is 127 sends the optimized `generator_RREF` through an uninitialised pointer. -/
theorem generatorRREFO_corner (G : OGen p) (hK : 0 < p.K) (hN0 : 0 < p.N) (hN : p.N ≤ p.nPad) (h : g2 G 0 0 = 127)
    (em : EmTab p) : generatorRREFO G (Vector.replicate p.N 0) em = .error .oob := by
  have step : rrefStepO 0 (G, Vector.replicate p.N 0, em, Vector.replicate 128 none) = .error .oob := by
    apply Wq.eq_oob (O := True)
    unfold rrefStepO
    dsimp only
    rw [Wq.bind_iff]
    have hfind : optFind G 0 (p.N - 0) 0 = .ok (some (0, 0)) := by
      obtain ⟨k, hk⟩ := Nat.exists_eq_succ_of_ne_zero (Nat.pos_iff_ne_zero.1 hN0)
      rw [show p.N - 0 = k + 1 by omega]
      unfold optFind
      rw [show p.K - 0 = p.K by omega, optScan_hit G hK (by omega) (by omega)]
      rfl
    rw [hfind]
    change Wq False True (wr _ 0 1 >>= _) _
    rw [Wq.bind_iff]
    refine Wq.wr_any fun _ => ?_
    rw [if_neg (by decide), Wq.bind_iff, Wq.pure_iff, Wq.bind_iff]
    refine (Wq.of_wp (buildEm_wp G hN 0 hK em)).mono ?_
    intro em' _
    rw [Wq.bind_iff]
    refine Wq.rd2_any fun _ _ => ?_
    rw [h, Wq.bind_iff]
    refine (Wq.of_wp (buildEp_127 _ (g_replicate _ _ (by decide)))).mono ?_
    intro ep hep
    rw [Wq.bind_iff]
    refine Wq.of_oob trivial ?_
    unfold epGet
    have e : rd ep 1 = .ok none := by
      have : Wp False (rd ep 1) (fun x => x = none) := Wp.rd_iff.2 ⟨by decide, hep⟩
      exact this.eq_ok
    rw [e]; rfl
  unfold generatorRREFO
  obtain ⟨k, hk⟩ := Nat.exists_eq_succ_of_ne_zero (Nat.pos_iff_ne_zero.1 hK)
  have : ∀ n, forRet (n + 1) rrefStepO (G, Vector.replicate p.N 0, em, Vector.replicate 128 none) = .error .oob := by
    intro n
    induction n with
    | zero => exact step
    | succ n ih =>
      show (forRet (n + 1) _ _ >>= _) = _
      rw [ih]; rfl
  have hh : forRet p.K rrefStepO (G, Vector.replicate p.N 0, em, Vector.replicate 128 none) = .error .oob := by
    have := this (p.K - 1)
    rwa [show p.K - 1 + 1 = p.K by omega] at this
  rw [hh]; rfl

/-- A response that starts with a column whose entry in row 0 is 127. -/
theorem verifyResponseO_127 (hp : p.WF) (hN : p.N ≤ p.nPad) (sl : OStale p) (sfg : Vector UInt8 p.rrefBytes)
    (resp : Vector UInt8 p.monoBytes) (hz : (Spec.denseBelow sfg p.N).length ≤ p.N - p.K)
    (ha : (decodeAction (p := p) resp).Valid)
    (h : Spec.codeEntry p sfg 0 (g (decodeAction (p := p) resp).permutation 0) = 127) :
    verifyResponseO sl sfg resp = .error .oob := by
  have hKN := hp.K_lt_N
  have hK := hp.K_pos
  apply Wq.eq_oob (O := True)
  unfold verifyResponseO
  rw [expandToRref_eq hp _ _ (by rw [denseBelow_eq sfg p.N (Nat.le_refl _)]; exact hz)]
  change Wq False True (expandToMonomAction _ _ >>= _) _
  rw [expandToMonomAction_eq hp]
  change Wq False True (isMonomActionValid _ >>= _) _
  rw [Wq.bind_iff]
  refine (Wq.of_wp (isMonomActionValid_wp _)).mono ?_
  rintro r (⟨rfl, _⟩ | ⟨_, hh⟩)
  · rw [if_neg (by decide), Wq.bind_iff]
    refine (applyActionToGO_corner _ _ _ hK (ha.1 0 hK) ?_).mono ?_
    · rw [decodeRref_entry _ _ _ hK (ha.2.1 0 hK)]; exact h
    · intro Gh hGh
      dsimp only
      rw [generatorRREFO_corner _ hK (by omega) hN]
      · exact trivial
      · rw [g2_paste _ _ _ _ hK (by omega), if_pos (by omega)]
        exact hGh
  · exact absurd ha hh

/-- If every public code makes the first response used fail, so does the optimized verifier. -/
theorem lessVerifyO_badKey (isa : Isa) (hp : p.WF) (hN : p.N ≤ p.nPad) {n : Nat} (hn : p.maxPublishedBytes ≤ n)
    (fuel : Nat) (sl : Nat → OStale p) (pk : PubKey p) (m : Bytes) (sig : SignT p n)
    (hbad : ∀ j < p.numKeypairs - 1, ∀ sl : OStale p, verifyResponseO sl (g pk.SFG j) (g sig.monomActions 0) = .error .oob)
    (hfits : Spec.VerifierFits p fuel pk.spec sig.spec) : lessVerifyO isa fuel sl pk m sig = .error .oob := by
  open Spec in
  have hKN := hp.K_lt_N
  apply Wq.eq_oob (O := True)
  unfold lessVerifyO
  rw [Wq.bind_iff]
  refine (Wq.of_wp ((expandDigest_spec hp fuel sig.digest.toList).monoF ?_)).mono ?_
  · obtain ⟨_, v, hv, _⟩ := hfits; exact fun hno => hno ⟨v, hv⟩
  intro fws hch
  have hch' : IsChallenge p fuel (xof p sig.spec.digest) (g fws) := hch
  rw [Wq.bind_iff]
  refine (Wq.of_wp (indicesToPublish_hides fws)).mono ?_
  rintro ind ⟨hind1, hind2⟩
  rw [Wq.bind_iff]
  refine (Wq.of_wp (rebuildSeedTreeLeaves_wp hp _ ind sig.seedStorage sig.treeSalt.toList hind1
    (by rw [hind2]; exact hidden_exists hp hch.weight) (by rw [hind2]; exact (pubCount_le hp hch.weight).trans hn))).mono ?_
  rintro ⟨tree, used⟩ ⟨-, htree⟩
  rw [hind2, expandH_eq] at htree
  dsimp only at htree ⊢
  have htree' : ∀ j < p.T, g fws j = 0 → nodeSeg tree (p.numLeaves - 1 + j) = rebuiltLeaf p sig.spec (g fws) j := by
    intro j hj h0
    have hT := hp.T_lt_leaves
    refine htree _ (by unfold Params.numNodes; omega) ?_
    rw [covers_leaf_iff (Nat.le_of_lt hT) j (by omega)]
    rintro ⟨-, h⟩
    simp [hides, h0] at h
  rw [Wq.bind_iff]
  refine (Wq.of_wp ((generatorSFSeedExpand_wp fuel (sl 0).ref.rref pk.G0seed.toList hp).monoF fun hno => hno hfits.1)).mono ?_
  rintro G0 ⟨A, hG0⟩
  rw [Wq.bind_iff]
  refine Wq.forRet (fun i s => RoundsDone p fuel pk.spec sig.spec (g fws) i s ∧ ∀ j < i, g fws j = 0) (fun _ => False)
    ⟨⟨rfl, fun _ => [], by simp, by
      unfold hashAbsorb
      rw [incAbsorb_eq_foldl _ _ _ (hashRate_pos p)]; rfl⟩, by simp⟩ ?_ (fun _ h => h) ?_
  · rintro i s hi ⟨hI, hz⟩
    by_cases hx : g fws i = 0
    · have hround : verifyRoundO isa fuel (sl (i + 1)) pk sig fws tree G0 i s =
          verifyRound fuel (sl (i + 1)).atG pk sig fws tree G0 i s := by
        obtain ⟨h, employed⟩ := s
        unfold verifyRoundO verifyRound
        dsimp only
        refine bind_congr_ok fun x hxx => ?_
        obtain ⟨_, rfl⟩ := rd_g hxx
        rw [if_pos hx, if_pos hx]
        refine bind_congr_ok fun G hG => bind_congr_ok fun seed _ => bind_congr_ok fun Qm hQm => ?_
        have hred : Reduced G := ((hG0.expand (F := False) (by omega) _).of_ok hG).1
        rw [prepareDigestInputO_eq isa hN (by omega) _ _ _ _ _ (saltRnd_valid hp hQm) (by rw [cut_paste hN]; exact hred),
          cut_paste hN]
        rfl
      rw [hround]
      refine ((Wq.of_wp (verifyRound_wp hp fuel (sl (i + 1)).atG pk sig fws tree G0 i s hi hch' hG0 htree' (fun h => absurd hx h) hI)).monoF
        (fun h => h hfits)).mono ?_
      rintro (r | s) ho
      · exact ho.2.1 hx
      · refine ⟨ho, fun j hj => ?_⟩
        rcases Nat.lt_succ_iff_lt_or_eq.1 hj with h | rfl
        · exact hz j h
        · exact hx
    · have hlt := (hch.range (by have := hp.numKeypairs_ge; omega) i).1
      obtain ⟨h, employed⟩ := s
      have he : employed = weight i (g fws) := hI.1
      have hw0 : weight i (g fws) = 0 := by
        unfold weight
        rw [List.length_eq_zero_iff, List.filter_eq_nil_iff]
        intro j hj
        simp [hz j (List.mem_range.1 hj)]
      rw [hw0] at he
      subst he
      unfold verifyRoundO
      dsimp only
      rw [Wq.bind_iff]
      refine Wq.of_wp (Wp.rd_iff.2 ⟨hi, ?_⟩)
      rw [if_neg hx, Wq.bind_iff]
      refine Wq.rd trivial fun _ => ?_
      rw [Wq.bind_iff]
      refine Wq.rd trivial fun _ => ?_
      rw [Wq.bind_iff]
      refine Wq.of_oob trivial ?_
      exact hbad _ (by omega) _
  · rintro s ⟨hI, hz⟩
    exfalso
    have := hch.weight
    have h1 := hp.W_pos
    unfold weight at this
    rw [List.filter_eq_nil_iff.2 (by intro j hj; simp [hz j (List.mem_range.1 hj)])] at this
    simp at this
    omega

end LESS
