import Verif.Props.Chosen
import Verif.Proofs.RewindBound
/-!
# C82: how likely it is that two runs of an attacker give the secret away
-/
namespace LESS
open Spec Spec.Asks

section
variable {Pt : Type} {Ans : Pt → Type} {α : Type}

theorem atMost_secondRun (r : α) {c : Asks Pt Ans α} : ∀ {q : Nat}, c.AtMost q → (secondRun r c).AtMost q := by
  induction c with
  | done a => intro q _; cases q <;> trivial
  | ask x next ih =>
    intro q h
    cases q with
    | zero => exact h.elim
    | succ q => exact fun a => ih a (h a)

theorem atMost_rewind [DecidableEq Pt] (names : α → Option Pt) {Q : Nat} (c : Asks Pt Ans α) : ∀ {path : List (Point Pt Ans α)} {q : Nat}, c.AtMost q →
    q ≤ Q → (∀ e ∈ path, ∃ q < Q, ∀ a, (e.next a).AtMost q) → (rewind names path c).AtMost (q + Q) := by
  have hup : ∀ (c : Asks (Pt ⊕ Pt) (Twice Ans) (Option (α × α))) {q q' : Nat}, c.AtMost q → q ≤ q' → c.AtMost q' := by
    intro c
    induction c with
    | done a => intro q q' _ _; cases q' <;> trivial
    | ask x next ih =>
      intro q q' h hq
      cases q with
      | zero => exact h.elim
      | succ q =>
        cases q' with
        | zero => omega
        | succ q' => exact fun a => ih a (h a) (by omega)
  induction c with
  | done r =>
    intro path q _ _ h
    unfold rewind
    split
    · cases q + Q <;> trivial
    · rename_i e he
      obtain ⟨x, -, hx⟩ := Option.bind_eq_some_iff.1 he
      obtain ⟨q1, hq1, hh⟩ := h e (List.mem_of_find?_eq_some hx)
      obtain ⟨j, hj⟩ : ∃ j, q + Q = j + 1 := ⟨q + Q - 1, by omega⟩
      rw [hj]
      exact fun a => hup _ (atMost_secondRun r (hh a)) (by omega)
  | ask x next ih =>
    intro path q hq hQ h
    cases q with
    | zero => exact hq.elim
    | succ q =>
      rw [Nat.succ_add]
      refine fun a => ih a (hq a) (by omega) fun e he => ?_
      rcases List.mem_cons.1 he with rfl | he
      · exact ⟨q, by omega, hq⟩
      · exact h e he

theorem run_secondRun (r : α) (O : ∀ x, Twice Ans x) (c : Asks Pt Ans α) : (secondRun r c).run O = some (r, c.run fun x => O (.inr x)) := by
  induction c with
  | done a => rfl
  | ask x next ih => exact ih _

theorem run_rewind [DecidableEq Pt] {names : α → Option Pt} (O : ∀ x, Twice Ans x) (c : Asks Pt Ans α) (c₀ : Asks Pt Ans α) :
    ∀ {hist : List Pt} {path : List (Point Pt Ans α)} {r r' : α}, NoRepeat hist c → c₀.run (fun x => O (.inl x)) = c.run (fun x => O (.inl x)) →
      (∀ e ∈ path, ∃ h : List Pt, e.question ∉ h ∧ (∀ a, NoRepeat (e.question :: h) (e.next a)) ∧
        c₀.run (mixed O h) = (e.next (O (.inr e.question))).run (mixed O h)) →
      (∀ O' : ∀ x, Ans x, (∀ x ∈ hist, O' x = O (.inl x)) → c₀.run O' = c.run O') →
      (rewind names path c).run O = some (r, r') →
        r = c₀.run (fun x => O (.inl x)) ∧ ∃ h : List Pt, r' = c₀.run (mixed O h) := by
  induction c with
  | done r₀ =>
    intro hist path r r' _ h0 h1 _ h
    unfold rewind at h
    split at h
    · cases h
    · rename_i e he
      obtain ⟨x, -, hx⟩ := Option.bind_eq_some_iff.1 he
      obtain ⟨hh, a1, a2, a3⟩ := h1 e (List.mem_of_find?_eq_some hx)
      have h : (secondRun r₀ (e.next (O (.inr e.question)))).run O = some (r, r') := h
      rw [run_secondRun] at h
      cases h
      refine ⟨h0.symm, hh, ?_⟩
      rw [a3]
      refine run_congr (a2 _) fun y hy => ?_
      exact (show mixed O hh y = O (.inr y) from if_neg fun hm => hy (List.mem_cons_of_mem _ hm)).symm
  | ask x next ih =>
    intro hist path r r' hnr h0 h1 h2 h
    refine ih (O (.inl x)) (hist := x :: hist) (hnr.2 _) h0 (fun e he => ?_) (fun O' hO' => ?_) h
    · rcases List.mem_cons.1 he with rfl | he
      · refine ⟨hist, hnr.1, hnr.2, ?_⟩
        rw [h2 (mixed O hist) fun y hy => if_pos hy]
        show (next (mixed O hist x)).run _ = _
        have : mixed O hist x = O (.inr x) := if_neg hnr.1
        rw [this]
      · exact h1 e he
    · rw [h2 O' fun y hy => hO' y (List.mem_cons_of_mem _ hy)]
      show (next (O' x)).run O' = _
      rw [hO' x List.mem_cons_self]

end

variable {p : Params} {k : Nat} {R V : Type}

/-- The second run is a run of the same program: it gets the answers of the first run up to the question named by its result, and new ones from there. -/
theorem C82_two_runs (T : Simulator p R V) (F : Asks (Inquiry p) (ReplyTo p k V) (Option (Forged p))) (O : ∀ x, Twice (GameAnswer p k (Coins p k R)) x)
    {r r' : Option (Forged p × Fixed p k)} (h : (rewind challengeQuestion [] (simGame T 0 [] ⟨[], []⟩ F)).run O = some (r, r')) :
    r = (simGame T 0 [] ⟨[], []⟩ F).run (fun x => O (.inl x)) ∧ ∃ first : List (GameQuestion p), r' = (simGame T 0 [] ⟨[], []⟩ F).run (mixed O first) :=
  run_rewind O _ _ (noRepeat_simGame (k := k) T F 0 [] ⟨[], []⟩ [] ⟨by simp, by simp, by simp⟩) rfl (by simp) (fun _ _ => rfl) h

variable [Fintype R]

theorem chosen_rewind (hp : p.WF) (hb : width (p.numKeypairs - 1) + width (p.T - 1) ≤ 16) {S : Signer p R V} {T : Simulator p R V}
    (hS : Simulates S T) (hlen : ∀ r, (S.com r).length = p.T * (p.K * (p.N - p.K))) {N : Nat} (hN0 : 0 < N)
    (hN : N ≤ p.T.choose p.W * (p.numKeypairs - 1) ^ p.W) (hN2 : N * N ≤ 2 ^ (8 * p.hashLen)) {B q : Nat} {pk : PK p}
    {G0 : Matrix (Fin p.K) (Fin p.N) (ZMod 127)} (hG : IsG0 p B (xof p pk.seed) G0) (A : Attacker p k V) (hA : A.AtMost q)
    {X : Finset (GameQuestion p)} (hX : (realGame S 0 [] (chosen B pk A)).Within X) (base : ∀ x, GameAnswer p k (Digest p × R) x) {ε : ℚ}
    (hε : ε * Nat.card (∀ x : {x // x ∈ X}, GameAnswer p k (Digest p × R) x.1) ≤
      Nat.card {t : ∀ x : {x // x ∈ X}, GameAnswer p k (Digest p × R) x.1 // ((realGame S 0 [] (chosen B pk A)).run (table base t)).isSome})
    (hwin : 2 * (q + 2) ≤ ε * N)
    {Y : Finset (GameQuestion p ⊕ GameQuestion p)} (hY : (rewind challengeQuestion [] (simGame T 0 [] ⟨[], []⟩ (chosen B pk A))).Within Y)
    (base' : ∀ x, Twice (GameAnswer p k (Coins p k R)) x) :
    (ε - 2 * (q + 2) / N) * ((ε - 2 * (q + 2) / N) / (q + 2) - 1 / N) * Nat.card (∀ x : {x // x ∈ Y}, Twice (GameAnswer p k (Coins p k R)) x.1) ≤
      Nat.card {t : ∀ x : {x // x ∈ Y}, Twice (GameAnswer p k (Coins p k R)) x.1 // ∃ o f o' f',
        (rewind challengeQuestion [] (simGame T 0 [] ⟨[], []⟩ (chosen B pk A))).run (table base' t) = some (some (o, f), some (o', f')) ∧ Forks B pk G0 o o'} := by
  classical
  have hN0' : (0 : ℚ) < N := Nat.cast_pos.2 hN0
  let c := simGame T 0 [] (⟨[], []⟩ : Fixed p k) (chosen B pk A)
  have hnr : NoRepeat [] c := noRepeat_simGame (k := k) T (chosen B pk A) 0 [] ⟨[], []⟩ [] ⟨by simp, by simp, by simp⟩
  have hq := atMost_chosen (B := B) (pk := pk) hA
  -- the chance to win
  have hcard := card_avg (base := base) Wins (noRepeat_realMemo (k := k) S (chosen B pk A) 0 [] ⟨[], []⟩ [] ⟨by simp, by simp, by simp⟩)
    (within_realMemo S (chosen B pk A) 0 [] ⟨[], []⟩ hX)
  have hrun : ∀ t : ∀ x : {x // x ∈ X}, GameAnswer p k (Digest p × R) x.1,
      (realMemo S 0 [] ⟨[], []⟩ (chosen B pk A)).run (table base t) = (realGame S 0 [] (chosen B pk A)).run (table base t) :=
    fun t => run_realMemo S (chosen B pk A) 0 [] ⟨[], []⟩ ⟨by simp [recall], by simp [recall]⟩
  simp only [hrun] at hcard
  have htab : (0 : ℚ) < Nat.card (∀ x : {x // x ∈ X}, GameAnswer p k (Digest p × R) x.1) :=
    Nat.cast_pos.2 (Nat.card_pos_iff.2 ⟨⟨fun x => base x.1⟩, inferInstance⟩)
  have hreal : ε ≤ avg Wins (realMemo S 0 [] (⟨[], []⟩ : Fixed p k) (chosen B pk A)) := by
    refine le_of_mul_le_mul_right ?_ htab
    exact hε.trans (le_of_eq hcard)
  have hL : 2 * (q + 2) ≤ N := by
    have : (2 * (q + 2) : ℚ) ≤ N := hwin.trans (by
      have := hreal.trans (avg_le_one _ _)
      nlinarith)
    exact_mod_cast this
  have hL2 : 2 * N * (q + 2) ≤ 2 ^ (8 * p.hashLen) := le_trans (le_trans (le_of_eq (by ring)) (Nat.mul_le_mul_left N hL)) hN2
  have h1 := hop hp hS hN0 hL2 (chosen B pk A) (q + 2) 0 [] ⟨[], []⟩ hq (by simp) (by simp)
  have hlen' : ∀ c, (∀ v, c = some v → Challenge p v) → ∀ r, (T.com c r).length = p.T * (p.K * (p.N - p.K)) := by
    intro c hc r
    obtain ⟨e, he⟩ := hS c hc
    rw [← hlen (e.symm r), (he (e.symm r)).1, Equiv.apply_symm_apply]
  -- what is known of the results
  let P : Forged p → Prop := fun o => o.sig.salt.length = p.hashLen ∧ ∀ i < p.T, RoundCommit p B pk o.sig (g o.challenge) i (o.coms i)
  have hshape : ∀ {o : Forged p}, (∀ i < p.T, RoundCommit p B pk o.sig (g o.challenge) i (o.coms i)) →
      ∀ i < p.T, ∃ A : Matrix (Fin p.K) (Fin p.N) (ZMod 127), IsCommit A (o.coms i) := fun h i hi =>
    ⟨_, (RoundCommit.answer hp (h i hi) hG).choose_spec.2.2⟩
  have hdrawn : ∀ (o : Forged p) f', Outcome c (some (o, f')) → Drawn P o f' := by
    intro o f' ho
    obtain ⟨a1, a2, a3⟩ := outcome_chosen T A ho
    exact ⟨⟨a1, a2⟩, a3⟩
  have hP : ∀ o, P o → ∀ signed, OfSigned p (p.T * (p.K * (p.N - p.K))) signed o.hashed → o.msg ∈ signed := by
    rintro o ⟨a1, a2⟩ signed ⟨c, m, s, e1, e2, e3, e4⟩
    unfold Forged.hashed transcript at e4
    obtain ⟨e5, e6⟩ := List.append_inj' e4 (a1.trans e2.symm)
    have hl := commitments_length (fun i hi => by
      obtain ⟨A, hA⟩ := hshape a2 i hi
      exact commitBytes_length hA.shape.1)
    obtain ⟨e7, e8⟩ := List.append_inj e5 (hl.trans e1.symm)
    rw [e8]
    exact e3
  have h2 := sim_points hp hlen' hN0 hL2 hP (chosen B pk A) (q + 2) 0 [] ⟨[], []⟩ [] [] hq (by simp) (by simp)
    ⟨by simp [recall], by simp [recall], by simp [recall]⟩ hdrawn
  have h0 : avg (PointsToOne []) c ≤ 0 := by
    refine (avg_mono (E' := fun _ => False) fun r _ hr => ?_).trans (le_of_eq ?_)
    · obtain ⟨e, he, -⟩ := hr
      cases he
    · have : ∀ c : Asks (GameQuestion p) (GameAnswer p k (Coins p k R)) (Option (Forged p × Fixed p k)), avg (fun _ => False) c = 0 := by
        intro c
        induction c with
        | done a => exact avg_done_zero id
        | ask x next ih =>
          show mean _ = 0
          simp only [ih]
          unfold mean
          simp
      exact this c
  -- the two runs
  have h3 := rewind_ge (names := challengeQuestion) (fun _ _ _ h => PointsTo.question h) hN0 (atMost_simGame T _ hq)
    (splits_simGame hp hb T hN (chosen B pk A) 0 [] ⟨[], []⟩ [] ⟨by simp, by simp, by simp⟩ hdrawn) hnr
  obtain ⟨δ, hδ⟩ : ∃ δ, δ = ε - 2 * (q + 2) / (N : ℚ) := ⟨_, rfl⟩
  obtain ⟨w, hw⟩ : ∃ w, w = pointed PointsTo [] c := ⟨_, rfl⟩
  have hδw : δ ≤ w := by
    have h1' : ε ≤ avg Wins c + ((q + 2 : Nat) : ℚ) / N := hreal.trans h1
    have h2' : avg Wins c ≤ avg (PointsToOne []) c + w + ((q + 2 : Nat) : ℚ) / N := by rw [hw]; exact h2
    have : 2 * ((q : ℚ) + 2) / N = ((q + 2 : Nat) : ℚ) / N + ((q + 2 : Nat) : ℚ) / N := by
      push_cast
      ring
    rw [hδ, this]
    linarith
  have hδ0 : 0 ≤ δ := by
    rw [hδ, sub_nonneg, div_le_iff₀ hN0']
    exact hwin
  have h4 : δ * (δ / (q + 2) - 1 / N) ≤ avg (Fit (Differ P)) (rewind challengeQuestion [] c) := by
    have hq2 : (0 : ℚ) < (q : ℚ) + 2 := by positivity
    by_cases hs : δ / (q + 2) - 1 / N ≤ 0
    · exact (mul_nonpos_of_nonneg_of_nonpos hδ0 hs).trans (avg_nonneg _ _)
    · push Not at hs
      have e : w ^ 2 / ((q + 2 : Nat) : ℚ) - w / N = w * (w / (q + 2) - 1 / N) := by
        push_cast
        ring
      have h3' : w ^ 2 / ((q + 2 : Nat) : ℚ) - w / N ≤ avg (Fit (Differ P)) (rewind challengeQuestion [] c) := by rw [hw]; exact h3
      rw [e] at h3'
      refine le_trans (mul_le_mul hδw ?_ hs.le (hδ0.trans hδw)) h3'
      have := div_le_div_of_nonneg_right hδw hq2.le
      linarith
  have hcard' := card_avg (base := base') (Fit (Differ P)) (noRepeat_rewind (names := challengeQuestion) c (hist := []) (path := []) (hist' := []) (by simp) (by simp) (by simp) hnr) hY
  have hcnt := mul_le_mul_of_nonneg_right h4 (Nat.cast_nonneg (α := ℚ) (Nat.card (∀ x : {x // x ∈ Y}, Twice (GameAnswer p k (Coins p k R)) x.1)))
  rw [← hδ]
  refine hcnt.trans ((le_of_eq hcard'.symm).trans ?_)
  rw [Nat.cast_le]
  refine Nat.card_le_card_of_injective (fun t => ⟨t.1, ?_⟩) ?_
  · have ht := t.2
    cases hr : (rewind challengeQuestion [] c).run (table base' t.1) with
    | none =>
      rw [hr] at ht
      exact ht.elim
    | some rr =>
      rw [hr] at ht
      obtain ⟨r, r'⟩ := rr
      obtain ⟨o, f, o', f', rfl, rfl, ⟨a1, a2⟩, ⟨b1, b2⟩, hx, hne⟩ := ht
      refine ⟨o, f, o', f', rfl, ?_⟩
      obtain ⟨ec, em, es⟩ := transcript_inj (hshape a2) (hshape b2) (a1.trans b1.symm) hx
      have : ∃ i < p.T, g o.challenge i ≠ g o'.challenge i := by
        by_contra hc
        push Not at hc
        exact hne (vec_ext hc)
      obtain ⟨i, hi, hd⟩ := this
      obtain ⟨x, hx1, hx2, hx3⟩ := RoundCommit.answer hp (a2 i hi) hG
      obtain ⟨y, hy1, hy2, hy3⟩ := RoundCommit.answer hp (b2 i hi) hG
      rw [← ec i hi] at hy3
      exact ⟨em, es, ec, i, hi, hd, x, y, hx1, hy1, C12_extract hp hx2 hy2 hx3 hy3⟩
  · intro a b h
    exact Subtype.ext (congrArg (fun z => z.1) h)

/-! ## C82 -/

/-- Take a key pair made by key generation, and an attacker as in C81 that succeeds on the part `ε` of the tables.  Run it with the simulator, which has only the public key, and
then run it again from the question that drew the challenge of its forgery.  If `ε` is at least `2 (q + 2)` in two to the power of the security level, then with `δ` the difference, on at least
the part `δ (δ / (q + 2) - 1 / 2 ^ level)` of the tables of the two runs both give forgeries with the same commitments and different challenges, so that the extractor computes a
monomial that carries one code of the public key to another one. -/
theorem C82_rewinding (hp : p ∈ Params.all) {fuel : Nat} {sl : Nat → Stale p} {rng rng' : Inc} {SK : PriKey p} {PK : PubKey p}
    (hrng : RngOk p rng) (hkey : lessKeygen fuel sl rng = .ok (SK, PK, rng')) {G0 : GenMat p}
    {seeds : Vector (Vector UInt8 p.skSeedLen) (p.numKeypairs - 1)} {S : Nat → Monomial p}
    (hG0 : expandG0 fuel (sl 0) SK.G0seed.toList = .ok G0) (hseeds : privateSeeds p SK.compressedSk.toList = .ok seeds)
    (hS : ∀ i < p.numKeypairs - 1, monomialSeedExpandPrikey fuel (sl (i + 1)).mono (g seeds i).toList = .ok (S i))
    (sl₁ sl₂ : Nat → Stale p) (rbuf₁ rbuf₂ : Nat → Vector UInt8 p.monoBytes) {k q : Nat} (A : Attacker p k (SigView p)) (hA : A.AtMost q)
    {X : Finset (GameQuestion p)} (hX : (realGame (codeSigner sl₁ rbuf₁ G0 S) 0 [] (chosen fuel PK.spec A)).Within X)
    (base : ∀ x, GameAnswer p k (Digest p × (Fin p.T → VMono p)) x) {ε : ℚ}
    (hε : ε * Nat.card (∀ x : {x // x ∈ X}, GameAnswer p k (Digest p × (Fin p.T → VMono p)) x.1) ≤
      Nat.card {t : ∀ x : {x // x ∈ X}, GameAnswer p k (Digest p × (Fin p.T → VMono p)) x.1 //
        ((realGame (codeSigner sl₁ rbuf₁ G0 S) 0 [] (chosen fuel PK.spec A)).run (table base t)).isSome})
    (hwin : 2 * (q + 2) ≤ ε * (2 ^ (8 * p.seedLen) : Nat))
    {Y : Finset (GameQuestion p ⊕ GameQuestion p)}
    (hY : (rewind challengeQuestion [] (simGame (codeSimulator sl₂ rbuf₂ G0 fun i => g PK.SFG i) 0 [] ⟨[], []⟩ (chosen fuel PK.spec A))).Within Y)
    (base' : ∀ x, Twice (GameAnswer p k (Coins p k (Fin p.T → VMono p))) x) :
    (ε - 2 * (q + 2) / (2 ^ (8 * p.seedLen) : Nat)) * ((ε - 2 * (q + 2) / (2 ^ (8 * p.seedLen) : Nat)) / (q + 2) - 1 / (2 ^ (8 * p.seedLen) : Nat)) *
        Nat.card (∀ x : {x // x ∈ Y}, Twice (GameAnswer p k (Coins p k (Fin p.T → VMono p))) x.1) ≤
      Nat.card {t : ∀ x : {x // x ∈ Y}, Twice (GameAnswer p k (Coins p k (Fin p.T → VMono p))) x.1 // ∃ o f o' f',
        (rewind challengeQuestion [] (simGame (codeSimulator sl₂ rbuf₂ G0 fun i => g PK.SFG i) 0 [] ⟨[], []⟩ (chosen fuel PK.spec A))).run (table base' t) =
          some (some (o, f), some (o', f')) ∧ Forks fuel PK.spec (matOf G0) o o'} := by
  have hW := Params.all_WF p hp
  obtain ⟨hseed, G0', seeds', h1, h2, h3⟩ := keygen_parts hrng hkey
  obtain rfl : G0 = G0' := Except.ok.inj (hG0.symm.trans h1)
  obtain rfl : seeds = seeds' := Except.ok.inj (hseeds.symm.trans h2)
  have hG := (expandG0_wp hW fuel (sl 0) SK.G0seed.toList).of_ok hG0
  have hr := IsRREF.fullRank (hG.2.rref hW.K_lt_N.le)
  have hb : ∀ i, ∃ buf : Vector UInt8 p.rrefBytes, i < p.numKeypairs - 1 → keygenOne fuel (sl (i + 1)) G0 (g seeds i).toList buf = .ok (g PK.SFG i) := by
    intro i
    by_cases hi : i < p.numKeypairs - 1
    · obtain ⟨_, buf, -, h⟩ := h3 i hi
      exact ⟨buf, fun _ => h⟩
    · exact ⟨Vector.replicate _ 0, fun h => absurd h hi⟩
  choose bufs hbufs using hb
  have hsim := code_simulates hW (sl := fun i => sl (i + 1)) (seeds := fun i => (g seeds i).toList) (bufs := bufs) (pkCode := fun i => g PK.SFG i)
    hS hbufs hG.1 hr sl₁ sl₂ rbuf₁ rbuf₂
  have hH : 2 ^ (8 * p.seedLen) * 2 ^ (8 * p.seedLen) = 2 ^ (8 * p.hashLen) := by
    rw [← Nat.pow_add]; congr 1; unfold Params.hashLen; omega
  have hc := C62_parameter_sets p hp
  rw [C62_count hW] at hc
  refine chosen_rewind hW (challenge_bits p hp) hsim (codeSigner_length hW hG.1 hr sl₁ rbuf₁ S) (Nat.pow_pos (by norm_num)) hc hH.le ?_ A hA hX base hε hwin hY base'
  have e : PK.spec.seed = SK.G0seed.toList := by
    show PK.G0seed.toList = _
    rw [hseed]
  rw [e]
  exact hG.2

/-- The same in simpler numbers: if the attacker succeeds on the part `ε` of the tables and `ε` is at least `4 (q + 2)` in two to the power of the security level, then the two
runs give such forgeries on at least the part `ε² / (8 (q + 2))` of the tables. -/
theorem C82_chance (hp : p ∈ Params.all) {fuel : Nat} {sl : Nat → Stale p} {rng rng' : Inc} {SK : PriKey p} {PK : PubKey p}
    (hrng : RngOk p rng) (hkey : lessKeygen fuel sl rng = .ok (SK, PK, rng')) {G0 : GenMat p}
    {seeds : Vector (Vector UInt8 p.skSeedLen) (p.numKeypairs - 1)} {S : Nat → Monomial p}
    (hG0 : expandG0 fuel (sl 0) SK.G0seed.toList = .ok G0) (hseeds : privateSeeds p SK.compressedSk.toList = .ok seeds)
    (hS : ∀ i < p.numKeypairs - 1, monomialSeedExpandPrikey fuel (sl (i + 1)).mono (g seeds i).toList = .ok (S i))
    (sl₁ sl₂ : Nat → Stale p) (rbuf₁ rbuf₂ : Nat → Vector UInt8 p.monoBytes) {k q : Nat} (A : Attacker p k (SigView p)) (hA : A.AtMost q)
    {X : Finset (GameQuestion p)} (hX : (realGame (codeSigner sl₁ rbuf₁ G0 S) 0 [] (chosen fuel PK.spec A)).Within X)
    (base : ∀ x, GameAnswer p k (Digest p × (Fin p.T → VMono p)) x) {ε : ℚ}
    (hε : ε * Nat.card (∀ x : {x // x ∈ X}, GameAnswer p k (Digest p × (Fin p.T → VMono p)) x.1) ≤
      Nat.card {t : ∀ x : {x // x ∈ X}, GameAnswer p k (Digest p × (Fin p.T → VMono p)) x.1 //
        ((realGame (codeSigner sl₁ rbuf₁ G0 S) 0 [] (chosen fuel PK.spec A)).run (table base t)).isSome})
    (hwin : 4 * (q + 2) ≤ ε * (2 ^ (8 * p.seedLen) : Nat))
    {Y : Finset (GameQuestion p ⊕ GameQuestion p)}
    (hY : (rewind challengeQuestion [] (simGame (codeSimulator sl₂ rbuf₂ G0 fun i => g PK.SFG i) 0 [] ⟨[], []⟩ (chosen fuel PK.spec A))).Within Y)
    (base' : ∀ x, Twice (GameAnswer p k (Coins p k (Fin p.T → VMono p))) x) :
    ε ^ 2 / (8 * (q + 2)) * Nat.card (∀ x : {x // x ∈ Y}, Twice (GameAnswer p k (Coins p k (Fin p.T → VMono p))) x.1) ≤
      Nat.card {t : ∀ x : {x // x ∈ Y}, Twice (GameAnswer p k (Coins p k (Fin p.T → VMono p))) x.1 // ∃ o f o' f',
        (rewind challengeQuestion [] (simGame (codeSimulator sl₂ rbuf₂ G0 fun i => g PK.SFG i) 0 [] ⟨[], []⟩ (chosen fuel PK.spec A))).run (table base' t) =
          some (some (o, f), some (o', f')) ∧ Forks fuel PK.spec (matOf G0) o o'} := by
  have hq : (0 : ℚ) < (q : ℚ) + 2 := by positivity
  have hN : (0 : ℚ) < (2 ^ (8 * p.seedLen) : Nat) := Nat.cast_pos.2 (Nat.pow_pos (by norm_num))
  refine le_trans (mul_le_mul_of_nonneg_right ?_ (Nat.cast_nonneg _))
    (C82_rewinding hp hrng hkey hG0 hseeds hS sl₁ sl₂ rbuf₁ rbuf₂ A hA hX base hε (by linarith) hY base')
  generalize ((2 ^ (8 * p.seedLen) : Nat) : ℚ) = N at hN hwin ⊢
  generalize (q : ℚ) + 2 = Q at hq hwin ⊢
  -- half of the chance is left
  have h1 : 2 * Q / N ≤ ε / 2 := by
    rw [div_le_div_iff₀ hN two_pos]
    linarith
  have h2 : 1 / N ≤ ε / (4 * Q) := by
    rw [div_le_div_iff₀ hN (by linarith)]
    linarith
  have hε0 : 0 ≤ ε := by
    by_contra hneg
    push Not at hneg
    nlinarith
  have h3 : ε / 2 / Q ≤ (ε - 2 * Q / N) / Q := div_le_div_of_nonneg_right (by linarith) hq.le
  have h4 : ε ^ 2 / (8 * Q) = ε / 2 * (ε / 2 / Q - ε / (4 * Q)) := by
    field_simp
    ring
  rw [h4]
  refine mul_le_mul (by linarith) (by linarith) ?_ (by linarith)
  have : ε / 2 / Q - ε / (4 * Q) = ε / (4 * Q) := by
    field_simp
    ring
  rw [this]
  positivity

omit [Fintype R] in
/-- The two runs together ask at most twice as many questions as the attacker and the verifier. -/
theorem C82_questions {B q : Nat} {pk : PK p} (T : Simulator p R V) {A : Attacker p k V} (hA : A.AtMost q) :
    (rewind challengeQuestion [] (simGame T 0 [] ⟨[], []⟩ (chosen B pk A))).AtMost (2 * (q + 2)) := by
  rw [Nat.two_mul]
  exact atMost_rewind _ _ (atMost_simGame T _ (atMost_chosen hA)) le_rfl (by simp)

/-- The hypotheses of `C82_chance` are met by the owner of the key, with two questions and a half as the chance, under the condition of `C81_owner`. -/
theorem C82_owner (hp : p ∈ Params.all) {B k : Nat} {sk : SK p} {pk : PK p} (hk : KeyPair p B sk pk) (hf : KeyFits p B sk) (m root salt : List UInt8)
    (hsalt : salt.length = p.hashLen) (hr : ∀ i < p.T, ∃ M, IsMonomial p B (roundStream p salt (signerLeaf p root salt i) i) M)
    (hN : 4 * Nat.card {ws : Words 16 k // ¬ ∃ v, digestWords p ws.1 0 (noChallenge p) = .ok v} ≤ Nat.card (Words 16 k))
    (S : Signer p (Fin p.T → VMono p) (SigView p)) (base : ∀ x, GameAnswer p k (Digest p × (Fin p.T → VMono p)) x) :
    ∃ (A : Attacker p k (SigView p)) (X : Finset (GameQuestion p)), A.AtMost 2 ∧ (realGame S 0 [] (chosen B pk A)).Within X ∧
      (1 / 2 : ℚ) * Nat.card (∀ x : {x // x ∈ X}, GameAnswer p k (Digest p × (Fin p.T → VMono p)) x.1) ≤
        Nat.card {t : ∀ x : {x // x ∈ X}, GameAnswer p k (Digest p × (Fin p.T → VMono p)) x.1 //
          ((realGame S 0 [] (chosen B pk A)).run (table base t)).isSome} ∧
      4 * ((2 : Nat) + 2) ≤ (1 / 2 : ℚ) * (2 ^ (8 * p.seedLen) : Nat) := by
  obtain ⟨A, X, h1, h2, h3, -⟩ := C81_owner hp hk hf m root salt hsalt hr hN S base
  refine ⟨A, X, h1, h2, ?_, ?_⟩
  · have : (Nat.card (∀ x : {x // x ∈ X}, GameAnswer p k (Digest p × (Fin p.T → VMono p)) x.1) : ℚ) ≤
        2 * Nat.card {t : ∀ x : {x // x ∈ X}, GameAnswer p k (Digest p × (Fin p.T → VMono p)) x.1 //
          ((realGame S 0 [] (chosen B pk A)).run (table base t)).isSome} := by exact_mod_cast h3
    linarith
  · have hl : 1 ≤ p.seedLen := List.forall_iff_forall_mem.1 (show List.Forall (fun p : Params => 1 ≤ p.seedLen) Params.all by decide +kernel) p hp
    have : 2 ^ 8 ≤ 2 ^ (8 * p.seedLen) := Nat.pow_le_pow_right (by norm_num) (by omega)
    have : (2 ^ 8 : ℚ) ≤ (2 ^ (8 * p.seedLen) : Nat) := by exact_mod_cast this
    push_cast at this ⊢
    linarith

end LESS
