import Verif.Proofs.Rewind
import Verif.Proofs.ChosenBound
/-!
# Running an attacker with simulated signatures a second time
-/
namespace LESS
open Spec Spec.Asks

variable {p : Params} {k : Nat} {R V : Type}

/-- The result points to the question `x`, asked after those in `hist`: it is the question that drew its challenge, the string it hashed was asked before, and no other string of `hist` has the same digest. -/
def PointsTo (hist : List (GameQuestion p)) (x : GameQuestion p) (r : Option (Forged p × Fixed p k)) : Prop :=
  ∃ o f d, r = some (o, f) ∧ x = .inl (.inr d) ∧ recall f.digests o.hashed = some d ∧ .inl (.inl o.hashed) ∈ hist ∧
    ∀ y, .inl (.inl y) ∈ hist → recall f.digests y = some d → y = o.hashed

theorem PointsTo.question {hist : List (GameQuestion p)} {x : GameQuestion p} {r : Option (Forged p × Fixed p k)} (h : PointsTo hist x r) :
    challengeQuestion r = some x := by
  obtain ⟨o, f, d, rfl, rfl, hd, -, -⟩ := h
  unfold challengeQuestion
  dsimp only
  rw [hd]
  rfl

/-- Different challenges to the same string. -/
def Differ (P : Forged p → Prop) (r r' : Option (Forged p × Fixed p k)) : Prop :=
  ∃ o f o' f', r = some (o, f) ∧ r' = some (o', f') ∧ P o ∧ P o' ∧ o.hashed = o'.hashed ∧ o.challenge ≠ o'.challenge

/-- What is fixed stays fixed. -/
theorem outcome_keeps (T : Simulator p R V) (F : Asks (Inquiry p) (ReplyTo p k V) (Option (Forged p))) : ∀ {n : Nat} {signed : List (List UInt8)}
    {f : Fixed p k} {o : Forged p} {f' : Fixed p k}, Outcome (simGame T n signed f F) (some (o, f')) →
    (∀ x d, recall f.digests x = some d → recall f'.digests x = some d) ∧ ∀ d ws, recall f.numbers d = some ws → recall f'.numbers d = some ws := by
  have hcons : ∀ {α β : Type} [DecidableEq α] {l : List (α × β)} {a : α} {b : β}, recall l a = none → ∀ x y, recall l x = some y →
      recall ((a, b) :: l) x = some y := by
    intro α β _ l a b ha x y h
    rw [recall_ne _ _ _]
    · exact h
    · rintro rfl
      rw [ha] at h
      cases h
  induction F with
  | done r =>
    intro n signed f o f' h
    have h : ((r.filter fun o => decide (o.msg ∉ signed)).map fun o => (o, f)) = some (o, f') := h
    obtain ⟨_, -, e⟩ := Option.map_eq_some_iff.1 h
    cases e
    exact ⟨fun _ _ h => h, fun _ _ h => h⟩
  | ask x next ih =>
    intro n signed f o f' h
    rcases x with (x | d) | m
    · have h : Outcome (askDigest f x fun d f => simGame T n signed f (next d)) (some (o, f')) := h
      unfold askDigest at h
      split at h
      · exact ih _ h
      · rename_i e
        obtain ⟨d, h⟩ := h
        obtain ⟨h1, h2⟩ := ih _ h
        exact ⟨fun y d' hy => h1 y d' (hcons e y d' hy), h2⟩
    · have h : Outcome (askNumbers f d fun d f => simGame T n signed f (next d)) (some (o, f')) := h
      unfold askNumbers at h
      split at h
      · exact ih _ h
      · rename_i e
        obtain ⟨ws, h⟩ := h
        obtain ⟨h1, h2⟩ := ih _ h
        exact ⟨h1, fun y d' hy => h2 y d' (hcons e y d' hy)⟩
    · obtain ⟨⟨salt, r, d, ws⟩, h⟩ := h
      dsimp only at h
      split at h
      · rename_i hfree
        obtain ⟨h1, h2⟩ := ih _ h
        exact ⟨fun y d' hy => h1 y d' (hcons (Option.isNone_iff_eq_none.1 hfree.1) y d' hy),
          fun y d' hy => h2 y d' (hcons (Option.isNone_iff_eq_none.1 hfree.2) y d' hy)⟩
      · cases h

theorem atMost_simGame (T : Simulator p R V) (F : Asks (Inquiry p) (ReplyTo p k V) (Option (Forged p))) : ∀ {q n : Nat} {signed : List (List UInt8)}
    {f : Fixed p k}, F.AtMost q → (simGame T n signed f F).AtMost q := by
  have hup : ∀ {α : Type} (c : Asks (GameQuestion p) (GameAnswer p k (Coins p k R)) α) {q : Nat}, c.AtMost q → c.AtMost (q + 1) := by
    intro α c
    induction c with
    | done a => intros; trivial
    | ask x next ih =>
      intro q h
      cases q with
      | zero => exact h.elim
      | succ q => exact fun a => ih a (h a)
  induction F with
  | done r => intro q n signed f _; cases q <;> trivial
  | ask x next ih =>
    intro q n signed f h
    cases q with
    | zero => exact h.elim
    | succ q =>
      rcases x with (x | d) | m
      · show AtMost (q + 1) (askDigest f x fun d f => simGame T n signed f (next d))
        unfold askDigest
        split
        · exact hup _ (ih _ (h _))
        · exact fun (d : Digest p) => ih _ (h d)
      · show AtMost (q + 1) (askNumbers f d fun d f => simGame T n signed f (next d))
        unfold askNumbers
        split
        · exact hup _ (ih _ (h _))
        · exact fun (ws : Words 16 k) => ih _ (h ws)
      · refine fun r => ?_
        obtain ⟨salt, r, d, ws⟩ := r
        dsimp only
        split
        · exact ih _ (h _)
        · cases q <;> trivial

/-- What is known of a result: its challenge is the one drawn from the digest of what it hashed. -/
def Drawn (P : Forged p → Prop) (o : Forged p) (f : Fixed p k) : Prop :=
  P o ∧ ∃ d ws, recall f.digests o.hashed = some d ∧ recall f.numbers d = some ws ∧ challengeOf p ws = some o.challenge

variable [Fintype R]

open Classical in
theorem card_sameChallenge (hp : p.WF) (hb : width (p.numKeypairs - 1) + width (p.T - 1) ≤ 16) {N : Nat}
    (hN : N ≤ p.T.choose p.W * (p.numKeypairs - 1) ^ p.W) (c : Option (Vector Nat p.T)) :
    N * (Finset.univ.filter fun ws : Words 16 k => ∃ v, c = some v ∧ challengeOf p ws = some v).card ≤ Fintype.card (Words 16 k) := by
  cases c with
  | none =>
    rw [Finset.filter_eq_empty_iff.2]
    · rw [Finset.card_empty, Nat.mul_zero]
      exact Nat.zero_le _
    · rintro ws - ⟨v, h, -⟩
      cases h
  | some v =>
    have hg := guess_le hp hb k v
    rw [← card_words 16 k] at hg
    have hcw : Nat.card (Words 16 k) = Fintype.card (Words 16 k) := Nat.card_eq_fintype_card
    rw [← hcw]
    refine le_trans (Nat.mul_le_mul_left _ ?_) ((Nat.mul_le_mul_right _ hN).trans hg)
    rw [← Fintype.card_subtype, ← Nat.card_eq_fintype_card]
    refine Nat.card_le_card_of_injective (fun a => ⟨a.1, ?_⟩) ?_
    · obtain ⟨v', h4, h5⟩ := a.2
      cases h4
      unfold challengeOf at h5
      split at h5
      · rename_i e'
        cases h5
        exact e'
      · cases h5
    · intro a b h
      exact Subtype.ext (congrArg (fun z => z.1) h)

theorem splits_of_not_points {N : Nat} {E : Option (Forged p × Fixed p k) → Option (Forged p × Fixed p k) → Prop} {hist : List (GameQuestion p)} {x : GameQuestion p}
    {next : GameAnswer p k (Coins p k R) x → Asks (GameQuestion p) (GameAnswer p k (Coins p k R)) (Option (Forged p × Fixed p k))}
    (hx : ∀ d, x ≠ .inl (.inr d)) (h : ∀ a, Splits PointsTo E N (x :: hist) (next a)) : Splits PointsTo E N hist (.ask x next) := by
  classical
  refine ⟨fun a => ⟨fun _ => False, ⟨inferInstance, ?_⟩, fun a' _ r r' _ _ h1 _ => ?_⟩, h⟩
  · rw [Finset.filter_false, Finset.card_empty, Nat.mul_zero]
    exact Nat.zero_le _
  · obtain ⟨o, f, d, -, e, -⟩ := h1
    exact absurd e (hx d)

/-- Two results that point to the same question have different challenges, but for few answers to it. -/
theorem splits_simGame (hp : p.WF) (hb : width (p.numKeypairs - 1) + width (p.T - 1) ≤ 16) (T : Simulator p R V) {N : Nat}
    (hN : N ≤ p.T.choose p.W * (p.numKeypairs - 1) ^ p.W) {P : Forged p → Prop}
    (F : Asks (Inquiry p) (ReplyTo p k V) (Option (Forged p))) : ∀ n signed (f : Fixed p k) hist, Remembered n hist f →
      (∀ o f', Outcome (simGame T n signed f F) (some (o, f')) → Drawn P o f') → Splits PointsTo (Differ P) N hist (simGame T n signed f F) := by
  classical
  induction F with
  | done o => intros; trivial
  | ask x next ih =>
    intro n signed f hist hr ho
    rcases x with (x | d) | m
    · have ho : ∀ o f', Outcome (askDigest f x fun d f => simGame T n signed f (next d)) (some (o, f')) → Drawn P o f' := ho
      show Splits _ _ _ _ (askDigest f x fun d f => simGame T n signed f (next d))
      unfold askDigest at ho ⊢
      split
      · rename_i e
        rw [e] at ho
        exact ih _ n signed f hist hr ho
      · rename_i e
        rw [e] at ho
        exact splits_of_not_points (by simp) fun (d : Digest p) => ih d n signed _ _ (hr.digest x d) fun o f' h => ho o f' ⟨d, h⟩
    · have ho : ∀ o f', Outcome (askNumbers f d fun d f => simGame T n signed f (next d)) (some (o, f')) → Drawn P o f' := ho
      show Splits _ _ _ _ (askNumbers f d fun d f => simGame T n signed f (next d))
      unfold askNumbers at ho ⊢
      split
      · rename_i e
        rw [e] at ho
        exact ih _ n signed f hist hr ho
      · rename_i e
        rw [e] at ho
        refine ⟨fun (ws : Words 16 k) => ⟨fun ws' : Words 16 k => ∃ v, challengeOf p ws = some v ∧ challengeOf p ws' = some v,
          ⟨inferInstance, card_sameChallenge hp hb hN _⟩, fun (ws' : Words 16 k) hbad r r' h h' hp1 hp2 => ?_⟩,
          fun (ws : Words 16 k) => ih ws n signed _ _ (hr.number d ws) fun o f' h => ho o f' ⟨ws, h⟩⟩
        obtain ⟨o, f1, d1, rfl, e1, a1, a2, a3⟩ := hp1
        obtain ⟨o', f2, d2, rfl, e2, b1, b2, b3⟩ := hp2
        cases e1
        cases e2
        obtain ⟨k1, k2⟩ := outcome_keeps T _ h
        obtain ⟨l1, l2⟩ := outcome_keeps T _ h'
        obtain ⟨c1, d1, ws1, c2, c3, c4⟩ := ho o f1 ⟨ws, h⟩
        obtain ⟨c1', d2, ws2, c2', c3', c4'⟩ := ho o' f2 ⟨ws', h'⟩
        obtain rfl : d = d1 := Option.some.inj (a1.symm.trans c2)
        obtain rfl : d = d2 := Option.some.inj (b1.symm.trans c2')
        obtain rfl : ws = ws1 := Option.some.inj ((k2 d ws (recall_self _ _ _)).symm.trans c3)
        obtain rfl : ws' = ws2 := Option.some.inj ((l2 d ws' (recall_self _ _ _)).symm.trans c3')
        refine ⟨o, f1, o', f2, rfl, rfl, c1, c1', ?_, fun he => hbad ⟨_, c4, by rw [he]; exact c4'⟩⟩
        obtain ⟨d3, hd3⟩ := Option.ne_none_iff_exists'.1 (hr.1 _ b2)
        obtain rfl : d3 = d := Option.some.inj ((l1 _ _ hd3).symm.trans b1)
        exact (a3 _ b2 (k1 _ _ hd3)).symm
    · refine splits_of_not_points (by simp) fun (r : Coins p k R) => ?_
      have ho : ∀ o f', (∃ r : Coins p k R, Outcome
          (let (salt, r, d, ws) := r
          let x := T.com (challengeOf p ws) r ++ m ++ salt.toList
          if (recall f.digests x).isNone ∧ (recall f.numbers d).isNone then
            simGame T (n + 1) (m :: signed) (f.add x d ws) (next (⟨salt, d, T.view (challengeOf p ws) r⟩ : Shown p V))
          else .done none) (some (o, f'))) → Drawn P o f' := ho
      obtain ⟨salt, r, d, ws⟩ := r
      dsimp only
      split
      · rename_i hfree
        refine ih _ (n + 1) (m :: signed) _ _ (hr.coin.add _ _ _) fun o f' h => ho o f' ⟨(salt, r, d, ws), ?_⟩
        dsimp only
        rw [if_pos hfree]
        exact h
      · trivial

/-! ## The results point to one of the questions -/

open Classical in
theorem mean_used {f : Fixed p k} {N : Nat} (hN : 0 < N) (h : N * (Finset.univ.filter (UsedDigest f)).card ≤ Fintype.card (Digest p)) :
    (mean fun d : Digest p => if UsedDigest f d then (1 : ℚ) else 0) ≤ 1 / N := by
  have := mean_bad (bad := UsedDigest f) (f := fun d : Digest p => if UsedDigest f d then (1 : ℚ) else 0) hN (b := 0) le_rfl h
    (fun a => by split <;> norm_num) (fun a ha => by rw [if_neg ha])
  linarith

open Classical in
theorem mean_used_coins {f : Fixed p k} {N : Nat} (hN : 0 < N) (h : N * (Finset.univ.filter (UsedDigest f)).card ≤ Fintype.card (Digest p)) :
    (mean fun r : Coins p k R => if UsedDigest f r.2.2.1 then (1 : ℚ) else 0) ≤ 1 / N := by
  have hpos : (0 : ℚ) ≤ 1 / N := by positivity
  rw [mean_prod]
  refine mean_le hpos fun salt => ?_
  rw [mean_prod]
  refine mean_le hpos fun r => ?_
  rw [mean_prod]
  refine le_trans (mean_mono fun d => ?_) (mean_used hN h)
  exact mean_const_le (by split <;> norm_num)

/-- The questions passed so far explain what is fixed. -/
def Explained (len : Nat) (signed : List (List UInt8)) (f : Fixed p k) (hist : List (GameQuestion p)) (ents : List (List (GameQuestion p) × GameQuestion p)) : Prop :=
  (∀ x y d, recall f.digests x = some d → recall f.digests y = some d → x = y) ∧
  (∀ y d, recall f.digests y = some d → recall f.numbers d ≠ none →
    OfSigned p len signed y ∨ ∃ h, (h, .inl (.inr d)) ∈ ents ∧ .inl (.inl y) ∈ h) ∧
  ∀ y, recall f.digests y ≠ none → OfSigned p len signed y ∨ .inl (.inl y) ∈ hist

/-- The result points to one of the questions. -/
def PointsToOne (ents : List (List (GameQuestion p) × GameQuestion p)) (r : Option (Forged p × Fixed p k)) : Prop := ∃ e ∈ ents, PointsTo e.1 e.2 r

theorem injective_cons {f : Fixed p k} {x : List UInt8} {d : Digest p} (h : ∀ x y d, recall f.digests x = some d → recall f.digests y = some d → x = y)
    (hd : ∀ y, recall f.digests y ≠ some d) :
    ∀ y z d', recall ((x, d) :: f.digests) y = some d' → recall ((x, d) :: f.digests) z = some d' → y = z := by
  intro y z d' hy hz
  by_cases ey : y = x <;> by_cases ez : z = x
  · rw [ey, ez]
  · rw [ey, recall_self] at hy
    cases hy
    rw [recall_ne _ _ ez] at hz
    exact absurd hz (hd z)
  · rw [ez, recall_self] at hz
    cases hz
    rw [recall_ne _ _ ey] at hy
    exact absurd hy (hd y)
  · rw [recall_ne _ _ ey] at hy
    rw [recall_ne _ _ ez] at hz
    exact h y z d' hy hz

open Classical in
theorem sim_points (hp : p.WF) {T : Simulator p R V} {len : Nat} (hlen : ∀ c, (∀ v, c = some v → Challenge p v) → ∀ r, (T.com c r).length = len)
    {N L : Nat} (hN : 0 < N) (hL : 2 * N * L ≤ 2 ^ (8 * p.hashLen)) {P : Forged p → Prop}
    (hP : ∀ o, P o → ∀ signed, OfSigned p len signed o.hashed → o.msg ∈ signed)
    (F : Asks (Inquiry p) (ReplyTo p k V) (Option (Forged p))) : ∀ q n signed (f : Fixed p k) hist ents, F.AtMost q →
      f.digests.length + q ≤ L → f.numbers.length + q ≤ L → Explained len signed f hist ents →
      (∀ o f', Outcome (simGame T n signed f F) (some (o, f')) → Drawn P o f') →
      avg Wins (simGame T n signed f F) ≤ avg (PointsToOne ents) (simGame T n signed f F) + pointed PointsTo hist (simGame T n signed f F) + q / N := by
  have hN0 : (0 : ℚ) < N := Nat.cast_pos.2 hN
  induction F with
  | done o =>
    intro q n signed f hist ents _ _ _ hu ho
    have hnn : (0 : ℚ) ≤ q / N := by positivity
    have h0 : pointed PointsTo hist (simGame T n signed f (.done o)) = 0 := rfl
    have : avg Wins (simGame T n signed f (.done o)) ≤ avg (PointsToOne ents) (simGame T n signed f (.done o)) := by
      refine avg_mono fun r hr hw => ?_
      obtain ⟨⟨o', f'⟩, rfl⟩ := Option.isSome_iff_exists.1 hw
      obtain ⟨hc, d, ws, h1, h2, h3⟩ := ho o' f' hr
      have hr : ((o.filter fun o => decide (o.msg ∉ signed)).map fun o => (o, f)) = some (o', f') := hr
      rw [Option.map_eq_some_iff] at hr
      obtain ⟨o'', e1, e2⟩ := hr
      cases e2
      have hns : o'.msg ∉ signed := by
        rw [Option.filter_eq_some_iff] at e1
        exact of_decide_eq_true e1.2
      rcases hu.2.1 _ d h1 (by rw [h2]; exact Option.some_ne_none _) with h4 | ⟨h, h4, h5⟩
      · exact absurd (hP _ hc signed h4) hns
      · exact ⟨_, h4, o', f, d, rfl, rfl, h1, h5, fun y _ hy => hu.1 _ _ _ hy h1⟩
    rw [h0]
    linarith
  | ask x next ih =>
    intro q n signed f hist ents hq h1 h2 hu ho
    obtain ⟨q, rfl⟩ : ∃ q', q = q' + 1 := by
      cases q with
      | zero => exact hq.elim
      | succ q => exact ⟨q, rfl⟩
    have hmore : (q : ℚ) / N ≤ ((q + 1 : Nat) : ℚ) / N := by
      apply div_le_div_of_nonneg_right _ hN0.le
      push_cast; linarith
    have hsum : (1 : ℚ) / N + q / N = ((q + 1 : Nat) : ℚ) / N := by
      push_cast
      ring
    have hq0 : (0 : ℚ) ≤ q / N := by positivity
    have hused : N * (Finset.univ.filter (UsedDigest f)).card ≤ Fintype.card (Digest p) := by
      rw [card_digest']
      refine (Nat.mul_le_mul_left _ ((card_usedDigest f).trans (show _ ≤ 2 * L by omega))).trans (le_trans (le_of_eq ?_) hL)
      ring
    rcases x with (x | d) | m
    · have ho : ∀ o f', Outcome (askDigest f x fun d f => simGame T n signed f (next d)) (some (o, f')) → Drawn P o f' := ho
      show avg Wins (askDigest f x fun d f => simGame T n signed f (next d)) ≤ avg (PointsToOne ents) (askDigest f x fun d f => simGame T n signed f (next d)) +
        pointed PointsTo hist (askDigest f x fun d f => simGame T n signed f (next d)) + _
      unfold askDigest at ho ⊢
      cases e : recall f.digests x with
      | some d =>
        rw [e] at ho
        dsimp only at ho ⊢
        linarith [ih d q n signed f hist ents (hq d) (by omega) (by omega) hu ho]
      | none =>
        rw [e] at ho
        dsimp only at ho ⊢
        show mean (A := Digest p) (fun d => avg Wins (simGame T n signed ⟨(x, d) :: f.digests, f.numbers⟩ (next d))) ≤
          mean (A := Digest p) (fun d => avg (PointsToOne ents) (simGame T n signed ⟨(x, d) :: f.digests, f.numbers⟩ (next d))) +
          mean (A := Digest p) (fun d => avg (PointsTo hist (.inl (.inl x))) (simGame T n signed ⟨(x, d) :: f.digests, f.numbers⟩ (next d)) +
            pointed PointsTo (.inl (.inl x) :: hist) (simGame T n signed ⟨(x, d) :: f.digests, f.numbers⟩ (next d))) + _
        rw [← hsum, ← mean_add]
        have hstep : ∀ d : Digest p, avg Wins (simGame T n signed ⟨(x, d) :: f.digests, f.numbers⟩ (next d)) ≤
            (avg (PointsToOne ents) (simGame T n signed ⟨(x, d) :: f.digests, f.numbers⟩ (next d)) +
            (avg (PointsTo hist (.inl (.inl x))) (simGame T n signed ⟨(x, d) :: f.digests, f.numbers⟩ (next d)) +
            pointed PointsTo (.inl (.inl x) :: hist) (simGame T n signed ⟨(x, d) :: f.digests, f.numbers⟩ (next d)))) +
            ((if UsedDigest f d then (1 : ℚ) else 0) + q / N) := by
          intro d
          have p1 := avg_nonneg (PointsToOne ents) (simGame T n signed ⟨(x, d) :: f.digests, f.numbers⟩ (next d))
          have p2 := avg_nonneg (PointsTo hist (.inl (.inl x))) (simGame T n signed ⟨(x, d) :: f.digests, f.numbers⟩ (next d))
          have p3 := pointed_nonneg (G := PointsTo) (simGame T n signed ⟨(x, d) :: f.digests, f.numbers⟩ (next d)) (.inl (.inl x) :: hist)
          by_cases hd : UsedDigest f d
          · rw [if_pos hd]
            linarith [avg_le_one Wins (simGame T n signed ⟨(x, d) :: f.digests, f.numbers⟩ (next d))]
          · rw [if_neg hd]
            have hd1 : recall f.numbers d = none := by
              by_contra hne
              exact hd (.inl hne)
            have hd2 : ∀ y, recall f.digests y ≠ some d := fun y hy => hd (.inr (List.mem_map.2 ⟨_, recall_mem hy, rfl⟩))
            have := ih d q n signed ⟨(x, d) :: f.digests, f.numbers⟩ (.inl (.inl x) :: hist) ents (hq d) (by rw [List.length_cons]; omega) (by dsimp only; omega)
              ⟨injective_cons hu.1 hd2, fun y d' hy hw => ?_, fun y hy => ?_⟩ fun o f' h => ho o f' ⟨d, h⟩
            · linarith
            · dsimp only at hy hw
              by_cases ey : y = x
              · rw [ey, recall_self] at hy
                cases hy
                exact absurd hd1 hw
              · rw [recall_ne _ _ ey] at hy
                exact hu.2.1 y d' hy hw
            · dsimp only at hy
              by_cases ey : y = x
              · rw [ey]
                exact .inr List.mem_cons_self
              · rw [recall_ne _ _ ey] at hy
                exact (hu.2.2 y hy).imp_right (List.mem_cons_of_mem _)
        refine (mean_mono hstep).trans ?_
        rw [mean_add, mean_add _ fun _ => (q : ℚ) / N]
        exact add_le_add le_rfl (add_le_add (mean_used hN hused) (mean_const_le hq0))
    · have ho : ∀ o f', Outcome (askNumbers f d fun d f => simGame T n signed f (next d)) (some (o, f')) → Drawn P o f' := ho
      show avg Wins (askNumbers f d fun d f => simGame T n signed f (next d)) ≤ avg (PointsToOne ents) (askNumbers f d fun d f => simGame T n signed f (next d)) +
        pointed PointsTo hist (askNumbers f d fun d f => simGame T n signed f (next d)) + _
      unfold askNumbers at ho ⊢
      cases e : recall f.numbers d with
      | some ws =>
        rw [e] at ho
        dsimp only at ho ⊢
        linarith [ih ws q n signed f hist ents (hq ws) (by omega) (by omega) hu ho]
      | none =>
        rw [e] at ho
        dsimp only at ho ⊢
        show mean (A := Words 16 k) (fun ws => avg Wins (simGame T n signed ⟨f.digests, (d, ws) :: f.numbers⟩ (next ws))) ≤
          mean (A := Words 16 k) (fun ws => avg (PointsToOne ents) (simGame T n signed ⟨f.digests, (d, ws) :: f.numbers⟩ (next ws))) +
          mean (A := Words 16 k) (fun ws => avg (PointsTo hist (.inl (.inr d))) (simGame T n signed ⟨f.digests, (d, ws) :: f.numbers⟩ (next ws)) +
            pointed PointsTo (.inl (.inr d) :: hist) (simGame T n signed ⟨f.digests, (d, ws) :: f.numbers⟩ (next ws))) + _
        rw [← mean_add]
        have hstep : ∀ ws : Words 16 k, avg Wins (simGame T n signed ⟨f.digests, (d, ws) :: f.numbers⟩ (next ws)) ≤
            (avg (PointsToOne ents) (simGame T n signed ⟨f.digests, (d, ws) :: f.numbers⟩ (next ws)) +
            (avg (PointsTo hist (.inl (.inr d))) (simGame T n signed ⟨f.digests, (d, ws) :: f.numbers⟩ (next ws)) +
            pointed PointsTo (.inl (.inr d) :: hist) (simGame T n signed ⟨f.digests, (d, ws) :: f.numbers⟩ (next ws)))) + q / N := by
          intro ws
          have h3 := ih ws q n signed ⟨f.digests, (d, ws) :: f.numbers⟩ (.inl (.inr d) :: hist) ((hist, .inl (.inr d)) :: ents) (hq ws) (by dsimp only; omega)
            (by rw [List.length_cons]; omega) ⟨hu.1, fun y d' hy hw => ?_, fun y hy => (hu.2.2 y hy).imp_right (List.mem_cons_of_mem _)⟩ fun o f' h => ho o f' ⟨ws, h⟩
          · have h4 : avg (PointsToOne ((hist, .inl (.inr d)) :: ents)) (simGame T n signed ⟨f.digests, (d, ws) :: f.numbers⟩ (next ws)) ≤
                avg (PointsTo hist (.inl (.inr d))) (simGame T n signed ⟨f.digests, (d, ws) :: f.numbers⟩ (next ws)) +
                avg (PointsToOne ents) (simGame T n signed ⟨f.digests, (d, ws) :: f.numbers⟩ (next ws)) := by
              refine le_trans (avg_mono fun r _ hr => ?_) (avg_or_le _ _ _)
              obtain ⟨e, he, hr⟩ := hr
              rcases List.mem_cons.1 he with rfl | he
              · exact .inl hr
              · exact .inr ⟨e, he, hr⟩
            linarith
          · dsimp only at hy hw
            by_cases ed : d' = d
            · rw [ed] at hy ⊢
              exact (hu.2.2 y (by rw [hy]; exact Option.some_ne_none _)).imp_right fun h => ⟨hist, List.mem_cons_self, h⟩
            · rw [recall_ne _ _ ed] at hw
              exact (hu.2.1 y d' hy hw).imp_right fun ⟨h, a, b⟩ => ⟨h, List.mem_cons_of_mem _ a, b⟩
        refine (mean_mono hstep).trans ?_
        rw [mean_add]
        exact add_le_add le_rfl ((mean_const_le hq0).trans hmore)
    · -- a signature
      let after : Coins p k R → Asks (GameQuestion p) (GameAnswer p k (Coins p k R)) (Option (Forged p × Fixed p k)) := fun r =>
        let (salt, r, d, ws) := r
        let x := T.com (challengeOf p ws) r ++ m ++ salt.toList
        if (recall f.digests x).isNone ∧ (recall f.numbers d).isNone then
          simGame T (n + 1) (m :: signed) (f.add x d ws) (next (⟨salt, d, T.view (challengeOf p ws) r⟩ : Shown p V))
        else .done none
      have ho : ∀ o f', (∃ r, Outcome (after r) (some (o, f'))) → Drawn P o f' := ho
      show mean (fun r => avg Wins (after r)) ≤ mean (fun r => avg (PointsToOne ents) (after r)) +
        mean (fun r => avg (PointsTo hist (.inr n)) (after r) + pointed PointsTo (.inr n :: hist) (after r)) + _
      rw [← hsum, ← mean_add]
      have hstep : ∀ r : Coins p k R, avg Wins (after r) ≤
          (avg (PointsToOne ents) (after r) + (avg (PointsTo hist (.inr n)) (after r) + pointed PointsTo (.inr n :: hist) (after r))) +
            ((if UsedDigest f r.2.2.1 then (1 : ℚ) else 0) + q / N) := by
        intro r
        have p1 := avg_nonneg (PointsToOne ents) (after r)
        have p2 := avg_nonneg (PointsTo hist (.inr n)) (after r)
        have p3 := pointed_nonneg (G := PointsTo) (after r) (.inr n :: hist)
        by_cases hd : UsedDigest f r.2.2.1
        · rw [if_pos hd]
          linarith [avg_le_one Wins (after r)]
        · rw [if_neg hd]
          have key : avg Wins (after r) ≤ avg (PointsToOne ents) (after r) + pointed PointsTo (.inr n :: hist) (after r) + q / N := by
            obtain ⟨salt, r, d, ws⟩ := r
            have ho' := fun o f' h => ho o f' ⟨(salt, r, d, ws), h⟩
            dsimp only at hd
            dsimp only [after] at ho' ⊢ p1 p3
            have hd2 : ∀ y, recall f.digests y ≠ some d := fun y hy => hd (.inr (List.mem_map.2 ⟨_, recall_mem hy, rfl⟩))
            split
            · rename_i hfree
              rw [if_pos hfree] at ho'
              refine ih _ q (n + 1) (m :: signed) _ (.inr n :: hist) ents (hq _) (by unfold Fixed.add; rw [List.length_cons]; omega)
                (by unfold Fixed.add; rw [List.length_cons]; omega) ⟨injective_cons hu.1 hd2, fun y d' hy hw => ?_, fun y hy => ?_⟩ ho'
              · unfold Fixed.add at hy hw
                dsimp only at hy hw
                by_cases ey : y = T.com (challengeOf p ws) r ++ m ++ salt.toList
                · exact .inl ⟨_, m, salt.toList, hlen _ (challengeOf_challenge hp ws) _, Vector.length_toList, List.mem_cons_self, ey⟩
                · rw [recall_ne _ _ ey] at hy
                  have ed : d' ≠ d := by
                    rintro rfl
                    exact hd2 y hy
                  rw [recall_ne _ _ ed] at hw
                  exact (hu.2.1 y d' hy hw).imp_left fun h => h.mono m
              · unfold Fixed.add at hy
                dsimp only at hy
                by_cases ey : y = T.com (challengeOf p ws) r ++ m ++ salt.toList
                · exact .inl ⟨_, m, salt.toList, hlen _ (challengeOf_challenge hp ws) _, Vector.length_toList, List.mem_cons_self, ey⟩
                · rw [recall_ne _ _ ey] at hy
                  exact (hu.2.2 y hy).imp (fun h => h.mono m) (List.mem_cons_of_mem _)
            · rename_i hfree
              rw [if_neg hfree] at p1 p3
              rw [avg_done_zero (by simp [Wins])]
              linarith
          linarith
      refine (mean_mono hstep).trans ?_
      rw [mean_add, mean_add _ fun _ => (q : ℚ) / N]
      exact add_le_add le_rfl (add_le_add (mean_used_coins hN hused) (mean_const_le hq0))

end LESS
