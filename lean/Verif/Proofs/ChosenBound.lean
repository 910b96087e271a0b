import Verif.Proofs.Chosen
/-!
# The two bounds

`hop`: a signer can be replaced by a simulator.  `sim_le`: an attacker who meets no claimed challenge loses.
-/
namespace LESS
open Spec Spec.Asks

variable {p : Params} {k : Nat} {R V : Type} [Fintype R]

open Classical in
theorem card_recalled {α β γ : Type} [DecidableEq α] [Fintype γ] (l : List (α × β)) (e : γ → α) (he : Function.Injective e) :
    (Finset.univ.filter fun c => recall l (e c) ≠ none).card ≤ l.length := by
  have h1 : ((Finset.univ.filter fun c => recall l (e c) ≠ none).image e) ⊆ (l.map Prod.fst).toFinset := by
    intro x hx
    obtain ⟨c, hc, rfl⟩ := Finset.mem_image.1 hx
    obtain ⟨b, hb⟩ := Option.ne_none_iff_exists'.1 (Finset.mem_filter.1 hc).2
    rw [List.mem_toFinset, List.mem_map]
    exact ⟨_, recall_mem hb, rfl⟩
  have h2 := Finset.card_le_card h1
  rw [Finset.card_image_of_injective _ he] at h2
  exact h2.trans ((List.toFinset_card_le _).trans (by rw [List.length_map]))

open Classical in
theorem mean_recalled {α β γ : Type} [DecidableEq α] [Fintype γ] (l : List (α × β)) (e : γ → α) (he : Function.Injective e) {N : Nat} (hN : 0 < N)
    (h : N * l.length ≤ Fintype.card γ) : mean (fun c => if recall l (e c) ≠ none then (1 : ℚ) else 0) ≤ 1 / N := by
  have := mean_bad (bad := fun c => recall l (e c) ≠ none) (f := fun c => if recall l (e c) ≠ none then (1 : ℚ) else 0) hN
    (b := 0) le_rfl ((Nat.mul_le_mul_left _ (card_recalled l e he)).trans h) (fun a => by split <;> norm_num)
    (fun a ha => by rw [if_neg ha])
  linarith

theorem digest_toList_inj (c : List UInt8) : Function.Injective fun s : Digest p => c ++ s.toList := by
  intro s t h
  exact Vector.toList_inj.1 (List.append_cancel_left h)

theorem card_digest' : Fintype.card (Digest p) = 2 ^ (8 * p.hashLen) := card_digest (p := p) 0 []

/-! ## From the signer to the simulator -/

/-- What is shown is as likely from the simulator as from the signer. -/
def Simulates (S : Signer p R V) (T : Simulator p R V) : Prop :=
  ∀ c : Option (Vector Nat p.T), (∀ v, c = some v → Challenge p v) → ∃ e : R ≃ R, ∀ r, S.com r = T.com c (e r) ∧ S.view c r = T.view c (e r)

theorem challengeOf_challenge (hp : p.WF) (ws : Words 16 k) : ∀ v, challengeOf p ws = some v → Challenge p v := by
  intro v h
  unfold challengeOf at h
  split at h
  · rename_i e
    cases h
    exact noChallenge_challenge hp e
  · cases h

theorem avg_askDigest {α C : Type} [Fintype C] (E : α → Prop) (f : Fixed p k) (x : List UInt8)
    (next : Digest p → Fixed p k → Asks (GameQuestion p) (GameAnswer p k C) α) :
    (∃ d, recall f.digests x = some d ∧ avg E (askDigest f x next) = avg E (next d f)) ∨
    (recall f.digests x = none ∧ avg E (askDigest f x next) = mean fun d => avg E (next d ⟨(x, d) :: f.digests, f.numbers⟩)) := by
  unfold askDigest
  cases e : recall f.digests x with
  | some d => exact .inl ⟨d, rfl, rfl⟩
  | none => exact .inr ⟨rfl, rfl⟩

theorem avg_askNumbers {α C : Type} [Fintype C] (E : α → Prop) (f : Fixed p k) (x : Digest p)
    (next : Words 16 k → Fixed p k → Asks (GameQuestion p) (GameAnswer p k C) α) :
    (∃ ws, recall f.numbers x = some ws ∧ avg E (askNumbers f x next) = avg E (next ws f)) ∨
    (recall f.numbers x = none ∧ avg E (askNumbers f x next) = mean fun ws => avg E (next ws ⟨f.digests, (x, ws) :: f.numbers⟩)) := by
  unfold askNumbers
  cases e : recall f.numbers x with
  | some d => exact .inl ⟨d, rfl, rfl⟩
  | none => exact .inr ⟨rfl, rfl⟩

/-- The attacker wins. -/
abbrev Wins {α : Type} (o : Option α) : Prop := o.isSome

theorem hop (hp : p.WF) {S : Signer p R V} {T : Simulator p R V} (hS : Simulates S T) {N L : Nat} (hN : 0 < N) (hL : 2 * N * L ≤ 2 ^ (8 * p.hashLen))
    (F : Asks (Inquiry p) (ReplyTo p k V) (Option (Forged p))) : ∀ q n signed (f : Fixed p k), F.AtMost q →
      f.digests.length + q ≤ L → f.numbers.length + q ≤ L →
      avg Wins (realMemo S n signed f F) ≤ avg Wins (simGame T n signed f F) + q / N := by
  have hN' : (0 : ℚ) < N := Nat.cast_pos.2 hN
  induction F with
  | done o =>
    intro q n signed f _ _ _
    have : avg Wins (realMemo S n signed f (.done o)) = avg Wins (simGame T n signed f (.done o)) := by
      unfold realMemo simGame avg Wins
      rw [Option.isSome_map]
    rw [this]
    have : (0 : ℚ) ≤ q / N := by positivity
    linarith
  | ask x next ih =>
    intro q n signed f hq h1 h2
    obtain ⟨q, rfl⟩ : ∃ q', q = q' + 1 := by
      cases q with
      | zero => exact hq.elim
      | succ q => exact ⟨q, rfl⟩
    have hmore : (q : ℚ) / N ≤ ((q + 1 : Nat) : ℚ) / N := by
      apply div_le_div_of_nonneg_right _ hN'.le
      push_cast; linarith
    rcases x with (x | d) | m
    · show avg Wins (askDigest f x fun d f => realMemo S n signed f (next d)) ≤ avg Wins (askDigest f x fun d f => simGame T n signed f (next d)) + _
      rcases avg_askDigest Wins f x (fun d f => realMemo S n signed f (next d)) with ⟨d, e, h⟩ | ⟨e, h⟩ <;>
        rcases avg_askDigest Wins f x (fun d f => simGame T n signed f (next d)) with ⟨d', e', h'⟩ | ⟨e', h'⟩ <;> rw [h, h']
      · rw [e] at e'; cases e'
        exact (ih d q n signed f (hq d) (by omega) (by omega)).trans (by linarith)
      · rw [e] at e'; cases e'
      · rw [e] at e'; cases e'
      · refine (mean_mono fun d : Digest p => ih d q n signed ⟨(x, d) :: f.digests, f.numbers⟩ (hq d)
          (by rw [List.length_cons]; omega) (by dsimp only; omega)).trans ?_
        rw [mean_add]
        refine add_le_add le_rfl ((mean_const_le (by positivity)).trans hmore)
    · show avg Wins (askNumbers f d fun ws f => realMemo S n signed f (next ws)) ≤ avg Wins (askNumbers f d fun ws f => simGame T n signed f (next ws)) + _
      rcases avg_askNumbers Wins f d (fun ws f => realMemo S n signed f (next ws)) with ⟨ws, e, h⟩ | ⟨e, h⟩ <;>
        rcases avg_askNumbers Wins f d (fun ws f => simGame T n signed f (next ws)) with ⟨ws', e', h'⟩ | ⟨e', h'⟩ <;> rw [h, h']
      · rw [e] at e'; cases e'
        exact (ih ws q n signed f (hq ws) (by omega) (by omega)).trans (by linarith)
      · rw [e] at e'; cases e'
      · rw [e] at e'; cases e'
      · refine (mean_mono fun ws : Words 16 k => ih ws q n signed ⟨f.digests, (d, ws) :: f.numbers⟩ (hq ws) (by dsimp only; omega)
          (by rw [List.length_cons]; omega)).trans ?_
        rw [mean_add]
        refine add_le_add le_rfl ((mean_const_le (by positivity)).trans hmore)
    · -- a signature
      let G : Digest p → List UInt8 → V → Digest p → Words 16 k → ℚ := fun salt c v d ws =>
        if (recall f.digests (c ++ m ++ salt.toList)).isNone ∧ (recall f.numbers d).isNone then
          avg Wins (realMemo S (n + 1) (m :: signed) (f.add (c ++ m ++ salt.toList) d ws) (next (⟨salt, d, v⟩ : Shown p V))) else 0
      let H : Digest p → List UInt8 → V → Digest p → Words 16 k → ℚ := fun salt c v d ws =>
        if (recall f.digests (c ++ m ++ salt.toList)).isNone ∧ (recall f.numbers d).isNone then
          avg Wins (simGame T (n + 1) (m :: signed) (f.add (c ++ m ++ salt.toList) d ws) (next (⟨salt, d, v⟩ : Shown p V))) else 0
      have hG0 : ∀ salt c v d ws, 0 ≤ G salt c v d ws := by
        intro salt c v d ws
        dsimp only [G]
        split
        · exact avg_nonneg _ _
        · exact le_rfl
      have hGH : ∀ salt c v d ws, G salt c v d ws ≤ H salt c v d ws + q / N := by
        intro salt c v d ws
        have hpos : (0 : ℚ) ≤ q / N := by positivity
        dsimp only [G, H]
        split
        · exact ih _ q (n + 1) (m :: signed) _ (hq _) (by unfold Fixed.add; rw [List.length_cons]; omega)
            (by unfold Fixed.add; rw [List.length_cons]; omega)
        · linarith
      have hreal : avg Wins (realMemo S n signed f (.ask (.inr m) next)) ≤
          (mean fun r : Digest p × R => (if recall f.digests ((S.com r.2 ++ m) ++ r.1.toList) ≠ none then (1 : ℚ) else 0)) +
          ((mean fun d : Digest p => (if recall f.numbers d ≠ none then (1 : ℚ) else 0)) +
          mean fun r : Digest p × R => mean fun d => mean fun ws => G r.1 (S.com r.2) (S.view (challengeOf p ws) r.2) d ws) := by
        have e1 : avg Wins (realMemo S n signed f (.ask (.inr m) next)) = mean fun r : Digest p × R => avg Wins
            (askDigest f (S.com r.2 ++ m ++ r.1.toList) fun d f => askNumbers f d fun ws f =>
              realMemo S (n + 1) (m :: signed) f (next (⟨r.1, d, S.view (challengeOf p ws) r.2⟩ : Shown p V))) := rfl
        rw [e1]
        have hstep : ∀ r : Digest p × R, avg Wins
            (askDigest f (S.com r.2 ++ m ++ r.1.toList) fun d f => askNumbers f d fun ws f =>
              realMemo S (n + 1) (m :: signed) f (next (⟨r.1, d, S.view (challengeOf p ws) r.2⟩ : Shown p V))) ≤
            (if recall f.digests ((S.com r.2 ++ m) ++ r.1.toList) ≠ none then (1 : ℚ) else 0) +
            ((mean fun d : Digest p => (if recall f.numbers d ≠ none then (1 : ℚ) else 0)) +
              mean fun d => mean fun ws => G r.1 (S.com r.2) (S.view (challengeOf p ws) r.2) d ws) := by
          intro r
          have hz : 0 ≤ mean fun d : Digest p => (if recall f.numbers d ≠ none then (1 : ℚ) else 0) :=
            mean_nonneg fun d => by split <;> norm_num
          have hz' : 0 ≤ mean fun d => mean fun ws => G r.1 (S.com r.2) (S.view (challengeOf p ws) r.2) d ws :=
            mean_nonneg fun d => mean_nonneg fun ws => hG0 _ _ _ _ _
          rcases avg_askDigest Wins f (S.com r.2 ++ m ++ r.1.toList) (fun d f => askNumbers f d fun ws f =>
              realMemo S (n + 1) (m :: signed) f (next (⟨r.1, d, S.view (challengeOf p ws) r.2⟩ : Shown p V))) with ⟨d, e, h⟩ | ⟨e, h⟩
          · rw [h, if_pos (by rw [e]; exact Option.some_ne_none _)]
            have := avg_le_one Wins (askNumbers f d fun ws f =>
              realMemo S (n + 1) (m :: signed) f (next (⟨r.1, d, S.view (challengeOf p ws) r.2⟩ : Shown p V)))
            linarith
          · rw [h, if_neg (by rw [e]; exact fun h => h rfl), zero_add, ← mean_add]
            refine mean_mono fun d => ?_
            rcases avg_askNumbers Wins ⟨(S.com r.2 ++ m ++ r.1.toList, d) :: f.digests, f.numbers⟩ d (fun ws f =>
              realMemo S (n + 1) (m :: signed) f (next (⟨r.1, d, S.view (challengeOf p ws) r.2⟩ : Shown p V))) with ⟨ws, e', h'⟩ | ⟨e', h'⟩
            · dsimp only at e'
              rw [h', if_pos (by rw [e']; exact Option.some_ne_none _)]
              refine (avg_le_one _ _).trans (le_add_of_nonneg_right (mean_nonneg fun ws => hG0 _ _ _ _ _))
            · dsimp only at e'
              rw [h', if_neg (by rw [e']; exact fun h => h rfl), zero_add]
              refine mean_mono fun ws => le_of_eq ?_
              dsimp only [G]
              rw [if_pos ⟨by rw [e]; rfl, by rw [e']; rfl⟩]
              rfl
        refine (mean_mono hstep).trans ?_
        rw [mean_add, mean_add]
        exact add_le_add le_rfl (add_le_add (mean_const_le (mean_nonneg fun d => by split <;> norm_num)) le_rfl)
      have hb1 : (mean fun r : Digest p × R => (if recall f.digests ((S.com r.2 ++ m) ++ r.1.toList) ≠ none then (1 : ℚ) else 0)) ≤ 1 / (2 * N : Nat) := by
        rw [mean_prod, mean_swap]
        refine mean_le (by positivity) fun r => ?_
        refine mean_recalled f.digests (fun s : Digest p => (S.com r ++ m) ++ s.toList) (digest_toList_inj _) (by omega) ?_
        rw [card_digest']
        exact (Nat.mul_le_mul_left _ (by omega)).trans hL
      have hb2 : (mean fun d : Digest p => (if recall f.numbers d ≠ none then (1 : ℚ) else 0)) ≤ 1 / (2 * N : Nat) := by
        refine mean_recalled f.numbers id Function.injective_id (by omega) ?_
        rw [card_digest']
        exact (Nat.mul_le_mul_left _ (by omega)).trans hL
      have hb3 : (mean fun r : Digest p × R => mean fun d => mean fun ws => G r.1 (S.com r.2) (S.view (challengeOf p ws) r.2) d ws) ≤
          (mean fun salt : Digest p => mean fun d : Digest p => mean fun ws : Words 16 k => mean fun r : R =>
            H salt (T.com (challengeOf p ws) r) (T.view (challengeOf p ws) r) d ws) + q / N := by
        rw [mean_prod]
        have hconst : ∀ {A : Type} [Fintype A] (u w : A → ℚ), (∀ a, u a ≤ w a + q / N) → mean u ≤ mean w + q / N := by
          intro A _ u w h
          refine (mean_mono h).trans ?_
          rw [mean_add]
          exact add_le_add le_rfl (mean_const_le (by positivity))
        refine hconst _ _ fun salt => ?_
        rw [mean_swap]
        refine hconst _ _ fun d => ?_
        rw [mean_swap]
        refine hconst _ _ fun ws => ?_
        obtain ⟨e, he⟩ := hS (challengeOf p ws) (challengeOf_challenge hp ws)
        rw [← mean_comp e fun r => H salt (T.com (challengeOf p ws) r) (T.view (challengeOf p ws) r) d ws]
        refine hconst _ _ fun r => ?_
        rw [(he r).1, (he r).2]
        exact hGH _ _ _ _ _
      have hsim : avg Wins (simGame T n signed f (.ask (.inr m) next)) =
          (mean fun salt : Digest p => mean fun d : Digest p => mean fun ws : Words 16 k => mean fun r : R =>
            H salt (T.com (challengeOf p ws) r) (T.view (challengeOf p ws) r) d ws) := by
        have e1 : avg Wins (simGame T n signed f (.ask (.inr m) next)) = mean fun r : Coins p k R =>
            H r.1 (T.com (challengeOf p r.2.2.2) r.2.1) (T.view (challengeOf p r.2.2.2) r.2.1) r.2.2.1 r.2.2.2 := by
          refine congrArg mean (funext fun r => ?_)
          obtain ⟨salt, r, d, ws⟩ := r
          dsimp only [H]
          split
          · rfl
          · unfold avg Wins
            simp
        rw [e1, mean_prod]
        refine congrArg mean (funext fun salt => ?_)
        rw [mean_prod]
        dsimp only
        have e2 : ∀ r : R, (mean fun b : Digest p × Words 16 k => H salt (T.com (challengeOf p b.2) r) (T.view (challengeOf p b.2) r) b.1 b.2) =
            mean fun d : Digest p => mean fun ws : Words 16 k => H salt (T.com (challengeOf p ws) r) (T.view (challengeOf p ws) r) d ws :=
          fun r => mean_prod _
        simp only [e2]
        rw [mean_swap]
        exact congrArg mean (funext fun d => mean_swap _)
      rw [hsim]
      have : (1 : ℚ) / (2 * N : Nat) + 1 / (2 * N : Nat) + q / N = ((q + 1 : Nat) : ℚ) / N := by
        push_cast
        field_simp
        ring
      linarith

/-! ## From the simulator to a guess -/

theorem challengeOf_ok {ws : Words 16 k} {v : Vector Nat p.T} (h : digestWords p ws.1 0 (noChallenge p) = .ok v) : challengeOf p ws = some v := by
  unfold challengeOf
  rw [h]

theorem avg_done_zero {Pt : Type} {Ans : Pt → Type} [∀ x, Fintype (Ans x)] {α : Type} {E : α → Prop} {a : α} (h : ¬E a) :
    avg E (Asks.done a : Asks Pt Ans α) = 0 := by
  unfold avg
  exact if_neg h

/-- The string is that of a signed message. -/
def OfSigned (p : Params) (len : Nat) (signed : List (List UInt8)) (x : List UInt8) : Prop :=
  ∃ c m s : List UInt8, c.length = len ∧ s.length = p.hashLen ∧ m ∈ signed ∧ x = c ++ m ++ s

theorem OfSigned.mono {len : Nat} {signed : List (List UInt8)} {x : List UInt8} (h : OfSigned p len signed x) (m : List UInt8) :
    OfSigned p len (m :: signed) x := by
  obtain ⟨c, m', s, h1, h2, h3, h4⟩ := h
  exact ⟨c, m', s, h1, h2, List.mem_cons_of_mem _ h3, h4⟩

/-- No digest is fixed for two strings, and no claim is met except for signed messages. -/
def Unmet (len : Nat) (claims : List UInt8 → Vector Nat p.T → Prop) (signed : List (List UInt8)) (f : Fixed p k) : Prop :=
  (∀ x y d, recall f.digests x = some d → recall f.digests y = some d → x = y) ∧
  ∀ x d ws v, recall f.digests x = some d → recall f.numbers d = some ws → challengeOf p ws = some v → claims x v → OfSigned p len signed x

/-- What is known of a result. -/
def Judged (len : Nat) (claims : List UInt8 → Vector Nat p.T → Prop) (o : Forged p) (f : Fixed p k) : Prop :=
  claims o.hashed o.challenge ∧ (∃ d ws, recall f.digests o.hashed = some d ∧ recall f.numbers d = some ws ∧ challengeOf p ws = some o.challenge) ∧
    ∀ signed, OfSigned p len signed o.hashed → o.msg ∈ signed

/-- A digest that was used. -/
def UsedDigest (f : Fixed p k) (d : Digest p) : Prop := recall f.numbers d ≠ none ∨ d ∈ f.digests.map Prod.snd

open Classical in
theorem card_usedDigest (f : Fixed p k) : (Finset.univ.filter (UsedDigest f)).card ≤ f.numbers.length + f.digests.length := by
  have : Finset.univ.filter (UsedDigest f) ⊆ (Finset.univ.filter fun d => recall f.numbers d ≠ none) ∪ (f.digests.map Prod.snd).toFinset := by
    intro d hd
    rw [Finset.mem_union, Finset.mem_filter, List.mem_toFinset]
    rcases (Finset.mem_filter.1 hd).2 with h | h
    · exact .inl ⟨Finset.mem_univ _, h⟩
    · exact .inr h
  refine (Finset.card_le_card this).trans ((Finset.card_union_le _ _).trans (Nat.add_le_add (card_recalled f.numbers id Function.injective_id) ?_))
  exact (List.toFinset_card_le _).trans (by rw [List.length_map])

theorem outcome_askDigest {α C : Type} {f : Fixed p k} {x : List UInt8} {next : Digest p → Fixed p k → Asks (GameQuestion p) (GameAnswer p k C) α}
    {b : α} (h : Outcome (askDigest f x next) b) : ∃ d f', recall f'.digests x = some d ∧ f'.numbers = f.numbers ∧ Outcome (next d f') b := by
  unfold askDigest at h
  split at h
  · rename_i d e
    exact ⟨d, f, e, rfl, h⟩
  · obtain ⟨d, h⟩ := h
    exact ⟨d, ⟨(x, d) :: f.digests, f.numbers⟩, recall_self _ _ _, rfl, h⟩

theorem outcome_askNumbers {α C : Type} {f : Fixed p k} {d : Digest p} {next : Words 16 k → Fixed p k → Asks (GameQuestion p) (GameAnswer p k C) α}
    {b : α} (h : Outcome (askNumbers f d next) b) : ∃ ws f', recall f'.numbers d = some ws ∧ f'.digests = f.digests ∧ Outcome (next ws f') b := by
  unfold askNumbers at h
  split at h
  · rename_i d e
    exact ⟨d, f, e, rfl, h⟩
  · obtain ⟨ws, h⟩ := h
    exact ⟨ws, ⟨f.digests, (d, ws) :: f.numbers⟩, recall_self _ _ _, rfl, h⟩

open Classical in
theorem sim_le (hp : p.WF) (hb : width (p.numKeypairs - 1) + width (p.T - 1) ≤ 16) {T : Simulator p R V} {len : Nat} (hlen : ∀ c, (∀ v, c = some v → Challenge p v) → ∀ r, (T.com c r).length = len)
    {claims : List UInt8 → Vector Nat p.T → Prop} (hclaims : ∀ x v v', claims x v → claims x v' → v = v') {N L : Nat} (hN : 0 < N)
    (hN' : N ≤ p.T.choose p.W * (p.numKeypairs - 1) ^ p.W) (hL : 2 * N * L ≤ 2 ^ (8 * p.hashLen))
    (F : Asks (Inquiry p) (ReplyTo p k V) (Option (Forged p))) : ∀ q n signed (f : Fixed p k), F.AtMost q →
      f.digests.length + q ≤ L → f.numbers.length + q ≤ L → Unmet len claims signed f →
      (∀ o f', Outcome (simGame T n signed f F) (some (o, f')) → Judged len claims o f') →
      avg Wins (simGame T n signed f F) ≤ q / N := by
  have hN0 : (0 : ℚ) < N := Nat.cast_pos.2 hN
  induction F with
  | done o =>
    intro q n signed f _ _ _ hu ho
    have hnn : (0 : ℚ) ≤ q / N := by positivity
    have : avg Wins (simGame T n signed f (.done o)) = 0 := by
      refine avg_done_zero fun hw => ?_
      obtain ⟨⟨o', f'⟩, e⟩ := Option.isSome_iff_exists.1 hw
      obtain ⟨hc, ⟨d, ws, h1, h2, h3⟩, h4⟩ := ho o' f' e
      rw [Option.map_eq_some_iff] at e
      obtain ⟨o'', e1, e2⟩ := e
      cases e2
      have hns : o'.msg ∉ signed := by
        rw [Option.filter_eq_some_iff] at e1
        exact of_decide_eq_true e1.2
      exact hns (h4 signed (hu.2 _ d ws _ h1 h2 h3 hc))
    rw [this]
    exact hnn
  | ask x next ih =>
    intro q n signed f hq h1 h2 hu ho
    obtain ⟨q, rfl⟩ : ∃ q', q = q' + 1 := by
      cases q with
      | zero => exact hq.elim
      | succ q => exact ⟨q, rfl⟩
    have hmore : (q : ℚ) / N ≤ ((q + 1 : Nat) : ℚ) / N := by
      apply div_le_div_of_nonneg_right _ hN0.le
      push_cast; linarith
    have hsum : (1 : ℚ) / N + q / N = ((q + 1 : Nat) : ℚ) / N := by
      push_cast
      ring
    have hq0 : (0 : ℚ) ≤ q / N := by positivity
    have hused : N * (Finset.univ.filter (UsedDigest f)).card ≤ Fintype.card (Digest p) := by
      rw [card_digest']
      refine (Nat.mul_le_mul_left _ ((card_usedDigest f).trans (show _ ≤ 2 * L by omega))).trans (le_trans (le_of_eq ?_) hL)
      ring
    rcases x with (x | d) | m
    · show avg Wins (askDigest f x fun d f => simGame T n signed f (next d)) ≤ _
      rcases avg_askDigest Wins f x (fun d f => simGame T n signed f (next d)) with ⟨d, e, h⟩ | ⟨e, h⟩ <;> rw [h]
      · refine (ih d q n signed f (hq d) (by omega) (by omega) hu fun o f' hout => ho o f' ?_).trans hmore
        show Outcome (askDigest f x fun d f => simGame T n signed f (next d)) _
        unfold askDigest
        rw [e]
        exact hout
      · rw [← hsum]
        refine mean_bad (bad := UsedDigest f) hN hq0 hused (fun d => avg_le_one _ _) fun d hd => ?_
        have hd1 : recall f.numbers d = none := by
          by_contra hne
          exact hd (.inl hne)
        have hd2 : ∀ y, recall f.digests y ≠ some d := fun y hy => hd (.inr (List.mem_map.2 ⟨_, recall_mem hy, rfl⟩))
        refine ih d q n signed ⟨(x, d) :: f.digests, f.numbers⟩ (hq d) (by rw [List.length_cons]; omega) (by dsimp only; omega) ⟨?_, ?_⟩ fun o f' hout => ho o f' ?_
        · intro y z d' hy hz
          dsimp only at hy hz
          by_cases ey : y = x <;> by_cases ez : z = x
          · rw [ey, ez]
          · rw [ey, recall_self] at hy
            cases hy
            rw [recall_ne _ _ ez] at hz
            exact absurd hz (hd2 z)
          · rw [ez, recall_self] at hz
            cases hz
            rw [recall_ne _ _ ey] at hy
            exact absurd hy (hd2 y)
          · rw [recall_ne _ _ ey] at hy
            rw [recall_ne _ _ ez] at hz
            exact hu.1 y z d' hy hz
        · intro y d' ws v hy hw hv hc
          dsimp only at hy hw
          by_cases ey : y = x
          · rw [ey, recall_self] at hy
            cases hy
            rw [hd1] at hw
            cases hw
          · rw [recall_ne _ _ ey] at hy
            exact hu.2 y d' ws v hy hw hv hc
        · show Outcome (askDigest f x fun d f => simGame T n signed f (next d)) _
          unfold askDigest
          rw [e]
          exact ⟨d, hout⟩
    · show avg Wins (askNumbers f d fun ws f => simGame T n signed f (next ws)) ≤ _
      rcases avg_askNumbers Wins f d (fun ws f => simGame T n signed f (next ws)) with ⟨ws, e, h⟩ | ⟨e, h⟩ <;> rw [h]
      · refine (ih ws q n signed f (hq ws) (by omega) (by omega) hu fun o f' hout => ho o f' ?_).trans hmore
        show Outcome (askNumbers f d fun ws f => simGame T n signed f (next ws)) _
        unfold askNumbers
        rw [e]
        exact hout
      · rw [← hsum]
        refine mean_bad (bad := fun ws : Words 16 k => ∃ x v, recall f.digests x = some d ∧ claims x v ∧ challengeOf p ws = some v) hN hq0 ?_
          (fun ws => avg_le_one _ _) fun ws hw => ?_
        · by_cases hex : ∃ x v, recall f.digests x = some d ∧ claims x v
          · obtain ⟨x, v, hx, hv⟩ := hex
            have hg := guess_le hp hb k v
            rw [← card_words 16 k] at hg
            have hcw : Nat.card (Words 16 k) = Fintype.card (Words 16 k) := Nat.card_eq_fintype_card
            rw [← hcw]
            refine le_trans (Nat.mul_le_mul_left _ ?_) ((Nat.mul_le_mul_right _ hN').trans hg)
            rw [← Fintype.card_subtype, ← Nat.card_eq_fintype_card]
            refine Nat.card_le_card_of_injective (fun a => ⟨a.1, ?_⟩) ?_
            · obtain ⟨x', v', h3, h4, h5⟩ := a.2
              obtain rfl := hu.1 _ _ _ hx h3
              rw [hclaims _ _ _ hv h4]
              unfold challengeOf at h5
              split at h5
              · rename_i e'
                cases h5
                exact e'
              · cases h5
            · intro a b h
              exact Subtype.ext (congrArg (fun z => z.1) h)
          · rw [Finset.filter_eq_empty_iff.2]
            · rw [Finset.card_empty, Nat.mul_zero]
              exact Nat.zero_le _
            · rintro ws - ⟨x, v, h3, h4, -⟩
              exact hex ⟨x, v, h3, h4⟩
        · refine ih ws q n signed ⟨f.digests, (d, ws) :: f.numbers⟩ (hq ws) (by dsimp only; omega) (by rw [List.length_cons]; omega) ⟨hu.1, ?_⟩ fun o f' hout => ho o f' ?_
          · intro y d' ws' v hy hw' hv hc
            dsimp only at hy hw'
            by_cases ed : d' = d
            · rw [ed, recall_self] at hw'
              cases hw'
              rw [ed] at hy
              exact absurd ⟨y, v, hy, hc, hv⟩ hw
            · rw [recall_ne _ _ ed] at hw'
              exact hu.2 y d' ws' v hy hw' hv hc
          · show Outcome (askNumbers f d fun ws f => simGame T n signed f (next ws)) _
            unfold askNumbers
            rw [e]
            exact ⟨ws, hout⟩
    · -- a signature
      have hs : avg Wins (simGame T n signed f (.ask (.inr m) next)) = mean fun r : Coins p k R => avg Wins
          (let (salt, r, d, ws) := r
          let x := T.com (challengeOf p ws) r ++ m ++ salt.toList
          if (recall f.digests x).isNone ∧ (recall f.numbers d).isNone then
            simGame T (n + 1) (m :: signed) (f.add x d ws) (next (⟨salt, d, T.view (challengeOf p ws) r⟩ : Shown p V))
          else .done none) := rfl
      rw [hs, mean_prod]
      have hpos : (0 : ℚ) ≤ ((q + 1 : Nat) : ℚ) / N := by positivity
      refine mean_le hpos fun salt => ?_
      rw [mean_prod]
      refine mean_le hpos fun r => ?_
      rw [mean_prod, ← hsum]
      refine mean_bad (bad := UsedDigest f) hN hq0 hused (fun d => mean_le zero_le_one fun ws => avg_le_one _ _) fun d hd => mean_le hq0 fun ws => ?_
      dsimp only
      split
      · rename_i hfree
        have hd2 : ∀ y, recall f.digests y ≠ some d := fun y hy => hd (.inr (List.mem_map.2 ⟨_, recall_mem hy, rfl⟩))
        refine ih _ q (n + 1) (m :: signed) _ (hq _) (by unfold Fixed.add; rw [List.length_cons]; omega) (by unfold Fixed.add; rw [List.length_cons]; omega)
          ⟨?_, ?_⟩ fun o f' hout => ho o f' ?_
        · intro y z d' hy hz
          unfold Fixed.add at hy hz
          dsimp only at hy hz
          generalize hx : T.com (challengeOf p ws) r ++ m ++ salt.toList = x at *
          by_cases ey : y = x <;> by_cases ez : z = x
          · rw [ey, ez]
          · rw [ey, recall_self] at hy
            cases hy
            rw [recall_ne _ _ ez] at hz
            exact absurd hz (hd2 z)
          · rw [ez, recall_self] at hz
            cases hz
            rw [recall_ne _ _ ey] at hy
            exact absurd hy (hd2 y)
          · rw [recall_ne _ _ ey] at hy
            rw [recall_ne _ _ ez] at hz
            exact hu.1 y z d' hy hz
        · intro y d' ws' v hy hw hv hc
          unfold Fixed.add at hy hw
          dsimp only at hy hw
          by_cases ey : y = T.com (challengeOf p ws) r ++ m ++ salt.toList
          · exact ⟨_, m, salt.toList, hlen _ (challengeOf_challenge hp ws) _, Vector.length_toList, List.mem_cons_self, ey⟩
          · rw [recall_ne _ _ ey] at hy
            have ed : d' ≠ d := by
              rintro rfl
              exact hd2 y hy
            rw [recall_ne _ _ ed] at hw
            exact (hu.2 y d' ws' v hy hw hv hc).mono m
        · refine ⟨((salt, r, d, ws) : Coins p k R), ?_⟩
          dsimp only
          rw [if_pos hfree]
          exact hout
      · rw [avg_done_zero (by simp [Wins])]
        exact hq0

/-! ## The verifier in the game -/

omit [Fintype R] in
theorem outcome_judge {B : Nat} {pk : PK p} (T : Simulator p R V) {n : Nat} {signed : List (List UInt8)} {f : Fixed p k}
    {out : List UInt8 × Sig p} {o : Forged p} {f' : Fixed p k}
    (h : Outcome (simGame T n signed f (withoutSigner (V := V) (judge p B k pk out))) (some (o, f'))) :
    o.sig.salt.length = p.hashLen ∧ (∀ i < p.T, RoundCommit p B pk o.sig (g o.challenge) i (o.coms i)) ∧
    ∃ d ws, recall f'.digests o.hashed = some d ∧ recall f'.numbers d = some ws ∧ challengeOf p ws = some o.challenge := by
  unfold judge at h
  split at h
  · rename_i hlen
    obtain ⟨ws, f1, hw, hf1, h⟩ := outcome_askNumbers h
    dsimp only at h
    split at h
    · rename_i hex
      obtain ⟨d, f2, hd, hf2, h⟩ := outcome_askDigest h
      have e : ((if d.toList = out.2.digest then some hex.choose else none).filter fun o => decide (o.msg ∉ signed)).map
          (fun o => (o, f2)) = some (o, f') := h
      rw [Option.map_eq_some_iff] at e
      obtain ⟨o', e1, e2⟩ := e
      cases e2
      rw [Option.filter_eq_some_iff] at e1
      obtain ⟨e1, -⟩ := e1
      split at e1
      · rename_i hde
        cases e1
        obtain ⟨s1, s2, s3, s4⟩ := hex.choose_spec
        refine ⟨by rw [s2]; exact hlen.2, s4, d, ws, hd, ?_, ?_⟩
        · rw [hf2, ← hw]
          congr 1
          rw [← hde]
          exact (toVec_of_toList d).symm
        · exact challengeOf_ok s3
      · cases e1
    · cases h
  · cases h

omit [Fintype R] in
theorem outcome_chosen {B : Nat} {pk : PK p} (T : Simulator p R V) (A : Attacker p k V) : ∀ {n : Nat} {signed : List (List UInt8)} {f : Fixed p k}
    {o : Forged p} {f' : Fixed p k}, Outcome (simGame T n signed f (chosen B pk A)) (some (o, f')) →
    o.sig.salt.length = p.hashLen ∧ (∀ i < p.T, RoundCommit p B pk o.sig (g o.challenge) i (o.coms i)) ∧
    ∃ d ws, recall f'.digests o.hashed = some d ∧ recall f'.numbers d = some ws ∧ challengeOf p ws = some o.challenge := by
  induction A with
  | done out => exact fun h => outcome_judge T h
  | ask x next ih =>
    intro n signed f o f' h
    rcases x with (x | d) | m
    · obtain ⟨d, f1, -, -, h⟩ := outcome_askDigest h
      exact ih d h
    · obtain ⟨ws, f1, -, -, h⟩ := outcome_askNumbers h
      exact ih ws h
    · obtain ⟨⟨salt, r, d, ws⟩, h⟩ := h
      dsimp only at h
      split at h
      · exact ih _ h
      · cases h

omit [Fintype R] in
theorem atMost_withoutSigner {α : Type} {c : Asks (Question p) (AnswerTo p k) α} : ∀ {q : Nat}, c.AtMost q → (withoutSigner (V := V) c).AtMost q := by
  induction c with
  | done a => intro q _; cases q <;> trivial
  | ask x next ih =>
    intro q h
    cases q with
    | zero => exact h.elim
    | succ q => exact fun a => ih a (h a)

theorem atMost_chosen {B q : Nat} {pk : PK p} {A : Attacker p k V} (h : A.AtMost q) : (chosen B pk A).AtMost (q + 2) :=
  atMost_bind h fun out => atMost_withoutSigner (judge_atMost B k pk out)

/-- The bytes of the commitments of all rounds. -/
theorem commitments_length {coms : Nat → List (List Nat)} (h : ∀ i < p.T, (commitBytes p.K (coms i)).length = p.K * (p.N - p.K)) :
    ((List.range p.T).flatMap fun i => commitBytes p.K (coms i)).length = p.T * (p.K * (p.N - p.K)) := by
  rw [List.length_flatMap, List.map_congr_left fun i hi => h i (List.mem_range.1 hi)]
  simp

theorem chosen_forks (hp : p.WF) (hb : width (p.numKeypairs - 1) + width (p.T - 1) ≤ 16) {S : Signer p R V} {T : Simulator p R V}
    (hS : Simulates S T) (hlen : ∀ r, (S.com r).length = p.T * (p.K * (p.N - p.K))) {N : Nat} (hN0 : 0 < N)
    (hN : N ≤ p.T.choose p.W * (p.numKeypairs - 1) ^ p.W) (hN2 : N * N ≤ 2 ^ (8 * p.hashLen)) {B q : Nat} {pk : PK p}
    {G0 : Matrix (Fin p.K) (Fin p.N) (ZMod 127)} (hG : IsG0 p B (xof p pk.seed) G0) (A : Attacker p k V) (hA : A.AtMost q)
    {X : Finset (GameQuestion p)} (hX : (realGame S 0 [] (chosen B pk A)).Within X) (base : ∀ x, GameAnswer p k (Digest p × R) x)
    (hwin : 2 * (q + 2) * Nat.card (∀ x : {x // x ∈ X}, GameAnswer p k (Digest p × R) x.1) <
      N * Nat.card {t : ∀ x : {x // x ∈ X}, GameAnswer p k (Digest p × R) x.1 // ((realGame S 0 [] (chosen B pk A)).run (table base t)).isSome}) :
    ∃ (O O' : ∀ x, GameAnswer p k (Coins p k R) x) (o o' : Forged p) (f f' : Fixed p k),
      (simGame T 0 [] ⟨[], []⟩ (chosen B pk A)).run O = some (o, f) ∧ (simGame T 0 [] ⟨[], []⟩ (chosen B pk A)).run O' = some (o', f') ∧
      Forks B pk G0 o o' := by
  classical
  let claims : List UInt8 → Vector Nat p.T → Prop := fun x v =>
    ∃ (o : Forged p) (f : Fixed p k), Outcome (simGame T 0 [] ⟨[], []⟩ (chosen B pk A)) (some (o, f)) ∧ o.hashed = x ∧ o.challenge = v
  have hshape : ∀ {o : Forged p}, (∀ i < p.T, RoundCommit p B pk o.sig (g o.challenge) i (o.coms i)) →
      ∀ i < p.T, ∃ A : Matrix (Fin p.K) (Fin p.N) (ZMod 127), IsCommit A (o.coms i) := fun h i hi =>
    ⟨_, (RoundCommit.answer hp (h i hi) hG).choose_spec.2.2⟩
  by_cases hfork : ∃ x v v', claims x v ∧ claims x v' ∧ v ≠ v'
  · obtain ⟨x, v, v', ⟨o, f, ho, hx, rfl⟩, ⟨o', f', ho', hx', rfl⟩, hne⟩ := hfork
    obtain ⟨a1, a2, -⟩ := outcome_chosen T A ho
    obtain ⟨b1, b2, -⟩ := outcome_chosen T A ho'
    obtain ⟨ec, em, es⟩ := transcript_inj (hshape a2) (hshape b2) (a1.trans b1.symm) (hx.trans hx'.symm)
    have : ∃ i < p.T, g o.challenge i ≠ g o'.challenge i := by
      by_contra hc
      push Not at hc
      exact hne (vec_ext hc)
    obtain ⟨i, hi, hd⟩ := this
    obtain ⟨x, hx1, hx2, hx3⟩ := RoundCommit.answer hp (a2 i hi) hG
    obtain ⟨y, hy1, hy2, hy3⟩ := RoundCommit.answer hp (b2 i hi) hG
    rw [← ec i hi] at hy3
    let d0 : Digest p := Vector.replicate _ 0
    let base' : ∀ x, GameAnswer p k (Coins p k R) x := fun x => match x with
      | .inl x => (base (.inl x) : AnswerTo p k x)
      | .inr n => ((d0, (base (.inr n) : Digest p × R).2, d0, (base (.inl (.inr d0)) : Words 16 k)) : Coins p k R)
    have hnr := noRepeat_simGame (k := k) T (chosen B pk A) 0 [] ⟨[], []⟩ [] ⟨by simp, by simp, by simp⟩
    obtain ⟨O, hO⟩ := outcome_run base' hnr ho
    obtain ⟨O', hO'⟩ := outcome_run base' hnr ho'
    exact ⟨O, O', o, o', f, f', hO, hO', em, es, ec, i, hi, hd, x, y, hx1, hy1, C12_extract hp hx2 hy2 hx3 hy3⟩
  · exfalso
    have hclaims : ∀ x v v', claims x v → claims x v' → v = v' := by
      intro x v v' h h'
      by_contra hne
      exact hfork ⟨x, v, v', h, h', hne⟩
    refine absurd hwin (Nat.not_lt.2 ?_)
    by_cases hL : N < 2 * (q + 2)
    · exact Nat.mul_le_mul hL.le (Nat.card_le_card_of_injective _ Subtype.val_injective)
    · have hL2 : 2 * N * (q + 2) ≤ 2 ^ (8 * p.hashLen) :=
        le_trans (le_trans (le_of_eq (by ring)) (Nat.mul_le_mul_left N (Nat.not_lt.1 hL))) hN2
      have hq := atMost_chosen (B := B) (pk := pk) hA
      have h1 := hop hp hS hN0 hL2 (chosen B pk A) (q + 2) 0 [] ⟨[], []⟩ hq (by simp) (by simp)
      have hlen' : ∀ c, (∀ v, c = some v → Challenge p v) → ∀ r, (T.com c r).length = p.T * (p.K * (p.N - p.K)) := by
        intro c hc r
        obtain ⟨e, he⟩ := hS c hc
        rw [← hlen (e.symm r), (he (e.symm r)).1, Equiv.apply_symm_apply]
      have h2 := sim_le hp hb hlen' hclaims hN0 hN hL2 (chosen B pk A) (q + 2) 0 [] ⟨[], []⟩ hq (by simp) (by simp) ⟨by simp [recall], by simp [recall]⟩
        (fun o f' ho => by
          obtain ⟨a1, a2, a3⟩ := outcome_chosen T A ho
          refine ⟨⟨o, f', ho, rfl, rfl⟩, a3, fun signed ⟨c, m, s, e1, e2, e3, e4⟩ => ?_⟩
          unfold Forged.hashed transcript at e4
          obtain ⟨e5, e6⟩ := List.append_inj' e4 (a1.trans e2.symm)
          have hl := commitments_length (fun i hi => by
            obtain ⟨A, hA⟩ := hshape a2 i hi
            exact commitBytes_length hA.shape.1)
          obtain ⟨e7, e8⟩ := List.append_inj e5 (hl.trans e1.symm)
          rw [e8]
          exact e3)
      have hcard := card_avg (base := base) Wins (noRepeat_realMemo (k := k) S (chosen B pk A) 0 [] ⟨[], []⟩ [] ⟨by simp, by simp, by simp⟩)
        (within_realMemo S (chosen B pk A) 0 [] ⟨[], []⟩ hX)
      have hrun : ∀ t : ∀ x : {x // x ∈ X}, GameAnswer p k (Digest p × R) x.1,
          (realMemo S 0 [] ⟨[], []⟩ (chosen B pk A)).run (table base t) = (realGame S 0 [] (chosen B pk A)).run (table base t) :=
        fun t => run_realMemo S (chosen B pk A) 0 [] ⟨[], []⟩ ⟨by simp [recall], by simp [recall]⟩
      simp only [hrun] at hcard
      have hN0' : (0 : ℚ) < N := Nat.cast_pos.2 hN0
      have h3 : avg Wins (realMemo S 0 [] ⟨[], []⟩ (chosen B pk A)) * N ≤ 2 * (q + 2) := by
        have : avg Wins (realMemo S 0 [] ⟨[], []⟩ (chosen B pk A)) ≤ (2 * (q + 2)) / N := by
          refine (h1.trans (add_le_add_left h2 _)).trans (le_of_eq ?_)
          push_cast
          ring
        exact (le_div_iff₀ hN0').1 this
      have h4 : (N : ℚ) * Nat.card {t : ∀ x : {x // x ∈ X}, GameAnswer p k (Digest p × R) x.1 // ((realGame S 0 [] (chosen B pk A)).run (table base t)).isSome} ≤
          2 * (q + 2) * Nat.card (∀ x : {x // x ∈ X}, GameAnswer p k (Digest p × R) x.1) := by
        have : (Nat.card {t : ∀ x : {x // x ∈ X}, GameAnswer p k (Digest p × R) x.1 // ((realGame S 0 [] (chosen B pk A)).run (table base t)).isSome} : ℚ) = _ := hcard
        rw [this, ← mul_assoc, mul_comm (N : ℚ)]
        exact mul_le_mul_of_nonneg_right h3 (Nat.cast_nonneg _)
      exact_mod_cast h4

end LESS
