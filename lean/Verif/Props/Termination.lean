import Verif.Props.Challenges
/-!
# The rejection loops finish (C64)

A rejection loop ends only if the generator delivers enough acceptable numbers.  Over all sequences of `k` words, the
sequences on which it is not finished get rarer exponentially with `k`.
-/
namespace LESS

open Spec

variable {p : Params}

theorem card_cons_le (b k : Nat) (P : List Nat → Prop) :
    Nat.card {ws : Words b (k + 1) // P ws.1} ≤ ∑ w : Fin (2 ^ b), Nat.card {ws : Words b k // P (w.val :: ws.1)} := by
  rw [← Nat.card_sigma]
  have key : ∀ x : Words b (k + 1), x.1 ≠ [] := fun x h => by have := x.2.1; rw [h] at this; simp at this
  refine Nat.card_le_card_of_injective (fun x => ⟨⟨x.1.1.head (key x.1), x.1.2.2 _ (List.head_mem _)⟩,
    ⟨⟨x.1.1.tail, by rw [List.length_tail, x.1.2.1]; rfl, fun w hw => x.1.2.2 w (List.mem_of_mem_tail hw)⟩, by
      dsimp only; rw [List.cons_head_tail]; exact x.2⟩⟩) ?_
  intro x y h
  apply Subtype.ext
  apply Subtype.ext
  have e := congrArg (fun z : (Σ w : Fin (2 ^ b), {ws : Words b k // P (w.val :: ws.1)}) => z.1.val :: z.2.1.1) h
  dsimp only at e
  rwa [List.cons_head_tail, List.cons_head_tail] at e

/-- A loop that reads one word per step and needs `rem` successes, each step succeeding for at least `G` words. -/
theorem progress_bound {σ : Type} (b G : Nat) (Inv : σ → Prop) (step : σ → Nat → σ) (rem : σ → Nat) (Fail : σ → List Nat → Prop)
    (hinv : ∀ s w, Inv s → Inv (step s w)) (hstep : ∀ s w ws, Inv s → Fail s (w :: ws) → Fail (step s w) ws)
    (hmono : ∀ s w, Inv s → rem (step s w) ≤ rem s) (hfail : ∀ s ws, Inv s → Fail s ws → 0 < rem s)
    (hgood : ∀ s, Inv s → 0 < rem s → G ≤ (Finset.univ.filter fun w : Fin (2 ^ b) => rem (step s w) < rem s).card)
    (k : Nat) : ∀ s, Inv s → 2 ^ k * Nat.card {ws : Words b k // Fail s ws.1} ≤ 2 ^ rem s * (2 * 2 ^ b - G) ^ k := by
  induction k with
  | zero =>
    intro s _
    have h1 : Nat.card {ws : Words b 0 // Fail s ws.1} ≤ Nat.card (Words b 0) := Nat.card_le_card_of_injective _ Subtype.val_injective
    rw [card_words, Nat.pow_zero] at h1
    have := Nat.two_pow_pos (rem s)
    simp only [Nat.pow_zero, Nat.one_mul, Nat.mul_one]
    omega
  | succ k ih =>
    intro s hs
    by_cases hr : 0 < rem s
    · have h1 := card_cons_le b k (Fail s)
      have h2 : ∀ w : Fin (2 ^ b), 2 * (2 ^ k * Nat.card {ws : Words b k // Fail s (w.val :: ws.1)}) ≤
          (if rem (step s w) < rem s then 1 else 2) * (2 ^ rem s * (2 * 2 ^ b - G) ^ k) := by
        intro w
        have h3 : Nat.card {ws : Words b k // Fail s (w.val :: ws.1)} ≤ Nat.card {ws : Words b k // Fail (step s w) ws.1} :=
          Nat.card_le_card_of_injective (fun x => ⟨x.1, hstep s w _ hs x.2⟩) fun x y h => Subtype.ext (congrArg (fun z => z.1) h)
        have h4 := ih (step s w) (hinv s w hs)
        have h5 := Nat.mul_le_mul_left 2 ((Nat.mul_le_mul_left (2 ^ k) h3).trans h4)
        refine h5.trans ?_
        rw [← Nat.mul_assoc, ← Nat.mul_assoc]
        refine Nat.mul_le_mul_right _ ?_
        by_cases hlt : rem (step s w) < rem s
        · rw [if_pos hlt, Nat.one_mul, ← Nat.pow_succ']
          exact Nat.pow_le_pow_right (by decide) hlt
        · rw [if_neg hlt]
          exact Nat.mul_le_mul_left _ (Nat.pow_le_pow_right (by decide) (hmono s w hs))
      have h6 : ∑ w : Fin (2 ^ b), (if rem (step s w) < rem s then 1 else 2) ≤ 2 * 2 ^ b - G := by
        have e : ∀ w : Fin (2 ^ b), (if rem (step s w) < rem s then 1 else 2) + (if rem (step s w) < rem s then 1 else 0) = 2 := by
          intro w; split <;> rfl
        have e2 : ∑ w : Fin (2 ^ b), (if rem (step s w) < rem s then 1 else 2) +
            ∑ w : Fin (2 ^ b), (if rem (step s w) < rem s then 1 else 0) = 2 * 2 ^ b := by
          rw [← Finset.sum_add_distrib, Finset.sum_congr rfl (fun w _ => e w), Finset.sum_const, Finset.card_univ, Fintype.card_fin,
            smul_eq_mul, Nat.mul_comm]
        rw [← Finset.card_filter] at e2
        have := hgood s hs hr
        omega
      calc 2 ^ (k + 1) * Nat.card {ws : Words b (k + 1) // Fail s ws.1}
          ≤ 2 ^ (k + 1) * ∑ w : Fin (2 ^ b), Nat.card {ws : Words b k // Fail s (w.val :: ws.1)} := Nat.mul_le_mul_left _ h1
        _ = ∑ w : Fin (2 ^ b), 2 * (2 ^ k * Nat.card {ws : Words b k // Fail s (w.val :: ws.1)}) := by
            rw [Finset.mul_sum]
            refine Finset.sum_congr rfl fun w _ => ?_
            rw [Nat.pow_succ]; ring
        _ ≤ ∑ w : Fin (2 ^ b), (if rem (step s w) < rem s then 1 else 2) * (2 ^ rem s * (2 * 2 ^ b - G) ^ k) :=
            Finset.sum_le_sum fun w _ => h2 w
        _ = (∑ w : Fin (2 ^ b), (if rem (step s w) < rem s then 1 else 2)) * (2 ^ rem s * (2 * 2 ^ b - G) ^ k) := by
            rw [Finset.sum_mul]
        _ ≤ (2 * 2 ^ b - G) * (2 ^ rem s * (2 * 2 ^ b - G) ^ k) := Nat.mul_le_mul_right _ h6
        _ = 2 ^ rem s * (2 * 2 ^ b - G) ^ (k + 1) := by rw [Nat.pow_succ]; ring
    · have : IsEmpty {ws : Words b (k + 1) // Fail s ws.1} := ⟨fun x => hr (hfail s _ hs x.2)⟩
      rw [Nat.card_of_isEmpty, Nat.mul_zero]
      exact Nat.zero_le _

/-! ## Field elements -/

/-- The words none of whose nine fields is accepted. -/
theorem bad_words {S : Nat} (hS : S < 127) :
    (Finset.univ.filter fun w : Fin (2 ^ 64) => ∀ f ∈ fields 7 w.val, S < f).card ≤ 2 * (127 - S) ^ 9 := by
  classical
  rw [← Fintype.card_subtype, ← Nat.card_eq_fintype_card]
  have hcard : Nat.card (Fin 2 × (Fin 9 → Fin (127 - S))) = 2 * (127 - S) ^ 9 := by
    rw [Nat.card_eq_fintype_card, Fintype.card_prod, Fintype.card_fin, Fintype.card_fun, Fintype.card_fin, Fintype.card_fin]
  rw [← hcard]
  have hl : ∀ w : Nat, ∀ i : Fin 9, i.val < (fields 7 w).length := fun w i => by rw [fields7_length]; exact i.2
  have hb : ∀ x : {w : Fin (2 ^ 64) // ∀ f ∈ fields 7 w.val, S < f}, ∀ i : Fin 9,
      S < (fields 7 x.1.val)[i.val]'(hl _ i) ∧ (fields 7 x.1.val)[i.val]'(hl _ i) < 128 := fun x i =>
    ⟨x.2 _ (List.getElem_mem _), fields7_lt _ _ (List.getElem_mem _)⟩
  refine Nat.card_le_card_of_injective (fun x => (⟨x.1.val / 128 ^ 9, by
    have := x.1.2
    rw [Nat.div_lt_iff_lt_mul (by decide)]
    exact this⟩, fun i => ⟨(fields 7 x.1.val)[i.val]'(hl _ i) - S - 1, by have := hb x i; omega⟩)) ?_
  intro x y h
  simp only [Prod.mk.injEq, Fin.mk.injEq] at h
  obtain ⟨h1, h2⟩ := h
  apply Subtype.ext
  apply Fin.ext
  rw [← withFields_fields x.1.val, ← withFields_fields y.1.val]
  have : fields 7 x.1.val = fields 7 y.1.val := by
    apply List.ext_getElem
    · rw [fields7_length, fields7_length]
    · intro i hi _
      rw [fields7_length] at hi
      have e := congrFun h2 ⟨i, hi⟩
      simp only [Fin.mk.injEq] at e
      have a1 := hb x ⟨i, hi⟩
      have a2 := hb y ⟨i, hi⟩
      dsimp only at a1 a2
      omega
  unfold withFields
  rw [this, h1]

theorem randOn_fail {n : Nat} (lo hi : Nat) (hlo : lo ≤ hi) (hhi : hi < 256) (h7 : bitsToRepresent (hi - lo) = 7) (hn : 0 < n)
    (ws : List Nat) (buf : Vector Nat n) :
    (¬ ∃ a, randOn lo hi ws buf = .ok a) ↔ (ws.flatMap (accept 7 lo hi)).length < n := by
  rw [randOn_eq lo hi hlo hhi h7 hn]
  unfold firstAccepted
  by_cases h : n ≤ (ws.flatMap (accept 7 lo hi)).length
  · rw [if_pos h]
    exact ⟨fun hc => absurd ⟨_, rfl⟩ hc, fun hc => absurd hc (by omega)⟩
  · rw [if_neg h]
    exact ⟨fun _ => by omega, fun _ ⟨a, ha⟩ => by cases ha⟩

theorem sampler_bound {n : Nat} (lo hi : Nat) (hlo : lo ≤ hi) (hhi : hi < 256) (h7 : bitsToRepresent (hi - lo) = 7)
    (hS : hi - lo < 127) (hn : 0 < n) (k : Nat) (buf : Vector Nat n) :
    2 ^ k * Nat.card {ws : Words 64 k // ¬ ∃ a, randOn lo hi ws.1 buf = .ok a} ≤
      2 ^ n * (2 ^ 64 + 2 * (127 - (hi - lo)) ^ 9) ^ k := by
  have hbad := bad_words hS
  have hbig : 2 * (127 - (hi - lo)) ^ 9 ≤ 2 ^ 64 := by
    have : (127 - (hi - lo)) ^ 9 ≤ 128 ^ 9 := Nat.pow_le_pow_left (by omega) 9
    have : 2 * 128 ^ 9 = 2 ^ 64 := by decide
    omega
  have h := progress_bound 64 (2 ^ 64 - 2 * (127 - (hi - lo)) ^ 9) (fun _ : Nat => True) (fun c w => c + (accept 7 lo hi w).length)
    (fun c => n - c) (fun c ws => c + (ws.flatMap (accept 7 lo hi)).length < n) (fun _ _ _ => trivial)
    (by intro c w ws _ h; rw [List.flatMap_cons, List.length_append] at h; omega) (by intro c w _; omega)
    (by intro c ws _ h; omega) (by
      intro c _ hc
      have hcard := Finset.card_filter_add_card_filter_not (s := (Finset.univ : Finset (Fin (2 ^ 64))))
        (p := fun w : Fin (2 ^ 64) => ∀ f ∈ fields 7 w.val, hi - lo < f)
      rw [Finset.card_univ, Fintype.card_fin] at hcard
      have hsub : (Finset.univ.filter fun w : Fin (2 ^ 64) => ¬ ∀ f ∈ fields 7 w.val, hi - lo < f) ⊆
          Finset.univ.filter fun w : Fin (2 ^ 64) => n - (c + (accept 7 lo hi w).length) < n - c := by
        intro w hw
        simp only [Finset.mem_filter, Finset.mem_univ, true_and] at hw ⊢
        push Not at hw
        obtain ⟨f, hf, hle⟩ := hw
        have : 0 < (accept 7 lo hi w).length := by
          unfold accept
          rw [List.length_map, List.length_pos_iff]
          exact List.ne_nil_of_mem (List.mem_filter.mpr ⟨hf, by simpa using hle⟩)
        omega
      have := Finset.card_le_card hsub
      omega) k 0 trivial
  have e : 2 * 2 ^ 64 - (2 ^ 64 - 2 * (127 - (hi - lo)) ^ 9) = 2 ^ 64 + 2 * (127 - (hi - lo)) ^ 9 := by omega
  rw [e] at h
  simp only [Nat.sub_zero, Nat.zero_add] at h
  have e2 : Nat.card {ws : Words 64 k // ¬ ∃ a, randOn lo hi ws.1 buf = .ok a} =
      Nat.card {ws : Words 64 k // (ws.1.flatMap (accept 7 lo hi)).length < n} :=
    Nat.card_congr (Equiv.subtypeEquivRight fun ws => randOn_fail lo hi hlo hhi h7 hn ws.1 buf)
  rw [e2]
  exact h

/-- C64 for arbitrary elements: at most a fraction of `2 ^ n / 2 ^ k` of the sequences of `k` words, up to the factor
`(1 + 2 ^ -63) ^ k`, does not suffice for `n` elements. -/
theorem C64_elements {n : Nat} (hn : 0 < n) (k : Nat) (buf : Vector Nat n) :
    2 ^ k * Nat.card {ws : Words 64 k // ¬ ∃ a, randOn 0 126 ws.1 buf = .ok a} ≤ 2 ^ n * (2 ^ 64 + 2) ^ k :=
  sampler_bound 0 126 (by decide) (by decide) bits_126.1 (by decide) hn k buf

/-- C64 for non-zero elements. -/
theorem C64_nonzero {n : Nat} (hn : 0 < n) (k : Nat) (buf : Vector Nat n) :
    2 ^ k * Nat.card {ws : Words 64 k // ¬ ∃ a, randOn 1 126 ws.1 buf = .ok a} ≤ 2 ^ n * (2 ^ 64 + 2 ^ 10) ^ k :=
  sampler_bound 1 126 (by decide) (by decide) bits_126.2 (by decide) hn k buf

/-! ## Challenges -/

/-- Numbers that, whatever places are taken, place one more value: so many there are at least. -/
def placingNumbers (p : Params) : Nat :=
  (p.numKeypairs - 1) * (p.T - p.W + 1) * 2 ^ (16 - (width (p.numKeypairs - 1) + width (p.T - 1)))

/-- The effect of one number. -/
def placeStep (p : Params) (s : Nat × Vector Nat p.T) (x : Nat) : Nat × Vector Nat p.T :=
  if x % 2 ^ width (p.numKeypairs - 1) < p.numKeypairs ∧ x / 2 ^ width (p.numKeypairs - 1) % 2 ^ width (p.T - 1) < p.T ∧
      g s.2 (x / 2 ^ width (p.numKeypairs - 1) % 2 ^ width (p.T - 1)) = 0 then
    (s.1 + b2n (x % 2 ^ width (p.numKeypairs - 1) ≠ 0),
      upd s.2 (x / 2 ^ width (p.numKeypairs - 1) % 2 ^ width (p.T - 1)) (x % 2 ^ width (p.numKeypairs - 1)))
  else s

theorem digestWords_step (hp : p.WF) (s : Nat × Vector Nat p.T) (x : Nat) (ws : List Nat) (h : s.1 < p.W) :
    digestWords p (x :: ws) s.1 s.2 = digestWords p ws (placeStep p s x).1 (placeStep p s x).2 := by
  rw [digestWords_cons hp, if_pos h]
  unfold placeStep
  split <;> rfl

theorem digestWords_done (hp : p.WF) (ws : List Nat) (placed : Nat) (fws : Vector Nat p.T) (h : ¬ placed < p.W) :
    digestWords p ws placed fws = .ok fws := by
  cases ws with
  | nil => unfold digestWords; rw [if_neg h]; rfl
  | cons x ws => rw [digestWords_cons hp, if_neg h]

theorem placing_le (hp : p.WF) (hb : width (p.numKeypairs - 1) + width (p.T - 1) ≤ 16) (s : Nat × Vector Nat p.T)
    (hs : (support s.2).card = s.1) (hlt : s.1 < p.W) :
    placingNumbers p ≤ (Finset.univ.filter fun x : Fin (2 ^ 16) => s.1 < (placeStep p s x).1).card := by
  classical
  have hK : 0 < p.numKeypairs := by have := hp.numKeypairs_ge; omega
  have hT0 : 0 < p.T := by have := hp.W_pos; have := hp.W_le_T; omega
  have hn := lt_two_pow_width hK
  have hT := lt_two_pow_width hT0
  obtain ⟨c, hc⟩ := Nat.exists_eq_add_of_le hb
  have hfree : p.T - p.W + 1 ≤ ((Finset.range p.T).filter fun q => g s.2 q = 0).card := by
    have := Finset.card_filter_add_card_filter_not (s := Finset.range p.T) (p := fun q => g s.2 q = 0)
    rw [Finset.card_range] at this
    have e : ((Finset.range p.T).filter fun q => ¬ g s.2 q = 0) = support s.2 := rfl
    rw [e, hs] at this
    have := hp.W_le_T
    omega
  have hcard : placingNumbers p ≤
      (Finset.range (p.numKeypairs - 1) ×ˢ ((Finset.range p.T).filter fun q => g s.2 q = 0) ×ˢ Finset.range (2 ^ c)).card := by
    rw [Finset.card_product, Finset.card_product, Finset.card_range, Finset.card_range]
    unfold placingNumbers
    rw [show 16 - (width (p.numKeypairs - 1) + width (p.T - 1)) = c by omega, Nat.mul_assoc]
    exact Nat.mul_le_mul_left _ (Nat.mul_le_mul_right _ hfree)
  refine hcard.trans ?_
  have hsplit : ∀ a : Nat × Nat × Nat,
      a ∈ Finset.range (p.numKeypairs - 1) ×ˢ ((Finset.range p.T).filter fun q => g s.2 q = 0) ×ˢ Finset.range (2 ^ c) →
      a.1 + 1 < p.numKeypairs ∧ a.2.1 < p.T ∧ g s.2 a.2.1 = 0 ∧ a.2.2 < 2 ^ c ∧
      (a.1 + 1 + 2 ^ width (p.numKeypairs - 1) * (a.2.1 + 2 ^ width (p.T - 1) * a.2.2)) % 2 ^ width (p.numKeypairs - 1) = a.1 + 1 ∧
      (a.1 + 1 + 2 ^ width (p.numKeypairs - 1) * (a.2.1 + 2 ^ width (p.T - 1) * a.2.2)) / 2 ^ width (p.numKeypairs - 1) %
        2 ^ width (p.T - 1) = a.2.1 ∧
      (a.1 + 1 + 2 ^ width (p.numKeypairs - 1) * (a.2.1 + 2 ^ width (p.T - 1) * a.2.2)) / 2 ^ width (p.numKeypairs - 1) /
        2 ^ width (p.T - 1) = a.2.2 := by
    rintro ⟨v, q, t⟩ h
    simp only [Finset.mem_product, Finset.mem_range, Finset.mem_filter] at h
    obtain ⟨h1, ⟨h2, h3⟩, h4⟩ := h
    have := split3 (t := t) (show v + 1 < 2 ^ width (p.numKeypairs - 1) by omega) (lt_of_lt_of_le h2 hT)
    exact ⟨by dsimp only; omega, h2, h3, h4, this.1, this.2.1, this.2.2⟩
  have hlt16 : ∀ a ∈ Finset.range (p.numKeypairs - 1) ×ˢ ((Finset.range p.T).filter fun q => g s.2 q = 0) ×ˢ Finset.range (2 ^ c),
      a.1 + 1 + 2 ^ width (p.numKeypairs - 1) * (a.2.1 + 2 ^ width (p.T - 1) * a.2.2) < 2 ^ 16 := by
    intro a ha
    obtain ⟨-, -, -, h4, -, -, h7⟩ := hsplit a ha
    rw [hc, Nat.pow_add, Nat.pow_add]
    rw [← h7, Nat.div_div_eq_div_mul, Nat.div_lt_iff_lt_mul (by positivity), Nat.mul_comm (2 ^ c)] at h4
    exact h4
  refine Finset.card_le_card_of_injOn
    (fun a => Fin.ofNat (2 ^ 16) (a.1 + 1 + 2 ^ width (p.numKeypairs - 1) * (a.2.1 + 2 ^ width (p.T - 1) * a.2.2))) ?_ ?_
  · intro a ha
    have ha := Finset.mem_coe.mp ha
    obtain ⟨h1, h2, h3, h4, h5, h6, h7⟩ := hsplit a ha
    simp only [Finset.coe_filter, Finset.mem_univ, true_and, Set.mem_ofPred_eq, Fin.ofNat, Nat.mod_eq_of_lt (hlt16 a ha)]
    unfold placeStep
    rw [h5, h6, if_pos ⟨h1, h2, h3⟩]
    simp [b2n]
  · intro a ha b hb' h
    have ha := Finset.mem_coe.mp ha
    have hb' := Finset.mem_coe.mp hb'
    have e := congrArg Fin.val h
    simp only [Fin.ofNat, Nat.mod_eq_of_lt (hlt16 a ha), Nat.mod_eq_of_lt (hlt16 b hb')] at e
    obtain ⟨-, -, -, -, h5, h6, h7⟩ := hsplit a ha
    obtain ⟨-, -, -, -, k5, k6, k7⟩ := hsplit b hb'
    rw [e] at h5 h6 h7
    have e1 := h5.symm.trans k5
    have e2 := h6.symm.trans k6
    have e3 := h7.symm.trans k7
    exact Prod.ext (by omega) (Prod.ext e2 e3)

/-- C64 for challenges. -/
theorem C64_challenges (hp : p.WF) (hb : width (p.numKeypairs - 1) + width (p.T - 1) ≤ 16) (k : Nat) :
    2 ^ k * Nat.card {ws : Words 16 k // ¬ ∃ v, digestWords p ws.1 0 (noChallenge p) = .ok v} ≤
      2 ^ p.W * (2 * 2 ^ 16 - placingNumbers p) ^ k := by
  refine progress_bound 16 (placingNumbers p) (fun s : Nat × Vector Nat p.T => (support s.2).card = s.1) (placeStep p)
    (fun s => p.W - s.1) (fun s ws => ¬ ∃ v, digestWords p ws s.1 s.2 = .ok v) ?_ ?_ ?_ ?_ ?_ k (0, noChallenge p) (support_noChallenge p)
  · intro s x hs
    unfold placeStep
    split
    · rename_i h
      rw [support_upd _ _ _ h.2.1 h.2.2, hs]
    · exact hs
  · intro s x ws hs hf hc
    by_cases h : s.1 < p.W
    · exact hf (by rw [digestWords_step hp s x ws h]; exact hc)
    · exact hf ⟨_, digestWords_done hp _ _ _ h⟩
  · intro s x _
    unfold placeStep
    split
    · dsimp only; omega
    · exact Nat.le_refl _
  · intro s ws _ hf
    by_contra h
    exact hf ⟨_, digestWords_done hp _ _ _ (by omega)⟩
  · intro s hs hr
    refine (placing_le hp hb s hs (by omega)).trans (Finset.card_le_card fun x hx => ?_)
    simp only [Finset.mem_filter, Finset.mem_univ, true_and] at hx ⊢
    omega

/-- C64 for the seven parameter sets: 2048 words suffice for a row of the public code, for the factors of a monomial and for a
challenge, except for a fraction of two to the minus security level of the sequences. -/
theorem C64_parameter_sets : ∀ p ∈ Params.all,
    (∀ buf : Vector Nat (p.N - p.K), 2 ^ (8 * p.seedLen) * Nat.card {ws : Words 64 2048 // ¬ ∃ a, randOn 0 126 ws.1 buf = .ok a} ≤
      Nat.card (Words 64 2048)) ∧
    (∀ buf : Vector Nat p.N, 2 ^ (8 * p.seedLen) * Nat.card {ws : Words 64 2048 // ¬ ∃ a, randOn 1 126 ws.1 buf = .ok a} ≤
      Nat.card (Words 64 2048)) ∧
    2 ^ (8 * p.seedLen) * Nat.card {ws : Words 16 2048 // ¬ ∃ v, digestWords p ws.1 0 (noChallenge p) = .ok v} ≤
      Nat.card (Words 16 2048) := by
  intro p hp
  have hW := Params.all_WF p hp
  have hNK := hW.K_lt_N
  have key : ∀ {l c k r D tot : Nat}, 2 ^ k * c ≤ 2 ^ r * D ^ k → 2 ^ l * (2 ^ r * D ^ k) ≤ 2 ^ k * tot ^ k → 2 ^ l * c ≤ tot ^ k := by
    intro l c k r D tot h1 h2
    have h3 := (Nat.mul_le_mul_left (2 ^ l) h1).trans h2
    rw [← Nat.mul_assoc, Nat.mul_comm (2 ^ l), Nat.mul_assoc] at h3
    exact Nat.le_of_mul_le_mul_left h3 (Nat.two_pow_pos k)
  have num : 2 ^ (8 * p.seedLen) * (2 ^ (p.N - p.K) * (2 ^ 64 + 2) ^ 2048) ≤ 2 ^ 2048 * (2 ^ 64) ^ 2048 ∧
      2 ^ (8 * p.seedLen) * (2 ^ p.N * (2 ^ 64 + 2 ^ 10) ^ 2048) ≤ 2 ^ 2048 * (2 ^ 64) ^ 2048 ∧
      2 ^ (8 * p.seedLen) * (2 ^ p.W * (2 * 2 ^ 16 - placingNumbers p) ^ 2048) ≤ 2 ^ 2048 * (2 ^ 16) ^ 2048 := by
    clear key hNK hW
    revert p
    decide +kernel
  rw [card_words, card_words]
  exact ⟨fun buf => key (C64_elements (by omega) 2048 buf) num.1, fun buf => key (C64_nonzero (by omega) 2048 buf) num.2.1,
    key (C64_challenges hW (challenge_bits p hp) 2048) num.2.2⟩

/-- C64, why no more can be said: no number of words suffices for all sequences. -/
theorem C64_no_bound {n : Nat} (hn : 0 < n) (k : Nat) (buf : Vector Nat n) :
    0 < Nat.card {ws : Words 64 k // ¬ ∃ a, randOn 0 126 ws.1 buf = .ok a} ∧
    0 < Nat.card {ws : Words 64 k // ¬ ∃ a, randOn 1 126 ws.1 buf = .ok a} ∧
    (p.WF → 0 < Nat.card {ws : Words 16 k // ¬ ∃ v, digestWords p ws.1 0 (noChallenge p) = .ok v}) := by
  have hflat : ∀ lo, accept 7 lo 126 (2 ^ 64 - 1) = [] → ∀ k, (List.replicate k (2 ^ 64 - 1)).flatMap (accept 7 lo 126) = [] := by
    intro lo h k
    rw [List.flatMap_eq_nil_iff]
    intro w hw
    rw [List.eq_of_mem_replicate hw, h]
  refine ⟨Nat.card_pos_iff.mpr ⟨⟨⟨⟨List.replicate k (2 ^ 64 - 1), by simp, fun w hw => ?_⟩, ?_⟩⟩, inferInstance⟩,
    Nat.card_pos_iff.mpr ⟨⟨⟨⟨List.replicate k (2 ^ 64 - 1), by simp, fun w hw => ?_⟩, ?_⟩⟩, inferInstance⟩,
    fun hp => Nat.card_pos_iff.mpr ⟨⟨⟨⟨List.replicate k 0, by simp, fun w hw => ?_⟩, ?_⟩⟩, inferInstance⟩⟩
  · rw [List.eq_of_mem_replicate hw]; decide
  · rw [randOn_fail 0 126 (by decide) (by decide) bits_126.1 hn, hflat 0 (by decide +kernel)]; exact hn
  · rw [List.eq_of_mem_replicate hw]; decide
  · rw [randOn_fail 1 126 (by decide) (by decide) bits_126.2 hn, hflat 1 (by decide +kernel)]; exact hn
  · rw [List.eq_of_mem_replicate hw]; decide
  · rintro ⟨v, hv⟩
    have hK := hp.numKeypairs_ge
    have hW : 0 < p.W := hp.W_pos
    have hT : 0 < p.T := by have := hp.W_le_T; omega
    have h0 : ∀ k, digestWords p (List.replicate k 0) 0 (noChallenge p) = .error .fuel := by
      intro k
      induction k with
      | zero => rw [List.replicate_zero, digestWords, if_pos hW]
      | succ k ih =>
        rw [List.replicate_succ, digestWords_cons hp, if_pos hW]
        simp only [Nat.zero_mod, Nat.zero_div]
        rw [if_pos ⟨by omega, hT, by simp [noChallenge, g, hT]⟩]
        have e : upd (noChallenge p) 0 0 = noChallenge p := by
          apply vec_ext
          intro i hi
          by_cases hi0 : 0 = i
          · subst hi0; rw [g_upd_self _ _ _ hT]; simp [noChallenge, g, hT]
          · rw [g_upd_ne _ _ _ _ hi0]
        rw [e]
        exact ih
    rw [h0] at hv
    cases hv

/-- For the matrix of category 1 the bound is far below one, and not all sequences suffice. -/
example (buf : Vector Nat 126) : 0 < Nat.card {ws : Words 64 300 // ¬ ∃ a, randOn 0 126 ws.1 buf = .ok a} ∧
    2 ^ 173 * Nat.card {ws : Words 64 300 // ¬ ∃ a, randOn 0 126 ws.1 buf = .ok a} ≤ Nat.card (Words 64 300) := by
  refine ⟨(C64_no_bound (p := Params.cat1Balanced) (by decide) 300 buf).1, ?_⟩
  have h := C64_elements (by decide) 300 buf
  rw [card_words]
  have e : 2 ^ 173 * (2 ^ 126 * (2 ^ 64 + 2) ^ 300) ≤ 2 ^ 300 * (2 ^ 64) ^ 300 := by decide +kernel
  have h2 := (Nat.mul_le_mul_left (2 ^ 173) h).trans e
  rw [← Nat.mul_assoc, Nat.mul_comm (2 ^ 173), Nat.mul_assoc] at h2
  exact Nat.le_of_mul_le_mul_left h2 (Nat.two_pow_pos _)

end LESS
