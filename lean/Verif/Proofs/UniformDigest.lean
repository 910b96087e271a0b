import Mathlib.Logic.Equiv.Fintype
import Verif.Proofs.ChallengeSpec
import Verif.Proofs.Uniform
import Verif.Proofs.KatRng
/-! # Renaming the positions and values drawn for a challenge -/
namespace LESS

open Spec

variable {p : Params}

/-- The loop of `expand_digest_to_fixed_weight` (utils.c:43-61, `expandDigestLoop`) with the 16-bit numbers it draws given
as a list. -/
def digestWords (p : Params) : List Nat → (placed : Nat) → Vector Nat p.T → C (Vector Nat p.T)
  | [], placed, fws => if placed < p.W then .error .fuel else pure fws
  | rnd :: ws, placed, fws =>
    if placed < p.W then do
      let value := u8 (rnd &&& (2 ^ bitsToRepresent (p.numKeypairs - 1) - 1))
      let pos := (rnd >>> bitsToRepresent (p.numKeypairs - 1)) % p.posMod
      let pos := (pos &&& (2 ^ bitsToRepresent (p.T - 1) - 1)) % p.posMod
      if p.numKeypairs ≤ value then digestWords p ws placed fws
      else if p.T ≤ pos then digestWords p ws placed fws
      else do
        let old ← rd fws pos
        if old ≠ 0 then digestWords p ws placed fws
        else do
          let fws ← wr fws pos value
          digestWords p ws (placed + b2n (value ≠ 0)) fws
    else pure fws

/-- The next `k` numbers of `n` bytes that the generator produces. -/
def drawn (p : Params) (n : Nat) : (k : Nat) → Inc → List Nat
  | 0, _ => []
  | k + 1, st => leNat (csprngBytes p n st).1 :: drawn p n k (csprngBytes p n st).2

theorem drawn_length (n k : Nat) (st : Inc) : (drawn p n k st).length = k := by
  induction k generalizing st with
  | zero => rfl
  | succ k ih => rw [drawn, List.length_cons, ih]

theorem expandDigestLoop_words (fuel : Nat) (st : Inc) (placed : Nat) (fws : Vector Nat p.T) :
    expandDigestLoop p fuel st placed fws = digestWords p (drawn p 2 fuel st) placed fws := by
  induction fuel generalizing st placed fws with
  | zero => rfl
  | succ fuel ih =>
    unfold expandDigestLoop
    rw [drawn]
    unfold digestWords
    simp only [ih]

theorem digestWords_cons (hp : p.WF) (x : Nat) (ws : List Nat) (placed : Nat) (fws : Vector Nat p.T) :
    digestWords p (x :: ws) placed fws = if placed < p.W then
      (if x % 2 ^ width (p.numKeypairs - 1) < p.numKeypairs ∧ x / 2 ^ width (p.numKeypairs - 1) % 2 ^ width (p.T - 1) < p.T ∧
          g fws (x / 2 ^ width (p.numKeypairs - 1) % 2 ^ width (p.T - 1)) = 0 then
        digestWords p ws (placed + b2n (x % 2 ^ width (p.numKeypairs - 1) ≠ 0))
          (upd fws (x / 2 ^ width (p.numKeypairs - 1) % 2 ^ width (p.T - 1)) (x % 2 ^ width (p.numKeypairs - 1)))
      else digestWords p ws placed fws)
    else .ok fws := by
  conv_lhs => unfold digestWords
  simp only [value_eq hp, pos_eq hp]
  generalize x % 2 ^ width (p.numKeypairs - 1) = v
  generalize x / 2 ^ width (p.numKeypairs - 1) % 2 ^ width (p.T - 1) = q
  by_cases hw : placed < p.W
  · rw [if_pos hw, if_pos hw]
    by_cases h1 : p.numKeypairs ≤ v
    · rw [if_pos h1, if_neg (by omega)]
    · rw [if_neg h1]
      by_cases h2 : p.T ≤ q
      · rw [if_pos h2, if_neg (by omega)]
      · rw [if_neg h2, Kat.rd_ok _ _ (by omega), Kat.ok_bind]
        by_cases h3 : g fws q = 0
        · rw [if_neg (by simpa using h3), if_pos ⟨by omega, by omega, h3⟩, Kat.wr_ok _ _ _ (by omega), Kat.ok_bind]
        · rw [if_pos h3, if_neg (by tauto)]
  · rw [if_neg hw, if_neg hw]; rfl

/-- A renaming of positions below `T` and, for every position, of the values below `n`, the value 0 staying 0. -/
structure Renaming (T n : Nat) where
  pos : Nat → Nat
  val : Nat → Nat → Nat
  pos_lt : ∀ i < T, pos i < T
  pos_inj : ∀ i < T, ∀ j < T, pos i = pos j → i = j
  val_lt : ∀ i < T, ∀ x < n, val i x < n
  val_inj : ∀ i < T, ∀ x < n, ∀ y < n, val i x = val i y → x = y
  val_zero : ∀ i < T, val i 0 = 0

theorem Renaming.val_ne {T n : Nat} (r : Renaming T n) {i x : Nat} (hi : i < T) (hx : x < n) (hn : 0 < n) :
    r.val i x = 0 ↔ x = 0 :=
  ⟨fun h => r.val_inj i hi x hx 0 hn (by rw [h, r.val_zero i hi]), fun h => by rw [h, r.val_zero i hi]⟩

/-- A drawn number with position and value renamed; rejected numbers and the bits not used stay. -/
def Renaming.word {T n : Nat} (r : Renaming T n) (vb pb : Nat) (x : Nat) : Nat :=
  if x % 2 ^ vb < n ∧ x / 2 ^ vb % 2 ^ pb < T then
    r.val (x / 2 ^ vb % 2 ^ pb) (x % 2 ^ vb) + 2 ^ vb * (r.pos (x / 2 ^ vb % 2 ^ pb) + 2 ^ pb * (x / 2 ^ vb / 2 ^ pb))
  else x

theorem split3 {A B v q t : Nat} (hv : v < A) (hq : q < B) :
    (v + A * (q + B * t)) % A = v ∧ (v + A * (q + B * t)) / A % B = q ∧ (v + A * (q + B * t)) / A / B = t := by
  have hA : 0 < A := by omega
  have hB : 0 < B := by omega
  have e1 : (v + A * (q + B * t)) / A = q + B * t := by
    rw [Nat.add_mul_div_left _ _ hA, Nat.div_eq_of_lt hv, Nat.zero_add]
  refine ⟨?_, ?_, ?_⟩
  · rw [Nat.add_mul_mod_self_left, Nat.mod_eq_of_lt hv]
  · rw [e1, Nat.add_mul_mod_self_left, Nat.mod_eq_of_lt hq]
  · rw [e1, Nat.add_mul_div_left _ _ hB, Nat.div_eq_of_lt hq, Nat.zero_add]

theorem join3 (A B x : Nat) : x % A + A * (x / A % B + B * (x / A / B)) = x := by
  rw [Nat.mod_add_div (x / A) B, Nat.mod_add_div]

section
variable {T n vb pb : Nat} (r : Renaming T n) (hn : n ≤ 2 ^ vb) (hT : T ≤ 2 ^ pb)
include hn hT

theorem Renaming.word_split {x : Nat} (h : x % 2 ^ vb < n ∧ x / 2 ^ vb % 2 ^ pb < T) :
    r.word vb pb x % 2 ^ vb = r.val (x / 2 ^ vb % 2 ^ pb) (x % 2 ^ vb) ∧
    r.word vb pb x / 2 ^ vb % 2 ^ pb = r.pos (x / 2 ^ vb % 2 ^ pb) ∧
    r.word vb pb x / 2 ^ vb / 2 ^ pb = x / 2 ^ vb / 2 ^ pb := by
  unfold Renaming.word
  rw [if_pos h]
  exact split3 (lt_of_lt_of_le (r.val_lt _ h.2 _ h.1) hn) (lt_of_lt_of_le (r.pos_lt _ h.2) hT)

theorem Renaming.word_cond (x : Nat) : (r.word vb pb x % 2 ^ vb < n ∧ r.word vb pb x / 2 ^ vb % 2 ^ pb < T) ↔
    (x % 2 ^ vb < n ∧ x / 2 ^ vb % 2 ^ pb < T) := by
  by_cases h : x % 2 ^ vb < n ∧ x / 2 ^ vb % 2 ^ pb < T
  · obtain ⟨h1, h2, -⟩ := r.word_split hn hT h
    rw [h1, h2]
    exact ⟨fun _ => h, fun _ => ⟨r.val_lt _ h.2 _ h.1, r.pos_lt _ h.2⟩⟩
  · have : r.word vb pb x = x := by unfold Renaming.word; rw [if_neg h]
    rw [this]

theorem Renaming.word_inj {x y : Nat} (e : r.word vb pb x = r.word vb pb y) : x = y := by
  by_cases h : x % 2 ^ vb < n ∧ x / 2 ^ vb % 2 ^ pb < T
  · have h' : y % 2 ^ vb < n ∧ y / 2 ^ vb % 2 ^ pb < T := by
      rw [← r.word_cond hn hT, ← e, r.word_cond hn hT]; exact h
    obtain ⟨a1, a2, a3⟩ := r.word_split hn hT h
    obtain ⟨b1, b2, b3⟩ := r.word_split hn hT h'
    rw [e] at a1 a2 a3
    have e2 := r.pos_inj _ h.2 _ h'.2 (a2.symm.trans b2)
    have e1 := a1.symm.trans b1
    rw [e2] at e1
    have e1 := r.val_inj _ h'.2 _ h.1 _ h'.1 e1
    rw [← join3 (2 ^ vb) (2 ^ pb) x, e1, e2, a3.symm.trans b3, join3]
  · have h' : ¬ (y % 2 ^ vb < n ∧ y / 2 ^ vb % 2 ^ pb < T) := by
      rw [← r.word_cond hn hT, ← e, r.word_cond hn hT]; exact h
    unfold Renaming.word at e
    rwa [if_neg h, if_neg h'] at e

theorem Renaming.word_lt (hb : vb + pb ≤ 16) {x : Nat} (hx : x < 2 ^ 16) : r.word vb pb x < 2 ^ 16 := by
  by_cases h : x % 2 ^ vb < n ∧ x / 2 ^ vb % 2 ^ pb < T
  · obtain ⟨-, -, h3⟩ := r.word_split hn hT h
    obtain ⟨c, hc⟩ := Nat.exists_eq_add_of_le hb
    rw [hc, Nat.pow_add, Nat.pow_add] at hx ⊢
    have : r.word vb pb x / 2 ^ vb / 2 ^ pb < 2 ^ c := by
      rw [h3, Nat.div_div_eq_div_mul, Nat.div_lt_iff_lt_mul (by positivity), Nat.mul_comm]; exact hx
    rw [Nat.div_div_eq_div_mul, Nat.div_lt_iff_lt_mul (by positivity), Nat.mul_comm] at this
    exact this
  · unfold Renaming.word; rw [if_neg h]; exact hx
end

/-- The run on renamed numbers is the renamed run. -/
theorem digestWords_rename (hp : p.WF) (r : Renaming p.T p.numKeypairs)
    (hn : p.numKeypairs ≤ 2 ^ width (p.numKeypairs - 1)) (hT : p.T ≤ 2 ^ width (p.T - 1)) (ws : List Nat) :
    ∀ (placed : Nat) (fws fws' res : Vector Nat p.T), (∀ i < p.T, g fws i < p.numKeypairs) →
      (∀ i < p.T, g fws' (r.pos i) = r.val i (g fws i)) → digestWords p ws placed fws = .ok res →
      ∃ res', digestWords p (ws.map (r.word (width (p.numKeypairs - 1)) (width (p.T - 1)))) placed fws' = .ok res' ∧
        ∀ i < p.T, g res' (r.pos i) = r.val i (g res i) := by
  have hpos : 0 < p.numKeypairs := by have := hp.numKeypairs_ge; omega
  induction ws with
  | nil =>
    intro placed fws fws' res hlt h e
    unfold digestWords at e
    split at e
    · cases e
    · rename_i hw
      cases e
      refine ⟨fws', ?_, h⟩
      rw [List.map_nil, digestWords, if_neg hw]
      rfl
  | cons x ws ih =>
    intro placed fws fws' res hlt h e
    rw [List.map_cons, digestWords_cons hp]
    rw [digestWords_cons hp] at e
    by_cases hw : placed < p.W
    · rw [if_pos hw] at e ⊢
      by_cases hc : x % 2 ^ width (p.numKeypairs - 1) < p.numKeypairs ∧
          x / 2 ^ width (p.numKeypairs - 1) % 2 ^ width (p.T - 1) < p.T
      · obtain ⟨s1, s2, -⟩ := r.word_split hn hT hc
        rw [s1, s2]
        generalize hv : x % 2 ^ width (p.numKeypairs - 1) = v at *
        generalize hq : x / 2 ^ width (p.numKeypairs - 1) % 2 ^ width (p.T - 1) = q at *
        have hz : g fws' (r.pos q) = 0 ↔ g fws q = 0 := by rw [h q hc.2, r.val_ne hc.2 (hlt q hc.2) hpos]
        by_cases h0 : g fws q = 0
        · rw [if_pos ⟨hc.1, hc.2, h0⟩] at e
          rw [if_pos ⟨r.val_lt _ hc.2 _ hc.1, r.pos_lt _ hc.2, hz.mpr h0⟩]
          have hb : b2n (r.val q v ≠ 0) = b2n (v ≠ 0) := by
            have := r.val_ne hc.2 hc.1 hpos
            unfold b2n
            by_cases hv0 : v = 0
            · simp [hv0, r.val_zero q hc.2]
            · simp [hv0, this.not.mpr hv0]
          rw [hb]
          refine ih _ _ _ _ ?_ ?_ e
          · intro i hi
            by_cases hiq : q = i
            · subst hiq; rw [g_upd_self _ _ _ hc.2]; exact hc.1
            · rw [g_upd_ne _ _ _ _ hiq]; exact hlt i hi
          · intro i hi
            by_cases hiq : q = i
            · subst hiq; rw [g_upd_self _ _ _ hc.2, g_upd_self _ _ _ (r.pos_lt _ hc.2)]
            · rw [g_upd_ne _ _ _ _ hiq, g_upd_ne _ _ _ _ (fun e => hiq (r.pos_inj _ hc.2 _ hi e))]; exact h i hi
        · rw [if_neg (by tauto)] at e
          rw [if_neg (by tauto)]
          exact ih _ _ _ _ hlt h e
      · have hc' := (r.word_cond hn hT x).not.mpr hc
        rw [if_neg (by tauto)] at e
        rw [if_neg (by tauto)]
        exact ih _ _ _ _ hlt h e
    · rw [if_neg hw] at e ⊢
      cases e
      exact ⟨fws', rfl, h⟩

/-- There is a renaming that takes one challenge to another. -/
theorem exists_renaming {T n : Nat} (v v' : Vector Nat T) (hv : ∀ i < T, g v i < n) (hv' : ∀ i < T, g v' i < n)
    (hw : (support v).card = (support v').card) :
    ∃ r : Renaming T n, ∀ i < T, g v' (r.pos i) = r.val i (g v i) := by
  classical
  have hcard : ∀ u : Vector Nat T, Fintype.card {i : Fin T // g u i ≠ 0} = (support u).card := by
    intro u
    rw [Fintype.card_subtype]
    refine Finset.card_bij (fun i _ => i.val) ?_ ?_ ?_
    · intro i hi; simp only [support, Finset.mem_filter, Finset.mem_range, Finset.mem_univ, true_and] at hi ⊢; exact ⟨i.2, hi⟩
    · intro i _ j _ h; exact Fin.ext h
    · intro k hk
      simp only [support, Finset.mem_filter, Finset.mem_range] at hk
      exact ⟨⟨k, hk.1⟩, by simpa using hk.2, rfl⟩
  obtain ⟨e⟩ := Fintype.card_eq.mp (show Fintype.card {i : Fin T // g v i ≠ 0} = Fintype.card {i : Fin T // g v' i ≠ 0} by
    rw [hcard, hcard, hw])
  let σ : Equiv.Perm (Fin T) := e.extendSubtype
  have hσ1 : ∀ i : Fin T, g v i ≠ 0 → g v' (σ i) ≠ 0 := fun i hi => e.extendSubtype_mem i hi
  have hσ2 : ∀ i : Fin T, g v i = 0 → g v' (σ i) = 0 := fun i hi => by
    have := e.extendSubtype_not_mem i (by simpa using hi)
    simpa using this
  refine ⟨⟨fun i => if h : i < T then (σ ⟨i, h⟩).val else i,
    fun i => if h : i < T then swp (g v i) (g v' (σ ⟨i, h⟩)) else id, ?_, ?_, ?_, ?_, ?_⟩, ?_⟩
  · intro i hi; simp only [hi, dif_pos]; exact (σ ⟨i, hi⟩).2
  · intro i hi j hj h
    simp only [hi, hj, dif_pos] at h
    have := σ.injective (Fin.ext h)
    exact congrArg Fin.val this
  · intro i hi x hx
    simp only [hi, dif_pos]
    have h1 := hv i hi
    have h2 := hv' _ (σ ⟨i, hi⟩).2
    unfold swp; split_ifs <;> omega
  · intro i hi x hx y hy h
    simp only [hi, dif_pos] at h
    rw [← swp_swp (g v i) (g v' (σ ⟨i, hi⟩)) x, h, swp_swp]
  · intro i hi
    simp only [hi, dif_pos]
    by_cases h0 : g v i = 0
    · have := hσ2 ⟨i, hi⟩ h0
      rw [h0, this]; rfl
    · have := hσ1 ⟨i, hi⟩ h0
      unfold swp
      rw [if_neg (Ne.symm h0), if_neg (Ne.symm this)]
  · intro i hi
    simp only [hi, dif_pos]
    simp [swp]

end LESS
