import Mathlib.Data.Fintype.Powerset
import Mathlib.Algebra.BigOperators.Fin
import Verif.Props.Uniform
import Verif.Props.Soundness
/-!
# The number of challenges (C62) and the soundness error (C63)
-/
namespace LESS

open Spec

variable {p : Params}

/-! ## Counting -/

/-- A place for every round, and for every chosen place a value that is not zero. -/
abbrev Choice (p : Params) : Type := Σ S : {S : Finset (Fin p.T) // S.card = p.W}, (S.1 → Fin (p.numKeypairs - 1))

/-- The challenge with the chosen values in the chosen places and zero elsewhere. -/
def Choice.challenge (c : Choice p) : Vector Nat p.T :=
  Vector.ofFn fun i => if h : i ∈ c.1.1 then (c.2 ⟨i, h⟩).val + 1 else 0

theorem Choice.g_mem (c : Choice p) (i : Fin p.T) (h : i ∈ c.1.1) : g c.challenge i = (c.2 ⟨i, h⟩).val + 1 := by
  rw [Choice.challenge, g_ofFn _ _ i.2, dif_pos h]

theorem Choice.g_ne (c : Choice p) (i : Fin p.T) (h : i ∉ c.1.1) : g c.challenge i = 0 := by
  rw [Choice.challenge, g_ofFn _ _ i.2, dif_neg h]

theorem Choice.mem_iff (c : Choice p) (i : Fin p.T) : i ∈ c.1.1 ↔ g c.challenge i ≠ 0 := by
  by_cases h : i ∈ c.1.1
  · rw [c.g_mem i h]; simp [h]
  · rw [c.g_ne i h]; simp [h]

theorem Choice.isChallenge (hp : p.WF) (c : Choice p) : Challenge p c.challenge := by
  have hK := hp.numKeypairs_ge
  refine challenge_of_support ?_ fun i hi => ?_
  · rw [← c.1.2]
    symm
    refine Finset.card_bij (fun i _ => i.val) ?_ (fun i _ j _ h => Fin.ext h) ?_
    · intro i hi
      simp only [support, Finset.mem_filter, Finset.mem_range]
      exact ⟨i.2, (c.mem_iff i).mp hi⟩
    · intro k hk
      simp only [support, Finset.mem_filter, Finset.mem_range] at hk
      exact ⟨⟨k, hk.1⟩, (c.mem_iff _).mpr hk.2, rfl⟩
  · by_cases h : (⟨i, hi⟩ : Fin p.T) ∈ c.1.1
    · rw [show i = (⟨i, hi⟩ : Fin p.T).val from rfl, c.g_mem _ h]
      have := (c.2 ⟨_, h⟩).2
      omega
    · rw [show i = (⟨i, hi⟩ : Fin p.T).val from rfl, c.g_ne _ h]; omega

theorem Choice.bijective (hp : p.WF) :
    Function.Bijective (fun c : Choice p => (⟨c.challenge, c.isChallenge hp⟩ : {v : Vector Nat p.T // Challenge p v})) := by
  constructor
  · rintro ⟨⟨S, hS⟩, f⟩ ⟨⟨S', hS'⟩, f'⟩ h
    have h := congrArg Subtype.val h
    dsimp only at h
    have e : S = S' := by
      ext i
      have h1 := Choice.mem_iff ⟨⟨S, hS⟩, f⟩ i
      have h2 := Choice.mem_iff ⟨⟨S', hS'⟩, f'⟩ i
      rw [h] at h1
      exact h1.trans h2.symm
    subst e
    have : f = f' := by
      funext i
      have h1 := Choice.g_mem ⟨⟨S, hS⟩, f⟩ i.1 i.2
      have h2 := Choice.g_mem ⟨⟨S, hS'⟩, f'⟩ i.1 i.2
      rw [h] at h1
      apply Fin.ext
      have := h1.symm.trans h2
      simpa using this
    subst this
    rfl
  · rintro ⟨v, hv⟩
    have hS : (Finset.univ.filter fun i : Fin p.T => g v i ≠ 0).card = p.W := by
      rw [← challenge_support hv]
      refine Finset.card_bij (fun i _ => i.val) ?_ (fun i _ j _ h => Fin.ext h) ?_
      · intro i hi
        simp only [support, Finset.mem_filter, Finset.mem_range]
        exact ⟨i.2, (Finset.mem_filter.mp hi).2⟩
      · intro k hk
        simp only [support, Finset.mem_filter, Finset.mem_range] at hk
        exact ⟨⟨k, hk.1⟩, Finset.mem_filter.mpr ⟨Finset.mem_univ _, hk.2⟩, rfl⟩
    refine ⟨⟨⟨Finset.univ.filter fun i : Fin p.T => g v i ≠ 0, hS⟩, fun i => ⟨g v i.1 - 1, ?_⟩⟩, ?_⟩
    · have h1 := hv.2 i.1 i.1.2
      have h2 := (Finset.mem_filter.mp i.2).2
      omega
    · apply Subtype.ext
      apply vec_ext
      intro i hi
      by_cases h : g v i = 0
      · rw [h]
        exact Choice.g_ne _ ⟨i, hi⟩ (by simp [h])
      · have hm : (⟨i, hi⟩ : Fin p.T) ∈ Finset.univ.filter fun i : Fin p.T => g v i ≠ 0 := by simp [h]
        refine (Choice.g_mem _ ⟨i, hi⟩ hm).trans ?_
        dsimp only
        omega

theorem card_choice : Nat.card (Choice p) = p.T.choose p.W * (p.numKeypairs - 1) ^ p.W := by
  classical
  rw [Nat.card_eq_fintype_card, Fintype.card_sigma]
  have : ∀ S : {S : Finset (Fin p.T) // S.card = p.W}, Fintype.card (S.1 → Fin (p.numKeypairs - 1)) = (p.numKeypairs - 1) ^ p.W := by
    intro S
    rw [Fintype.card_fun, Fintype.card_fin, Fintype.card_coe, S.2]
  rw [Finset.sum_congr rfl (fun S _ => this S), Finset.sum_const, Finset.card_univ, Fintype.card_finset_len, Fintype.card_fin,
    smul_eq_mul]

/-- C62: the number of challenges. -/
theorem C62_count (hp : p.WF) :
    Nat.card {v : Vector Nat p.T // Challenge p v} = p.T.choose p.W * (p.numKeypairs - 1) ^ p.W := by
  rw [← card_choice, Nat.card_congr (Equiv.ofBijective _ (Choice.bijective hp))]

/-- C62 for the seven parameter sets: at least two to the power of the security level. -/
theorem C62_parameter_sets : ∀ p ∈ Params.all, 2 ^ (8 * p.seedLen) ≤ Nat.card {v : Vector Nat p.T // Challenge p v} := by
  intro p hp
  rw [C62_count (Params.all_WF p hp), Nat.choose_eq_descFactorial_div_factorial]
  revert p
  decide +kernel

/-! ## Guessing a challenge -/

/-- The sequences of `k` numbers of `b` bits are the functions from `k` places to `2 ^ b` numbers. -/
def Words.equiv (b k : Nat) : Words b k ≃ (Fin k → Fin (2 ^ b)) where
  toFun ws i := ⟨ws.1[i.val]'(by rw [ws.2.1]; exact i.2), ws.2.2 _ (List.getElem_mem _)⟩
  invFun f := ⟨List.ofFn fun i => (f i).val, by simp, by
    intro w hw
    obtain ⟨i, rfl⟩ := (List.mem_ofFn' _ _).mp hw
    exact (f i).2⟩
  left_inv ws := by
    apply Subtype.ext
    apply List.ext_getElem
    · rw [List.length_ofFn, ws.2.1]
    · intro i h1 h2
      rw [List.getElem_ofFn]
  right_inv f := by
    funext i
    apply Fin.ext
    simp

theorem card_words (b k : Nat) : Nat.card (Words b k) = (2 ^ b) ^ k := by
  rw [Nat.card_congr (Words.equiv b k), Nat.card_eq_fintype_card, Fintype.card_fun, Fintype.card_fin, Fintype.card_fin]

theorem digestWords_challenge (hp : p.WF) (ws : List Nat) : ∀ (placed : Nat) (fws res : Vector Nat p.T),
    (support fws).card = placed → placed ≤ p.W → (∀ i < p.T, g fws i < p.numKeypairs) →
    digestWords p ws placed fws = .ok res → Challenge p res := by
  induction ws with
  | nil =>
    intro placed fws res h1 h2 h3 e
    unfold digestWords at e
    split at e
    · cases e
    · cases e
      exact challenge_of_support (by omega) h3
  | cons x ws ih =>
    intro placed fws res h1 h2 h3 e
    rw [digestWords_cons hp] at e
    by_cases hw : placed < p.W
    · rw [if_pos hw] at e
      generalize x % 2 ^ width (p.numKeypairs - 1) = v at e
      generalize x / 2 ^ width (p.numKeypairs - 1) % 2 ^ width (p.T - 1) = q at e
      by_cases hc : v < p.numKeypairs ∧ q < p.T ∧ g fws q = 0
      · rw [if_pos hc] at e
        refine ih _ _ _ (by rw [support_upd _ _ _ hc.2.1 hc.2.2, h1]) (by unfold b2n; split <;> omega) ?_ e
        intro i hi
        by_cases hiq : q = i
        · subst hiq; rw [g_upd_self _ _ _ hc.2.1]; exact hc.1
        · rw [g_upd_ne _ _ _ _ hiq]; exact h3 i hi
      · rw [if_neg hc] at e
        exact ih _ _ _ h1 h2 h3 e
    · rw [if_neg hw] at e
      cases e
      exact challenge_of_support (by omega) h3

theorem support_noChallenge (p : Params) : (support (noChallenge p)).card = 0 := by
  rw [Finset.card_eq_zero]
  ext i
  simp only [support, Finset.mem_filter, Finset.mem_range, Finset.notMem_empty, iff_false]
  rintro ⟨hi, h⟩
  exact h (by simp [noChallenge, g, hi])

theorem noChallenge_challenge (hp : p.WF) {ws : List Nat} {v : Vector Nat p.T} (h : digestWords p ws 0 (noChallenge p) = .ok v) :
    Challenge p v := by
  have hK := hp.numKeypairs_ge
  exact digestWords_challenge hp ws 0 _ v (support_noChallenge p) (Nat.zero_le _) (fun i hi => by
    rw [show g (noChallenge p) i = 0 by simp [noChallenge, g, hi]]; omega) h

/-- Every challenge is the result for at most one sequence of numbers in as many as there are challenges. -/
theorem challenge_fraction (hp : p.WF) (hb : width (p.numKeypairs - 1) + width (p.T - 1) ≤ 16) (k : Nat) {v : Vector Nat p.T}
    (hv : Challenge p v) :
    p.T.choose p.W * (p.numKeypairs - 1) ^ p.W * Nat.card {ws : Words 16 k // digestWords p ws.1 0 (noChallenge p) = .ok v} ≤
      (2 ^ 16) ^ k := by
  classical
  have : Finite {v : Vector Nat p.T // Challenge p v} := Finite.of_equiv _ (Equiv.ofBijective _ (Choice.bijective hp))
  have := Fintype.ofFinite {v : Vector Nat p.T // Challenge p v}
  rw [← C62_count hp, ← card_words]
  have e : Nat.card (Σ u : {v : Vector Nat p.T // Challenge p v}, {ws : Words 16 k // digestWords p ws.1 0 (noChallenge p) = .ok u.1}) =
      Nat.card {v : Vector Nat p.T // Challenge p v} *
        Nat.card {ws : Words 16 k // digestWords p ws.1 0 (noChallenge p) = .ok v} := by
    rw [Nat.card_sigma, Finset.sum_congr rfl (fun u _ => C59_challenges hp hb k u.2 hv), Finset.sum_const, Finset.card_univ,
      smul_eq_mul, Nat.card_eq_fintype_card (α := {v : Vector Nat p.T // Challenge p v})]
  rw [← e]
  refine Nat.card_le_card_of_injective (fun x => x.2.1) ?_
  rintro ⟨⟨u, hu⟩, ⟨ws, hws⟩⟩ ⟨⟨u', hu'⟩, ⟨ws', hws'⟩⟩ h
  dsimp only at h
  subst h
  have : u = u' := by
    have := hws.symm.trans hws'
    injection this
  subst this
  rfl

theorem guess_le (hp : p.WF) (hb : width (p.numKeypairs - 1) + width (p.T - 1) ≤ 16) (k : Nat) (v : Vector Nat p.T) :
    p.T.choose p.W * (p.numKeypairs - 1) ^ p.W * Nat.card {ws : Words 16 k // digestWords p ws.1 0 (noChallenge p) = .ok v} ≤
      (2 ^ 16) ^ k := by
  by_cases hv : Challenge p v
  · exact challenge_fraction hp hb k hv
  · have : IsEmpty {ws : Words 16 k // digestWords p ws.1 0 (noChallenge p) = .ok v} :=
      ⟨fun ws => hv (noChallenge_challenge hp ws.2)⟩
    rw [Nat.card_of_isEmpty, Nat.mul_zero]
    exact Nat.zero_le _

/-- C62, guessing: whatever challenge is fixed in advance, at most a fraction of two to the minus security level of the
sequences of numbers the generator can output leads to it. -/
theorem C62_guess (hp : p ∈ Params.all) (k : Nat) (v : Vector Nat p.T) :
    2 ^ (8 * p.seedLen) * Nat.card {ws : Words 16 k // digestWords p ws.1 0 (noChallenge p) = .ok v} ≤ Nat.card (Words 16 k) := by
  have h1 := C62_parameter_sets p hp
  rw [C62_count (Params.all_WF p hp)] at h1
  rw [card_words]
  exact (Nat.mul_le_mul_right _ h1).trans (guess_le (Params.all_WF p hp) (challenge_bits p hp) k v)

/-- In the smallest set the bound is met with almost nothing to spare: there are fewer than `2 ^ 129` challenges. -/
example : Nat.card {v : Vector Nat Params.cat1Balanced.T // Challenge Params.cat1Balanced v} < 2 ^ 129 := by
  rw [C62_count (Params.all_WF _ (by decide +kernel)), Nat.choose_eq_descFactorial_div_factorial]
  decide +kernel

/-! ## The soundness error -/

/-- The answers that a strategy gives to the challenge `v` lead to the commitments `coms` made before. -/
def Answers (p : Params) (budget : Nat) (pk : PK p) (coms : Nat → List (List Nat)) (prover : Vector Nat p.T → Sig p)
    (v : Vector Nat p.T) : Prop :=
  ∀ i < p.T, RoundCommit p budget pk (prover v) (g v) i (coms i)

/-- C63: a strategy that, with its commitments fixed, answers the challenge on a larger fraction of the sequences of numbers
the generator can output than one in the number of challenges, answers two challenges that differ in some round; and from its
two answers in that round the extractor computes a monomial that carries one code of the public key to another one. -/
theorem C63_soundness (hp : p.WF) (hb : width (p.numKeypairs - 1) + width (p.T - 1) ≤ 16) {B : Nat} {pk : PK p}
    {G0 : Matrix (Fin p.K) (Fin p.N) (ZMod 127)} (hG : IsG0 p B (xof p pk.seed) G0) (coms : Nat → List (List Nat))
    (prover : Vector Nat p.T → Sig p) (k : Nat)
    (hwin : (2 ^ 16) ^ k < p.T.choose p.W * (p.numKeypairs - 1) ^ p.W *
      Nat.card {ws : Words 16 k // ∃ v, digestWords p ws.1 0 (noChallenge p) = .ok v ∧ Answers p B pk coms prover v}) :
    ∃ v v' i, Challenge p v ∧ Challenge p v' ∧ Answers p B pk coms prover v ∧ Answers p B pk coms prover v' ∧
      i < p.T ∧ g v i ≠ g v' i ∧
      ∃ x y, AnswerOf p B (prover v) (g v) i x ∧ AnswerOf p B (prover v') (g v') i y ∧
        (extract p (publicCode pk G0 (g v i)) x (publicCode pk G0 (g v' i)) y).IsMonomial ∧
        RowEq (ColOp.on (publicCode pk G0 (g v i)) (extract p (publicCode pk G0 (g v i)) x (publicCode pk G0 (g v' i)) y))
          (publicCode pk G0 (g v' i)) := by
  have hW := hp
  have hchal : ∀ v : Vector Nat p.T, p.T.choose p.W * (p.numKeypairs - 1) ^ p.W *
      Nat.card {ws : Words 16 k // digestWords p ws.1 0 (noChallenge p) = .ok v} ≤ (2 ^ 16) ^ k := fun v => guess_le hp hb k v
  by_cases hone : ∃ v v', Challenge p v ∧ Challenge p v' ∧ Answers p B pk coms prover v ∧ Answers p B pk coms prover v' ∧ v ≠ v'
  · obtain ⟨v, v', hv, hv', ha, ha', hne⟩ := hone
    have : ∃ i < p.T, g v i ≠ g v' i := by
      by_contra hc
      push Not at hc
      exact hne (vec_ext hc)
    obtain ⟨i, hi, hd⟩ := this
    obtain ⟨x, hx1, hx2, hx3⟩ := RoundCommit.answer hW (ha i hi) hG
    obtain ⟨y, hy1, hy2, hy3⟩ := RoundCommit.answer hW (ha' i hi) hG
    exact ⟨v, v', i, hv, hv', ha, ha', hi, hd, x, y, hx1, hy1, C12_extract hW hx2 hy2 hx3 hy3⟩
  · exfalso
    have hcard : ∃ v, Nat.card {ws : Words 16 k // ∃ v, digestWords p ws.1 0 (noChallenge p) = .ok v ∧ Answers p B pk coms prover v} ≤
        Nat.card {ws : Words 16 k // digestWords p ws.1 0 (noChallenge p) = .ok v} := by
      by_cases hex : ∃ v, Challenge p v ∧ Answers p B pk coms prover v
      · obtain ⟨v, hv, ha⟩ := hex
        refine ⟨v, Nat.card_le_card_of_injective (fun x => ⟨x.1, ?_⟩) ?_⟩
        · obtain ⟨u, hu, hau⟩ := x.2
          have : u = v := by
            by_contra hc
            exact hone ⟨u, v, noChallenge_challenge hW hu, hv, hau, ha, hc⟩
          rw [← this]; exact hu
        · intro a b h
          exact Subtype.ext (congrArg (fun z => z.1) h)
      · refine ⟨noChallenge p, ?_⟩
        have : IsEmpty {ws : Words 16 k // ∃ v, digestWords p ws.1 0 (noChallenge p) = .ok v ∧ Answers p B pk coms prover v} :=
          ⟨fun ⟨_, v, hv, ha⟩ => hex ⟨v, noChallenge_challenge hW hv, ha⟩⟩
        rw [Nat.card_of_isEmpty]
        exact Nat.zero_le _
    obtain ⟨v, hle⟩ := hcard
    exact absurd hwin (Nat.not_lt.mpr ((Nat.mul_le_mul_left _ hle).trans (hchal v)))

/-- C63 for the seven parameter sets: a success on more than a fraction of two to the minus security level suffices. -/
theorem C63_parameter_sets (hp : p ∈ Params.all) {B : Nat} {pk : PK p} {G0 : Matrix (Fin p.K) (Fin p.N) (ZMod 127)}
    (hG : IsG0 p B (xof p pk.seed) G0) (coms : Nat → List (List Nat)) (prover : Vector Nat p.T → Sig p) (k : Nat)
    (hwin : Nat.card (Words 16 k) < 2 ^ (8 * p.seedLen) *
      Nat.card {ws : Words 16 k // ∃ v, digestWords p ws.1 0 (noChallenge p) = .ok v ∧ Answers p B pk coms prover v}) :
    ∃ v v' i, Challenge p v ∧ Challenge p v' ∧ Answers p B pk coms prover v ∧ Answers p B pk coms prover v' ∧
      i < p.T ∧ g v i ≠ g v' i ∧
      ∃ x y, AnswerOf p B (prover v) (g v) i x ∧ AnswerOf p B (prover v') (g v') i y ∧
        (extract p (publicCode pk G0 (g v i)) x (publicCode pk G0 (g v' i)) y).IsMonomial ∧
        RowEq (ColOp.on (publicCode pk G0 (g v i)) (extract p (publicCode pk G0 (g v i)) x (publicCode pk G0 (g v' i)) y))
          (publicCode pk G0 (g v' i)) := by
  have h1 := C62_parameter_sets p hp
  rw [C62_count (Params.all_WF p hp)] at h1
  rw [card_words] at hwin
  exact C63_soundness (Params.all_WF p hp) (challenge_bits p hp) hG coms prover k (lt_of_lt_of_le hwin (Nat.mul_le_mul_right _ h1))

theorem rank_inj {L T : Nat} {hidden : Nat → Bool} {i j : Nat} (hi : Published L T hidden i) (hj : Published L T hidden j)
    (e : rank L T hidden i = rank L T hidden j) : i = j := by
  rcases Nat.lt_trichotomy i j with h | h | h
  · have h1 := rank_mono (L := L) (T := T) (hidden := hidden) (show i + 1 ≤ j from h)
    rw [rank_succ, if_pos hi] at h1; omega
  · exact h
  · have h1 := rank_mono (L := L) (T := T) (hidden := hidden) (show j + 1 ≤ i from h)
    rw [rank_succ, if_pos hj] at h1; omega

theorem responsesBefore_inj {v : Nat → Nat} {i j : Nat} (hi : v i ≠ 0) (hj : v j ≠ 0)
    (e : responsesBefore v i = responsesBefore v j) : i = j := by
  unfold responsesBefore at e
  rcases Nat.lt_trichotomy i j with h | h | h
  · have := weight_lt h v hi; omega
  · exact h
  · have := weight_lt h v hj; omega

/-- The response that a product of monomials gives for the pivots. -/
theorem exists_action {N : Matrix (Fin p.N) (Fin p.N) Fq} {piv : Fin p.K → Fin p.N} (hpiv : Function.Injective piv)
    (hN : ∃ (π : Equiv.Perm (Fin p.N)) (c : Fin p.N → Fq), (∀ i, c i ≠ 0) ∧ ∀ i j, N i j = if π i = j then c i else 0) :
    ∃ a : Action p, a.Valid ∧ ∀ t : Fin p.K, ∀ h : a.perm t < p.N, N ⟨a.perm t, h⟩ (piv t) = ((a.coef t : Nat) : Fq) := by
  obtain ⟨π, c, hc, hN⟩ := hN
  refine ⟨⟨fun t => if h : t < p.K then (π.symm (piv ⟨t, h⟩)).val else 0,
    fun t => if h : t < p.K then (c (π.symm (piv ⟨t, h⟩))).val else 1⟩, ⟨?_, ?_, ?_⟩, ?_⟩
  · intro t ht
    dsimp only
    rw [dif_pos ht]
    refine ⟨?_, ZMod.val_lt _⟩
    have := (ZMod.val_eq_zero (c (π.symm (piv ⟨t, ht⟩)))).not.mpr (hc _)
    omega
  · intro t ht
    dsimp only
    rw [dif_pos ht]
    exact (π.symm (piv ⟨t, ht⟩)).2
  · intro s hs t ht e
    dsimp only at e
    rw [dif_pos hs, dif_pos ht] at e
    have := hpiv (π.symm.injective (Fin.ext e))
    exact congrArg Fin.val this
  · intro t h
    have e : (⟨if h : t.val < p.K then (π.symm (piv ⟨t.val, h⟩)).val else 0, h⟩ : Fin p.N) = π.symm (piv t) := by
      apply Fin.ext; simp
    dsimp only
    rw [e, hN, Equiv.apply_symm_apply, if_pos rfl]
    simp

/-- The owner of the key answers all challenges from one set of commitments, with the salt of the commitments. -/
theorem honest_prover (hp : p.WF) {B : Nat} {sk : SK p} {pk : PK p} (hk : KeyPair p B sk pk) (hf : KeyFits p B sk)
    (root salt : List UInt8)
    (hr : ∀ i < p.T, ∃ M, IsMonomial p B (roundStream p salt (signerLeaf p root salt i) i) M) :
    ∃ (coms : Nat → List (List Nat)) (prover : Vector Nat p.T → Sig p),
      ∀ v, (prover v).salt = salt ∧ (Challenge p v → Answers p B pk coms prover v) := by
  classical
  obtain ⟨G0, hG0⟩ := hf.1
  have hTl := hp.T_lt_leaves
  have hKN := Nat.le_of_lt hp.K_lt_N
  have hfull : FullRank G0 := (hG0.rref hKN).fullRank
  have hround : ∀ i, ∃ M R piv, i < p.T → IsMonomial p B (roundStream p salt (signerLeaf p root salt i) i) M ∧
      RowEq (G0 * M) R ∧ IsRREF R piv := by
    intro i
    by_cases hi : i < p.T
    · obtain ⟨M, hM⟩ := hr i hi
      obtain ⟨m, hm, rfl⟩ := IsMonomial.valid hp hM
      obtain ⟨r, -, hr⟩ := hm.rightInv (by have := hp.N_lt; omega)
      obtain ⟨R, piv, h1, h2⟩ := exists_rref hKN (fullRank_mul hfull hr)
      exact ⟨m.mat, R, piv, fun _ => ⟨hM, h1, h2⟩⟩
    · exact ⟨1, 0, fun t => ⟨t.val, by have := t.2; omega⟩, fun h => absurd h hi⟩
  choose M R piv hMR using hround
  have hact : ∀ i b, ∃ a : Action p, i < p.T → 0 < b → b < p.numKeypairs → a.Valid ∧
      ∀ S, IsSecret p B sk.secret (b - 1) S → ∀ t : Fin p.K, ∀ h : a.perm t < p.N,
        (S * M i) ⟨a.perm t, h⟩ (piv i t) = ((a.coef t : Nat) : Fq) := by
    intro i b
    by_cases h : i < p.T ∧ 0 < b ∧ b < p.numKeypairs
    · obtain ⟨S, hS⟩ := hf.2 (b - 1) (by omega)
      obtain ⟨g1, g2, g3⟩ := hMR i h.1
      obtain ⟨a, ha, hb⟩ := exists_action (g3.1.injective) (exists_perm_mul hp hS g1)
      refine ⟨a, fun _ _ _ => ⟨ha, fun S' hS' => ?_⟩⟩
      obtain rfl := IsMonomial.unique hS hS'
      exact hb
    · exact ⟨⟨id, id⟩, fun h1 h2 h3 => absurd ⟨h1, h2, h3⟩ h⟩
  choose a ha using hact
  refine ⟨fun i => commitment (R i) (piv i), fun v => ⟨salt,
    fun n => if h : ∃ i, g v i ≠ 0 ∧ responsesBefore (g v) i = n then encodeAction p (a h.choose (g v h.choose)) else Vector.replicate _ 0,
    [], fun n => if h : ∃ i, Published p.numLeaves p.T (hides (g v)) i ∧ rank p.numLeaves p.T (hides (g v)) i = n then
      nodeSeed (children p salt) root h.choose else []⟩, fun v => ⟨rfl, fun hv i hi => ?_⟩⟩
  obtain ⟨g1, g2, g3⟩ := hMR i hi
  have hwt : weight p.T (g v) = p.W := hv.1
  have hhid := hidden_exists hp hwt
  unfold RoundCommit
  by_cases hv0 : g v i = 0
  · rw [if_pos hv0, hk.1]
    have hleaf := rebuilt_eq_nodeSeed (L := p.numLeaves) (T := p.T) (hidden := hides (g v)) (children p salt) root
      (fun n => if h : ∃ i, Published p.numLeaves p.T (hides (g v)) i ∧ rank p.numLeaves p.T (hides (g v)) i = n then
        nodeSeed (children p salt) root h.choose else []) hhid (by
          intro j hj
          have hex : ∃ i, Published p.numLeaves p.T (hides (g v)) i ∧
            rank p.numLeaves p.T (hides (g v)) i = rank p.numLeaves p.T (hides (g v)) j := ⟨j, hj, rfl⟩
          rw [dif_pos hex, rank_inj hex.choose_spec.1 hj hex.choose_spec.2]) (p.numLeaves - 1 + i) (by omega) (by
          rw [covers_leaf_iff (by omega) i (by omega)]
          rintro ⟨-, h⟩
          simp [hides, hv0] at h)
    refine ⟨G0, M i, hG0, ?_, R i, piv i, g2, g3, rfl⟩
    unfold rebuiltLeaf
    dsimp only
    rw [hleaf]
    exact g1
  · rw [if_neg hv0]
    have hrange := hv.2 i hi
    obtain ⟨ha1, ha2⟩ := ha i (g v i) hi (by omega) hrange
    obtain ⟨G0', S, Q, piv', hG0', hS, hQ, hQr, hcode⟩ := hk.2 (g v i - 1) (by omega)
    obtain rfl := hG0.unique hG0'
    have hdec := decode_encode hp _ ha1
    have hex : ∃ j, g v j ≠ 0 ∧ responsesBefore (g v) j = responsesBefore (g v) i := ⟨i, hv0, rfl⟩
    dsimp only
    rw [dif_pos hex, responsesBefore_inj hex.choose_spec.1 hv0 hex.choose_spec.2]
    refine ⟨valid_congr (fun t ht => (hdec.1 t ht).symm) (fun t ht => (hdec.2 t ht).symm) ha1, ?_⟩
    rw [actOn_congr hdec.1 hdec.2, hcode, (canonCode_codeBits p hQr).2]
    exact response_commit hp rfl (exists_perm_mul hp hS g1) hQ hQr g2 g3 _ ha1 (ha2 S hS)

/-- C63, the other direction: the owner of the key answers all challenges from one set of commitments. -/
theorem C63_honest_prover (hp : p.WF) {B : Nat} {sk : SK p} {pk : PK p} (hk : KeyPair p B sk pk) (hf : KeyFits p B sk)
    (root salt : List UInt8)
    (hr : ∀ i < p.T, ∃ M, IsMonomial p B (roundStream p salt (signerLeaf p root salt i) i) M) :
    ∃ (coms : Nat → List (List Nat)) (prover : Vector Nat p.T → Sig p), ∀ v, Challenge p v → Answers p B pk coms prover v := by
  obtain ⟨coms, prover, h⟩ := honest_prover hp hk hf root salt hr
  exact ⟨coms, prover, fun v => (h v).2⟩

end LESS
