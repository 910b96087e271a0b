import Verif.Model.InPlace
import Verif.Proofs.Commit
/-!
# Operations that overwrite an argument: loop invariants
-/
namespace LESS

variable {p : Params}

/-! ## Permutations -/

theorem perm_id_of_ge {n : Nat} {v : Vector Nat n} (h : IsPerm v) (hge : ∀ i, i < n → i ≤ g v i) :
    ∀ i, i < n → g v i = i := by
  intro i
  induction i using Nat.strong_induction_on with
  | _ i ih =>
    intro hi
    obtain ⟨k, hk, he⟩ := h.surj i hi
    have := hge k hk
    rcases Nat.lt_or_ge k i with hlt | hge'
    · have := ih k hlt hk; omega
    · have : k = i := by omega
      rw [this] at he; exact he

theorem perm_id_of_le {n : Nat} {v : Vector Nat n} (h : IsPerm v) (hle : ∀ i, i < n → g v i ≤ i) :
    ∀ i, i < n → g v i = i := by
  intro i
  induction i using Nat.strong_induction_on with
  | _ i ih =>
    intro hi
    have := hle i hi
    by_contra hne
    have hlt : g v i < i := by omega
    have h1 := ih _ hlt (by omega)
    have := h.2 _ _ (by omega) hi h1
    omega

/-- A permutation other than the identity has a least place that is mapped downwards. -/
theorem perm_down {n : Nat} {v : Vector Nat n} (h : IsPerm v) (hne : ¬ ∀ i, i < n → g v i = i) :
    ∃ j, j < n ∧ g v j < j ∧ ∀ k, k < j → k ≤ g v k := by
  have hex : ∃ j, j < n ∧ g v j < j := by
    by_contra hno
    exact hne (perm_id_of_ge h fun i hi => by
      by_contra hlt
      exact hno ⟨i, hi, by omega⟩)
  classical
  refine ⟨Nat.find hex, (Nat.find_spec hex).1, (Nat.find_spec hex).2, fun k hk => ?_⟩
  have := Nat.find_min hex hk
  have hn := (Nat.find_spec hex).1
  by_contra hlt
  exact this ⟨by omega, by omega⟩

/-- A permutation other than the identity has a least place that is reached from below. -/
theorem perm_up {n : Nat} {v : Vector Nat n} (h : IsPerm v) (hne : ¬ ∀ i, i < n → g v i = i) :
    ∃ k, k < n ∧ k < g v k ∧ ∀ i, i < n → i < g v i → g v k ≤ g v i := by
  have hex : ∃ t, ∃ k, k < n ∧ k < g v k ∧ g v k = t := by
    by_contra hno
    exact hne (perm_id_of_le h fun i hi => by
      by_contra hlt
      exact hno ⟨_, i, hi, by omega, rfl⟩)
  classical
  obtain ⟨k, hk, hlt, he⟩ := Nat.find_spec hex
  refine ⟨k, hk, hlt, fun i hi hil => ?_⟩
  rw [he]
  exact Nat.find_min' hex ⟨i, hi, hil, rfl⟩

/-! ## Reading a product or an inverse off the matrices -/

theorem mat_inj_left {A B : Monomial p} (hA : A.Valid) (hB : ∀ i, i < p.N → g B.coefficients i < 127)
    (h : B.mat = A.mat) : ∀ i, i < p.N → g B.permutation i = g A.permutation i ∧
      g B.coefficients i = g A.coefficients i := by
  intro i hi
  have hlt := hA.1.1 i hi
  have e := congrFun (congrFun h ⟨i, hi⟩) ⟨g A.permutation i, hlt⟩
  simp only [Monomial.mat, if_true] at e
  have ha := hA.2 i hi
  by_cases hp : g B.permutation i = g A.permutation i
  · rw [if_pos hp] at e
    exact ⟨hp, cast_inj (hB i hi) ha.2 e⟩
  · rw [if_neg hp, eq_comm, cast_eq_zero ha.2] at e; omega

theorem mat_mul_iff {A B r : Monomial p} (hA : A.Valid) (hB : B.Valid) (hr : ∀ i, i < p.N → g r.coefficients i < 127) :
    r.mat = A.mat * B.mat ↔ ∀ i, i < p.N → g r.permutation i = g B.permutation (g A.permutation i) ∧
        g r.coefficients i = fqRed (g A.coefficients i * g B.coefficients (g A.permutation i)) := by
  constructor
  · intro h
    obtain ⟨r', _, hr'⟩ := (monomialMul_wp A A B hA.1).exists_ok
    have hv := mul_valid hA hB hr'
    rw [← mat_mul hA hB hr'] at h
    intro i hi
    have := mat_inj_left hv hr h i hi
    rw [this.1, this.2]
    exact hr' i hi
  · exact mat_mul hA hB

theorem mat_inv_iff {m r : Monomial p} (hm : m.Valid) (hr : ∀ i, i < p.N → g r.coefficients i < 127) :
    m.mat * r.mat = 1 ↔ ∀ i, i < p.N → g r.permutation (g m.permutation i) = i ∧
        g r.coefficients (g m.permutation i) = fqInv (g m.coefficients i) := by
  constructor
  · intro h i hi
    have hlt := hm.1.1 i hi
    have hc := hm.2 i hi
    have hne : ((g m.coefficients i : Nat) : Fq) ≠ 0 := by
      rw [Ne, cast_eq_zero hc.2]; omega
    have e := congrFun (congrFun h ⟨i, hi⟩) ⟨i, hi⟩
    rw [Matrix.mul_apply, Finset.sum_eq_single ⟨g m.permutation i, hlt⟩] at e
    · simp only [Monomial.mat, if_true, Matrix.one_apply_eq] at e
      by_cases hp : g r.permutation (g m.permutation i) = i
      · rw [if_pos hp] at e
        refine ⟨hp, cast_inj (hr _ hlt) (fqInv_lt _) ?_⟩
        rw [fqInv_cast _ (by omega)]
        exact eq_inv_of_mul_eq_one_right e
      · rw [if_neg hp, mul_zero] at e
        exact absurd e zero_ne_one
    · intro b _ hb
      have : ¬ g m.permutation i = b.val := fun e => hb (Fin.ext e.symm)
      simp [Monomial.mat, this]
    · simp
  · exact mat_inv hm

/-! ## The products -/

theorem mulOverFirst_wp (A B : Monomial p) (hA : A.Valid) (hB : B.Valid) :
    Wp False (monomialMulOverFirst A B) (fun r => ∀ i, i < p.N →
      g r.permutation i = g B.permutation (g A.permutation i) ∧
      g r.coefficients i = fqRed (g A.coefficients i * g B.coefficients (g B.permutation (g A.permutation i)))) := by
  unfold monomialMulOverFirst
  refine Wp.forUp (fun n (r : Monomial p) => (∀ i, i < n →
      g r.permutation i = g B.permutation (g A.permutation i) ∧
      g r.coefficients i = fqRed (g A.coefficients i * g B.coefficients (g B.permutation (g A.permutation i)))) ∧
      ∀ i, n ≤ i → i < p.N → g r.permutation i = g A.permutation i ∧ g r.coefficients i = g A.coefficients i)
    ⟨by simp, fun _ _ _ => ⟨rfl, rfl⟩⟩ ?_ (fun _ h => h.1)
  rintro i r hi ⟨h1, h2⟩
  have hlt := hA.1.1 i hi
  have hlt' := hB.1.1 _ hlt
  obtain ⟨e1, e2⟩ := h2 i (Nat.le_refl i) hi
  simp only [Wp.bind_iff, Wp.rd_iff, Wp.wr_iff, Wp.pure_iff, g_upd _ _ _ _ hi, if_true, e1, e2]
  refine ⟨hi, hlt, hi, hi, hi, hlt', hi, fun j hj => ?_, fun j hj hjN => ?_⟩
  · by_cases e : i = j
    · subst e; simp
    · simp only [e, if_false]; exact h1 j (by omega)
  · simp only [show i ≠ j by omega, if_false]; exact h2 j (by omega) hjN

theorem mulOverSecond_id (A B : Monomial p) (hid : ∀ i, i < p.N → g A.permutation i = i) :
    Wp False (monomialMulOverSecond A B) (fun r => ∀ i, i < p.N →
      g r.permutation i = g B.permutation (g A.permutation i) ∧
      g r.coefficients i = fqRed (g A.coefficients i * g B.coefficients (g A.permutation i))) := by
  unfold monomialMulOverSecond
  refine Wp.forUp (fun n (r : Monomial p) => (∀ i, i < n →
      g r.permutation i = g B.permutation (g A.permutation i) ∧
      g r.coefficients i = fqRed (g A.coefficients i * g B.coefficients (g A.permutation i))) ∧
      ∀ i, n ≤ i → i < p.N → g r.permutation i = g B.permutation i ∧ g r.coefficients i = g B.coefficients i)
    ⟨by simp, fun _ _ _ => ⟨rfl, rfl⟩⟩ ?_ (fun _ h => h.1)
  rintro i r hi ⟨h1, h2⟩
  obtain ⟨e1, e2⟩ := h2 i (Nat.le_refl i) hi
  simp only [Wp.bind_iff, Wp.rd_iff, Wp.wr_iff, Wp.pure_iff, g_upd _ _ _ _ hi, hid i hi, e1, e2]
  refine ⟨hi, hi, hi, hi, hi, hi, hi, fun j hj => ?_, fun j hj hjN => ?_⟩
  · by_cases e : i = j
    · subst e; simp [hid i hi]
    · simp only [e, if_false]; exact h1 j (by omega)
  · simp only [show i ≠ j by omega, if_false]; exact h2 j (by omega) hjN

/-- At the first place `j` that `A` maps downwards the overwritten entry is read. -/
theorem mulOverSecond_wp (A B : Monomial p) (hA : A.Valid) (hB : B.Valid) (j : Nat) (hj : j < p.N)
    (hdown : g A.permutation j < j) (hmin : ∀ k, k < j → k ≤ g A.permutation k) :
    Wp False (monomialMulOverSecond A B) (fun r => (∀ i, i < p.N → g r.coefficients i < 127) ∧
      g r.permutation j = g B.permutation (g A.permutation (g A.permutation j))) := by
  unfold monomialMulOverSecond
  refine Wp.forUp (fun n (r : Monomial p) => (∀ i, i < p.N → g r.coefficients i < 127) ∧
      (n ≤ j → (∀ i, i < n → g r.permutation i = g B.permutation (g A.permutation i)) ∧
        ∀ i, n ≤ i → i < p.N → g r.permutation i = g B.permutation i) ∧
      (j < n → g r.permutation j = g B.permutation (g A.permutation (g A.permutation j))))
    ⟨fun i hi => (hB.2 i hi).2, fun _ => ⟨by simp, fun _ _ _ => rfl⟩, by simp⟩ ?_ (fun _ h => ⟨h.1, h.2.2 hj⟩)
  rintro i r hi ⟨h1, h2, h3⟩
  have hlt := hA.1.1 i hi
  simp only [Wp.bind_iff, Wp.rd_iff, Wp.wr_iff, Wp.pure_iff]
  refine ⟨hi, hlt, hi, hi, hi, hlt, hi, fun k hk => ?_, fun hij => ?_, fun hij => ?_⟩
  · rw [g_upd _ _ _ _ hi]
    split
    · exact fqRed_lt _
    · exact h1 k hk
  · obtain ⟨a1, a2⟩ := h2 (by omega)
    refine ⟨fun k hk => ?_, fun k hk hkN => ?_⟩
    · rw [g_upd _ _ _ _ hi]
      by_cases e : i = k
      · subst e
        rw [if_pos rfl]
        exact a2 _ (hmin i (by omega)) hlt
      · rw [if_neg e]; exact a1 k (by omega)
    · rw [g_upd _ _ _ _ hi, if_neg (by omega)]
      exact a2 k (by omega) hkN
  · rw [g_upd _ _ _ _ hi]
    by_cases e : i = j
    · subst e
      rw [if_pos rfl]
      exact (h2 (Nat.le_refl i)).1 _ hdown
    · rw [if_neg e]; exact h3 (by omega)

/-! ## The inverse -/

/-- The permutation array during the inversion in place: after `n` steps, starting from `v`. -/
def invSteps {N : Nat} (v : Vector Nat N) : Nat → Vector Nat N
  | 0 => v
  | n + 1 => upd (invSteps v n) (g (invSteps v n) n) n

theorem invSteps_lt {N : Nat} {v : Vector Nat N} (h : ∀ i, i < N → g v i < N) (n : Nat) (hn : n ≤ N) :
    ∀ i, i < N → g (invSteps v n) i < N := by
  induction n with
  | zero => exact h
  | succ n ih =>
    intro i hi
    have := ih (by omega)
    rw [invSteps, g_upd _ _ _ _ (this n (by omega))]
    split
    · omega
    · exact this i hi

/-- An entry is the original one, or the number of the step that wrote it. -/
theorem invSteps_origin {N : Nat} {v : Vector Nat N} (h : ∀ i, i < N → g v i < N) (n : Nat) (hn : n ≤ N) (d : Nat) :
    g (invSteps v n) d = g v d ∨
      (g (invSteps v n) d < n ∧ g (invSteps v (g (invSteps v n) d)) (g (invSteps v n) d) = d) := by
  induction n with
  | zero => exact Or.inl rfl
  | succ n ih =>
    rw [invSteps, g_upd _ _ _ _ (invSteps_lt h n (by omega) n (by omega))]
    split
    · next e => exact Or.inr ⟨by omega, e⟩
    · rcases ih (by omega) with h | ⟨h1, h2⟩
      · exact Or.inl h
      · exact Or.inr ⟨by omega, h2⟩

/-- A number is written in its own step only. -/
theorem invSteps_keep {N : Nat} {v : Vector Nat N} (h : ∀ i, i < N → g v i < N) (d i m n : Nat) (him : i < m) (hmn : m ≤ n)
    (hn : n ≤ N) (he : g (invSteps v n) d = i) : g (invSteps v m) d = i := by
  induction n with
  | zero => omega
  | succ n ih =>
    rcases Nat.lt_or_ge n m with hlt | hge
    · rwa [show m = n + 1 by omega]
    · rw [invSteps, g_upd _ _ _ _ (invSteps_lt h n (by omega) n (by omega))] at he
      split at he
      · omega
      · exact ih hge (by omega) he

/-- If the inversion in place gives the inverse permutation then the permutation was its own inverse. -/
theorem invSteps_involution {N : Nat} {v : Vector Nat N} (h : IsPerm v)
    (hfin : ∀ i, i < N → g (invSteps v N) (g v i) = i) : ∀ i, i < N → g v (g v i) = i := by
  by_contra hno
  have hex : ∃ i, i < N ∧ g v (g v i) ≠ i := by
    by_contra hn
    exact hno fun i hi => by
      by_contra hne
      exact hn ⟨i, hi, hne⟩
  classical
  obtain ⟨hi, hne⟩ := Nat.find_spec hex
  have hmin := fun k (hk : k < Nat.find hex) => Nat.find_min hex hk
  generalize Nat.find hex = i at hi hne hmin
  have hj := h.1 i hi
  have hl := h.1 _ hj
  have hji : i < g v i := by
    rcases Nat.lt_trichotomy i (g v i) with hlt | heq | hgt
    · exact hlt
    · exact absurd (by rw [← heq, ← heq]) hne
    · have := hmin _ hgt
      have h2 : g v (g v (g v i)) = g v i := by
        by_contra h2
        exact this ⟨hj, h2⟩
      exact absurd (h.2 _ _ hl hi h2) hne
  have a1 := invSteps_keep h.1 (g v i) i (g v i) N hji (by omega) (Nat.le_refl N) (hfin i hi)
  have a2 := hfin _ hj
  rcases invSteps_origin h.1 N (Nat.le_refl N) (g v (g v i)) with e | ⟨_, e⟩
  · rw [a2] at e
    exact hne (h.2 _ _ hi hl e).symm
  · rw [a2, a1] at e
    exact hne e.symm

theorem invOver_perm (m : Monomial p) (hm : m.Valid) (hN : p.N ≤ p.posMod) :
    Wp False (monomialInvOver m) (fun r => r.permutation = invSteps m.permutation p.N ∧
      ∀ i, i < p.N → g r.coefficients i < 127) := by
  unfold monomialInvOver
  refine Wp.forUp (fun n (r : Monomial p) => r.permutation = invSteps m.permutation n ∧
      ∀ i, i < p.N → g r.coefficients i < 127) ⟨rfl, fun i hi => (hm.2 i hi).2⟩ ?_ (fun _ h => h)
  rintro i r hi ⟨h1, h2⟩
  have hlt := invSteps_lt hm.1.1 i (by omega) i hi
  simp only [Wp.bind_iff, Wp.rd_iff, Wp.wr_iff, Wp.pure_iff, h1, Nat.mod_eq_of_lt (show i < p.posMod by omega)]
  refine ⟨hi, hlt, hi, hi, invSteps_lt hm.1.1 (i + 1) (by omega) i hi, rfl, fun k hk => ?_⟩
  have hlt' : g (upd (invSteps m.permutation i) (g (invSteps m.permutation i) i) i) i < p.N :=
    invSteps_lt hm.1.1 (i + 1) (by omega) i hi
  rw [g_upd _ _ _ _ hlt']
  split
  · exact fqInv_lt _
  · exact h2 k hk

theorem invOver_wp (m : Monomial p) (hm : m.Valid) (hN : p.N ≤ p.posMod)
    (hinv : ∀ i, i < p.N → g m.permutation (g m.permutation i) = i) :
    Wp False (monomialInvOver m) (fun r => (∀ i, i < p.N → g r.permutation i = g m.permutation i) ∧
      ∀ i, i < p.N → g r.coefficients (g m.permutation i) =
        if i ≤ g m.permutation i then fqInv (g m.coefficients i)
        else fqInv (fqInv (g m.coefficients (g m.permutation i)))) := by
  unfold monomialInvOver
  refine Wp.forUp (fun n (r : Monomial p) => (∀ i, i < p.N → g r.permutation i = g m.permutation i) ∧
      ∀ i, i < p.N → g r.coefficients (g m.permutation i) =
        if i < n then (if i ≤ g m.permutation i then fqInv (g m.coefficients i)
        else fqInv (fqInv (g m.coefficients (g m.permutation i)))) else g m.coefficients (g m.permutation i))
    ⟨fun _ _ => rfl, by simp⟩ ?_ (fun _ h => ⟨h.1, fun i hi => by rw [h.2 i hi, if_pos hi]⟩)
  rintro i r hi ⟨h1, h2⟩
  have hlt := hm.1.1 i hi
  have hperm : ∀ k, k < p.N → g (upd r.permutation (g m.permutation i) i) k = g m.permutation k := by
    intro k hk
    rw [g_upd _ _ _ _ hlt]
    split
    · next e => rw [← e, hinv i hi]
    · exact h1 k hk
  simp only [Wp.bind_iff, Wp.rd_iff, Wp.wr_iff, Wp.pure_iff, h1 i hi, Nat.mod_eq_of_lt (show i < p.posMod by omega),
    hperm i hi]
  refine ⟨hi, hlt, hi, hi, hlt, hperm, fun k hk => ?_⟩
  have hlk := hm.1.1 k hk
  rw [g_upd _ _ _ _ hlt]
  by_cases e : k = i
  · subst e
    rw [if_pos rfl, if_pos (by omega)]
    have hc := h2 (g m.permutation k) hlt
    rw [hinv k hk] at hc
    rw [hc]
    rcases Nat.lt_trichotomy (g m.permutation k) k with hl | hl | hl
    · rw [if_pos hl, if_pos (by omega), if_neg (by omega)]
    · rw [if_neg (by omega), if_pos (by omega)]
    · rw [if_neg (by omega), if_pos (by omega)]
  · rw [if_neg (fun h => e (hm.1.2 _ _ hi hk h).symm), h2 k hk]
    by_cases hki : k < i
    · rw [if_pos hki, if_pos (show k < i + 1 by omega)]
    · rw [if_neg hki, if_neg (show ¬ k < i + 1 by omega)]

/-! ## The composition with an action -/

theorem composeActionOver_wp (stale m : Monomial p) (a : MonoAction p)
    (hN : p.N ≤ p.posMod) (hm : m.Valid) (ha : ∀ t, t < p.K → g a.permutation t < p.N) :
    Wp False (composeActionOver stale m a) (fun r => ∀ t, t < p.K → ∀ s u, s < p.N → u < p.N →
      g m.permutation s = g a.permutation t → g m.permutation u = s → g r.permutation t = s ∧
      g r.coefficients t = fqRed (g a.coefficients t * g m.coefficients u)) := by
  unfold composeActionOver
  rw [Wp.bind_iff]
  refine Wp.forUp (fun n (r : Monomial p) => ∀ i, i < n → g r.permutation (g m.permutation i) = i ∧
    g r.coefficients (g m.permutation i) = g m.coefficients i) (by simp) ?_ ?_
  · intro i r hi hr
    simp only [Wp.bind_iff, Wp.rd_iff, Wp.wr_iff, Wp.pure_iff]
    have hlt := hm.1.1 i hi
    refine ⟨hi, hlt, hi, hlt, fun j hj => ?_⟩
    rw [g_upd _ _ _ _ hlt, g_upd _ _ _ _ hlt]
    by_cases e : j = i
    · subst e; simp [Nat.mod_eq_of_lt (show j < p.posMod by omega)]
    · have : g m.permutation i ≠ g m.permutation j := fun h => e (hm.1.2 _ _ hi (by omega) h).symm
      simp only [this, if_false]
      exact hr j (by omega)
  · intro rev hrev
    refine Wp.forUp (fun n (r : MonoAction p) => (∀ t, t < n → ∀ s u, s < p.N → u < p.N →
      g m.permutation s = g a.permutation t → g m.permutation u = s → g r.permutation t = s ∧
      g r.coefficients t = fqRed (g a.coefficients t * g m.coefficients u)) ∧
      ∀ t, n ≤ t → t < p.K → g r.permutation t = g a.permutation t ∧ g r.coefficients t = g a.coefficients t)
      ⟨by simp, fun _ _ _ => ⟨rfl, rfl⟩⟩ ?_ (fun _ h => h.1)
    rintro i r hi ⟨h1, h2⟩
    have hs := ha i hi
    obtain ⟨e1, e2⟩ := h2 i (Nat.le_refl i) hi
    obtain ⟨k, hk, he⟩ := hm.1.surj _ hs
    obtain ⟨l, hl, hel⟩ := hm.1.surj k hk
    have e3 : g rev.permutation (g a.permutation i) = k := by rw [← he]; exact (hrev k hk).1
    have e4 : g rev.coefficients k = g m.coefficients l := by rw [← hel]; exact (hrev l hl).2
    simp only [Wp.bind_iff, Wp.rd_iff, Wp.wr_iff, Wp.pure_iff, e1, e2, e3, g_upd _ _ _ _ hi, if_true, e4]
    refine ⟨hi, hs, hi, hi, hi, hk, hi, fun t ht s u hsN huN h3 h4 => ?_, fun t ht htK => ?_⟩
    · by_cases e : i = t
      · subst e
        have hsk : s = k := hm.1.2 _ _ hsN hk (h3.trans he.symm)
        subst hsk
        have hul : u = l := hm.1.2 _ _ huN hl (h4.trans hel.symm)
        subst hul
        simp
      · simp only [e, if_false]
        exact h1 t (by omega) s u hsN huN h3 h4
    · simp only [show i ≠ t by omega, if_false]
      exact h2 t (by omega) htK

/-! ## The product with a generator matrix -/

theorem mulOver_column (R : GenMat p) (m : Monomial p) (hm : m.Valid) (s : Nat) (hs : s < p.N) :
    Wp False (forUp p.K (fun row (res : GenMat p) => do
      let d ← rd m.permutation s
      let x ← rd2 res row s
      let c ← rd m.coefficients s
      wr2 res row d (fqRed (x * c))) R) (fun R' => ∀ r c, r < p.K → c < p.N →
        g2 R' r c = if g m.permutation s = c then fqRed (g2 R r s * g m.coefficients s) else g2 R r c) := by
  have hlt := hm.1.1 s hs
  refine Wp.forUp (fun n (R' : GenMat p) => ∀ r c, r < p.K → c < p.N →
        g2 R' r c = if r < n ∧ g m.permutation s = c then fqRed (g2 R r s * g m.coefficients s) else g2 R r c)
    (by simp) ?_ (fun R' h r c hr hc => by rw [h r c hr hc]; simp [hr])
  intro i R' hi h
  simp only [Wp.bind_iff, Wp.rd_iff, Wp.rd2_iff, Wp.wr2_iff]
  refine ⟨hs, hi, hs, hs, hi, hlt, fun r c hr hc => ?_⟩
  rw [g2_upd2 _ _ _ _ _ _ hi hlt, h i s hi hs, h r c hr hc]
  by_cases e : i = r
  · subst e
    simp
  · have : r < i + 1 ↔ r < i := by omega
    simp [e, this]

theorem generatorMulOver_id (G : GenMat p) (m : Monomial p) (hm : m.Valid)
    (hid : ∀ i, i < p.N → g m.permutation i = i) :
    Wp False (generatorMonomialMulOver G m) (fun R =>
      ∀ r s, r < p.K → s < p.N → g2 R r (g m.permutation s) = fqRed (g2 G r s * g m.coefficients s)) := by
  unfold generatorMonomialMulOver
  refine Wp.forUp (fun n (R : GenMat p) => ∀ r s, r < p.K → s < p.N →
      g2 R r s = if s < n then fqRed (g2 G r s * g m.coefficients s) else g2 G r s) (by simp) ?_
    (fun R h r s hr hs => by rw [hid s hs, h r s hr hs, if_pos hs])
  intro i R hi h
  refine (mulOver_column R m hm i hi).mono fun R' hR' r s hr hs => ?_
  rw [hR' r s hr hs, hid i hi, h r i hr hi, h r s hr hs, if_neg (Nat.lt_irrefl i)]
  by_cases e : i = s
  · subst e; simp
  · have : s < i + 1 ↔ s < i := by omega
    simp [e, this]

/-- At the first place reached from below the overwritten column is read. -/
theorem generatorMulOver_wp (G : GenMat p) (m : Monomial p) (hm : m.Valid) (hG : Reduced G) (k : Nat) (hk : k < p.N)
    (hup : k < g m.permutation k) (hmin : ∀ i, i < p.N → i < g m.permutation i → g m.permutation k ≤ g m.permutation i) :
    Wp False (generatorMonomialMulOver G m) (fun R => Reduced R ∧ ∀ r, r < p.K →
      g2 R r (g m.permutation (g m.permutation k)) =
        fqRed (fqRed (g2 G r k * g m.coefficients k) * g m.coefficients (g m.permutation k))) := by
  have ht := hm.1.1 k hk
  unfold generatorMonomialMulOver
  refine Wp.forUp (fun n (R : GenMat p) => Reduced R ∧
      (n ≤ g m.permutation k → ∀ r, r < p.K →
        (∀ i, i < n → g2 R r (g m.permutation i) = fqRed (g2 G r i * g m.coefficients i)) ∧
        ∀ c, c < p.N → (∀ i, i < n → g m.permutation i ≠ c) → g2 R r c = g2 G r c) ∧
      (g m.permutation k < n → ∀ r, r < p.K → g2 R r (g m.permutation (g m.permutation k)) =
        fqRed (fqRed (g2 G r k * g m.coefficients k) * g m.coefficients (g m.permutation k))))
    ⟨hG, fun _ r _ => ⟨by simp, fun _ _ _ => rfl⟩, by simp⟩ ?_ (fun R h => ⟨h.1, h.2.2 ht⟩)
  rintro n R hn ⟨h0, h1, h2⟩
  have hln := hm.1.1 n hn
  refine (mulOver_column R m hm n hn).mono fun R' hR' => ⟨fun r c hr hc => ?_, fun hnt r hr => ⟨fun i hi => ?_, fun c hc hi => ?_⟩,
    fun htn r hr => ?_⟩
  · rw [hR' r c hr hc]
    split
    · exact fqRed_lt _
    · exact h0 r c hr hc
  · have hlt := hm.1.1 i (by omega)
    rw [hR' r _ hr hlt]
    obtain ⟨a1, a2⟩ := h1 (by omega) r hr
    by_cases e : i = n
    · subst e
      rw [if_pos rfl, a2 i hn]
      intro j hj he
      have := hmin j (by omega) (by omega)
      omega
    · rw [if_neg (fun h => e (hm.1.2 _ _ hn (by omega) h).symm)]
      exact a1 i (by omega)
  · rw [hR' r c hr hc, if_neg (hi n (by omega))]
    exact (h1 (by omega) r hr).2 c hc fun i hin => hi i (by omega)
  · rw [hR' r _ hr (hm.1.1 _ ht)]
    by_cases e : g m.permutation k = n
    · rw [if_pos (by rw [e]), ← e, (h1 (by omega) r hr).1 k (by omega)]
    · rw [if_neg (fun h => e (hm.1.2 _ _ hn ht h).symm)]
      exact h2 (by omega) r hr

end LESS
