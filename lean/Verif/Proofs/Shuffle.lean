import Verif.Proofs.Stream
/-!
# The shuffle as a function of its draws
-/
namespace LESS

open Spec

/-- A permutation of the numbers below `n`, the others fixed. -/
def PermBelow (n : Nat) (π : Nat → Nat) : Prop :=
  (∀ x < n, π x < n) ∧ ∀ x < n, ∀ y < n, π x = π y → x = y

theorem PermBelow.surj {n : Nat} {π : Nat → Nat} (h : PermBelow n π) {y : Nat} (hy : y < n) : ∃ x < n, π x = y := by
  have hf : Function.Injective (fun x : Fin n => (⟨π x, h.1 x x.2⟩ : Fin n)) :=
    fun a b hab => Fin.ext (h.2 a a.2 b b.2 (congrArg Fin.val hab))
  obtain ⟨x, hx⟩ := (Finite.injective_iff_bijective.mp hf).2 ⟨y, hy⟩
  exact ⟨x, x.2, congrArg Fin.val hx⟩

theorem PermBelow.exchange {n : Nat} {π : Nat → Nat} (h : PermBelow n π) {i j : Nat} (hi : i < n) (hj : j < n) :
    PermBelow n (exchange π i j) := by
  refine ⟨fun x hx => ?_, fun x hx y hy e => ?_⟩
  · unfold Spec.exchange
    split
    · exact h.1 _ hj
    · split
      · exact h.1 _ hi
      · exact h.1 _ hx
  · have hex : ∀ x, Spec.exchange π i j x = π (if x = i then j else if x = j then i else x) := by
      intro x
      unfold Spec.exchange
      split
      · rfl
      · split <;> rfl
    have hlt : ∀ x < n, (if x = i then j else if x = j then i else x) < n := by
      intro x hx
      split
      · exact hj
      · split
        · exact hi
        · exact hx
    rw [hex, hex] at e
    have := h.2 _ (hlt x hx) _ (hlt y hy) e
    split_ifs at this <;> omega

theorem shuffled_perm {n : Nat} {d : Nat → Nat} {m : Nat} (hm : m ≤ n) (hd : ∀ i < m, d i < n) : PermBelow n (shuffled d m) := by
  induction m with
  | zero => exact ⟨fun _ h => h, fun _ _ _ _ h => h⟩
  | succ m ih => exact (ih (by omega) (fun i hi => hd i (by omega))).exchange (by omega) (hd m (by omega))

theorem shuffled_congr {d d' : Nat → Nat} {m : Nat} (h : ∀ i < m, d i = d' i) : shuffled d m = shuffled d' m := by
  induction m with
  | zero => rfl
  | succ m ih => unfold shuffled; rw [ih (fun i hi => h i (by omega)), h m (by omega)]

/-- Later exchanges leave earlier positions alone. -/
theorem shuffled_stable {d : Nat → Nat} {m m' : Nat} (hmm : m ≤ m') (hd : ∀ i < m', i ≤ d i) {x : Nat} (hx : x < m) :
    shuffled d m' x = shuffled d m x := by
  induction m' with
  | zero => rw [show m = 0 by omega]
  | succ k ih =>
    by_cases hk : m = k + 1
    · rw [hk]
    · rw [← ih (by omega) (fun i hi => hd i (by omega))]
      have := hd k (by omega)
      show Spec.exchange (shuffled d k) k (d k) x = _
      unfold Spec.exchange
      rw [if_neg (by omega), if_neg (by omega)]

theorem shuffled_at {d : Nat → Nat} {m m' : Nat} (hmm : m < m') (hd : ∀ i < m', i ≤ d i) :
    shuffled d m' m = shuffled d m (d m) := by
  rw [shuffled_stable (m := m + 1) (by omega) hd (Nat.lt_succ_self m)]
  show Spec.exchange (shuffled d m) m (d m) m = _
  unfold Spec.exchange
  rw [if_pos rfl]

/-- The draws are determined by the resulting permutation. -/
theorem shuffled_inj {n : Nat} {d d' : Nat → Nat} {m : Nat} (hm : m ≤ n) (hd : ∀ i < m, i ≤ d i ∧ d i < n)
    (hd' : ∀ i < m, i ≤ d' i ∧ d' i < n) (h : ∀ x < n, shuffled d m x = shuffled d' m x) : ∀ i < m, d i = d' i := by
  intro i
  induction i using Nat.strongRecOn with
  | ind i ih =>
    intro hi
    have h1 := h i (by omega)
    rw [shuffled_at hi (fun k hk => (hd k hk).1), shuffled_at hi (fun k hk => (hd' k hk).1),
      shuffled_congr (d' := d') (fun k hk => ih k hk (by omega))] at h1
    exact (shuffled_perm (n := n) (by omega) (fun k hk => (hd' k (by omega)).2)).2 _ (hd i hi).2 _ (hd' i hi).2 h1

/-- Every permutation is the result of some draws. -/
theorem shuffled_surj {n : Nat} {π : Nat → Nat} (hπ : PermBelow n π) :
    ∃ d, (∀ i < n - 1, i ≤ d i ∧ d i < n) ∧ ∀ x < n, shuffled d (n - 1) x = π x := by
  have key : ∀ m, m ≤ n - 1 → ∃ d, (∀ i < m, i ≤ d i ∧ d i < n) ∧ ∀ x < m, shuffled d m x = π x := by
    intro m
    induction m with
    | zero => intro _; exact ⟨fun _ => 0, by simp, by simp⟩
    | succ m ih =>
      intro hm
      obtain ⟨d, hd, he⟩ := ih (by omega)
      have hp := shuffled_perm (n := n) (d := d) (m := m) (by omega) (fun i hi => (hd i hi).2)
      obtain ⟨y, hy, hyv⟩ := hp.surj (hπ.1 m (by omega))
      have hmy : m ≤ y := by
        by_contra hlt
        have h1 := he y (by omega)
        rw [hyv] at h1
        have := hπ.2 _ (by omega) _ hy h1
        omega
      have hdd : ∀ i < m + 1, i ≤ Function.update d m y i ∧ Function.update d m y i < n := by
        intro i hi
        by_cases him : i = m
        · subst him; rw [Function.update_self]; exact ⟨hmy, hy⟩
        · rw [Function.update_of_ne him]; exact hd i (by omega)
      have hc : shuffled (Function.update d m y) m = shuffled d m :=
        shuffled_congr fun i hi => Function.update_of_ne (by omega) _ _
      refine ⟨Function.update d m y, hdd, ?_⟩
      intro x hx
      by_cases hxm : x = m
      · subst hxm
        rw [shuffled_at (Nat.lt_succ_self x) (fun i hi => (hdd i hi).1), hc, Function.update_self, hyv]
      · rw [shuffled_stable (m := m) (by omega) (fun i hi => (hdd i hi).1) (by omega), hc, he x (by omega)]
  obtain ⟨d, hd, he⟩ := key (n - 1) (Nat.le_refl _)
  refine ⟨d, hd, ?_⟩
  have hp := shuffled_perm (n := n) (d := d) (m := n - 1) (by omega) (fun i hi => (hd i hi).2)
  intro x hx
  by_cases hlt : x < n - 1
  · exact he x hlt
  · obtain ⟨y, hy, hyv⟩ := hp.surj (hπ.1 x hx)
    by_cases hyx : y < n - 1
    · have h1 := he y hyx
      rw [hyv] at h1
      have := hπ.2 _ hx _ hy h1
      omega
    · rw [← hyv, show x = y by omega]

end LESS
