import Verif.Proofs.SeedTree
import Verif.Proofs.Fuel
/-!
# The challenge, the flags derived from it, and the digest comparison
-/
namespace LESS

variable {p : Params} {F : Prop}

/-- The positions with a non-zero challenge. -/
def support {T : Nat} (v : Vector Nat T) : Finset Nat := (Finset.range T).filter fun k => g v k ≠ 0

theorem support_upd {T : Nat} (v : Vector Nat T) (i x : Nat) (hi : i < T) (h0 : g v i = 0) :
    (support (upd v i x)).card = (support v).card + b2n (x ≠ 0) := by
  by_cases hx : x = 0
  · subst hx
    have : support (upd v i 0) = support v := by
      ext k
      simp only [support, Finset.mem_filter, Finset.mem_range, g_upd _ _ _ _ hi]
      by_cases e : i = k
      · subst e; simp [h0]
      · simp [e]
    rw [this]; simp [b2n]
  · have : support (upd v i x) = insert i (support v) := by
      ext k
      simp only [support, Finset.mem_filter, Finset.mem_range, Finset.mem_insert, g_upd _ _ _ _ hi]
      by_cases e : i = k
      · subst e; simp [hx, hi]
      · simp [e, Ne.symm e]
    rw [this, Finset.card_insert_of_notMem]
    · simp [b2n, hx]
    · simp [support, h0]

theorem expandDigestLoop_wp (hp : p.WF) (fuel : Nat) (st : Inc) (placed : Nat) (v : Vector Nat p.T)
    (h1 : (support v).card = placed) (h2 : placed ≤ p.W) (h3 : ∀ k, k < p.T → g v k < p.numKeypairs) :
    Wp True (expandDigestLoop p fuel st placed v) fun r =>
      (support r).card = p.W ∧ ∀ k, k < p.T → g r k < p.numKeypairs := by
  induction fuel generalizing st placed v with
  | zero =>
    unfold expandDigestLoop
    simp only [Wp.ite_iff, Wp.pure_iff, Wp.fuel_iff]
    exact ⟨fun _ => trivial, fun h => ⟨by omega, h3⟩⟩
  | succ fuel ih =>
    unfold expandDigestLoop
    generalize csprngBytes p 2 st = c
    obtain ⟨bytes, st'⟩ := c
    simp only [Wp.ite_iff, Wp.pure_iff, Wp.bind_iff, Wp.rd_iff, Wp.wr_iff]
    refine ⟨fun hlt => ⟨fun _ => ih _ _ _ h1 h2 h3, fun hv => ⟨fun _ => ih _ _ _ h1 h2 h3, fun hpos => ?_⟩⟩,
      fun h => ⟨by omega, h3⟩⟩
    refine ⟨by omega, fun _ => ih _ _ _ h1 h2 h3, fun h0 => ⟨by omega, ?_⟩⟩
    rw [not_not] at h0
    apply ih
    · rw [support_upd _ _ _ (by omega) h0, h1]
    · unfold b2n; split <;> omega
    · intro k hk
      rw [g_upd _ _ _ _ (by omega)]
      split
      · omega
      · exact h3 k hk

/-- The challenge has exactly `W` non-zero positions, each naming one of the public codes. -/
theorem expandDigest_wp (hp : p.WF) (fuel : Nat) (digest : Bytes) :
    Wp True (expandDigest fuel (Vector.replicate p.T 0) digest) fun r =>
      (support r).card = p.W ∧ ∀ k, k < p.T → g r k < p.numKeypairs := by
  apply expandDigestLoop_wp hp
  · rw [Finset.card_eq_zero, support, Finset.filter_eq_empty_iff]
    intro k hk
    rw [Finset.mem_range] at hk
    simp [g_replicate _ _ hk]
  · omega
  · intro k hk
    rw [g_replicate _ _ hk]
    have := hp.numKeypairs_ge
    omega

theorem indicesToPublish_wp (fws : Vector Nat p.T) :
    Wp F (indicesToPublish fws) fun ind => ∀ k, k < p.T → g ind k = b2n (g fws k ≠ 0) := by
  unfold indicesToPublish
  refine Wp.forUp (fun n (ind : Vector Nat p.T) => ∀ k, k < n → g ind k = b2n (g fws k ≠ 0)) (by simp) ?_
    (fun _ h => h)
  intro i ind hi hI
  simp only [Wp.bind_iff, Wp.rd_iff, Wp.wr_iff]
  refine ⟨hi, hi, fun k hk => ?_⟩
  rw [g_upd _ _ _ _ hi]
  by_cases e : i = k
  · subst e; simp
  · rw [if_neg e]; exact hI k (by omega)

/-- The hidden leaves of a challenge. -/
def hiddenFws {T : Nat} (fws : Vector Nat T) : Nat → Bool := fun k => decide (k < T ∧ g fws k ≠ 0)

theorem hiddenSet_fws {T : Nat} (fws : Vector Nat T) : Spec.hiddenSet T (hiddenFws fws) = support fws := by
  ext k
  simp only [Spec.hiddenSet, support, hiddenFws, Finset.mem_filter, Finset.mem_range, decide_eq_true_eq]
  constructor
  · rintro ⟨h1, _, h2⟩; exact ⟨h1, h2⟩
  · rintro ⟨h1, h2⟩; exact ⟨h1, h1, h2⟩

theorem hiddenOf_ind (fws ind : Vector Nat p.T) (h : ∀ k, k < p.T → g ind k = b2n (g fws k ≠ 0)) :
    hiddenOf ind = hiddenFws fws := by
  funext k
  unfold hiddenOf hiddenFws
  by_cases hk : k < p.T
  · rw [h k hk]
    by_cases h0 : g fws k = 0 <;> simp [h0, b2n, hk]
  · have : g ind k = 0 := by unfold g; rw [dif_neg hk]; rfl
    simp [this, hk]

theorem hiddenFws_exists (hp : p.WF) {fws : Vector Nat p.T} (h : (support fws).card = p.W) :
    ∃ k < p.T, hiddenFws fws k = true := by
  have : 0 < (support fws).card := by rw [h]; exact hp.W_pos
  obtain ⟨k, hk⟩ := Finset.card_pos.mp this
  simp only [support, Finset.mem_filter, Finset.mem_range] at hk
  exact ⟨k, hk.1, by simp [hiddenFws, hk]⟩

/-- Comparison of two buffers. -/
theorem timingSafeMemcmp_wp {n m : Nat} (a : Vector UInt8 n) (b : Vector UInt8 m) (len : Nat) (hn : len ≤ n) (hm : len ≤ m) :
    Wp F (timingSafeMemcmp a b len) fun r => (r = 0 ∨ r = 1) ∧ (r = 0 ↔ ∀ i, i < len → g a i = g b i) := by
  unfold timingSafeMemcmp
  refine Wp.forUp (fun k r => (r = 0 ∨ r = 1) ∧ (r = 0 ↔ ∀ i, i < k → g a i = g b i)) (by simp) ?_ (fun _ h => h)
  rintro i r hi ⟨h1, h2⟩
  simp only [Wp.bind_iff, Wp.rd_iff, Wp.pure_iff]
  refine ⟨by omega, by omega, ?_⟩
  have hall : (∀ j, j < i + 1 → g a j = g b j) ↔ (∀ j, j < i → g a j = g b j) ∧ g a i = g b i := by
    constructor
    · intro h; exact ⟨fun j hj => h j (by omega), h i (by omega)⟩
    · rintro ⟨h, h'⟩ j hj
      rcases Nat.lt_succ_iff_lt_or_eq.mp hj with h3 | h3
      · exact h j h3
      · subst h3; exact h'
  rw [hall, ← h2]
  by_cases e : g a i = g b i
  · rcases h1 with h1 | h1 <;> simp [h1, e, b2n]
  · rcases h1 with h1 | h1 <;> simp [h1, e, b2n]

theorem timingSafeMemcmp_full {n : Nat} (a b : Vector UInt8 n) :
    Wp F (timingSafeMemcmp a b n) fun r => (r = 0 ∨ r = 1) ∧ (r = 0 ↔ a = b) := by
  refine (timingSafeMemcmp_wp a b n (Nat.le_refl n) (Nat.le_refl n)).mono ?_
  rintro r ⟨h1, h2⟩
  refine ⟨h1, h2.trans ⟨vec_ext, fun h => by subst h; exact fun _ _ => rfl⟩⟩

end LESS
