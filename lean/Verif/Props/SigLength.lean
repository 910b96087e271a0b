import Verif.Props.SeedCount
/-!
# C92: the length of a signature
-/
namespace LESS
open Spec

variable {p : Params}

namespace Spec

/-- The smallest number of published seeds: the withheld rounds are as close to each other as possible, so that there are
`W / 2 ^ j` (rounded up) nodes above them at height `j`. -/
def leastSeeds (p : Params) : Nat :=
  ∑ l ∈ Finset.range (bitsToRepresent p.T), (p.W + 2 ^ (bitsToRepresent p.T - l) - 1) / 2 ^ (bitsToRepresent p.T - l) + 1 - p.W

/-- The number of rounds below node `t` of a level whose nodes have `s` leaves. -/
def roundsBelow (T s t : Nat) : Nat := min T ((t + 1) * s) - t * s

/-- For every inner node of the tree the number of sets of rounds that it is above. -/
def aboveTotal (p : Params) : Nat :=
  ∑ l ∈ Finset.range (bitsToRepresent p.T), ∑ t ∈ Finset.range (2 ^ l),
    (p.T.choose p.W - (p.T - roundsBelow p.T (2 ^ (bitsToRepresent p.T - l)) t).choose p.W)

end Spec

/-! ## The shortest -/

theorem card_image_div_ge (H : Finset Nat) {n : Nat} (hn : 0 < n) : (H.card + n - 1) / n ≤ (H.image (· / n)).card := by
  have h : H.card ≤ n * (H.image (· / n)).card := by
    refine Finset.card_le_mul_card_image H n fun b _ => ?_
    have : (H.filter fun a => a / n = b) ⊆ Finset.Ico (b * n) (b * n + n) := by
      intro a ha
      have ha := (Finset.mem_filter.mp ha).2
      rw [Finset.mem_Ico]
      subst ha
      exact ⟨Nat.div_mul_le_self a n, Nat.lt_div_mul_add hn⟩
    exact (Finset.card_le_card this).trans (by simp)
  have : (H.card + n - 1) / n ≤ (n * (H.image (· / n)).card + n - 1) / n := Nat.div_le_div_right (by omega)
  refine this.trans (le_of_eq ?_)
  rw [show n * (H.image (· / n)).card + n - 1 = n * (H.image (· / n)).card + (n - 1) by omega, Nat.mul_add_div hn,
    Nat.div_eq_of_lt (by omega), Nat.add_zero]

theorem card_image_div_range (w : Nat) {n : Nat} (hn : 0 < n) : ((Finset.range w).image (· / n)).card = (w + n - 1) / n := by
  apply le_antisymm
  · have : (Finset.range w).image (· / n) ⊆ Finset.range ((w + n - 1) / n) := by
      intro b hb
      obtain ⟨a, ha, rfl⟩ := Finset.mem_image.mp hb
      rw [Finset.mem_range] at ha ⊢
      rw [Nat.lt_iff_add_one_le, ← Nat.add_div_right _ hn]
      exact Nat.div_le_div_right (by omega)
    exact (Finset.card_le_card this).trans (by simp)
  · have := card_image_div_ge (Finset.range w) hn
    rwa [Finset.card_range] at this

theorem leastSeeds_le (hp : p.WF) {H : Finset Nat} (h : H ∈ (Finset.range p.T).powersetCard p.W) :
    leastSeeds p ≤ (publishedNodes p.numLeaves p.T fun k => decide (k ∈ H)).length := by
  have e := published_nodesAbove hp h
  have h2 := (Finset.mem_powersetCard.mp h).2
  have : ∑ l ∈ Finset.range (bitsToRepresent p.T), (p.W + 2 ^ (bitsToRepresent p.T - l) - 1) / 2 ^ (bitsToRepresent p.T - l) ≤
      nodesAbove (bitsToRepresent p.T) H := by
    unfold nodesAbove
    refine Finset.sum_le_sum fun l _ => ?_
    have := card_image_div_ge H (Nat.two_pow_pos (bitsToRepresent p.T - l))
    rwa [h2] at this
  unfold leastSeeds
  omega

/-- C92: no set of rounds makes signing publish fewer seeds, and the first `W` rounds reach that number. -/
theorem C92_least (hp : p.WF) :
    (∀ x < leastSeeds p, roundSets p x = ∅) ∧ Finset.range p.W ∈ roundSets p (leastSeeds p) := by
  constructor
  · intro x hx
    unfold roundSets
    rw [Finset.filter_eq_empty_iff]
    intro H hH e
    have := leastSeeds_le hp hH
    omega
  · have hm : Finset.range p.W ∈ (Finset.range p.T).powersetCard p.W :=
      Finset.mem_powersetCard.mpr ⟨fun k hk => by
        rw [Finset.mem_range] at hk ⊢; have := hp.W_le_T; omega, Finset.card_range _⟩
    refine Finset.mem_filter.mpr ⟨hm, ?_⟩
    have e := published_nodesAbove hp hm
    have hs : nodesAbove (bitsToRepresent p.T) (Finset.range p.W) =
        ∑ l ∈ Finset.range (bitsToRepresent p.T), (p.W + 2 ^ (bitsToRepresent p.T - l) - 1) / 2 ^ (bitsToRepresent p.T - l) := by
      unfold nodesAbove
      exact Finset.sum_congr rfl fun l _ => card_image_div_range p.W (Nat.two_pow_pos _)
    unfold leastSeeds
    omega

/-- C92: the length of every honest signature is between that for the least and that for the largest number of seeds. -/
theorem C92_lengths (hp : p.WF) {k : Nat} {fuel : Nat} {sl : Nat → Stale p} {rng rng' : Inc} (hr : RngOk p rng) {m : Bytes}
    {sm sm' : Vector UInt8 k} {sk : Vector UInt8 p.skLen} {smlen : Nat} (hk : m.length + p.sigLen ≤ k)
    (hsign : cryptoSign fuel sl rng sm m sk = .ok (sm', smlen, rng')) :
    m.length + p.cryptoBytes (leastSeeds p) ≤ smlen ∧ smlen ≤ m.length + p.cryptoBytes p.worstSeeds := by
  obtain ⟨-, ⟨v, n, hv, hn, hlen, -⟩, -, -⟩ := C04_layout hp hr hk hsign
  obtain ⟨fws, e, rfl⟩ := (isChallenge_words hp _ _ _).1 hv
  have hw : weight p.T (g fws) = p.W := by
    obtain ⟨-, -, -, hw, -⟩ := hv
    exact hw
  have hle := pubCount_le_worst hp (hides (g fws)) (by rw [hiddenSet_card, hw])
  unfold pubCount at hle
  have hm : support fws ∈ (Finset.range p.T).powersetCard p.W := by
    rw [Finset.mem_powersetCard]
    refine ⟨fun k hk => (Finset.mem_filter.mp hk).1, ?_⟩
    rw [← hw, weight_eq_card]
    rfl
  have hge := leastSeeds_le hp hm
  rw [← hides_support] at hge
  rw [hlen]
  unfold Params.cryptoBytes
  rw [← hn] at hge hle
  have := Nat.mul_le_mul_right p.seedLen hge
  have := Nat.mul_le_mul_right p.seedLen hle
  omega

/-! ## The longest -/

theorem list_sum_range (f : Nat → Nat) (n : Nat) : ((List.range n).map f).sum = ∑ l ∈ Finset.range n, f l := by
  induction n with
  | zero => rfl
  | succ n ih => rw [List.range_succ, List.map_append, List.sum_append, ih, Finset.sum_range_succ]; simp

theorem lt_ceil_iff {T m t : Nat} (hm : 0 < m) : t < (T + m - 1) / m ↔ t * m < T := by
  rw [Nat.lt_iff_add_one_le, Nat.le_div_iff_mul_le hm, Nat.add_mul, Nat.one_mul]
  omega

/-- Rounds in distinct nodes of `n` rounds, one in each pair of neighbours as far as `c` pairs go, then a second one in each. -/
def spreadOut (n c w : Nat) : Finset Nat :=
  (Finset.range c).image (fun i => 2 * i * n) ∪ (Finset.range (w - c)).image fun i => (2 * i + 1) * n

theorem card_spreadOut {n c w : Nat} (hn : 0 < n) (hc : c ≤ w) : (spreadOut n c w).card = w := by
  unfold spreadOut
  rw [Finset.card_union_of_disjoint, Finset.card_image_of_injective, Finset.card_image_of_injective, Finset.card_range,
    Finset.card_range]
  · omega
  · intro a b h
    have := Nat.eq_of_mul_eq_mul_right hn h
    omega
  · intro a b h
    have := Nat.eq_of_mul_eq_mul_right hn h
    omega
  · rw [Finset.disjoint_left]
    intro k hk hk'
    obtain ⟨a, _, rfl⟩ := Finset.mem_image.mp hk
    obtain ⟨b, _, h⟩ := Finset.mem_image.mp hk'
    have := Nat.eq_of_mul_eq_mul_right hn h
    omega

theorem dvd_of_mem_spreadOut {n c w k : Nat} (h : k ∈ spreadOut n c w) : n ∣ k := by
  rcases Finset.mem_union.mp h with h | h <;> obtain ⟨i, _, rfl⟩ := Finset.mem_image.mp h <;> exact Nat.dvd_mul_left _ _

/-- There are `W` of `T` rounds that have, at every height, as many nodes above them as possible. -/
theorem exists_spreadOut {T W d : Nat} (hW : 0 < W) (hWT : W ≤ T) (hT : T ≤ 2 ^ d) :
    ∃ H ∈ (Finset.range T).powersetCard W, ∀ i ≤ d, min W ((T + 2 ^ i - 1) / 2 ^ i) ≤ (H.image (· / 2 ^ i)).card := by
  obtain ⟨j, hj, hjmax⟩ : ∃ j, W ≤ (T + 2 ^ j - 1) / 2 ^ j ∧ (T + 2 ^ (j + 1) - 1) / 2 ^ (j + 1) ≤ W := by
    by_contra hcon
    push Not at hcon
    have : ∀ j, W ≤ (T + 2 ^ j - 1) / 2 ^ j := by
      intro j
      induction j with
      | zero => simpa using hWT
      | succ j ih => exact (hcon j ih).le
    have h := hcon d (this d)
    have h1 := this (d + 1)
    have h2 : (T + 2 ^ (d + 1) - 1) / 2 ^ (d + 1) < 2 := by
      rw [Nat.div_lt_iff_lt_mul (Nat.two_pow_pos _), Nat.pow_succ]
      have := Nat.two_pow_pos d
      omega
    omega
  have hn := Nat.two_pow_pos j
  have hn' := Nat.two_pow_pos (j + 1)
  have hcard := card_spreadOut hn hjmax
  refine ⟨spreadOut (2 ^ j) ((T + 2 ^ (j + 1) - 1) / 2 ^ (j + 1)) W, Finset.mem_powersetCard.mpr ⟨?_, hcard⟩, ?_⟩
  · intro k hk
    rw [Finset.mem_range]
    rcases Finset.mem_union.mp hk with hk | hk
    · obtain ⟨i, hi, rfl⟩ := Finset.mem_image.mp hk
      have := (lt_ceil_iff hn').mp (Finset.mem_range.mp hi)
      rw [Nat.pow_succ] at this
      have e : 2 * i * 2 ^ j = i * (2 ^ j * 2) := by ring
      omega
    · obtain ⟨i, hi, rfl⟩ := Finset.mem_image.mp hk
      have hi := Finset.mem_range.mp hi
      have h2 : (T + 2 ^ j - 1) / 2 ^ j ≤ 2 * ((T + 2 ^ (j + 1) - 1) / 2 ^ (j + 1)) := by
        by_contra hlt
        have h1 := (lt_ceil_iff hn).mp (Nat.not_le.mp hlt)
        refine absurd ((lt_ceil_iff (T := T) hn').mpr ?_) (Nat.lt_irrefl ((T + 2 ^ (j + 1) - 1) / 2 ^ (j + 1)))
        generalize (T + 2 ^ (j + 1) - 1) / 2 ^ (j + 1) = c at h1 ⊢
        rw [Nat.pow_succ]
        refine lt_of_eq_of_lt ?_ h1
        ring
      exact (lt_ceil_iff hn).mp (by omega)
  · intro i hi
    by_cases hij : i ≤ j
    · rw [Finset.card_image_of_injOn, hcard]
      · exact Nat.min_le_left _ _
      · intro a ha b hb h
        have hd : 2 ^ i ∣ 2 ^ j := pow_dvd_pow 2 hij
        have h1 := Nat.div_mul_cancel (hd.trans (dvd_of_mem_spreadOut ha))
        have h2 := Nat.div_mul_cancel (hd.trans (dvd_of_mem_spreadOut hb))
        dsimp only at h
        rw [← h1, h, h2]
    · refine (Nat.min_le_right _ _).trans ?_
      have hsub : Finset.range ((T + 2 ^ i - 1) / 2 ^ i) ⊆
          (spreadOut (2 ^ j) ((T + 2 ^ (j + 1) - 1) / 2 ^ (j + 1)) W).image (· / 2 ^ i) := by
        intro t ht
        have ht := (lt_ceil_iff (Nat.two_pow_pos i)).mp (Finset.mem_range.mp ht)
        obtain ⟨e, rfl⟩ : ∃ e, i = e + (j + 1) := ⟨i - (j + 1), by omega⟩
        have h1 : t * 2 ^ (e + (j + 1)) = t * 2 ^ e * 2 ^ (j + 1) := by rw [Nat.pow_add]; ring
        refine Finset.mem_image.mpr ⟨t * 2 ^ (e + (j + 1)), Finset.mem_union_left _ (Finset.mem_image.mpr ⟨t * 2 ^ e, ?_, ?_⟩),
          Nat.mul_div_cancel _ (Nat.two_pow_pos _)⟩
        · rw [Finset.mem_range, lt_ceil_iff hn', ← h1]
          exact ht
        · rw [h1, Nat.pow_succ]; ring
      have := Finset.card_le_card hsub
      rwa [Finset.card_range] at this

/-- C92: no set of rounds makes signing publish more than `worstSeeds` seeds, and some set of rounds that many. -/
theorem C92_largest (hp : p.WF) : (∀ x > p.worstSeeds, roundSets p x = ∅) ∧ (roundSets p p.worstSeeds).Nonempty := by
  have hle : ∀ H ∈ (Finset.range p.T).powersetCard p.W,
      (publishedNodes p.numLeaves p.T fun k => decide (k ∈ H)).length ≤ p.worstSeeds := by
    intro H hH
    obtain ⟨h1, h2⟩ := Finset.mem_powersetCard.mp hH
    exact pubCount_le_worst hp (fun k => decide (k ∈ H)) (by rw [hiddenSet_mem h1, h2])
  constructor
  · intro x hx
    unfold roundSets
    rw [Finset.filter_eq_empty_iff]
    intro H hH e
    have := hle H hH
    omega
  · obtain ⟨H, hH, h⟩ := exists_spreadOut hp.W_pos hp.W_le_T hp.T_lt_leaves.le
    refine ⟨H, Finset.mem_filter.mpr ⟨hH, le_antisymm (hle H hH) ?_⟩⟩
    have e := published_nodesAbove hp hH
    have hs : ((List.range (bitsToRepresent p.T)).map fun l => min p.W ((p.T + 2 ^ (bitsToRepresent p.T - l) - 1) /
        2 ^ (bitsToRepresent p.T - l))).sum ≤ nodesAbove (bitsToRepresent p.T) H := by
      rw [list_sum_range]
      exact Finset.sum_le_sum fun l _ => h _ (Nat.sub_le _ _)
    unfold Params.worstSeeds
    dsimp only
    omega

/-- C92: both numbers come up, with sequences of `W` or more numbers. -/
theorem C92_reached (hp : p ∈ Params.all) (k : Nat) (hk : p.W ≤ k) :
    0 < Nat.card {ws : Words 16 k // Draws p (leastSeeds p) ws.1} ∧
      0 < Nat.card {ws : Words 16 k // Draws p p.worstSeeds ws.1} := by
  have hWF := Params.all_WF p hp
  have h : ∀ x, (roundSets p x).Nonempty → 0 < Nat.card {ws : Words 16 k // Draws p x ws.1} := by
    intro x hx
    have h := C91_words hp k x
    have := Nat.mul_pos (Finset.card_pos.mpr hx) (sequences_pos hp hk)
    rw [← h] at this
    exact Nat.pos_of_mul_pos_right this
  exact ⟨h _ ⟨_, (C92_least hWF).2⟩, h _ (C92_largest hWF).2⟩

/-! ## The average -/

/-- The leaves of one node. -/
theorem card_roundsBelow {T n : Nat} (hn : 0 < n) (t : Nat) :
    ((Finset.range T).filter fun k => k / n = t).card = roundsBelow T n t := by
  have : ((Finset.range T).filter fun k => k / n = t) = Finset.Ico (t * n) (min T ((t + 1) * n)) := by
    ext k
    rw [Finset.mem_filter, Finset.mem_range, Finset.mem_Ico, Nat.lt_min]
    constructor
    · rintro ⟨h, rfl⟩
      refine ⟨Nat.div_mul_le_self k n, h, ?_⟩
      rw [Nat.add_mul, Nat.one_mul]
      exact Nat.lt_div_mul_add hn
    · rintro ⟨h1, h2, h3⟩
      exact ⟨h2, Nat.div_eq_of_lt_le h1 h3⟩
  rw [this, Nat.card_Ico]
  rfl

/-- The sets of `W` rounds that a node is above. -/
theorem card_above {T n : Nat} (hn : 0 < n) (W t : Nat) :
    (((Finset.range T).powersetCard W).filter fun H => t ∈ H.image (· / n)).card =
      T.choose W - (T - roundsBelow T n t).choose W := by
  have hc : (((Finset.range T).powersetCard W).filter fun H => ¬ t ∈ H.image (· / n)) =
      ((Finset.range T).filter fun k => ¬ k / n = t).powersetCard W := by
    ext H
    simp only [Finset.mem_filter, Finset.mem_powersetCard, Finset.mem_image, not_exists, not_and]
    constructor
    · rintro ⟨⟨h1, h2⟩, h3⟩
      exact ⟨fun k hk => Finset.mem_filter.mpr ⟨h1 hk, h3 k hk⟩, h2⟩
    · rintro ⟨h1, h2⟩
      exact ⟨⟨fun k hk => (Finset.mem_filter.mp (h1 hk)).1, h2⟩, fun k hk => (Finset.mem_filter.mp (h1 hk)).2⟩
  have h := Finset.card_filter_add_card_filter_not (s := (Finset.range T).powersetCard W) (fun H => t ∈ H.image (· / n))
  have h' := Finset.card_filter_add_card_filter_not (s := Finset.range T) (fun k => k / n = t)
  rw [hc, Finset.card_powersetCard, Finset.card_powersetCard, Finset.card_range] at h
  rw [card_roundsBelow hn, Finset.card_range] at h'
  rw [show ((Finset.range T).filter fun k => ¬ k / n = t).card = T - roundsBelow T n t by omega] at h
  omega

theorem sum_nodesAbove {d T : Nat} (hT : T ≤ 2 ^ d) (W : Nat) :
    ∑ H ∈ (Finset.range T).powersetCard W, nodesAbove d H =
      ∑ l ∈ Finset.range d, ∑ t ∈ Finset.range (2 ^ l), (T.choose W - (T - roundsBelow T (2 ^ (d - l)) t).choose W) := by
  unfold nodesAbove
  rw [Finset.sum_comm]
  refine Finset.sum_congr rfl fun l hl => ?_
  have hl := Finset.mem_range.mp hl
  have h1 : ∀ H ∈ (Finset.range T).powersetCard W, (H.image fun k => k / 2 ^ (d - l)).card =
      ∑ t ∈ Finset.range (2 ^ l), if t ∈ H.image (· / 2 ^ (d - l)) then 1 else 0 := by
    intro H hH
    rw [← Finset.card_filter]
    congr 1
    ext t
    rw [Finset.mem_filter]
    refine ⟨fun h => ⟨?_, h⟩, fun h => h.2⟩
    obtain ⟨k, hk, rfl⟩ := Finset.mem_image.mp h
    have := Finset.mem_range.mp ((Finset.mem_powersetCard.mp hH).1 hk)
    rw [Finset.mem_range]
    refine (Nat.div_lt_iff_lt_mul (Nat.two_pow_pos _)).2 ?_
    rw [← Nat.pow_add, show l + (d - l) = d by omega]
    omega
  rw [Finset.sum_congr rfl h1, Finset.sum_comm]
  refine Finset.sum_congr rfl fun t _ => ?_
  rw [← Finset.card_filter, card_above (Nat.two_pow_pos _)]

/-- C92: the sum of the number of seeds over all sets of rounds, so its average. -/
theorem C92_total (hp : p.WF) :
    ∑ H ∈ (Finset.range p.T).powersetCard p.W, (publishedNodes p.numLeaves p.T fun k => decide (k ∈ H)).length +
      p.W * p.T.choose p.W = aboveTotal p + p.T.choose p.W := by
  unfold aboveTotal
  rw [← sum_nodesAbove hp.T_lt_leaves.le]
  have hc : ((Finset.range p.T).powersetCard p.W).card = p.T.choose p.W := by
    rw [Finset.card_powersetCard, Finset.card_range]
  have h1 : p.W * p.T.choose p.W = ∑ _H ∈ (Finset.range p.T).powersetCard p.W, p.W := by
    rw [Finset.sum_const, hc, smul_eq_mul, Nat.mul_comm]
  have h2 : p.T.choose p.W = ∑ _H ∈ (Finset.range p.T).powersetCard p.W, 1 := by
    rw [Finset.sum_const, hc, smul_eq_mul, Nat.mul_one]
  rw [h1]
  conv_rhs => rw [h2]
  rw [← Finset.sum_add_distrib, ← Finset.sum_add_distrib]
  exact Finset.sum_congr rfl fun H hH => published_nodesAbove hp hH

/-- C92: the sum of the lengths over all sequences of numbers that determine a challenge is, in proportion, that over all sets
of rounds. -/
theorem C92_words (hp : p ∈ Params.all) (k : Nat) :
    (∑ x ∈ Finset.range (p.maxPublishedSeeds + 1), p.cryptoBytes x * Nat.card {ws : Words 16 k // Draws p x ws.1}) * p.T.choose p.W =
      (∑ H ∈ (Finset.range p.T).powersetCard p.W,
        p.cryptoBytes (publishedNodes p.numLeaves p.T fun k => decide (k ∈ H)).length) *
        Nat.card {ws : Words 16 k // ∃ v, digestWords p ws.1 0 (noChallenge p) = .ok v} := by
  rw [← Finset.sum_fiberwise_of_maps_to (s := (Finset.range p.T).powersetCard p.W) (t := Finset.range (p.maxPublishedSeeds + 1))
    (g := fun H => (publishedNodes p.numLeaves p.T fun k => decide (k ∈ H)).length), Finset.sum_mul, Finset.sum_mul]
  · refine Finset.sum_congr rfl fun x _ => ?_
    rw [Nat.mul_assoc, C91_words hp k x, Finset.sum_congr rfl (g := fun _ => p.cryptoBytes x) (fun H hH => by
      rw [(Finset.mem_filter.mp hH).2]), Finset.sum_const, smul_eq_mul]
    unfold roundSets
    ring
  · intro H hH
    rw [Finset.mem_range]
    by_contra hlt
    have := C91_others hp _ (by omega) (.inr (show p.maxPublishedSeeds <
      (publishedNodes p.numLeaves p.T fun k => decide (k ∈ H)).length by omega))
    exact Finset.notMem_empty H (this ▸ Finset.mem_filter.mpr ⟨hH, rfl⟩)

namespace Spec

/-- The average length of a signature over all sets of rounds, rounded down. -/
def averageLength (p : Params) : Nat :=
  p.cryptoBytes 0 + p.seedLen * (aboveTotal p - (p.W - 1) * p.T.choose p.W) / p.T.choose p.W

end Spec

theorem sum_cryptoBytes (hp : p.WF) :
    ∑ H ∈ (Finset.range p.T).powersetCard p.W, p.cryptoBytes (publishedNodes p.numLeaves p.T fun k => decide (k ∈ H)).length =
      p.cryptoBytes 0 * p.T.choose p.W + p.seedLen * (aboveTotal p - (p.W - 1) * p.T.choose p.W) := by
  have h := C92_total hp
  have hW := hp.W_pos
  obtain ⟨w, hw⟩ : ∃ w, p.W = w + 1 := ⟨p.W - 1, by omega⟩
  have e : ∀ x, p.cryptoBytes x = p.cryptoBytes 0 + p.seedLen * x := by
    intro x
    unfold Params.cryptoBytes
    ring
  rw [Finset.sum_congr rfl (fun H _ => e _), Finset.sum_add_distrib, ← Finset.mul_sum, Finset.sum_const,
    Finset.card_powersetCard, Finset.card_range, smul_eq_mul, Nat.mul_comm (p.T.choose p.W)]
  congr 2
  rw [hw, Nat.add_mul, Nat.one_mul] at h
  rw [hw, Nat.add_sub_cancel]
  omega

/-- C92: the average length over all sequences of numbers that determine a challenge, rounded down. -/
theorem C92_average (hp : p ∈ Params.all) (k : Nat) (hk : p.W ≤ k) :
    (∑ x ∈ Finset.range (p.maxPublishedSeeds + 1), p.cryptoBytes x * Nat.card {ws : Words 16 k // Draws p x ws.1}) /
      Nat.card {ws : Words 16 k // ∃ v, digestWords p ws.1 0 (noChallenge p) = .ok v} = averageLength p := by
  have hWF := Params.all_WF p hp
  have h := C92_words hp k
  have hN := sequences_pos hp hk
  have hC : 0 < p.T.choose p.W := Nat.choose_pos hWF.W_le_T
  rw [sum_cryptoBytes hWF] at h
  generalize (∑ x ∈ Finset.range (p.maxPublishedSeeds + 1), p.cryptoBytes x * Nat.card {ws : Words 16 k // Draws p x ws.1}) = S at h ⊢
  generalize Nat.card {ws : Words 16 k // ∃ v, digestWords p ws.1 0 (noChallenge p) = .ok v} = N at h hN ⊢
  unfold averageLength
  rw [← Nat.mul_div_mul_right S N hC, h, Nat.mul_comm N, Nat.mul_div_mul_right _ _ hN, Nat.add_comm (_ * _),
    Nat.add_mul_div_right _ _ hC, Nat.add_comm]

/-- C92: the least, the average and the largest length of a signature in bytes, in the order of `Params.all`. -/
theorem C92_table : Params.all.map (fun p => (p.cryptoBytes (leastSeeds p), averageLength p, p.cryptoBytes p.worstSeeds)) =
    [(7239, 8345, 8647), (4885, 5755, 5957), (4206, 4902, 5086), (13513, 16315, 16849),
      (10665, 13220, 13689), (23673, 29033, 30041), (21956, 26312, 27172)] := by
  simp only [averageLength, aboveTotal, Nat.choose_eq_descFactorial_div_factorial]
  decide +kernel

end LESS
