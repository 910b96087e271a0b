import Verif.Model.ParamScript
import Verif.Proofs.Tree
import Verif.Proofs.Params
import Verif.Model.Less
import Mathlib.Data.Rat.Floor
import Mathlib.Algebra.Order.Field.Rat
import Mathlib.Tactic.Linarith
import Mathlib.Tactic.Ring
import Mathlib.Tactic.FieldSimp
/-!
# C76: the parameter script bounds the size of the published seeds

The script computes the value of `SEED_TREE_MAX_PUBLISHED_BYTES`, from which the size of `seed_storage` follows.  For
numbers of rounds that are not a power of two its result is an upper bound.  For powers of two it is wrong, for every weight:
the library then uses a tree of one level more than the script assumes.
-/
namespace LESS
open Spec

/-! ## How many seeds a tree publishes -/

theorem sum_min (ω m : Nat) :
    ∑ l ∈ Finset.range (Nat.clog 2 ω + m), min ω (2 ^ l) + 1 = 2 ^ Nat.clog 2 ω + ω * m := by
  induction m with
  | zero =>
    have h : ∀ c ≤ Nat.clog 2 ω, ∑ l ∈ Finset.range c, min ω (2 ^ l) + 1 = 2 ^ c := by
      intro c hc
      induction c with
      | zero => simp
      | succ c ih =>
        have h1 := ih (by omega)
        have h2 : 2 ^ c < ω := (Nat.lt_clog_iff_pow_lt (by decide)).1 (by omega)
        rw [Finset.sum_range_succ, Nat.min_eq_right h2.le, Nat.pow_succ]
        omega
    have := h _ (Nat.le_refl _)
    simpa using this
  | succ m ih =>
    have h2 : ω ≤ 2 ^ (Nat.clog 2 ω + m) := Nat.le_trans (Nat.le_pow_clog (by decide) ω) (Nat.pow_le_pow_right (by decide) (by omega))
    rw [← Nat.add_assoc, Finset.sum_range_succ, Nat.min_eq_left h2, Nat.mul_succ]
    omega

theorem levelCount_le_pow {d T : Nat} {hidden : Nat → Bool} (hT : T ≤ 2 ^ d) {l : Nat} (hl : l ≤ d) :
    levelCount d T hidden l ≤ min (hiddenSet T hidden).card (2 ^ l) := by
  refine (levelCount_le l).trans (le_min (Nat.min_le_left _ _) ((Nat.min_le_right _ _).trans ?_))
  have hp := Nat.two_pow_pos (d - l)
  have e : 2 ^ d = 2 ^ (d - l) * 2 ^ l := by rw [← Nat.pow_add]; congr 1; omega
  refine Nat.le_of_lt_succ (Nat.div_lt_of_lt_mul ?_)
  rw [Nat.mul_succ, ← e]
  omega

theorem exists_of_card {T ω : Nat} {hidden : Nat → Bool} (h : (hiddenSet T hidden).card = ω) (hω : 0 < ω) :
    ∃ k < T, hidden k = true := by
  obtain ⟨k, hk⟩ := Finset.card_pos.mp (h ▸ hω)
  simp only [hiddenSet, Finset.mem_filter, Finset.mem_range] at hk
  exact ⟨k, hk.1, hk.2⟩

/-- A tree of depth `d` publishes at most `2^c + ω (d - c - 1)` seeds, `c = ⌈log₂ ω⌉`. -/
theorem published_le {d T ω : Nat} {hidden : Nat → Bool} (hT : T ≤ 2 ^ d) (h : (hiddenSet T hidden).card = ω) (hω : 0 < ω)
    (hc : Nat.clog 2 ω ≤ d) :
    (publishedNodes (2 ^ d) T hidden).length + ω ≤ 2 ^ Nat.clog 2 ω + ω * (d - Nat.clog 2 ω) := by
  have h1 := publishedNodes_length hT (exists_of_card h hω)
  have h2 : ∑ l ∈ Finset.range d, levelCount d T hidden l ≤ ∑ l ∈ Finset.range d, min ω (2 ^ l) := by
    apply Finset.sum_le_sum
    intro l hl
    rw [Finset.mem_range] at hl
    rw [← h]
    exact levelCount_le_pow hT hl.le
  have h3 := sum_min ω (d - Nat.clog 2 ω)
  rw [show Nat.clog 2 ω + (d - Nat.clog 2 ω) = d by omega] at h3
  omega

/-- `i` with its lowest `d` bits in reverse order. -/
def bitRev : Nat → Nat → Nat
  | 0, _ => 0
  | d + 1, i => 2 * bitRev d (i % 2 ^ d) + i / 2 ^ d

theorem bitRev_lt (d i : Nat) (hi : i < 2 ^ d) : bitRev d i < 2 ^ d := by
  induction d generalizing i with
  | zero => simp [bitRev]
  | succ d ih =>
    have h1 := ih (i % 2 ^ d) (Nat.mod_lt _ (Nat.two_pow_pos d))
    have h2 : i / 2 ^ d < 2 := Nat.div_lt_of_lt_mul (by rw [← Nat.pow_succ]; exact hi)
    rw [bitRev, Nat.pow_succ]
    omega

theorem bitRev_inj (d i j : Nat) (hi : i < 2 ^ d) (hj : j < 2 ^ d) (h : bitRev d i = bitRev d j) : i = j := by
  induction d generalizing i j with
  | zero => simp at hi hj; omega
  | succ d ih =>
    have h2 : i / 2 ^ d < 2 := Nat.div_lt_of_lt_mul (by rw [← Nat.pow_succ]; exact hi)
    have h3 : j / 2 ^ d < 2 := Nat.div_lt_of_lt_mul (by rw [← Nat.pow_succ]; exact hj)
    rw [bitRev, bitRev] at h
    have h6 : bitRev d (i % 2 ^ d) = bitRev d (j % 2 ^ d) ∧ i / 2 ^ d = j / 2 ^ d := by
      generalize i / 2 ^ d = a at *
      generalize j / 2 ^ d = b at *
      omega
    have h4 := ih _ _ (Nat.mod_lt _ (Nat.two_pow_pos d)) (Nat.mod_lt _ (Nat.two_pow_pos d)) h6.1
    have h5 := h6.2
    rw [← Nat.div_add_mod i (2 ^ d), ← Nat.div_add_mod j (2 ^ d), h4, h5]

theorem bitRev_div (l m i : Nat) (hi : i < 2 ^ (l + m)) : bitRev (l + m) i / 2 ^ m = bitRev l (i % 2 ^ l) := by
  induction m generalizing i with
  | zero => rw [Nat.add_zero, Nat.pow_zero, Nat.div_one, Nat.mod_eq_of_lt (by simpa using hi)]
  | succ m ih =>
    have h2 : i / 2 ^ (l + m) < 2 := Nat.div_lt_of_lt_mul (by rw [← Nat.pow_succ]; exact hi)
    have h3 : ∀ a b : Nat, b < 2 → (2 * a + b) / 2 = a := fun a b h => by omega
    rw [← Nat.add_assoc, bitRev, Nat.pow_succ, Nat.mul_comm (2 ^ m) 2, ← Nat.div_div_eq_div_mul, h3 _ _ h2,
      ih _ (Nat.mod_lt _ (Nat.two_pow_pos _)), Nat.mod_mod_of_dvd _ (Nat.pow_dvd_pow 2 (by omega))]

/-- Withhold `ω` leaves, spread as evenly as possible over the first `2^k`. -/
def spread (k ω : Nat) (x : Nat) : Bool := decide (∃ i < ω, bitRev k i = x)

theorem hiddenSet_spread {k ω : Nat} (hω : ω ≤ 2 ^ k) : hiddenSet (2 ^ k) (spread k ω) = (Finset.range ω).image (bitRev k) := by
  ext x
  simp only [hiddenSet, spread, Finset.mem_filter, Finset.mem_range, Finset.mem_image, decide_eq_true_eq]
  constructor
  · rintro ⟨-, h⟩; exact h
  · rintro ⟨i, hi, rfl⟩
    exact ⟨bitRev_lt k i (by omega), i, hi, rfl⟩

theorem card_spread {k ω : Nat} (hω : ω ≤ 2 ^ k) : (hiddenSet (2 ^ k) (spread k ω)).card = ω := by
  rw [hiddenSet_spread hω, Finset.card_image_of_injOn, Finset.card_range]
  intro i hi j hj h
  simp only [Finset.coe_range, Set.mem_Iio] at hi hj
  exact bitRev_inj k i j (by omega) (by omega) h

theorem card_mod {ω n : Nat} (hn : 0 < n) : ((Finset.range ω).image fun i => i % n).card = min ω n := by
  have : ((Finset.range ω).image fun i => i % n) = Finset.range (min ω n) := by
    ext x
    simp only [Finset.mem_image, Finset.mem_range]
    constructor
    · rintro ⟨i, hi, rfl⟩
      have := Nat.mod_lt i hn
      have := Nat.mod_le i n
      omega
    · intro hx
      exact ⟨x, by omega, Nat.mod_eq_of_lt (by omega)⟩
  rw [this, Finset.card_range]

theorem levelCount_spread {k ω : Nat} (hω : ω ≤ 2 ^ k) {l : Nat} (hl : l ≤ k) :
    levelCount (k + 1) (2 ^ k) (spread k ω) (l + 1) = min ω (2 ^ l) := by
  unfold levelCount
  rw [hiddenSet_spread hω, Finset.image_image, show k + 1 - (l + 1) = k - l by omega]
  have e : ((Finset.range ω).image ((fun x => x / 2 ^ (k - l)) ∘ bitRev k)) =
      ((Finset.range ω).image fun i => i % 2 ^ l).image (bitRev l) := by
    rw [Finset.image_image]
    apply Finset.image_congr
    intro i hi
    simp only [Finset.coe_range, Set.mem_Iio] at hi
    show bitRev k i / 2 ^ (k - l) = bitRev l (i % 2 ^ l)
    have := bitRev_div l (k - l) i (by rw [show l + (k - l) = k by omega]; omega)
    rwa [show l + (k - l) = k by omega] at this
  rw [e, Finset.card_image_of_injOn, card_mod (Nat.two_pow_pos l)]
  intro i hi j hj h
  simp only [Finset.coe_image, Set.mem_image, Finset.coe_range, Set.mem_Iio] at hi hj
  obtain ⟨a, -, rfl⟩ := hi
  obtain ⟨b, -, rfl⟩ := hj
  exact bitRev_inj l _ _ (Nat.mod_lt _ (Nat.two_pow_pos l)) (Nat.mod_lt _ (Nat.two_pow_pos l)) h

/-- With `2^k` rounds and a tree of depth `k + 1`, evenly spread leaves publish one seed more than the bound for depth `k`. -/
theorem published_spread {k ω : Nat} (h0 : 0 < ω) (hω : ω ≤ 2 ^ k) :
    (publishedNodes (2 ^ (k + 1)) (2 ^ k) (spread k ω)).length + ω =
      2 ^ Nat.clog 2 ω + ω * (k - Nat.clog 2 ω) + 1 := by
  have hc : Nat.clog 2 ω ≤ k := Nat.clog_le_of_le_pow hω
  have hT : 2 ^ k ≤ 2 ^ (k + 1) := Nat.pow_le_pow_right (by decide) (by omega)
  have hex := exists_of_card (card_spread hω) h0
  have h1 := publishedNodes_length hT hex
  rw [card_spread hω, Finset.sum_range_succ'] at h1
  have h2 : ∑ l ∈ Finset.range k, levelCount (k + 1) (2 ^ k) (spread k ω) (l + 1) = ∑ l ∈ Finset.range k, min ω (2 ^ l) := by
    apply Finset.sum_congr rfl
    intro l hl
    rw [Finset.mem_range] at hl
    exact levelCount_spread hω hl.le
  rw [h2, levelCount_zero hT hex] at h1
  have h3 := sum_min ω (k - Nat.clog 2 ω)
  rw [show Nat.clog 2 ω + (k - Nat.clog 2 ω) = k by omega] at h3
  omega

/-! ## The script -/

/-- The published seeds of `b` bytes each never need more than `x` bytes, whichever `ω` of the `t` leaves are withheld.  The
tree has as many leaves as the library gives it (parameters.h:180, `NUM_LEAVES_OF_SEED_TREE`). -/
def Bounds (t ω b : Nat) (x : Int) : Prop :=
  ∀ hidden, (hiddenSet t hidden).card = ω → (((publishedNodes (1 <<< bitsToRepresent t) t hidden).length * b : Nat) : Int) ≤ x

theorem printed_sparse {t ω c d : Nat} (b : Nat) (h0 : 0 < ω) (h : ω ≤ t / 2) (hc : ceilLog2 ω = c) (hd : ceilLog2 t = d)
    (hcd : c + 1 ≤ d) : printedSize t ω (8 * b) = some (((2 ^ c + ω * (d - c - 1)) * b : Nat) : Int) := by
  unfold printedSize worstCaseSeedTreeCost
  rw [if_neg (by omega), if_neg (by omega), Option.map_some, hc, hd]
  have e : ((8 * b : Nat) : Rat) / 8 * ((2 ^ c + (ω : Int) * ((d : Int) - c - 1) : Int) : Rat) =
      ((((2 ^ c + ω * (d - c - 1)) * b : Nat) : Int) : Rat) := by
    rw [show ((d : Int) - c - 1) = ((d - c - 1 : Nat) : Int) by omega]
    push_cast
    field_simp
  rw [e]
  exact congrArg some (Rat.ceil_intCast _)

theorem printed_dense {t ω : Nat} (b : Nat) (h : t / 2 < ω) : printedSize t ω (8 * b) = some ((8 * ω * b : Nat) : Int) := by
  unfold printedSize worstCaseSeedTreeCost
  rw [if_pos h, Option.map_some]
  have e : (ω : Rat) * ((8 * b : Nat) : Rat) = (((8 * ω * b : Nat) : Int) : Rat) := by
    push_cast
    ring
  rw [e]
  exact congrArg some (Rat.ceil_intCast _)

/-- If the number of rounds is not a power of two, the printed size is an upper bound, for every weight and every length
of the seeds.  (For powers of two see `C76_fails_power_of_two`.) -/
theorem C76_upper_bound_partial {t ω : Nat} (ht : t < 65536) (hpow : ∀ k, t ≠ 2 ^ k) (h0 : 0 < ω) (hω : ω ≤ t) (b : Nat) :
    ∃ x, printedSize t ω (8 * b) = some x ∧ Bounds t ω b x := by
  obtain ⟨h1, -, h3, h4⟩ := bits_spec (show 0 < t by omega) ht
  generalize hd : bitsToRepresent t = d at h1 h3 h4
  have h5 : 2 ^ (d - 1) < t := Nat.lt_of_le_of_ne h3 (Ne.symm (hpow _))
  have hpd : 2 ^ d = 2 * 2 ^ (d - 1) := by rw [← Nat.pow_succ']; congr 1; omega
  have hdt : Nat.clog 2 t = d := by
    apply Nat.le_antisymm (Nat.clog_le_of_le_pow h4.le)
    have := (Nat.lt_clog_iff_pow_lt (b := 2) (by decide)).2 h5
    omega
  by_cases hs : ω ≤ t / 2
  · have hc : Nat.clog 2 ω ≤ d - 1 := Nat.clog_le_of_le_pow (by omega)
    refine ⟨_, printed_sparse b h0 hs rfl hdt (by unfold ceilLog2; omega), ?_⟩
    intro hidden hcard
    rw [hd, Nat.one_shiftLeft]
    have := published_le h4.le hcard h0 (show Nat.clog 2 ω ≤ d by omega)
    have e : ω * (d - Nat.clog 2 ω) = ω * (d - Nat.clog 2 ω - 1) + ω := by
      rw [← Nat.mul_succ]; congr 1; omega
    exact_mod_cast Nat.mul_le_mul_right b (show _ ≤ 2 ^ Nat.clog 2 ω + ω * (d - Nat.clog 2 ω - 1) by omega)
  · refine ⟨_, printed_dense b (by omega), ?_⟩
    intro hidden hcard
    rw [hd, Nat.one_shiftLeft]
    have hc : Nat.clog 2 ω ≤ d := Nat.clog_le_of_le_pow (by omega)
    have hc2 : d ≤ Nat.clog 2 ω + 1 := by
      by_cases hd2 : d ≤ 1
      · omega
      have : 2 ^ (d - 2) < ω := by
        have : 2 ^ (d - 1) = 2 * 2 ^ (d - 2) := by rw [← Nat.pow_succ']; congr 1; omega
        omega
      have := (Nat.lt_clog_iff_pow_lt (b := 2) (by decide)).2 this
      omega
    have h6 := published_le h4.le hcard h0 hc
    have h7 : 2 ^ Nat.clog 2 ω ≤ 2 ^ d := Nat.pow_le_pow_right (by decide) hc
    have h8 : ω * (d - Nat.clog 2 ω) ≤ ω * 1 := Nat.mul_le_mul_left _ (by omega)
    exact_mod_cast Nat.mul_le_mul_right b (show _ ≤ 8 * ω by omega)

/-- For every number of rounds that is a power of two and every weight the printed size is too small: withholding the right
leaves makes the library publish exactly one seed more. -/
theorem C76_fails_power_of_two {k ω b : Nat} (hk : 1 ≤ k) (hk' : k ≤ 15) (h0 : 0 < ω) (hω : ω ≤ 2 ^ k / 2) (hb : 0 < b) :
    ∃ x, printedSize (2 ^ k) ω (8 * b) = some x ∧ ¬ Bounds (2 ^ k) ω b x ∧
      ∃ hidden, (hiddenSet (2 ^ k) hidden).card = ω ∧
        (((publishedNodes (1 <<< bitsToRepresent (2 ^ k)) (2 ^ k) hidden).length * b : Nat) : Int) = x + b := by
  have e0 : 2 ^ k = 2 * 2 ^ (k - 1) := by rw [← Nat.pow_succ']; congr 1; omega
  have hkt : Nat.clog 2 (2 ^ k) = k := Nat.clog_pow 2 k (by decide)
  have hc : Nat.clog 2 ω ≤ k - 1 := Nat.clog_le_of_le_pow (by omega)
  have hd : bitsToRepresent (2 ^ k) = k + 1 :=
    bitsToRepresent_of_range (by omega) (by omega) (Nat.le_refl _) (Nat.pow_lt_pow_right (by decide) (by omega))
  have hω' : ω ≤ 2 ^ k := by omega
  have key : (((publishedNodes (1 <<< bitsToRepresent (2 ^ k)) (2 ^ k) (spread k ω)).length * b : Nat) : Int) =
      (((2 ^ Nat.clog 2 ω + ω * (k - Nat.clog 2 ω - 1)) * b : Nat) : Int) + b := by
    rw [hd, Nat.one_shiftLeft]
    have := published_spread h0 hω'
    have e : ω * (k - Nat.clog 2 ω) = ω * (k - Nat.clog 2 ω - 1) + ω := by
      rw [← Nat.mul_succ]; congr 1; omega
    rw [show (publishedNodes (2 ^ (k + 1)) (2 ^ k) (spread k ω)).length = 2 ^ Nat.clog 2 ω + ω * (k - Nat.clog 2 ω - 1) + 1 by omega,
      Nat.succ_mul]
    push_cast
    ring
  refine ⟨_, printed_sparse b h0 hω rfl hkt (by unfold ceilLog2; omega), fun h => ?_, spread k ω, card_spread hω', key⟩
  have := h (spread k ω) (card_spread hω')
  rw [key] at this
  unfold ceilLog2 at this
  omega

/-- The constants of parameters.h are the results of the script. -/
theorem C76_constants : ∀ p ∈ Params.all, printedSize p.T p.W (8 * p.seedLen) = some (p.maxPublishedBytes : Int) := by
  decide +kernel

/-- None of the parameter sets has a power of two for the number of rounds, so the bound holds for all of them. -/
theorem C76_parameter_sets : ∀ p ∈ Params.all, Bounds p.T p.W p.seedLen p.maxPublishedBytes := by
  intro p hp
  have hwf := Params.all_WF p hp
  have hnp : ∀ k, p.T ≠ 2 ^ k := by
    have h1 : ∀ p ∈ Params.all, ∀ k < 16, p.T ≠ 2 ^ k := by decide
    intro k
    by_cases hk : k < 16
    · exact h1 p hp k hk
    · have : 2 ^ 16 ≤ 2 ^ k := Nat.pow_le_pow_right (by decide) (by omega)
      have := hwf.T_lt
      omega
  obtain ⟨x, e, h⟩ := C76_upper_bound_partial hwf.T_lt hnp hwf.W_pos hwf.W_le_T p.seedLen
  rw [C76_constants p hp] at e
  cases e
  exact h

/-! ## What would happen -/

/-- A parameter set with 128 rounds, weight 32, and the storage the script computes for it (1024 bytes). -/
def roundRounds : Params := { Params.cat1Balanced with T := 128, W := 32, maxPublishedBytes := 1024 }

example : printedSize 128 32 128 = some 1024 := by decide +kernel

/-- With this set the library writes behind the end of `seed_storage`. -/
theorem C76_overflow : ∃ ind : Vector Nat roundRounds.T, (∀ i < 128, g ind i ≤ 1) ∧
    ((List.range 128).filter fun i => g ind i == 1).length = roundRounds.W ∧
    seedTreePath (p := roundRounds) (Vector.replicate _ 0) ind (Vector.replicate roundRounds.storageLen 0) = .error .oob := by
  refine ⟨Vector.ofFn fun i => if i.val % 4 = 0 then 1 else 0, ?_, ?_, ?_⟩ <;> decide +kernel

end LESS
