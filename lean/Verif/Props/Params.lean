import Verif.Proofs.SeedTree
import Verif.Proofs.Keygen
import Verif.Proofs.Complete
import Mathlib.Data.Nat.Log
import Mathlib.Data.Nat.Size
/-!
# Derived parameters (C43)
-/
namespace LESS

open Spec

variable {p : Params}

/-- The seven parameter sets meet everything the theorems assume of a parameter set. -/
theorem C43_parameter_sets_wellformed : ∀ p ∈ Params.all, p.WF := Params.all_WF

/-- `BITS_TO_REPRESENT` is the number of binary digits (1 for 0), for every value below `2^16`. -/
theorem C43_bit_length (n : Nat) (h : n < 65536) : bitsToRepresent n = max 1 (Nat.size n) := by
  by_cases h0 : n = 0
  · subst h0; rfl
  obtain ⟨h1, -, h3, h4⟩ := bits_spec (Nat.pos_of_ne_zero h0) h
  have a : Nat.size n ≤ bitsToRepresent n := Nat.size_le.mpr h4
  have b : bitsToRepresent n - 1 < Nat.size n := Nat.lt_size.mpr h3
  omega

example : bitsToRepresent 126 = 7 ∧ bitsToRepresent 247 = 8 ∧ bitsToRepresent 0 = 1 ∧ bitsToRepresent 65535 = 16 := by
  refine ⟨?_, ?_, ?_, ?_⟩ <;> decide

/-! ## Space used by the encoders -/

/-- `RREF_MAT_PACKEDBYTES` is the number of bytes that the bits of a code take, and no more. -/
theorem C43_code_bytes {R : Matrix (Fin p.K) (Fin p.N) Fq} {piv : Fin p.K → Fin p.N} (h : IsRREF R piv) :
    p.rrefBytes = ((codeBits p R piv).length + 7) / 8 := by
  obtain ⟨R', f, hO, e⟩ := exists_out (RowEq.refl R) h
  rw [← e, codeBits_eq hO]
  unfold rrefBits
  rw [List.length_append, flagBits_length, bitFields_length, denseEntries_length, hO.fits.count, rrefBytes_eq,
    Nat.mul_comm p.K]
  omega

/-- `MONO_ACTION_PACKEDBYTES` is the number of bytes that the bits of a response take, and no more. -/
theorem C43_action_bytes (hp : p.WF) (a : Action p) : p.monoBytes = ((bitFields (indexBits p) ((List.range p.K).map a.perm) ++
    bitFields 7 ((List.range p.K).map a.coef)).length + 7) / 8 := by
  rw [List.length_append, bitFields_length, bitFields_length, List.length_map, List.length_map, List.length_range]
  unfold Params.monoBytes
  rw [bits_Q]
  unfold indexBits
  cases hc : p.cat
  · have := hp.pack1 hc
    rw [bitsToRepresent_of_range (d := 8) (by decide) (by decide) this.1 this.2]
    dsimp only
    omega
  · have := hp.pack3 hc
    rw [bitsToRepresent_of_range (d := 9) (by decide) (by decide) this.1 this.2.1]
    dsimp only
    omega
  · have := hp.pack5 hc
    rw [bitsToRepresent_of_range (d := 10) (by decide) (by decide) this.1 this.2.1]
    dsimp only
    omega

/-! ## The parameter generation script

`seed_tree_param_computer.py` computes the value of `SEED_TREE_MAX_PUBLISHED_BYTES` from the number of rounds `t`,
the weight `omega` and the security parameter. -/

/-- seed_tree_param_computer.py:5-12 `worst_case_seed_tree_cost` divided by `sec_param/8`, in the case
`omega <= t//2` (in the other case the script warns and returns a value in bits); `Nat.clog 2` is `ceil(log2(.))`. -/
def scriptSeeds (t omega : Nat) : Nat :=
  2 ^ Nat.clog 2 omega + omega * (Nat.clog 2 t - Nat.clog 2 omega - 1)

/-- The seven values of parameters.h are those of the script. -/
theorem C43_script_matches : ∀ p ∈ Params.all, p.W ≤ p.T / 2 ∧ p.maxPublishedBytes = p.seedLen * scriptSeeds p.T p.W := by
  decide +kernel

theorem sum_min_two_pow (W c d : Nat) (hc : ∀ l, l < c → 2 ^ l ≤ W) (hcd : c ≤ d) :
    ∑ l ∈ Finset.range d, min W (2 ^ l) ≤ 2 ^ c - 1 + W * (d - c) := by
  induction d with
  | zero => simp
  | succ d ih =>
    rw [Finset.sum_range_succ]
    by_cases h : c ≤ d
    · have := ih h
      have e : W * (d + 1 - c) = W * (d - c) + W := by
        rw [show d + 1 - c = d - c + 1 by omega, Nat.mul_succ]
      have := Nat.min_le_left W (2 ^ d)
      omega
    · have e : c = d + 1 := by omega
      subst e
      have h2 : ∀ n, ∑ l ∈ Finset.range n, min W (2 ^ l) ≤ 2 ^ n - 1 := by
        intro n
        induction n with
        | zero => simp
        | succ n ih =>
          rw [Finset.sum_range_succ, Nat.pow_succ]
          have := Nat.min_le_right W (2 ^ n)
          have := Nat.two_pow_pos n
          omega
      have := h2 (d + 1)
      rw [Finset.sum_range_succ] at this
      omega

theorem clog_eq_bits {T : Nat} (hT : T < 65536) (h1 : 1 < T) (hne : ∀ k, T ≠ 2 ^ k) : Nat.clog 2 T = bitsToRepresent T := by
  obtain ⟨b1, -, b3, b4⟩ := bits_spec (by omega) hT
  apply le_antisymm
  · exact (Nat.clog_le_iff_le_pow (by decide)).mpr b4.le
  · by_contra hlt
    have h2 : Nat.clog 2 T ≤ bitsToRepresent T - 1 := by omega
    rw [Nat.clog_le_iff_le_pow (by decide)] at h2
    exact hne _ (le_antisymm h2 b3)

/-- For every number of rounds that is not a power of two and every weight up to half of it: withholding any
`omega` leaves makes at most as many seeds public as the script says. -/
theorem C43_script_bounds_worst_case {T W : Nat} (hT : T < 65536) (hne : ∀ k, T ≠ 2 ^ k) (hW : 1 ≤ W) (hWT : W ≤ T / 2)
    (hidden : Nat → Bool) (hcard : ((List.range T).filter hidden).length = W) :
    (publishedNodes (2 ^ bitsToRepresent T) T hidden).length ≤ scriptSeeds T W := by
  have hc : (hiddenSet T hidden).card = W := by
    rw [← hcard, hiddenSet, ← List.toFinset_card_of_nodup (List.Nodup.filter _ (List.nodup_range))]
    congr 1
    ext k; simp
  obtain ⟨b1, -, b3, b4⟩ := bits_spec (n := T) (by omega) hT
  have hr : ∃ k < T, hidden k = true := by
    obtain ⟨k, hk⟩ := List.exists_mem_of_length_pos (l := (List.range T).filter hidden) (by omega)
    rw [List.mem_filter, List.mem_range] at hk
    exact ⟨k, hk⟩
  have h := publishedNodes_length (d := bitsToRepresent T) (hidden := hidden) b4.le hr
  unfold scriptSeeds
  rw [clog_eq_bits hT (by omega) hne]
  generalize bitsToRepresent T = d at *
  have hcl : Nat.clog 2 W ≤ d - 1 := by
    rw [Nat.clog_le_iff_le_pow (by decide)]
    have : 2 ^ d = 2 * 2 ^ (d - 1) := by rw [← Nat.pow_succ']; congr 1; omega
    omega
  have hsum : ∑ l ∈ Finset.range d, levelCount d T hidden l ≤ ∑ l ∈ Finset.range d, min W (2 ^ l) := by
    apply Finset.sum_le_sum
    intro l hl
    rw [Finset.mem_range] at hl
    refine (levelCount_le l).trans ?_
    rw [hc]
    refine min_le_min le_rfl ?_
    have e : 2 ^ d = 2 ^ l * 2 ^ (d - l) := by rw [← Nat.pow_add]; congr 1; omega
    have := Nat.two_pow_pos (d - l)
    rw [Nat.div_le_iff_le_mul_add_pred this]
    rw [Nat.mul_comm]
    omega
  have h2 := sum_min_two_pow W (Nat.clog 2 W) d (fun l hl => ((Nat.lt_clog_iff_pow_lt (by decide)).mp hl).le) (by omega)
  have h3 := Nat.two_pow_pos (Nat.clog 2 W)
  have e : W * (d - Nat.clog 2 W) = W * (d - Nat.clog 2 W - 1) + W := by
    rw [← Nat.mul_succ]; congr 1; omega
  rw [hc] at h
  omega

/-- For a power of two the script is one short: `BITS_TO_REPRESENT(T)` makes the tree one level deeper than
`ceil(log2(T))`, and withholding one leaf of `2^k` publishes `k+1` seeds, the script says `k`. -/
theorem C43_script_short_for_powers_of_two (k : Nat) (hk : 1 ≤ k) (hk' : k < 16) :
    (publishedNodes (2 ^ bitsToRepresent (2 ^ k)) (2 ^ k) (fun j => j == 0)).length = scriptSeeds (2 ^ k) 1 + 1 := by
  have hb : bitsToRepresent (2 ^ k) = k + 1 :=
    bitsToRepresent_of_range (by omega) (by omega) (by simp) (Nat.pow_lt_pow_right (by decide) (by omega))
  rw [hb]
  have hpos := Nat.two_pow_pos k
  have hset : hiddenSet (2 ^ k) (fun j => j == 0) = {0} := by
    ext j; simp only [hiddenSet, Finset.mem_filter, Finset.mem_range, Finset.mem_singleton, beq_iff_eq]
    omega
  have h := publishedNodes_length (d := k + 1) (T := 2 ^ k) (hidden := fun j => j == 0)
    (Nat.pow_le_pow_right (by decide) (by omega)) ⟨0, hpos, rfl⟩
  have hl : ∀ l, levelCount (k + 1) (2 ^ k) (fun j => j == 0) l = 1 := by
    intro l; unfold levelCount; rw [hset]; simp
  rw [Finset.sum_congr rfl (fun l _ => hl l), hset] at h
  simp only [Finset.card_singleton, Finset.sum_const, Finset.card_range, smul_eq_mul, mul_one] at h
  unfold scriptSeeds
  rw [Nat.clog_pow 2 k (by decide)]
  simp
  omega

/-- The hypotheses of `C43_script_bounds_worst_case` for category 3, balanced, every 23rd leaf withheld. -/
example : (∀ k, 759 ≠ 2 ^ k) ∧ ((List.range 759).filter fun k => k % 23 == 0).length = 33 ∧ 33 ≤ 759 / 2 ∧
    scriptSeeds 759 33 * 24 = 3912 := by
  refine ⟨fun k h => ?_, by decide +kernel, by decide, by decide +kernel⟩
  have h1 : k < 10 := by
    by_contra hk
    have := Nat.pow_le_pow_right (show 0 < 2 by decide) (show 10 ≤ k by omega)
    omega
  interval_cases k <;> omega

end LESS
