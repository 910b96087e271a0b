import Verif.Model.Params
/-!
# Parameters: proofs about `BITS_TO_REPRESENT`
-/
namespace LESS

theorem isRep_pos {D n : Nat} (h : 2 ^ (D - 1) ≤ n ∧ n < 2 ^ D) : isRepresentableInDBits D n = D := by
  simp [isRepresentableInDBits, h]

theorem isRep_neg {D n : Nat} (h : ¬ (2 ^ (D - 1) ≤ n ∧ n < 2 ^ D)) : isRepresentableInDBits D n = -1 := by
  simp [isRepresentableInDBits, h]

theorem bitsToRepresent_of_range {n d : Nat} (hd : 1 ≤ d) (hd' : d ≤ 16) (h1 : 2 ^ (d - 1) ≤ n)
    (h2 : n < 2 ^ d) : bitsToRepresent n = d := by
  have hn : n ≠ 0 := by have := Nat.two_pow_pos (d - 1); omega
  unfold bitsToRepresent
  rw [if_neg hn]
  have key : ∀ D, 1 ≤ D → D ≤ 16 → isRepresentableInDBits D n = if D = d then (D : Int) else -1 := by
    intro D hD _
    by_cases h : D = d
    · subst h; rw [if_pos rfl]; exact isRep_pos ⟨h1, h2⟩
    · rw [if_neg h]; apply isRep_neg
      rintro ⟨h3, h4⟩
      rcases Nat.lt_or_gt_of_ne h with hlt | hgt
      · have : 2 ^ D ≤ 2 ^ (d - 1) := Nat.pow_le_pow_right (by decide) (by omega)
        omega
      · have : 2 ^ d ≤ 2 ^ (D - 1) := Nat.pow_le_pow_right (by decide) (by omega)
        omega
  rw [key 1 (by decide) (by decide), key 2 (by decide) (by decide), key 3 (by decide) (by decide),
    key 4 (by decide) (by decide), key 5 (by decide) (by decide), key 6 (by decide) (by decide),
    key 7 (by decide) (by decide), key 8 (by decide) (by decide), key 9 (by decide) (by decide),
    key 10 (by decide) (by decide), key 11 (by decide) (by decide), key 12 (by decide) (by decide),
    key 13 (by decide) (by decide), key 14 (by decide) (by decide), key 15 (by decide) (by decide),
    key 16 (by decide) (by decide)]
  clear key h1 h2 hn
  have : d = 1 ∨ d = 2 ∨ d = 3 ∨ d = 4 ∨ d = 5 ∨ d = 6 ∨ d = 7 ∨ d = 8 ∨ d = 9 ∨ d = 10 ∨ d = 11 ∨
    d = 12 ∨ d = 13 ∨ d = 14 ∨ d = 15 ∨ d = 16 := by omega
  rcases this with h|h|h|h|h|h|h|h|h|h|h|h|h|h|h|h <;> subst h <;> decide

theorem exists_bits (m : Nat) : ∀ n, 0 < n → n < 2 ^ m → ∃ d, 1 ≤ d ∧ d ≤ m ∧ 2 ^ (d - 1) ≤ n ∧ n < 2 ^ d := by
  induction m with
  | zero => intro n h1 h2; simp at h2; omega
  | succ m ih =>
    intro n h1 h2
    by_cases h : n < 2 ^ m
    · obtain ⟨d, a, b, c⟩ := ih n h1 h; exact ⟨d, a, by omega, c⟩
    · exact ⟨m + 1, by omega, by omega, by simpa using h, h2⟩

theorem bits_spec {n : Nat} (h0 : 0 < n) (h : n < 65536) :
    1 ≤ bitsToRepresent n ∧ bitsToRepresent n ≤ 16 ∧ 2 ^ (bitsToRepresent n - 1) ≤ n ∧
      n < 2 ^ bitsToRepresent n := by
  obtain ⟨d, h1, h2, h3, h4⟩ := exists_bits 16 n h0 h
  rw [bitsToRepresent_of_range h1 h2 h3 h4]
  exact ⟨h1, h2, h3, h4⟩

theorem bits_Q : bitsToRepresent Q = 7 := bitsToRepresent_of_range (by decide) (by decide) (by decide) (by decide)

theorem maskQ_eq : Params.maskQ = 127 := by unfold Params.maskQ; rw [bits_Q]

namespace Params

/-- The largest number of seeds that hiding `W` of `T` leaves can make `seed_tree_path` publish: on the level
with `2^l` nodes, at most `min W ⌈T / 2^(d-l)⌉` nodes have a hidden leaf below them, where `d` is the depth. -/
def worstSeeds (p : Params) : Nat :=
  let d := bitsToRepresent p.T
  ((List.range d).map fun l => min p.W ((p.T + 2 ^ (d - l) - 1) / 2 ^ (d - l))).sum + 1 - p.W

/-- What the theorems assume of a parameter set; `Props/C43` shows it for the seven sets of parameters.h.
-/
structure WF (p : Params) : Prop where
  K_pos : 0 < p.K
  K_lt_N : p.K < p.N
  N_lt : p.N < p.posMod
  /-- index packing: 8, 9, 10 bits per index -/
  pack1 : p.cat = .one → 128 ≤ p.N ∧ p.N < 256
  pack3 : p.cat = .three → 256 ≤ p.N ∧ p.N < 512 ∧ p.K % 8 = 0
  pack5 : p.cat = .five → 512 ≤ p.N ∧ p.N < 1024 ∧ p.K % 8 = 2
  /-- pivot flag packing -/
  flags : if p.cat = .three then p.N % 8 = 0 else p.N % 8 = 4
  W_pos : 1 ≤ p.W
  W_le_T : p.W ≤ p.T
  T_lt : p.T < 65536
  T_le_pos : p.T ≤ p.posMod
  numKeypairs_ge : 2 ≤ p.numKeypairs
  numKeypairs_le : p.numKeypairs ≤ 256
  /-- `seed_storage` is large enough -/
  storage : p.worstSeeds ≤ p.maxPublishedSeeds
  storage_dvd : p.maxPublishedBytes = p.maxPublishedSeeds * p.seedLen
  storage_le : p.maxPublishedSeeds ≤ 255

theorem all_WF : ∀ p ∈ Params.all, p.WF := by
  intro p hp
  simp only [all, List.mem_cons, List.not_mem_nil, or_false] at hp
  rcases hp with h|h|h|h|h|h|h <;> subst h <;>
    exact ⟨by decide, by decide, by decide, by decide, by decide, by decide, by decide, by decide, by decide,
      by decide, by decide, by decide, by decide, by decide, by decide, by decide⟩

end Params
end LESS
