/-!
# Specification: seed trees

Nodes of a binary tree with `L` leaves are numbered level by level, the root is 0, the children of `i` are
`2i+1` and `2i+2`, the leaves are `L-1 .. 2L-2`.  The definitions do not refer to the model.
-/
namespace LESS.Spec

/-- Node `i` is node `j` or an ancestor of it: going up is halving the one-based number. -/
def IsAncestor (i j : Nat) : Prop := ∃ e, (j + 1) / 2 ^ e = i + 1

theorem isAncestor_iff (i j : Nat) : IsAncestor i j ↔ ∃ e < j + 2, (j + 1) / 2 ^ e = i + 1 := by
  constructor
  · rintro ⟨e, h⟩
    refine ⟨e, ?_, h⟩
    apply Classical.byContradiction
    intro hlt
    have h1 : j + 1 < 2 ^ e := by
      have h2 : e < 2 ^ e := Nat.lt_two_pow_self
      omega
    rw [Nat.div_eq_of_lt h1] at h
    omega
  · rintro ⟨e, _, h⟩; exact ⟨e, h⟩

instance (i j : Nat) : Decidable (IsAncestor i j) := decidable_of_iff _ (isAncestor_iff i j).symm

/-- Some hidden leaf (of the first `T`) is at or below node `i`. -/
def Covers (L T : Nat) (hidden : Nat → Bool) (i : Nat) : Prop :=
  ∃ k < T, hidden k = true ∧ IsAncestor i (L - 1 + k)

instance (L T : Nat) (hidden : Nat → Bool) (i : Nat) : Decidable (Covers L T hidden i) :=
  inferInstanceAs (Decidable (∃ k < T, hidden k = true ∧ IsAncestor i (L - 1 + k)))

/-- A node is published if nothing below it is hidden although something below its parent is: the published nodes
are the roots of the maximal subtrees without hidden leaves. -/
def Published (L T : Nat) (hidden : Nat → Bool) (i : Nat) : Prop :=
  0 < i ∧ i < 2 * L - 1 ∧ ¬ Covers L T hidden i ∧ Covers L T hidden ((i - 1) / 2)

instance (L T : Nat) (hidden : Nat → Bool) (i : Nat) : Decidable (Published L T hidden i) :=
  inferInstanceAs (Decidable (_ ∧ _ ∧ _ ∧ _))

/-- The published nodes in increasing order. -/
def publishedNodes (L T : Nat) (hidden : Nat → Bool) : List Nat :=
  (List.range (2 * L - 1)).filter fun i => decide (Published L T hidden i)

/-- The position of node `i` among the published ones. -/
def rank (L T : Nat) (hidden : Nat → Bool) (i : Nat) : Nat :=
  ((List.range i).filter fun i => decide (Published L T hidden i)).length

/-- The seeds of all nodes; `H` expands a seed to the seeds of the left and of the right child. -/
def nodeSeed (H : List UInt8 → List UInt8 × List UInt8) (root : List UInt8) : Nat → List UInt8
  | 0 => root
  | i + 1 => if i % 2 = 0 then (H (nodeSeed H root (i / 2))).1 else (H (nodeSeed H root (i / 2))).2
decreasing_by all_goals omega

/-- The seeds somebody can derive from a list of seeds `stored` handed out for the published nodes (the root is
never published). -/
def rebuiltSeed (H : List UInt8 → List UInt8 × List UInt8) (L T : Nat) (hidden : Nat → Bool)
    (stored : Nat → List UInt8) : Nat → List UInt8
  | 0 => []
  | i + 1 =>
    if Published L T hidden (i + 1) then stored (rank L T hidden (i + 1))
    else if i % 2 = 0 then (H (rebuiltSeed H L T hidden stored (i / 2))).1
    else (H (rebuiltSeed H L T hidden stored (i / 2))).2
decreasing_by all_goals omega

end LESS.Spec
