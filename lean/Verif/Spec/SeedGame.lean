import Verif.Spec.SeedTree
import Verif.Spec.Oracle
/-!
# What published seeds say about the rounds kept secret

`n` signatures are made, each with a tree of seeds over `L` leaves, the first `T` of which belong to rounds.  Inner nodes are
expanded to the seeds of their children, leaves to the stream of a round.  Both expansions are tables, one for each
signature (that is, for each salt); as in the scheme, the number of an inner node is not part of the question, that of a round is.

Somebody may ask the tables, may see the streams of all rounds of a signature (from which its commitments are computed), may then choose
which rounds of it stay hidden, and gets the published seeds.  The definitions do not refer to the model.
-/
namespace LESS.Spec

variable {n T : Nat} {S X α : Type}

/-- The seeds of all nodes of a tree; `D` expands a seed to the seeds of the left and of the right child. -/
def seedAt (D : S → S × S) (root : S) : Nat → S
  | 0 => root
  | i + 1 => if i % 2 = 0 then (D (seedAt D root (i / 2))).1 else (D (seedAt D root (i / 2))).2
decreasing_by all_goals omega

/-- What can be asked: the expansion of a seed as a node or as a leaf, the streams of all rounds, and the seeds to publish. -/
inductive SeedQuestion (n T : Nat) (S : Type) where
  | node (j : Fin n) (s : S)
  | round (j : Fin n) (i : Fin T) (s : S)
  | streams (j : Fin n)
  | reveal (j : Fin n) (hidden : Nat → Bool)

/-- The answers. -/
def SeedAnswer (n T : Nat) (S X : Type) : SeedQuestion n T S → Type
  | .node _ _ => S × S
  | .round _ _ _ => X
  | .streams _ => Fin T → X
  | .reveal _ _ => List S

/-- For each signature the rounds that stay hidden, once they have been chosen. -/
abbrev Hidings (n : Nat) := Fin n → Option (Nat → Bool)

/-- The choice counts only once for each signature. -/
def hideRounds (ch : Hidings n) : SeedQuestion n T S → Hidings n
  | .reveal j hidden => if (ch j).isNone then Function.update ch j (some hidden) else ch
  | _ => ch

/-- The two tables. -/
structure Expansions (n T : Nat) (S X : Type) where
  node : Fin n → S → S × S
  round : Fin n → Fin T → S → X

/-! ## As in the scheme -/

/-- The answers if all seeds of a tree are expanded from its root. -/
def treeAnswer (L : Nat) (t : Expansions n T S X) (root : Fin n → S) (ch : Hidings n) : (q : SeedQuestion n T S) → SeedAnswer n T S X q
  | .node j s => t.node j s
  | .round j i s => t.round j i s
  | .streams j => fun i => t.round j i (seedAt (t.node j) (root j) (L - 1 + i))
  | .reveal j hidden => if (ch j).isNone then (publishedNodes L T hidden).map (seedAt (t.node j) (root j)) else []

/-- The result if all seeds of a tree are expanded from its root. -/
def treePlay (L : Nat) (t : Expansions n T S X) (root : Fin n → S) : Hidings n → Asks (SeedQuestion n T S) (SeedAnswer n T S X) α → α
  | _, .done a => a
  | ch, .ask q next => treePlay L t root (hideRounds ch q) (next (treeAnswer L t root ch q))

/-- The rounds hidden at the end. -/
def treeEnd (L : Nat) (t : Expansions n T S X) (root : Fin n → S) : Hidings n → Asks (SeedQuestion n T S) (SeedAnswer n T S X) α → Hidings n
  | ch, .done _ => ch
  | ch, .ask q next => treeEnd L t root (hideRounds ch q) (next (treeAnswer L t root ch q))

/-- The result is a signature, a round of it that is not shown, and the seed of this round. -/
def FindsSeed (L : Nat) (t : Expansions n T S X) (root : Fin n → S) (c : Asks (SeedQuestion n T S) (SeedAnswer n T S X) (Fin n × Fin T × S)) : Prop :=
  let r := treePlay L t root (fun _ => none) c
  (∀ hidden, treeEnd L t root (fun _ => none) c r.1 = some hidden → hidden r.2.1 = true) ∧
    seedAt (t.node r.1) (root r.1) (L - 1 + r.2.1) = r.2.2

/-! ## With independent seeds -/

/-- Every node has a seed of its own, every round a stream of its own; none is expanded from another. -/
structure SeedDraw (n T L : Nat) (S X : Type) where
  seed : Fin n → Fin (2 * L - 1) → S
  stream : Fin n → Fin T → X

/-- The seed of node `v`. -/
def SeedDraw.seedOf [Inhabited S] {L : Nat} (d : SeedDraw n T L S X) (j : Fin n) (v : Nat) : S :=
  if h : v < 2 * L - 1 then d.seed j ⟨v, h⟩ else default

/-- The hidden rounds have been chosen, and none of them is at or below node `v`. -/
def shown (L T : Nat) (ch : Hidings n) (j : Fin n) (v : Nat) : Bool :=
  match ch j with
  | none => false
  | some hidden => !decide (Covers L T hidden v)

/-- The inner node with the seed `s`, among those with `ok`. -/
def nodeWith [DecidableEq S] (L : Nat) (seeds : Nat → S) (ok : Nat → Bool) (s : S) : Option Nat :=
  (List.range (L - 1)).find? fun v => ok v && decide (seeds v = s)

/-- The answers if all seeds and streams have been drawn: once the hidden rounds are chosen, the tables are made to agree with them,
but only at nodes with no hidden round below. -/
def drawnAnswer [Inhabited S] [DecidableEq S] (L : Nat) (t : Expansions n T S X) (d : SeedDraw n T L S X) (ch : Hidings n) :
    (q : SeedQuestion n T S) → SeedAnswer n T S X q
  | .node j s =>
    match nodeWith L (d.seedOf j) (shown L T ch j) s with
    | some v => (d.seedOf j (2 * v + 1), d.seedOf j (2 * v + 2))
    | none => t.node j s
  | .round j i s => if shown L T ch j (L - 1 + i) = true ∧ d.seedOf j (L - 1 + i) = s then d.stream j i else t.round j i s
  | .streams j => d.stream j
  | .reveal j hidden => if (ch j).isNone then (publishedNodes L T hidden).map (d.seedOf j) else []

/-- The result if all seeds and streams have been drawn. -/
def drawnPlay [Inhabited S] [DecidableEq S] (L : Nat) (t : Expansions n T S X) (d : SeedDraw n T L S X) :
    Hidings n → Asks (SeedQuestion n T S) (SeedAnswer n T S X) α → α
  | _, .done a => a
  | ch, .ask q next => drawnPlay L t d (hideRounds ch q) (next (drawnAnswer L t d ch q))

end LESS.Spec
