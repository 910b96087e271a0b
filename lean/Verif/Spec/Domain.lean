import Verif.Spec.Less
/-!
# The strings from which seeds and monomials are expanded

A signer expands every inner node of the seed tree to the seeds of its children and every leaf to a monomial.  Both
feed a string to the extendable-output function.
-/
namespace LESS.Spec

/-- The string expanded for an inner node. -/
def nodeInput (salt seed : List UInt8) : List UInt8 := salt ++ seed

/-- The string expanded for round `i`. -/
def roundInput (leaf salt : List UInt8) (i : Nat) : List UInt8 :=
  leaf ++ salt ++ [UInt8.ofNat (i % 256), UInt8.ofNat (i / 256 % 256)]

/-- The strings a signer expands for the inner nodes. -/
def nodeInputs (p : Params) (root salt : List UInt8) : List (List UInt8) :=
  (List.range (p.numLeaves - 1)).map fun i => nodeInput salt (nodeSeed (children p salt) root i)

/-- The strings a signer expands for the rounds. -/
def roundInputs (p : Params) (root salt : List UInt8) : List (List UInt8) :=
  (List.range p.T).map fun i => roundInput (signerLeaf p root salt i) salt i

/-- All strings a signer expands for one signature. -/
def signInputs (p : Params) (root salt : List UInt8) : List (List UInt8) := nodeInputs p root salt ++ roundInputs p root salt

end LESS.Spec
