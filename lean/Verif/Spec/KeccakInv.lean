import Verif.Spec.Keccak
/-!
# Specification: the steps of Keccak-f[1600] backwards

Each step of the permutation of FIPS 202 undone, on state arrays.  What the names promise is proved in `Proofs/KeccakInv`.
-/
namespace LESS.Spec

/-- Three shifted copies of the column parities.  θ acts on the parities as `shiftSum 1 1`. -/
def shiftSum (a : Fin 5) (b : Fin 64) (P : Fin 5 → Fin 64 → Bool) : Fin 5 → Fin 64 → Bool :=
  fun x z => P x z ^^ P (x - a) z ^^ P (x + a) (z - b)

/-- The column parities before θ, from those after it: applying `shiftSum a b` twice doubles the shifts, and shifting by 64
is not shifting. -/
def parityBefore (P : Fin 5 → Fin 64 → Bool) : Fin 5 → Fin 64 → Bool :=
  shiftSum 3 0 (shiftSum 2 32 (shiftSum 1 16 (shiftSum 3 8 (shiftSum 4 4 (shiftSum 2 2 (shiftSum 1 1 P))))))

/-- θ backwards. -/
def thetaInv (A : StateArray) : StateArray :=
  let C := parityBefore fun x z => A x 0 z ^^ A x 1 z ^^ A x 2 z ^^ A x 3 z ^^ A x 4 z
  fun x y z => A x y z ^^ (C (x - 1) z ^^ C (x + 1) (z - 1))

/-- ρ backwards. -/
def rhoInv (A : StateArray) : StateArray := fun x y z => A x y (z + Fin.ofNat 64 (rhoOffset x y))

/-- π backwards. -/
def piInv (A : StateArray) : StateArray := fun x y z => A y (2 * (x - y)) z

/-- χ backwards. -/
def chiInv (A : StateArray) : StateArray := fun x y z =>
  A x y z ^^ (!A (x + 1) y z && (A (x + 2) y z ^^ (!A (x + 3) y z && A (x + 4) y z)))

/-- One round backwards. -/
def rndInv (A : StateArray) (ir : Nat) : StateArray := thetaInv (rhoInv (piInv (chiInv (iota ir A))))

/-- The 24 rounds backwards. -/
def keccakFInv (A : StateArray) : StateArray := (List.range 24).reverse.foldl rndInv A

end LESS.Spec
