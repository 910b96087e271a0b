import Mathlib.Algebra.Group.Fin.Basic
import Mathlib.Tactic.Abel
import Mathlib.Data.Nat.Bitwise
import Verif.Spec.KeccakInv
import Verif.Proofs.Fips
/-!
# The permutation can be run backwards
-/
namespace LESS

open Spec

theorem shiftSum_twice (a : Fin 5) (b : Fin 64) (P : Fin 5 → Fin 64 → Bool) :
    shiftSum a b (shiftSum a b P) = shiftSum (a + a) (b + b) P := by
  funext x z
  unfold shiftSum
  rw [sub_add_cancel, add_sub_cancel_right, show x - (a + a) = x - a - a by abel, show x + (a + a) = x + a + a by abel,
    show z - (b + b) = z - b - b by abel]
  generalize P x z = p1
  generalize P (x - a) z = p2
  generalize P (x + a) (z - b) = p3
  generalize P (x - a - a) z = p4
  generalize P x (z - b) = p5
  generalize P (x + a + a) (z - b - b) = p6
  revert p1 p2 p3 p4 p5 p6
  decide

theorem shiftSum_end (P : Fin 5 → Fin 64 → Bool) : shiftSum 3 0 (shiftSum 4 0 P) = P := by
  funext x z
  unfold shiftSum
  simp only [sub_zero]
  have h : ∀ x : Fin 5, x - 4 = x + 1 ∧ x - 3 = x + 2 ∧ x + 2 + 1 = x + 3 ∧ x + 2 + 4 = x + 1 ∧ x + 3 + 1 = x + 4 ∧ x + 3 + 4 = x + 2 := by
    decide
  obtain ⟨h1, h2, h3, h4, h5, h6⟩ := h x
  rw [h2, (h (x + 2)).1, (h (x + 3)).1, h1, h3, h4, h5, h6]
  generalize P x z = a0
  generalize P (x + 1) z = a1
  generalize P (x + 2) z = a2
  generalize P (x + 3) z = a3
  generalize P (x + 4) z = a4
  revert a0 a1 a2 a3 a4
  decide

theorem parityBefore_eq (P : Fin 5 → Fin 64 → Bool) : parityBefore (shiftSum 1 1 P) = P := by
  unfold parityBefore
  rw [shiftSum_twice, show (1 : Fin 5) + 1 = 2 from rfl, show (1 : Fin 64) + 1 = 2 from rfl,
    shiftSum_twice, show (2 : Fin 5) + 2 = 4 from rfl, show (2 : Fin 64) + 2 = 4 from rfl,
    shiftSum_twice, show (4 : Fin 5) + 4 = 3 from rfl, show (4 : Fin 64) + 4 = 8 from rfl,
    shiftSum_twice, show (3 : Fin 5) + 3 = 1 from rfl, show (8 : Fin 64) + 8 = 16 from rfl,
    shiftSum_twice, show (1 : Fin 5) + 1 = 2 from rfl, show (16 : Fin 64) + 16 = 32 from rfl,
    shiftSum_twice, show (2 : Fin 5) + 2 = 4 from rfl, show (32 : Fin 64) + 32 = 0 from rfl, shiftSum_end]

theorem thetaInv_theta (A : StateArray) : thetaInv (theta A) = A := by
  have hpar : (fun x z => theta A x 0 z ^^ theta A x 1 z ^^ theta A x 2 z ^^ theta A x 3 z ^^ theta A x 4 z) =
      shiftSum 1 1 fun x z => A x 0 z ^^ A x 1 z ^^ A x 2 z ^^ A x 3 z ^^ A x 4 z := by
    funext x z
    unfold theta shiftSum
    dsimp only
    generalize (A (x - 1) 0 z ^^ A (x - 1) 1 z ^^ A (x - 1) 2 z ^^ A (x - 1) 3 z ^^ A (x - 1) 4 z) = c
    generalize (A (x + 1) 0 (z - 1) ^^ A (x + 1) 1 (z - 1) ^^ A (x + 1) 2 (z - 1) ^^ A (x + 1) 3 (z - 1) ^^ A (x + 1) 4 (z - 1)) = d
    generalize A x 0 z = a0
    generalize A x 1 z = a1
    generalize A x 2 z = a2
    generalize A x 3 z = a3
    generalize A x 4 z = a4
    revert c d a0 a1 a2 a3 a4
    decide
  funext x y z
  unfold thetaInv
  rw [hpar, parityBefore_eq]
  unfold theta
  dsimp only
  rw [Bool.xor_assoc, Bool.xor_self, Bool.xor_false]

theorem rhoInv_rho (A : StateArray) : rhoInv (rho A) = A := by
  funext x y z
  unfold rhoInv rho
  rw [add_sub_cancel_right]

theorem piInv_pi (A : StateArray) : piInv (Spec.pi A) = A := by
  funext x y z
  unfold piInv Spec.pi
  have h : ∀ x y : Fin 5, y + 3 * (2 * (x - y)) = x := by decide
  rw [h]

theorem chiInv_chi (A : StateArray) : chiInv (chi A) = A := by
  funext x y z
  unfold chiInv chi
  have h : ∀ x : Fin 5, x + 1 + 1 = x + 2 ∧ x + 1 + 2 = x + 3 ∧ x + 2 + 1 = x + 3 ∧ x + 2 + 2 = x + 4 ∧ x + 3 + 1 = x + 4 ∧
      x + 3 + 2 = x ∧ x + 4 + 1 = x ∧ x + 4 + 2 = x + 1 := by decide
  obtain ⟨h1, h2, h3, h4, h5, h6, h7, h8⟩ := h x
  rw [h1, h2, h3, h4, h5, h6, h7, h8]
  generalize A x y z = a0
  generalize A (x + 1) y z = a1
  generalize A (x + 2) y z = a2
  generalize A (x + 3) y z = a3
  generalize A (x + 4) y z = a4
  revert a0 a1 a2 a3 a4
  decide

theorem iota_iota (ir : Nat) (A : StateArray) : iota ir (iota ir A) = A := by
  funext x y z
  unfold iota
  split
  · rw [Bool.xor_assoc, Bool.xor_self, Bool.xor_false]
  · rfl

theorem rndInv_rnd (A : StateArray) (ir : Nat) : rndInv (rnd A ir) ir = A := by
  unfold rndInv rnd
  rw [iota_iota, chiInv_chi, piInv_pi, rhoInv_rho, thetaInv_theta]

theorem keccakFInv_keccakF (A : StateArray) : keccakFInv (keccakF A) = A := by
  unfold keccakFInv keccakF
  generalize List.range 24 = l
  induction l generalizing A with
  | nil => rfl
  | cons ir l ih => rw [List.foldl_cons, List.reverse_cons, List.foldl_append, ih, List.foldl_cons, List.foldl_nil, rndInv_rnd]

/-- The number with the given bits. -/
def wordBits : Nat → (Nat → Bool) → Nat
  | 0, _ => 0
  | n + 1, f => Nat.bit (f 0) (wordBits n fun i => f (i + 1))

theorem wordBits_testBit (n : Nat) (f : Nat → Bool) (i : Nat) (h : i < n) : (wordBits n f).testBit i = f i := by
  induction n generalizing f i with
  | zero => omega
  | succ n ih =>
    unfold wordBits
    cases i with
    | zero => exact Nat.testBit_bit_zero _ _
    | succ i => rw [Nat.testBit_bit_succ, ih _ i (by omega)]

/-- The word with the given bits. -/
def wordOf (f : Fin 64 → Bool) : UInt64 := UInt64.ofNat (wordBits 64 fun i => f (Fin.ofNat 64 i))

theorem wbit_wordOf (f : Fin 64 → Bool) (z : Fin 64) : wbit (wordOf f) z = f z := by
  unfold wbit wordOf
  have h : (UInt64.ofNat (wordBits 64 fun i => f (Fin.ofNat 64 i))).toBitVec =
      BitVec.ofNat 64 (wordBits 64 fun i => f (Fin.ofNat 64 i)) := rfl
  rw [h, BitVec.getLsbD_ofNat, wordBits_testBit _ _ _ z.2]
  simp

/-- The lanes with the given bits. -/
def lanesOf (A : StateArray) : Lanes :=
  Vector.ofFn fun i : Fin 25 => wordOf (A ⟨i.val % 5, by omega⟩ ⟨i.val / 5, by omega⟩)

theorem lanesOf_arrayOf (s : Lanes) : lanesOf (arrayOf s) = s := by
  apply Vector.ext
  intro i hi
  apply UInt64.toBitVec_inj.mp
  apply BitVec.eq_of_getLsbD_eq
  intro z hz
  have := wbit_wordOf (arrayOf s ⟨i % 5, by omega⟩ ⟨i / 5, by omega⟩) ⟨z, hz⟩
  unfold lanesOf
  rw [Vector.getElem_ofFn]
  unfold wbit at this
  rw [this]
  unfold arrayOf wbit laneAt
  have e : 5 * (i / 5) + i % 5 = i := by omega
  simp only [e]

/-- Keccak-f[1600] backwards, on the lanes of the library. -/
def unpermute (s : Lanes) : Lanes := lanesOf (keccakFInv (arrayOf s))

theorem unpermute_permute (s : Lanes) : unpermute (permute s) = s := by
  unfold unpermute
  rw [arrayOf_permute, keccakFInv_keccakF, lanesOf_arrayOf]

end LESS
