import Verif.Model.Keccak
import Verif.Spec.Keccak
/-!
# The permutation: proofs
-/
namespace LESS

/-- One round on lanes (the first half of the loop body). -/
def roundLanes (c : UInt64) (s : Lanes) : Lanes :=
  let Aba := s[0]
  let Abe := s[1]
  let Abi := s[2]
  let Abo := s[3]
  let Abu := s[4]
  let Aga := s[5]
  let Age := s[6]
  let Agi := s[7]
  let Ago := s[8]
  let Agu := s[9]
  let Aka := s[10]
  let Ake := s[11]
  let Aki := s[12]
  let Ako := s[13]
  let Aku := s[14]
  let Ama := s[15]
  let Ame := s[16]
  let Ami := s[17]
  let Amo := s[18]
  let Amu := s[19]
  let Asa := s[20]
  let Ase := s[21]
  let Asi := s[22]
  let Aso := s[23]
  let Asu := s[24]
  let BCa := Aba ^^^ Aga ^^^ Aka ^^^ Ama ^^^ Asa
  let BCe := Abe ^^^ Age ^^^ Ake ^^^ Ame ^^^ Ase
  let BCi := Abi ^^^ Agi ^^^ Aki ^^^ Ami ^^^ Asi
  let BCo := Abo ^^^ Ago ^^^ Ako ^^^ Amo ^^^ Aso
  let BCu := Abu ^^^ Agu ^^^ Aku ^^^ Amu ^^^ Asu
  let Da := BCu ^^^ (rol BCe 1)
  let De := BCa ^^^ (rol BCi 1)
  let Di := BCe ^^^ (rol BCo 1)
  let Do_ := BCi ^^^ (rol BCu 1)
  let Du := BCo ^^^ (rol BCa 1)
  let Aba := Aba ^^^ Da
  let BCa := Aba
  let Age := Age ^^^ De
  let BCe := (rol Age 44)
  let Aki := Aki ^^^ Di
  let BCi := (rol Aki 43)
  let Amo := Amo ^^^ Do_
  let BCo := (rol Amo 21)
  let Asu := Asu ^^^ Du
  let BCu := (rol Asu 14)
  let Eba := BCa ^^^ (~~~BCe &&& BCi)
  let Eba := Eba ^^^ c
  let Ebe := BCe ^^^ (~~~BCi &&& BCo)
  let Ebi := BCi ^^^ (~~~BCo &&& BCu)
  let Ebo := BCo ^^^ (~~~BCu &&& BCa)
  let Ebu := BCu ^^^ (~~~BCa &&& BCe)
  let Abo := Abo ^^^ Do_
  let BCa := (rol Abo 28)
  let Agu := Agu ^^^ Du
  let BCe := (rol Agu 20)
  let Aka := Aka ^^^ Da
  let BCi := (rol Aka 3)
  let Ame := Ame ^^^ De
  let BCo := (rol Ame 45)
  let Asi := Asi ^^^ Di
  let BCu := (rol Asi 61)
  let Ega := BCa ^^^ (~~~BCe &&& BCi)
  let Ege := BCe ^^^ (~~~BCi &&& BCo)
  let Egi := BCi ^^^ (~~~BCo &&& BCu)
  let Ego := BCo ^^^ (~~~BCu &&& BCa)
  let Egu := BCu ^^^ (~~~BCa &&& BCe)
  let Abe := Abe ^^^ De
  let BCa := (rol Abe 1)
  let Agi := Agi ^^^ Di
  let BCe := (rol Agi 6)
  let Ako := Ako ^^^ Do_
  let BCi := (rol Ako 25)
  let Amu := Amu ^^^ Du
  let BCo := (rol Amu 8)
  let Asa := Asa ^^^ Da
  let BCu := (rol Asa 18)
  let Eka := BCa ^^^ (~~~BCe &&& BCi)
  let Eke := BCe ^^^ (~~~BCi &&& BCo)
  let Eki := BCi ^^^ (~~~BCo &&& BCu)
  let Eko := BCo ^^^ (~~~BCu &&& BCa)
  let Eku := BCu ^^^ (~~~BCa &&& BCe)
  let Abu := Abu ^^^ Du
  let BCa := (rol Abu 27)
  let Aga := Aga ^^^ Da
  let BCe := (rol Aga 36)
  let Ake := Ake ^^^ De
  let BCi := (rol Ake 10)
  let Ami := Ami ^^^ Di
  let BCo := (rol Ami 15)
  let Aso := Aso ^^^ Do_
  let BCu := (rol Aso 56)
  let Ema := BCa ^^^ (~~~BCe &&& BCi)
  let Eme := BCe ^^^ (~~~BCi &&& BCo)
  let Emi := BCi ^^^ (~~~BCo &&& BCu)
  let Emo := BCo ^^^ (~~~BCu &&& BCa)
  let Emu := BCu ^^^ (~~~BCa &&& BCe)
  let Abi := Abi ^^^ Di
  let BCa := (rol Abi 62)
  let Ago := Ago ^^^ Do_
  let BCe := (rol Ago 55)
  let Aku := Aku ^^^ Du
  let BCi := (rol Aku 39)
  let Ama := Ama ^^^ Da
  let BCo := (rol Ama 41)
  let Ase := Ase ^^^ De
  let BCu := (rol Ase 2)
  let Esa := BCa ^^^ (~~~BCe &&& BCi)
  let Ese := BCe ^^^ (~~~BCi &&& BCo)
  let Esi := BCi ^^^ (~~~BCo &&& BCu)
  let Eso := BCo ^^^ (~~~BCu &&& BCa)
  let Esu := BCu ^^^ (~~~BCa &&& BCe)
  #v[Eba, Ebe, Ebi, Ebo, Ebu, Ega, Ege, Egi, Ego, Egu, Eka, Eke, Eki, Eko, Eku, Ema, Eme, Emi, Emo, Emu, Esa, Ese, Esi, Eso, Esu]

theorem permuteBody_eq (r : Nat) (s : Lanes) :
    permuteBody r s = roundLanes (roundConstant (r + 1)) (roundLanes (roundConstant r) s) := rfl

/-! ## The round on lanes, lane by lane -/

/-- Rotation amounts modulo 64, by column. -/
def rotTab : Vector (Vector Nat 5) 5 :=
  #v[#v[0, 36, 3, 41, 18], #v[1, 44, 10, 45, 2], #v[62, 6, 43, 15, 61], #v[28, 55, 25, 21, 56], #v[27, 20, 39, 8, 14]]

theorem rotTab_eq : ∀ x y : Fin 5, rotTab[x][y] = Spec.rhoOffset x y % 64 := by decide +kernel

/-- Lane `(x, y)`. -/
def laneAt (s : Lanes) (x y : Fin 5) : UInt64 := s[5 * y.val + x.val]

/-- θ on lanes. -/
def thetaL (A : Fin 5 → Fin 5 → UInt64) : Fin 5 → Fin 5 → UInt64 :=
  let C : Fin 5 → UInt64 := fun x => A x 0 ^^^ A x 1 ^^^ A x 2 ^^^ A x 3 ^^^ A x 4
  fun x y => A x y ^^^ (C (x - 1) ^^^ rol (C (x + 1)) 1)

/-- ρ on lanes. -/
def rhoL (A : Fin 5 → Fin 5 → UInt64) : Fin 5 → Fin 5 → UInt64 := fun x y =>
  if rotTab[x][y] = 0 then A x y else rol (A x y) (UInt64.ofNat rotTab[x][y])

/-- π on lanes. -/
def piL (A : Fin 5 → Fin 5 → UInt64) : Fin 5 → Fin 5 → UInt64 := fun x y => A (x + 3 * y) x

/-- χ on lanes. -/
def chiL (A : Fin 5 → Fin 5 → UInt64) : Fin 5 → Fin 5 → UInt64 := fun x y =>
  A x y ^^^ (~~~A (x + 1) y &&& A (x + 2) y)

/-- ι on lanes. -/
def iotaL (c : UInt64) (A : Fin 5 → Fin 5 → UInt64) : Fin 5 → Fin 5 → UInt64 := fun x y =>
  if x = 0 ∧ y = 0 then A x y ^^^ c else A x y

theorem roundLanes_eq (c : UInt64) (s : Lanes) (x y : Fin 5) :
    laneAt (roundLanes c s) x y = iotaL c (chiL (piL (rhoL (thetaL (laneAt s))))) x y := by
  match x, y with
  | 0, 0 => rfl
  | 0, 1 => rfl
  | 0, 2 => rfl
  | 0, 3 => rfl
  | 0, 4 => rfl
  | 1, 0 => rfl
  | 1, 1 => rfl
  | 1, 2 => rfl
  | 1, 3 => rfl
  | 1, 4 => rfl
  | 2, 0 => rfl
  | 2, 1 => rfl
  | 2, 2 => rfl
  | 2, 3 => rfl
  | 2, 4 => rfl
  | 3, 0 => rfl
  | 3, 1 => rfl
  | 3, 2 => rfl
  | 3, 3 => rfl
  | 3, 4 => rfl
  | 4, 0 => rfl
  | 4, 1 => rfl
  | 4, 2 => rfl
  | 4, 3 => rfl
  | 4, 4 => rfl

/-! ## Bits of lanes -/

/-- Bit `z` of a lane. -/
def wbit (w : UInt64) (z : Fin 64) : Bool := w.toBitVec.getLsbD z

theorem wbit_xor (a b : UInt64) (z : Fin 64) : wbit (a ^^^ b) z = (wbit a z ^^ wbit b z) := by
  simp [wbit]

theorem wbit_and (a b : UInt64) (z : Fin 64) : wbit (a &&& b) z = (wbit a z && wbit b z) := by
  simp [wbit]

theorem wbit_not (a : UInt64) (z : Fin 64) : wbit (~~~a) z = (wbit a z ^^ true) := by
  simp [wbit]

theorem wbit_rol (a : UInt64) (k : Nat) (h0 : 0 < k) (hk : k < 64) (z : Fin 64) :
    wbit (rol a (UInt64.ofNat k)) z = wbit a (z - Fin.ofNat 64 k) := by
  unfold rol
  rw [wbit_xor]
  have e1 : (UInt64.ofNat k).toBitVec.toNat = k := by simp; omega
  have e2 : (64 - UInt64.ofNat k).toBitVec.toNat = 64 - k := by
    simp [BitVec.toNat_sub]; omega
  have hv : (z - Fin.ofNat 64 k).val = (64 - k + z.val) % 64 := by
    rw [Fin.sub_def]; simp [Fin.ofNat, Nat.mod_eq_of_lt hk]
  have s1 : ∀ n : Nat, n < 64 → (BitVec.ofNat 64 n % 64).toNat = n := by
    intro n hn; simp; omega
  unfold wbit
  rw [UInt64.toBitVec_shiftLeft, UInt64.toBitVec_shiftRight, BitVec.shiftLeft_eq', BitVec.ushiftRight_eq',
    BitVec.getLsbD_shiftLeft, BitVec.getLsbD_ushiftRight, BitVec.toNat_umod, BitVec.toNat_umod, e1, e2, hv]
  have hz := z.2
  simp only [show (64 : BitVec 64).toNat = 64 from rfl]
  rw [Nat.mod_eq_of_lt hk, Nat.mod_eq_of_lt (show 64 - k < 64 by omega)]
  by_cases h : z.val < k
  · rw [Nat.mod_eq_of_lt (by omega)]; simp [h]
  · have h1 : (64 - k + z.val) % 64 = z.val - k := by omega
    rw [h1, BitVec.getLsbD_of_ge _ _ (show 64 ≤ 64 - k + z.val by omega)]
    simp [h]

/-- The state array of a state. -/
def arrayOf (s : Lanes) : Spec.StateArray := fun x y z => wbit (laneAt s x y) z

/-- The bits of a family of lanes. -/
def bitsL (A : Fin 5 → Fin 5 → UInt64) : Spec.StateArray := fun x y z => wbit (A x y) z

theorem bitsL_theta (A : Fin 5 → Fin 5 → UInt64) : bitsL (thetaL A) = Spec.theta (bitsL A) := by
  funext x y z
  have h := wbit_rol (A (x + 1) 0 ^^^ A (x + 1) 1 ^^^ A (x + 1) 2 ^^^ A (x + 1) 3 ^^^ A (x + 1) 4) 1
    (by decide) (by decide) z
  simp only [bitsL, thetaL, Spec.theta, wbit_xor] at h ⊢
  rw [show (1 : UInt64) = UInt64.ofNat 1 from rfl, h]
  rfl

theorem bitsL_rho (A : Fin 5 → Fin 5 → UInt64) : bitsL (rhoL A) = Spec.rho (bitsL A) := by
  funext x y z
  have ht := rotTab_eq x y
  have hlt : rotTab[x][y] < 64 := by rw [ht]; exact Nat.mod_lt _ (by decide)
  have hof : Fin.ofNat 64 (Spec.rhoOffset x y) = Fin.ofNat 64 rotTab[x][y] := by
    rw [ht]; apply Fin.ext; simp [Fin.ofNat]
  simp only [bitsL, rhoL, Spec.rho]
  rw [hof]
  by_cases h : rotTab[x][y] = 0
  · rw [if_pos h, h]
    congr 1
    apply Fin.ext
    simp [Fin.sub_def, Fin.ofNat]; omega
  · rw [if_neg h, wbit_rol _ _ (by omega) hlt]

theorem bitsL_pi (A : Fin 5 → Fin 5 → UInt64) : bitsL (piL A) = Spec.pi (bitsL A) := rfl

theorem bitsL_chi (A : Fin 5 → Fin 5 → UInt64) : bitsL (chiL A) = Spec.chi (bitsL A) := by
  funext x y z
  simp only [bitsL, chiL, Spec.chi, wbit_xor, wbit_and, wbit_not]

theorem roundConstant_eq : ∀ (ir : Fin 24) (z : Fin 64), wbit (roundConstant ir) z = Spec.RC ir z := by
  decide +kernel

theorem bitsL_iota (ir : Nat) (h : ir < 24) (A : Fin 5 → Fin 5 → UInt64) :
    bitsL (iotaL (roundConstant ir) A) = Spec.iota ir (bitsL A) := by
  funext x y z
  simp only [bitsL, iotaL, Spec.iota]
  split
  · rw [wbit_xor]
    congr 1
    exact roundConstant_eq ⟨ir, h⟩ z
  · rfl

theorem arrayOf_round (ir : Nat) (h : ir < 24) (s : Lanes) :
    arrayOf (roundLanes (roundConstant ir) s) = Spec.rnd (arrayOf s) ir := by
  have : arrayOf (roundLanes (roundConstant ir) s) =
      bitsL (iotaL (roundConstant ir) (chiL (piL (rhoL (thetaL (laneAt s)))))) := by
    funext x y z
    simp only [arrayOf, bitsL, roundLanes_eq]
  rw [this, bitsL_iota ir h, bitsL_chi, bitsL_pi, bitsL_rho, bitsL_theta]
  rfl

theorem arrayOf_permuteLoop (s : Lanes) (n : Nat) (hn : n ≤ 12) :
    arrayOf (permuteLoop n s) = (List.range (2 * n)).foldl Spec.rnd (arrayOf s) := by
  induction n with
  | zero => rfl
  | succ n ih =>
    rw [permuteLoop, permuteBody_eq, arrayOf_round _ (by omega), arrayOf_round _ (by omega), ih (by omega),
      show 2 * (n + 1) = 2 * n + 1 + 1 by omega, List.range_succ, List.range_succ, List.foldl_append,
      List.foldl_append]
    rfl

/-- `KeccakF1600_StatePermute` is Keccak-f[1600]. -/
theorem arrayOf_permute (s : Lanes) : arrayOf (permute s) = Spec.keccakF (arrayOf s) :=
  arrayOf_permuteLoop s 12 (Nat.le_refl _)

end LESS
