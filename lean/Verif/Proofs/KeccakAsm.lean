import Verif.Model.KeccakAsm
import Verif.Proofs.KeccakF
/-!
# The assembly permutation: proofs

The code without jumps is evaluated on terms: the operations on lanes are variables, and the result is compared with the
round by computation.
-/
namespace LESS.Asm
variable {α : Type}

/-- Where lane `(x, y)` is stored. -/
def pos (x y : Nat) : Nat := mapState.getD (x % 5 + 5 * (y % 5)) 0

/-- Which lane is stored at `k`. -/
def laneIdx (k : Nat) : Nat :=
  [0, 1, 2, 3, 4, 10, 20, 5, 15, 16, 7, 23, 14, 11, 22, 8, 19, 21, 17, 13, 9, 6, 12, 18, 24].getD k 0

/-- The registers 0 to 6 contain the state `m`. -/
def Holds (y : Nat → V4 α) (m : Nat → α) : Prop :=
  y 0 = ⟨m 0, m 0, m 0, m 0⟩ ∧ y 1 = ⟨m 1, m 2, m 3, m 4⟩ ∧ y 2 = ⟨m 5, m 6, m 7, m 8⟩ ∧
  y 3 = ⟨m 9, m 10, m 11, m 12⟩ ∧ y 4 = ⟨m 13, m 14, m 15, m 16⟩ ∧ y 5 = ⟨m 17, m 18, m 19, m 20⟩ ∧
  y 6 = ⟨m 21, m 22, m 23, m 24⟩

/-- Registers that contain the state `m`. -/
def load (y : Nat → V4 α) (m : Nat → α) : Nat → V4 α :=
  setAt (setAt (setAt (setAt (setAt (setAt (setAt y 0 ⟨m 0, m 0, m 0, m 0⟩) 1 ⟨m 1, m 2, m 3, m 4⟩)
    2 ⟨m 5, m 6, m 7, m 8⟩) 3 ⟨m 9, m 10, m 11, m 12⟩) 4 ⟨m 13, m 14, m 15, m 16⟩) 5 ⟨m 17, m 18, m 19, m 20⟩)
    6 ⟨m 21, m 22, m 23, m 24⟩

section
variable (o : LaneOps α) (A : Nat → Nat → α)

/-- Rotation by one. -/
def rot1G (a : α) : α := o.or (o.shr a 63) (o.add a a)

/-- Rotation by `n`. -/
def rotG (a : α) (n : Nat) : α := o.or (o.shr a (64 - n)) (o.shl a n)

/-- What θ adds to the lanes of sheet `x`, with the additions in the order of the code. -/
def thetaG : Nat → α
  | 0 => o.xor (rot1G o (o.xor (o.xor (o.xor (A 1 4) (A 1 3)) (A 1 0)) (o.xor (A 1 2) (A 1 1))))
      (o.xor (o.xor (o.xor (A 4 1) (A 4 2)) (A 4 0)) (o.xor (A 4 3) (A 4 4)))
  | 1 => o.xor (rot1G o (o.xor (o.xor (o.xor (A 2 3) (A 2 1)) (A 2 0)) (o.xor (A 2 4) (A 2 2))))
      (o.xor (o.xor (o.xor (A 0 4) (A 0 2)) (A 0 0)) (o.xor (A 0 3) (A 0 1)))
  | 2 => o.xor (rot1G o (o.xor (o.xor (o.xor (A 3 2) (A 3 4)) (A 3 0)) (o.xor (A 3 1) (A 3 3))))
      (o.xor (o.xor (o.xor (A 1 4) (A 1 3)) (A 1 0)) (o.xor (A 1 2) (A 1 1)))
  | 3 => o.xor (rot1G o (o.xor (o.xor (o.xor (A 4 1) (A 4 2)) (A 4 0)) (o.xor (A 4 3) (A 4 4))))
      (o.xor (o.xor (o.xor (A 2 3) (A 2 1)) (A 2 0)) (o.xor (A 2 4) (A 2 2)))
  | _ => o.xor (o.or (o.add (o.xor (o.xor (o.xor (A 0 1) (A 0 3)) (A 0 0)) (o.xor (A 0 2) (A 0 4)))
        (o.xor (o.xor (o.xor (A 0 1) (A 0 3)) (A 0 0)) (o.xor (A 0 2) (A 0 4))))
      (o.shr (o.xor (o.xor (o.xor (A 0 1) (A 0 3)) (A 0 0)) (o.xor (A 0 2) (A 0 4))) 63))
      (o.xor (o.xor (o.xor (A 3 2) (A 3 4)) (A 3 0)) (o.xor (A 3 1) (A 3 3)))

/-- The rotation of lane `(x, y)`. -/
def rotNat (x y : Nat) : Nat :=
  [0, 1, 62, 28, 27, 36, 44, 6, 55, 20, 3, 10, 43, 25, 39, 41, 45, 15, 21, 8, 18, 2, 61, 56, 14].getD (x + 5 * y) 0

/-- θ, ρ and π: lane `(x, y)`. -/
def rhoPiG (d : Nat → α) (x y : Nat) : α :=
  if x = 0 ∧ y = 0 then o.xor (A 0 0) (d 0)
  else rotG o (o.xor (A ((x + 3 * y) % 5) x) (d ((x + 3 * y) % 5))) (rotNat ((x + 3 * y) % 5) x)

/-- χ. -/
def chiG (x y : Nat) : α :=
  if x = 0 ∧ y = 0 then o.xor (A 0 0) (o.andn (A 1 0) (A 2 0))
  else o.xor (o.andn (A ((x + 1) % 5) y) (A ((x + 2) % 5) y)) (A x y)
end

/-- θ: registers 0 and 2 are done, register 15 contains what is added to the others. -/
theorem theta_run (o : LaneOps α) (y : Nat → V4 α) (m mem : Nat → α) (r8 r9 r10 rdi rsi rax : Nat) :
    ∃ y', run o thetaCode ⟨load y m, mem, ⟨r8, r9, r10, rdi, rsi, rax⟩⟩ = .ok ⟨y', mem, ⟨r8, r9, r10, rdi, rsi, rax⟩⟩ ∧
      Holds y' (fun k => if k = 0 ∨ (5 ≤ k ∧ k ≤ 8) then o.xor (m k) (thetaG o (fun x y => m (pos x y)) 0) else m k) ∧
      y' 15 = ⟨thetaG o (fun x y => m (pos x y)) 1, thetaG o (fun x y => m (pos x y)) 2,
        thetaG o (fun x y => m (pos x y)) 3, thetaG o (fun x y => m (pos x y)) 4⟩ :=
  ⟨_, rfl, ⟨rfl, rfl, rfl, rfl, rfl, rfl, rfl⟩, rfl⟩

set_option maxRecDepth 10000 in
/-- ρ, π and χ. -/
theorem rhoPiChi_run (o : LaneOps α) (y : Nat → V4 α) (m mem : Nat → α) (d : Nat → α) (r10 rdi rsi rax : Nat) :
    ∃ y', run o (rhoPiCode ++ chiCode) ⟨setAt (load y (fun k => if k = 0 ∨ (5 ≤ k ∧ k ≤ 8) then o.xor (m k) (d 0) else m k))
          15 ⟨d 1, d 2, d 3, d 4⟩, mem, ⟨96, 288, r10, rdi, rsi, rax⟩⟩ =
        .ok ⟨y', mem, ⟨96, 288, r10, rdi, rsi, rax⟩⟩ ∧
      Holds y' (fun k => chiG o (rhoPiG o (fun x y => m (pos x y)) d) (laneIdx k % 5) (laneIdx k / 5)) :=
  ⟨_, rfl, rfl, rfl, rfl, rfl, rfl, rfl, rfl⟩

theorem load_of_holds {y : Nat → V4 α} {m : Nat → α} (h : Holds y m) : load y m = y := by
  obtain ⟨h0, h1, h2, h3, h4, h5, h6⟩ := h
  funext r
  unfold load setAt
  repeat' split
  all_goals first | rfl | (subst_vars; simp only [*])

theorem run_append (o : LaneOps α) (a b : List Instr) (s : Machine α) :
    run o (a ++ b) s = (run o a s >>= run o b) := by
  induction a generalizing s with
  | nil => rfl
  | cons i a ih =>
    show (step o s i >>= fun s => run o (a ++ b) s) = ((step o s i >>= fun s => run o a s) >>= run o b)
    cases step o s i with
    | error e => rfl
    | ok s' => exact ih s'

theorem okBind {α β : Type} (a : α) (f : α → C β) : ((Except.ok a : C α) >>= f) = f a := rfl

/-- What a round without ι does to a state. -/
def roundG (o : LaneOps α) (m : Nat → α) (k : Nat) : α :=
  chiG o (rhoPiG o (fun x y => m (pos x y)) (thetaG o fun x y => m (pos x y))) (laneIdx k % 5) (laneIdx k / 5)

theorem body_run (o : LaneOps α) (y : Nat → V4 α) (m mem : Nat → α) (h : Holds y m) (r10 rdi rsi rax : Nat) :
    ∃ y', run o (thetaCode ++ rhoPiCode ++ chiCode) ⟨y, mem, ⟨96, 288, r10, rdi, rsi, rax⟩⟩ =
        .ok ⟨y', mem, ⟨96, 288, r10, rdi, rsi, rax⟩⟩ ∧ Holds y' (roundG o m) := by
  obtain ⟨y₁, e₁, h₁, d₁⟩ := theta_run o y m mem 96 288 r10 rdi rsi rax
  obtain ⟨y₂, e₂, h₂⟩ := rhoPiChi_run o y₁ m mem (thetaG o fun x y => m (pos x y)) r10 rdi rsi rax
  rw [load_of_holds h] at e₁
  rw [load_of_holds h₁, ← d₁] at e₂
  have hs : setAt y₁ 15 (y₁ 15) = y₁ := by
    funext r; unfold setAt; split
    · subst_vars; rfl
    · rfl
  rw [hs] at e₂
  refine ⟨y₂, ?_, h₂⟩
  rw [List.append_assoc, run_append, e₁, okBind]
  exact e₂

/-! ## On 64-bit lanes -/

theorem wbit_ext {a b : UInt64} (h : ∀ z, wbit a z = wbit b z) : a = b := by
  apply UInt64.toBitVec_inj.mp
  apply BitVec.eq_of_getLsbD_eq
  intro i hi
  exact h ⟨i, hi⟩

theorem wbit_or (a b : UInt64) (z : Fin 64) : wbit (a ||| b) z = (wbit a z || wbit b z) := by
  simp [wbit]

theorem wbit_shl (a : UInt64) (n : Nat) (hn : n < 64) (z : Fin 64) :
    wbit (a <<< UInt64.ofNat n) z = (decide (n ≤ z.val) && a.toBitVec.getLsbD (z.val - n)) := by
  have e1 : (UInt64.ofNat n).toBitVec.toNat = n := by simp; omega
  unfold wbit
  rw [UInt64.toBitVec_shiftLeft, BitVec.shiftLeft_eq', BitVec.getLsbD_shiftLeft, BitVec.toNat_umod, e1]
  simp only [show (64 : BitVec 64).toNat = 64 from rfl]
  rw [Nat.mod_eq_of_lt hn]
  by_cases h : z.val < n
  · simp [h]; intro h'; omega
  · simp [h, Nat.not_lt.mp h]

theorem wbit_shr (a : UInt64) (n : Nat) (hn : n < 64) (z : Fin 64) :
    wbit (a >>> UInt64.ofNat n) z = a.toBitVec.getLsbD (n + z.val) := by
  have e1 : (UInt64.ofNat n).toBitVec.toNat = n := by simp; omega
  unfold wbit
  rw [UInt64.toBitVec_shiftRight, BitVec.ushiftRight_eq', BitVec.getLsbD_ushiftRight, BitVec.toNat_umod, e1]
  simp only [show (64 : BitVec 64).toNat = 64 from rfl]
  rw [Nat.mod_eq_of_lt hn]

theorem rotG_eq (a : UInt64) (n : Nat) (h0 : 0 < n) (hn : n < 64) : rotG ops64 a n = rol a (UInt64.ofNat n) := by
  apply wbit_ext
  intro z
  have hv : (z - Fin.ofNat 64 n).val = (64 - n + z.val) % 64 := by
    rw [Fin.sub_def]; simp [Fin.ofNat, Nat.mod_eq_of_lt hn]
  rw [wbit_rol a n h0 hn]
  show wbit ((if 64 - n < 64 then a >>> UInt64.ofNat (64 - n) else 0) ||| (if n < 64 then a <<< UInt64.ofNat n else 0)) z = _
  rw [if_pos (by omega), if_pos hn, wbit_or, wbit_shr _ _ (by omega), wbit_shl _ _ hn]
  unfold wbit
  rw [hv]
  have hz := z.2
  by_cases h : z.val < n
  · rw [Nat.mod_eq_of_lt (by omega)]; simp; intro h'; omega
  · have h1 : (64 - n + z.val) % 64 = z.val - n := by omega
    rw [h1, BitVec.getLsbD_of_ge _ _ (show 64 ≤ 64 - n + z.val by omega)]
    simp; omega

theorem add_self_eq (a : UInt64) : a + a = a <<< UInt64.ofNat 1 := by
  apply UInt64.toNat_inj.mp
  rw [UInt64.toNat_add, UInt64.toNat_shiftLeft, Nat.shiftLeft_eq]
  show (a.toNat + a.toNat) % 2 ^ 64 = a.toNat * 2 % 2 ^ 64
  rw [Nat.mul_two]

theorem rot1G_eq (a : UInt64) : rot1G ops64 a = rol a 1 := by
  rw [show (1 : UInt64) = UInt64.ofNat 1 from rfl, ← rotG_eq a 1 (by decide) (by decide)]
  show (a >>> UInt64.ofNat 63) ||| (a + a) = (a >>> UInt64.ofNat 63) ||| (a <<< UInt64.ofNat 1)
  rw [add_self_eq]

theorem rot1G_eq' (a : UInt64) : ops64.or (ops64.add a a) (ops64.shr a 63) = rol a 1 := by
  rw [← rot1G_eq]
  exact UInt64.or_comm _ _

theorem theta_eq (A : Nat → Nat → UInt64) (x y : Fin 5) :
    A x y ^^^ thetaG ops64 A x = thetaL (fun x y => A x y) x y := by
  unfold thetaL
  simp only
  congr 1
  have key : ∀ a b c d : UInt64, a = c → b = d → rol a 1 ^^^ b = d ^^^ rol c 1 := by
    intro a b c d h1 h2; rw [h1, h2, UInt64.xor_comm]
  match x with
  | 0 =>
    show ops64.xor (rot1G ops64 _) _ = _
    rw [rot1G_eq]
    refine key _ _ _ _ ?_ ?_
    · show _ ^^^ _ ^^^ _ ^^^ (_ ^^^ _) = A 1 0 ^^^ A 1 1 ^^^ A 1 2 ^^^ A 1 3 ^^^ A 1 4
      ac_rfl
    · show _ ^^^ _ ^^^ _ ^^^ (_ ^^^ _) = A 4 0 ^^^ A 4 1 ^^^ A 4 2 ^^^ A 4 3 ^^^ A 4 4
      ac_rfl
  | 1 =>
    show ops64.xor (rot1G ops64 _) _ = _
    rw [rot1G_eq]
    refine key _ _ _ _ ?_ ?_
    · show _ ^^^ _ ^^^ _ ^^^ (_ ^^^ _) = A 2 0 ^^^ A 2 1 ^^^ A 2 2 ^^^ A 2 3 ^^^ A 2 4
      ac_rfl
    · show _ ^^^ _ ^^^ _ ^^^ (_ ^^^ _) = A 0 0 ^^^ A 0 1 ^^^ A 0 2 ^^^ A 0 3 ^^^ A 0 4
      ac_rfl
  | 2 =>
    show ops64.xor (rot1G ops64 _) _ = _
    rw [rot1G_eq]
    refine key _ _ _ _ ?_ ?_
    · show _ ^^^ _ ^^^ _ ^^^ (_ ^^^ _) = A 3 0 ^^^ A 3 1 ^^^ A 3 2 ^^^ A 3 3 ^^^ A 3 4
      ac_rfl
    · show _ ^^^ _ ^^^ _ ^^^ (_ ^^^ _) = A 1 0 ^^^ A 1 1 ^^^ A 1 2 ^^^ A 1 3 ^^^ A 1 4
      ac_rfl
  | 3 =>
    show ops64.xor (rot1G ops64 _) _ = _
    rw [rot1G_eq]
    refine key _ _ _ _ ?_ ?_
    · show _ ^^^ _ ^^^ _ ^^^ (_ ^^^ _) = A 4 0 ^^^ A 4 1 ^^^ A 4 2 ^^^ A 4 3 ^^^ A 4 4
      ac_rfl
    · show _ ^^^ _ ^^^ _ ^^^ (_ ^^^ _) = A 2 0 ^^^ A 2 1 ^^^ A 2 2 ^^^ A 2 3 ^^^ A 2 4
      ac_rfl
  | 4 =>
    show ops64.xor (ops64.or (ops64.add _ _) (ops64.shr _ 63)) _ = _
    rw [rot1G_eq']
    refine key _ _ _ _ ?_ ?_
    · show _ ^^^ _ ^^^ _ ^^^ (_ ^^^ _) = A 0 0 ^^^ A 0 1 ^^^ A 0 2 ^^^ A 0 3 ^^^ A 0 4
      ac_rfl
    · show _ ^^^ _ ^^^ _ ^^^ (_ ^^^ _) = A 3 0 ^^^ A 3 1 ^^^ A 3 2 ^^^ A 3 3 ^^^ A 3 4
      ac_rfl

theorem rotNat_eq : ∀ x y : Fin 5, rotNat x y = rotTab[x][y] ∧ rotTab[x][y] < 64 ∧
    (rotTab[x][y] = 0 ↔ x = 0 ∧ y = 0) := by decide +kernel

theorem rhoPi_eq (A : Nat → Nat → UInt64) (x y : Fin 5) :
    rhoPiG ops64 A (thetaG ops64 A) x y = piL (rhoL (thetaL fun x y => A x y)) x y := by
  have hX : (x.val + 3 * y.val) % 5 = (x + 3 * y : Fin 5).val := by
    revert x y; decide
  have h0 : (x.val = 0 ∧ y.val = 0) ↔ ((x + 3 * y : Fin 5) = 0 ∧ x = 0) := by
    revert x y; decide
  obtain ⟨e1, e2, e3⟩ := rotNat_eq (x + 3 * y) x
  unfold rhoPiG piL rhoL
  rw [hX]
  by_cases h : x.val = 0 ∧ y.val = 0
  · rw [if_pos h, if_pos (e3.mpr (h0.mp h)), ← theta_eq]
    obtain ⟨h1, h2⟩ := h0.mp h
    rw [h1, h2]
    rfl
  · rw [if_neg h, if_neg (fun h' => h (h0.mpr (e3.mp h'))), e1,
      rotG_eq _ _ (Nat.pos_of_ne_zero fun h' => h (h0.mpr (e3.mp h'))) e2, ← theta_eq]
    rfl

theorem chi_eq (A : Nat → Nat → UInt64) (x y : Fin 5) :
    chiG ops64 A x y = chiL (fun x y => A x y) x y := by
  have h1 : (x.val + 1) % 5 = (x + 1 : Fin 5).val := by simp [Fin.val_add]
  have h2 : (x.val + 2) % 5 = (x + 2 : Fin 5).val := by simp [Fin.val_add]
  unfold chiG chiL
  rw [h1, h2]
  by_cases h : x.val = 0 ∧ y.val = 0
  · rw [if_pos h, show x = 0 from Fin.ext h.1, show y = 0 from Fin.ext h.2]
    rfl
  · rw [if_neg h]
    exact UInt64.xor_comm _ _

/-- The state in the standard order. -/
def std (m : Nat → UInt64) : Lanes := Vector.ofFn fun i : Fin 25 => m (mapState.getD i 0)

theorem laneAt_std (m : Nat → UInt64) (x y : Fin 5) : laneAt (std m) x y = m (pos x y) := by
  unfold laneAt std pos
  rw [Vector.getElem_ofFn]
  congr 2
  have := x.2; have := y.2
  show 5 * y.val + x.val = _
  rw [Nat.mod_eq_of_lt x.2, Nat.mod_eq_of_lt y.2]; omega

theorem laneIdx_pos : ∀ x y : Fin 5, laneIdx (pos x y) = x.val + 5 * y.val := by decide +kernel

theorem pos_zero : ∀ x y : Fin 5, pos x y = 0 ↔ x = 0 ∧ y = 0 := by decide +kernel

/-- A round with ι. -/
def roundM (c : UInt64) (m : Nat → UInt64) (k : Nat) : UInt64 := if k = 0 then roundG ops64 m 0 ^^^ c else roundG ops64 m k

theorem std_round (c : UInt64) (m : Nat → UInt64) : std (roundM c m) = roundLanes c (std m) := by
  have key : ∀ x y : Fin 5, laneAt (std (roundM c m)) x y = laneAt (roundLanes c (std m)) x y := by
    intro x y
    have hr : ∀ x y : Fin 5, roundG ops64 m (pos x y) = chiL (piL (rhoL (thetaL (laneAt (std m))))) x y := by
      intro x y
      have hA : laneAt (std m) = fun x y : Fin 5 => m (pos x y) := by funext x y; exact laneAt_std m x y
      unfold roundG
      rw [laneIdx_pos, show (x.val + 5 * y.val) % 5 = x.val by omega, show (x.val + 5 * y.val) / 5 = y.val by omega,
        chi_eq, hA]
      have hB : (fun x y : Fin 5 => rhoPiG ops64 (fun x y => m (pos x y)) (thetaG ops64 fun x y => m (pos x y)) x.val y.val) =
          piL (rhoL (thetaL fun x y : Fin 5 => m (pos x y))) := by
        funext x y
        exact rhoPi_eq (fun x y => m (pos x y)) x y
      rw [hB]
    rw [roundLanes_eq, laneAt_std]
    unfold roundM iotaL
    by_cases h : pos x y = 0
    · have h' := (pos_zero x y).mp h
      rw [if_pos h, if_pos h', ← hr, h]
    · rw [if_neg h, if_neg (fun h' => h ((pos_zero x y).mpr h')), hr]
  apply Vector.ext
  intro i hi
  have := key ⟨i % 5, by omega⟩ ⟨i / 5, by omega⟩
  unfold laneAt at this
  simp only at this
  simpa only [show 5 * (i / 5) + i % 5 = i by omega] using this

theorem rdData_iota : ∀ i : Fin 24, ∃ c, rdData (384 + 32 * i.val) = .ok ⟨c, c, c, c⟩ ∧
    UInt64.ofNat c = roundConstant i := by
  intro i
  refine ⟨iotaTable.getD i 0, ?_, ?_⟩
  · have h : ∀ i : Fin 24, (rdData (384 + 32 * i.val)).toOption.map (fun v => (v.l0, v.l1, v.l2, v.l3)) =
        some (iotaTable.getD i 0, iotaTable.getD i 0, iotaTable.getD i 0, iotaTable.getD i 0) := by decide +kernel
    have := h i
    cases hr : rdData (384 + 32 * i.val) with
    | error e => rw [hr] at this; exact absurd this (by simp [Except.toOption])
    | ok v =>
      rw [hr] at this
      simp only [Except.toOption, Option.map_some, Option.some.injEq, Prod.mk.injEq] at this
      obtain ⟨a, b, c, d⟩ := this
      rw [← a] at b c d ⊢
      cases v
      simp_all
  · revert i; decide +kernel

theorem iter_run (y : Nat → V4 UInt64) (m mem : Nat → UInt64) (h : Holds y m) (i : Nat) (hi : i < 24) (rdi rsi rax : Nat) :
    ∃ y', run ops64 (thetaCode ++ rhoPiCode ++ chiCode ++ iotaCode) ⟨y, mem, ⟨96, 288, 384 + 32 * i, rdi, rsi, rax⟩⟩ =
        .ok ⟨y', mem, ⟨96, 288, 384 + 32 * (i + 1), rdi, rsi, rax⟩⟩ ∧ Holds y' (roundM (roundConstant i) m) := by
  obtain ⟨y', e, h0, h1, h2, h3, h4, h5, h6⟩ := body_run ops64 y m mem h (384 + 32 * i) rdi rsi rax
  obtain ⟨c, hc, hc'⟩ := rdData_iota ⟨i, hi⟩
  simp only at hc hc'
  rw [run_append, e, okBind]
  have e2 : run ops64 iotaCode ⟨y', mem, ⟨96, 288, 384 + 32 * i, rdi, rsi, rax⟩⟩ =
      (rdData (384 + 32 * i) >>= fun n => (pure ⟨setAt y' 0 (V4.map2 ops64.xor (y' 0) ⟨ops64.const n.l0, ops64.const n.l1, ops64.const n.l2, ops64.const n.l3⟩), mem, ⟨96, 288, 384 + 32 * i + 32, rdi, rsi, rax⟩⟩ : C (Machine UInt64))) := by
    have ha : addr (384 + 32 * i) 0 0 = .ok (384 + 32 * i) := rfl
    show ((addr (384 + 32 * i) 0 0 >>= fun i => rdData i >>= _) >>= _) = _
    rw [ha, okBind, hc]
    rfl
  rw [e2, hc, okBind]
  refine ⟨setAt y' 0 (V4.map2 ops64.xor (y' 0) ⟨ops64.const c, ops64.const c, ops64.const c, ops64.const c⟩), ?_, ?_, ?_,
    ?_, ?_, ?_, ?_, ?_⟩
  · rw [show 384 + 32 * i + 32 = 384 + 32 * (i + 1) by omega]; rfl
  · show V4.map2 ops64.xor (y' 0) _ = _
    rw [h0]
    show (⟨_ ^^^ UInt64.ofNat c, _ ^^^ UInt64.ofNat c, _ ^^^ UInt64.ofNat c, _ ^^^ UInt64.ofNat c⟩ : V4 UInt64) = _
    rw [hc']
    rfl
  · exact h1
  · exact h2
  · exact h3
  · exact h4
  · exact h5
  · exact h6

theorem keccakLoop_last (o : LaneOps α) (f : Nat) (s : Machine α) (y : Nat → V4 α) (mem : Nat → α) (r8 r9 r10 rdi rsi rax : Nat)
    (e : run o (thetaCode ++ rhoPiCode ++ chiCode ++ iotaCode) s = .ok ⟨y, mem, ⟨r8, r9, r10, rdi, rsi, rax⟩⟩)
    (h : u32 (u32 rax + 4294967295) = 0) : keccakLoop o (f + 1) s = .ok ⟨y, mem, ⟨r8, r9, r10, rdi, rsi, 0⟩⟩ := by
  unfold keccakLoop
  rw [e, okBind]
  simp only [h]
  rfl

theorem keccakLoop_next (o : LaneOps α) (f : Nat) (s : Machine α) (y : Nat → V4 α) (mem : Nat → α)
    (r8 r9 r10 rdi rsi rax n : Nat)
    (e : run o (thetaCode ++ rhoPiCode ++ chiCode ++ iotaCode) s = .ok ⟨y, mem, ⟨r8, r9, r10, rdi, rsi, rax⟩⟩)
    (h : u32 (u32 rax + 4294967295) = n) (hn : n ≠ 0) :
    keccakLoop o (f + 1) s = keccakLoop o f ⟨y, mem, ⟨r8, r9, r10, rdi, rsi, n⟩⟩ := by
  conv => lhs; unfold keccakLoop
  rw [e, okBind]
  simp only [h]
  rw [if_neg hn]

theorem errBind {α β : Type} (e : CErr) (f : α → C β) : ((Except.error e : C α) >>= f) = .error e := rfl

theorem keccakLoop_error (o : LaneOps α) (f : Nat) (s : Machine α) (e : CErr)
    (h : run o (thetaCode ++ rhoPiCode ++ chiCode ++ iotaCode) s = .error e) : keccakLoop o (f + 1) s = .error e := by
  unfold keccakLoop
  rw [h]
  exact errBind _ _

theorem permuteAsm_error (o : LaneOps α) (enter : List Instr) (f : Nat) (s s' : Machine α) (e : CErr)
    (h : run o enter s = .ok s') (h' : keccakLoop o f s' = .error e) : permuteAsm o enter f s = .error e := by
  unfold permuteAsm
  rw [h, okBind, h']
  exact errBind _ _

theorem loop_run (n : Nat) : ∀ (i f : Nat) (y : Nat → V4 UInt64) (m mem : Nat → UInt64) (rdi rsi : Nat),
    Holds y m → i + (n + 1) = 24 → n + 1 ≤ f →
    ∃ y' m' r10 , keccakLoop ops64 f ⟨y, mem, ⟨96, 288, 384 + 32 * i, rdi, rsi, n + 1⟩⟩ =
        .ok ⟨y', mem, ⟨96, 288, r10, rdi, rsi, 0⟩⟩ ∧ Holds y' m' ∧
      std m' = (List.range' i (n + 1)).foldl (fun s r => roundLanes (roundConstant r) s) (std m) := by
  induction n with
  | zero =>
    intro i f y m mem rdi rsi h hi hf
    obtain ⟨f, rfl⟩ : ∃ k, f = k + 1 := ⟨f - 1, by omega⟩
    obtain ⟨y', e, h'⟩ := iter_run y m mem h i (by omega) rdi rsi (0 + 1)
    refine ⟨y', _, 384 + 32 * (i + 1), ?_, h', std_round _ _⟩
    exact keccakLoop_last _ _ _ _ _ _ _ _ _ _ _ e rfl
  | succ n ih =>
    intro i f y m mem rdi rsi h hi hf
    obtain ⟨f, rfl⟩ : ∃ k, f = k + 1 := ⟨f - 1, by omega⟩
    obtain ⟨y', e, h'⟩ := iter_run y m mem h i (by omega) rdi rsi (n + 1 + 1)
    obtain ⟨y₂, m₂, r10, e₂, h₂, hs⟩ := ih (i + 1) f y' _ mem rdi rsi h' (by omega) (by omega)
    refine ⟨y₂, m₂, r10, ?_, h₂, ?_⟩
    · rw [keccakLoop_next _ _ _ _ _ _ _ _ _ _ _ (n + 1) e (by unfold u32; omega) (by omega)]
      exact e₂
    · rw [hs, std_round, List.range'_succ (n := n + 1), List.foldl_cons]

/-! ## Before and after the rounds -/

theorem enter24_run (o : LaneOps α) (y : Nat → V4 α) (mem : Nat → α) (r8 r9 r10 rsi rax : Nat) :
    ∃ y', run o enter24 ⟨y, mem, ⟨r8, r9, r10, 0, rsi, rax⟩⟩ = .ok ⟨y', mem, ⟨96, 288, 384, 96, rsi, 24⟩⟩ ∧ Holds y' mem :=
  ⟨_, rfl, rfl, rfl, rfl, rfl, rfl, rfl, rfl⟩

theorem enter12_run (o : LaneOps α) (y : Nat → V4 α) (mem : Nat → α) (r8 r9 r10 rsi rax : Nat) :
    ∃ y', run o enter12 ⟨y, mem, ⟨r8, r9, r10, 0, rsi, rax⟩⟩ = .ok ⟨y', mem, ⟨96, 288, 768, 96, rsi, 12⟩⟩ ∧ Holds y' mem :=
  ⟨_, rfl, rfl, rfl, rfl, rfl, rfl, rfl, rfl⟩

theorem enterN_run (o : LaneOps α) (y : Nat → V4 α) (mem : Nat → α) (r8 r9 r10 n rax : Nat) (hn : n ≤ 24) :
    ∃ y' rsi, run o enterN ⟨y, mem, ⟨r8, r9, r10, 0, n, rax⟩⟩ =
      .ok ⟨y', mem, ⟨96, 288, 384 + 32 * (24 - n), 96, rsi, n⟩⟩ ∧ Holds y' mem := by
  have h1 : run o (enterN.take 6) ⟨y, mem, ⟨r8, r9, r10, 0, n, rax⟩⟩ =
      if n * 2 ^ (2 + 3) % 18446744073709551616 ≤ iotas + 24 * 4 * 8 then
        pure ⟨y, mem, ⟨rhotates_left + 96, rhotates_right + 96, iotas + 24 * 4 * 8 - n * 2 ^ (2 + 3) % 18446744073709551616, 0,
          n * 2 ^ (2 + 3) % 18446744073709551616, n⟩⟩ else .error .oob := by
    show ((if n * 2 ^ (2 + 3) % 18446744073709551616 ≤ iotas + 24 * 4 * 8 then _ else _) >>= fun s => (pure s : C (Machine α))) = _
    split <;> rfl
  have e : n * 2 ^ (2 + 3) % 18446744073709551616 = 32 * n := by omega
  rw [e, show iotas + 24 * 4 * 8 = 1152 from rfl, if_pos (by omega),
    show 1152 - 32 * n = 384 + 32 * (24 - n) by omega] at h1
  rw [← List.take_append_drop 6 enterN, run_append, h1]
  exact ⟨_, _, rfl, rfl, rfl, rfl, rfl, rfl, rfl, rfl⟩

theorem leave_run (o : LaneOps α) (y : Nat → V4 α) (m mem : Nat → α) (h : Holds y m) (r8 r9 r10 rsi rax : Nat) :
    ∃ s, run o leave ⟨y, mem, ⟨r8, r9, r10, 96, rsi, rax⟩⟩ = .ok s ∧ ∀ k : Fin 25, s.mem k = m k := by
  rw [← load_of_holds h]
  refine ⟨_, rfl, ?_⟩
  intro ⟨k, hk⟩
  match k, hk with
  | 0, _ => rfl
  | 1, _ => rfl
  | 2, _ => rfl
  | 3, _ => rfl
  | 4, _ => rfl
  | 5, _ => rfl
  | 6, _ => rfl
  | 7, _ => rfl
  | 8, _ => rfl
  | 9, _ => rfl
  | 10, _ => rfl
  | 11, _ => rfl
  | 12, _ => rfl
  | 13, _ => rfl
  | 14, _ => rfl
  | 15, _ => rfl
  | 16, _ => rfl
  | 17, _ => rfl
  | 18, _ => rfl
  | 19, _ => rfl
  | 20, _ => rfl
  | 21, _ => rfl
  | 22, _ => rfl
  | 23, _ => rfl
  | 24, _ => rfl
  | n + 25, h => omega

/-- The state at the end, in the standard order. -/
theorem std_of_mem (m : Nat → UInt64) (mem : Nat → UInt64) (h : ∀ k : Fin 25, mem k = m k) : std mem = std m := by
  have hm : ∀ i : Fin 25, mapState.getD i 0 < 25 := by decide +kernel
  unfold std
  congr 1
  funext i
  exact h ⟨_, hm i⟩

/-- The rounds from round `i` on. -/
theorem permute_run (i n f : Nat) (hi : i + (n + 1) = 24) (hf : n + 1 ≤ f) (enter : List Instr) (s : Machine UInt64)
    (y : Nat → V4 UInt64) (rsi : Nat)
    (he : run ops64 enter s = .ok ⟨y, s.mem, ⟨96, 288, 384 + 32 * i, 96, rsi, n + 1⟩⟩) (h : Holds y s.mem) :
    ∃ s', permuteAsm ops64 enter f s = .ok s' ∧
      std s'.mem = (List.range' i (n + 1)).foldl (fun s r => roundLanes (roundConstant r) s) (std s.mem) := by
  obtain ⟨y', m', r10, e, h', hs⟩ := loop_run n i f y s.mem s.mem 96 rsi h hi hf
  obtain ⟨s', e', hm⟩ := leave_run ops64 y' m' s.mem h' 96 288 r10 rsi 0
  refine ⟨s', ?_, ?_⟩
  · unfold permuteAsm
    rw [he, okBind, e, okBind, e']
  · rw [std_of_mem _ _ hm, hs]

theorem arrayOf_rounds (l : List Nat) (hl : ∀ r ∈ l, r < 24) (s : Lanes) :
    arrayOf (l.foldl (fun s r => roundLanes (roundConstant r) s) s) = l.foldl Spec.rnd (arrayOf s) := by
  induction l generalizing s with
  | nil => rfl
  | cons r l ih =>
    rw [List.foldl_cons, List.foldl_cons, ih (fun x hx => hl x (List.mem_cons_of_mem _ hx)),
      arrayOf_round _ (hl r List.mem_cons_self)]

theorem rdData_end : rdData 1152 = .error .oob := by rfl

end LESS.Asm
