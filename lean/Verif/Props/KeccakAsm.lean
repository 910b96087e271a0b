import Verif.Proofs.KeccakAsm
import Verif.Props.Hash
import Verif.Spec.LaneOrder
/-!
# C78: the assembly permutation
-/
namespace LESS
open LESS.Asm

/-- The bits of a state stored in the order of the vectorised permutation. -/
def avx2Bit (s : Lanes) : Spec.StateArray := fun x y z => (g s (Spec.avx2Pos x y)).toBitVec.getLsbD z

/-- A state in the standard order, stored in the order of the vectorised permutation. -/
def toAvx2 (s : Lanes) : Lanes :=
  Vector.ofFn fun k : Fin 25 => match Spec.avx2Lanes[k.val]? with
    | some (x, y) => g s (5 * y.val + x.val)
    | none => 0

theorem avx2Pos_eq : ∀ x y : Fin 5, Spec.avx2Pos x y = pos x y := by decide +kernel

theorem avx2Pos_lt : ∀ x y : Fin 5, Spec.avx2Pos x y < 25 := by decide +kernel

theorem avx2Pos_surj : ∀ k : Fin 25, ∃ x y : Fin 5, Spec.avx2Pos x y = k := by decide +kernel

theorem avx2_get : ∀ x y : Fin 5, Spec.avx2Lanes[Spec.avx2Pos x y]? = some (x, y) := by decide +kernel

theorem arrayOf_std (m : Nat → UInt64) (x y : Fin 5) (z : Fin 64) :
    arrayOf (std m) x y z = (m (Spec.avx2Pos x y)).toBitVec.getLsbD z := by
  unfold arrayOf
  rw [laneAt_std, avx2Pos_eq]
  rfl

theorem avx2Bit_stateOf (s : Machine UInt64) : avx2Bit (stateOf s) = arrayOf (std s.mem) := by
  funext x y z
  rw [arrayOf_std]
  unfold avx2Bit stateOf
  rw [g_ofFn _ _ (avx2Pos_lt x y)]

theorem avx2Bit_std (st : Lanes) : avx2Bit st = arrayOf (std (g st)) := by
  funext x y z
  rw [arrayOf_std]
  rfl

theorem avx2Bit_inj {s t : Lanes} (h : avx2Bit s = avx2Bit t) : s = t := by
  apply Vector.ext
  intro i hi
  obtain ⟨x, y, e⟩ := avx2Pos_surj ⟨i, hi⟩
  have : g s i = g t i := by
    apply wbit_ext
    intro z
    have := congrFun (congrFun (congrFun h x) y) z
    unfold avx2Bit at this
    rw [e] at this
    exact this
  rwa [g_eq_getElem _ _ hi, g_eq_getElem _ _ hi] at this

theorem avx2Bit_toAvx2 (st : Lanes) : avx2Bit (toAvx2 st) = stateBit st := by
  funext x y z
  unfold avx2Bit toAvx2 stateBit
  rw [g_ofFn _ _ (avx2Pos_lt x y)]
  simp only [avx2_get]

theorem permuteAsm_rounds (i n f : Nat) (hi : i + (n + 1) = 24) (hf : n + 1 ≤ f) (enter : List Instr) (s : Machine UInt64)
    (st : Lanes) (nr : Nat)
    (he : ∃ y rsi, run ops64 enter (call s st nr) = .ok ⟨y, g st, ⟨96, 288, 384 + 32 * i, 96, rsi, n + 1⟩⟩ ∧ Holds y (g st)) :
    ∃ t, (permuteAsm ops64 enter f (call s st nr) >>= fun s => (pure (stateOf s) : C Lanes)) = .ok t ∧
      avx2Bit t = (List.range' i (n + 1)).foldl Spec.rnd (avx2Bit st) := by
  obtain ⟨y, rsi, e, h⟩ := he
  obtain ⟨s', e', hs⟩ := permute_run i n f hi hf enter (call s st nr) y rsi e h
  refine ⟨stateOf s', ?_, ?_⟩
  · rw [e', okBind]
    rfl
  · rw [avx2Bit_stateOf, hs, arrayOf_rounds, avx2Bit_std]
    · rfl
    · intro r hr
      have := List.mem_range'_1.mp hr
      omega

/-- C78: on states stored in its own order of lanes, the assembly permutation with 24 rounds returns, accesses nothing
outside of the state and of its tables, and computes Keccak-f[1600]; for every state and whatever the registers contain. -/
theorem C78_24rounds (s : Machine UInt64) (st : Lanes) :
    ∃ t, permute24 s st = .ok t ∧ avx2Bit t = Spec.keccakF (avx2Bit st) := by
  obtain ⟨y, e, h⟩ := enter24_run ops64 s.ymm (g st) s.gpr.r8 s.gpr.r9 s.gpr.r10 0 s.gpr.rax
  obtain ⟨t, e', ht⟩ := permuteAsm_rounds 0 23 24 rfl (by omega) enter24 s st 0 ⟨y, 0, e, h⟩
  exact ⟨t, e', by rw [ht]; rfl⟩

/-- C78: the variant with 12 rounds computes the last 12 rounds. -/
theorem C78_12rounds (s : Machine UInt64) (st : Lanes) :
    ∃ t, permute12 s st = .ok t ∧ avx2Bit t = ((List.range 24).drop 12).foldl Spec.rnd (avx2Bit st) := by
  obtain ⟨y, e, h⟩ := enter12_run ops64 s.ymm (g st) s.gpr.r8 s.gpr.r9 s.gpr.r10 0 s.gpr.rax
  obtain ⟨t, e', ht⟩ := permuteAsm_rounds 12 11 12 rfl (by omega) enter12 s st 0 ⟨y, 0, e, h⟩
  exact ⟨t, e', by rw [ht]; rfl⟩

/-- C78: with a number of rounds from 1 to 24, the last so many rounds. -/
theorem C78_rounds (s : Machine UInt64) (st : Lanes) (n : UInt32) (h0 : 0 < n.toNat) (h24 : n.toNat ≤ 24) (fuel : Nat)
    (hf : n.toNat ≤ fuel) :
    ∃ t, permuteN fuel s st n = .ok t ∧ avx2Bit t = ((List.range 24).drop (24 - n.toNat)).foldl Spec.rnd (avx2Bit st) := by
  unfold permuteN
  generalize n.toNat = n at *
  obtain ⟨n, rfl⟩ : ∃ k, n = k + 1 := ⟨n - 1, by omega⟩
  obtain ⟨y, rsi, e, h⟩ := enterN_run ops64 s.ymm (g st) s.gpr.r8 s.gpr.r9 s.gpr.r10 (n + 1) s.gpr.rax h24
  obtain ⟨t, e', ht⟩ := permuteAsm_rounds (24 - (n + 1)) n fuel (by omega) hf enterN s st (n + 1) ⟨y, rsi, e, h⟩
  refine ⟨t, e', ?_⟩
  rw [ht, List.range_eq_range', List.drop_range']
  congr 2 <;> omega

/-- C78: with 0 rounds the function does not return a state: it reads behind the table of round constants. -/
theorem C78_fails_zero_rounds (s : Machine UInt64) (st : Lanes) (fuel : Nat) (hf : 0 < fuel) :
    permuteN fuel s st 0 = .error .oob := by
  obtain ⟨f, rfl⟩ : ∃ k, fuel = k + 1 := ⟨fuel - 1, by omega⟩
  obtain ⟨y, rsi, e, h⟩ := enterN_run ops64 s.ymm (g st) s.gpr.r8 s.gpr.r9 s.gpr.r10 0 s.gpr.rax (by omega)
  obtain ⟨y', e', h'⟩ := body_run ops64 y (g st) (g st) h (384 + 32 * (24 - 0)) 96 rsi 0
  have e2 : run ops64 iotaCode ⟨y', g st, ⟨96, 288, 384 + 32 * (24 - 0), 96, rsi, 0⟩⟩ = .error .oob := rfl
  have e3 : run ops64 enterN (call s st (0 : UInt32).toNat) =
      .ok ⟨y, g st, ⟨96, 288, 384 + 32 * (24 - 0), 96, rsi, 0⟩⟩ := e
  have e4 := keccakLoop_error ops64 f _ .oob (by rw [run_append, e', okBind, e2])
  have e5 := permuteAsm_error ops64 enterN (f + 1) _ _ .oob e3 e4
  show (permuteAsm ops64 enterN (f + 1) (call s st (0 : UInt32).toNat) >>= fun s => (pure (stateOf s) : C Lanes)) = _
  rw [e5]
  exact errBind _ _

/-- C78: the assembly permutation and the portable one are the same function up to the order of the lanes. -/
theorem C78_same_as_portable (s : Machine UInt64) (st : Lanes) : permute24 s (toAvx2 st) = .ok (toAvx2 (permute st)) := by
  obtain ⟨t, e, h⟩ := C78_24rounds s (toAvx2 st)
  have ht : t = toAvx2 (permute st) := by
    apply avx2Bit_inj
    rw [h, avx2Bit_toAvx2, avx2Bit_toAvx2, C36_keccak_f]
  rw [e, ht]

theorem toAvx2_zero : toAvx2 (Vector.replicate 25 0) = Vector.replicate 25 0 := by decide +kernel

theorem permute_zero_order : toAvx2 (permute (Vector.replicate 25 0)) ≠ permute (Vector.replicate 25 0) := by decide +kernel

/-- C78 is false for the call that the source contains in an `#if 0` (keccakf1600.c:62-66), which hands over a state in the
standard order: already on the zero state the result is not that of the portable permutation. -/
theorem C78_fails_standard_order (s : Machine UInt64) :
    ∃ t, permute24 s (Vector.replicate 25 0) = .ok t ∧ t ≠ permute (Vector.replicate 25 0) ∧
      stateBit t ≠ Spec.keccakF (stateBit (Vector.replicate 25 0)) := by
  have h := C78_same_as_portable s (Vector.replicate 25 0)
  rw [toAvx2_zero] at h
  refine ⟨_, h, permute_zero_order, fun hb => permute_zero_order ?_⟩
  rw [← C36_keccak_f, stateBit_eq, stateBit_eq] at hb
  apply Vector.ext
  intro i hi
  apply wbit_ext
  intro z
  have := congrFun (congrFun (congrFun hb ⟨i % 5, by omega⟩) ⟨i / 5, by omega⟩) z
  unfold arrayOf laneAt at this
  simpa only [show 5 * (i / 5) + i % 5 = i by omega] using this

/-- C78: the table with which the functions for bytes of the state translate lane numbers is that order. -/
theorem C78_order : mapState = (List.range 25).map (fun i => Spec.avx2Pos (Fin.ofNat 5 i) (Fin.ofNat 5 (i / 5))) := by
  decide +kernel

/-- An instance with a state that is not zero: lane (1, 1) is 1. -/
example : ∃ t, permuteN 5 ⟨fun _ => ⟨7, 7, 7, 7⟩, fun _ => 0, ⟨1, 2, 3, 4, 5, 6⟩⟩
      (Vector.ofFn fun i : Fin 25 => if i = 21 then 1 else 0) 2 = .ok t ∧
    avx2Bit t = ((List.range 24).drop 22).foldl Spec.rnd
      (avx2Bit (Vector.ofFn fun i : Fin 25 => if i = 21 then 1 else 0)) :=
  C78_rounds _ _ 2 (by decide) (by decide) 5 (by decide)

end LESS
