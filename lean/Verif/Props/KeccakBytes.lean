import Verif.Proofs.KeccakAbsorb
import Verif.Proofs.Fips
import Verif.Props.Simulator
/-!
# C79 and C80: the other functions of the assembly file
-/
namespace LESS
open LESS.Asm

/-! ## C79: bytes of the state -/

/-- C79: the 200 bytes determine the state, so the equations of the following theorems say everything about it. -/
theorem C79_bytes {s t : Vector UInt8 200} (h : ∀ j < 200, Spec.stateByte s j = Spec.stateByte t j) : s = t := by
  apply vec_ext
  intro a ha
  obtain ⟨j, e⟩ := avx2Byte_surj ⟨a, ha⟩
  dsimp only at e
  rw [← e]
  exact h j j.2

/-- C79: initialising sets all bytes to 0. -/
theorem C79_initialize (st : Vector UInt8 200) : initState st = .ok (Vector.replicate 200 0) := by
  have h : ∀ (s : Vector UInt8 200) (i a : Nat) (_ : ∀ j < i, g s j = 0) (_ : a = i) (_ : i + 8 ≤ 200),
      ∃ t, stq s a (Vector.replicate 8 0) = .ok t ∧ ∀ j < i + 8, g t j = 0 := by
    intro s i a hs ha hi
    subst ha
    refine ⟨_, stq_ok _ _ _ hi, fun j hj => ?_⟩
    rw [g_stqV _ _ _ hi]
    split
    · exact g_replicate _ _ (by omega)
    · exact hs j (by omega)
  have h4 : ∀ (s : Vector UInt8 200) (i : Nat) (_ : ∀ j < i, g s j = 0) (_ : i + 32 ≤ 200),
      Wp False (forUp 4 (fun k st => stq st (i + 8 * k) (Vector.replicate 8 0)) s) fun t => ∀ j < i + 32, g t j = 0 := by
    intro s i hs hi
    refine Wp.forUp (fun k t => ∀ j < i + 8 * k, g t j = 0) hs (fun k t hk ht => ?_) fun t ht => ht
    obtain ⟨t', e, ht'⟩ := h t (i + 8 * k) _ ht rfl (by omega)
    rw [e]
    intro j hj
    exact ht' j (by omega)
  refine Wp.eq_ok ?_
  unfold initState
  simp only [Wp.bind_iff]
  refine (h4 _ (0 * 32) (by intro j hj; omega) (by omega)).mono fun s hs => ?_
  refine (h4 _ (1 * 32) (by intro j hj; exact hs j (by omega)) (by omega)).mono fun s hs => ?_
  refine (h4 _ (2 * 32) (by intro j hj; exact hs j (by omega)) (by omega)).mono fun s hs => ?_
  refine (h4 _ (3 * 32) (by intro j hj; exact hs j (by omega)) (by omega)).mono fun s hs => ?_
  refine (h4 _ (4 * 32) (by intro j hj; exact hs j (by omega)) (by omega)).mono fun s hs => ?_
  refine (h4 _ (5 * 32) (by intro j hj; exact hs j (by omega)) (by omega)).mono fun s hs => ?_
  obtain ⟨t, e, ht⟩ := h s (6 * 32) _ hs rfl (by omega)
  rw [e]
  apply vec_ext
  intro j hj
  rw [ht j (by omega), g_replicate _ _ hj]

/-- C79: one byte is added at `offset`, the others stay as they are. -/
theorem C79_add_byte (st : Vector UInt8 200) (b : UInt8) (offset : Nat) (h : offset < 200) :
    ∃ t, addByte st b offset = .ok t ∧
      ∀ j < 200, Spec.stateByte t j = if j = offset then Spec.stateByte st j ^^^ b else Spec.stateByte st j := by
  refine Wp.exists_ok ?_
  unfold addByte
  have e := avx2Byte_mod offset
  have hlt := avx2Byte_lt h
  dsimp only
  rw [rdMap_at (by omega) (by omega), Wp.bind_iff, Wp.ok_iff, ← e]
  simp only [Wp.bind_iff, Wp.rd_iff, Wp.wr_iff]
  refine ⟨hlt, hlt, fun j hj => ?_⟩
  unfold Spec.stateByte
  rw [g_upd _ _ _ _ hlt]
  split
  · rename_i e
    have := avx2Byte_inj h hj e
    rw [if_pos this.symm, this]
  · rename_i e
    rw [if_neg (by rintro rfl; exact e rfl)]

/-- C79: `length` bytes of the data are added at `offset`, the other bytes stay as they are; for all offsets and lengths
within the state, aligned to lanes or not. -/
theorem C79_add_bytes {n : Nat} (st : Vector UInt8 200) (data : Vector UInt8 n) (offset length : Nat) (hb : offset + length ≤ 200)
    (hn : length ≤ n) : ∃ t, addBytes st data offset length = .ok t ∧
      ∀ j < 200, Spec.stateByte t j = if offset ≤ j ∧ j < offset + length then Spec.stateByte st j ^^^ g data (j - offset) else Spec.stateByte st j :=
  (addBytes_wp st data offset length hb hn).exists_ok

/-- C79: the bytes are replaced by those of the data. -/
theorem C79_overwrite_bytes {n : Nat} (st : Vector UInt8 200) (data : Vector UInt8 n) (offset length : Nat) (hb : offset + length ≤ 200)
    (hn : length ≤ n) : ∃ t, overwriteBytes st data offset length = .ok t ∧
      ∀ j < 200, Spec.stateByte t j = if offset ≤ j ∧ j < offset + length then g data (j - offset) else Spec.stateByte st j :=
  (overwriteBytes_wp st data offset length hb hn).exists_ok

/-- C79: the first bytes are set to 0. -/
theorem C79_overwrite_with_zeroes (st : Vector UInt8 200) (byteCount : Nat) (hb : byteCount ≤ 200) :
    ∃ t, overwriteWithZeroes st byteCount = .ok t ∧ ∀ j < 200, Spec.stateByte t j = if j < byteCount then 0 else Spec.stateByte st j := by
  obtain ⟨t, e, h⟩ := (overwriteWithZeroes_wp st byteCount hb).exists_ok
  refine ⟨t, e, fun j hj => (h j hj).trans ?_⟩
  simp only [Nat.zero_add, Nat.zero_le, true_and]
  rfl

/-- C79: the bytes of the state are copied to the data; the rest of the data stays as it is. -/
theorem C79_extract_bytes {n : Nat} (st : Vector UInt8 200) (data : Vector UInt8 n) (offset length : Nat) (hb : offset + length ≤ 200)
    (hn : length ≤ n) : ∃ d, extractBytesAsm st data offset length = .ok d ∧
      ∀ i < n, g d i = if i < length then Spec.stateByte st (offset + i) else g data i := by
  obtain ⟨d, e, h⟩ := (extractBytesAsm_wp st data offset length hb hn).exists_ok
  exact ⟨d, e, fun i _ => h i⟩

/-- C79: the bytes of the state are added to those of the input and written to the output; input and output may be the
same, and the output may begin before the input. -/
theorem C79_extract_and_add {n : Nat} (st : Vector UInt8 200) (mem : Vector UInt8 n) (inp out offset length : Nat)
    (hb : offset + length ≤ 200) (hi : inp + length ≤ n) (ho : out + length ≤ n) (ha : out ≤ inp ∨ inp + length ≤ out) :
    ∃ d, extractAndAddBytes st mem inp out offset length = .ok d ∧
      ∀ i < n, g d i = if out ≤ i ∧ i < out + length then Spec.stateByte st (offset + (i - out)) ^^^ g mem (inp + (i - out)) else g mem i := by
  obtain ⟨d, e, h⟩ := (extractAndAddBytes_wp st mem inp out offset length hb hi ho ha).exists_ok
  exact ⟨d, e, fun i _ => h i⟩

/-- C79 is false if the range does not lie in the state: with one byte at offset 200, the table is read behind its end. -/
theorem C79_fails_range {n : Nat} (st : Vector UInt8 200) (data : Vector UInt8 n) : addBytes st data 200 1 = .error .oob := by
  have e : rdMap 200 = .error .oob := by rfl
  unfold addBytes walkBytes firstLane
  rw [if_neg (by omega)]
  dsimp only
  rw [if_pos (by omega)]
  show (laneLoop (addBytesPass data) 1 (200 - 200 % 8) 0 st >>= fun r => lastLane (addBytesPass data) r) = _
  unfold laneLoop
  rw [dif_pos (by omega)]
  show lastLane (addBytesPass data) (1, 200, 0, st) = _
  unfold lastLane
  dsimp only
  rw [if_neg (by omega), e]
  rfl

/-- A run of the function on given bytes. -/
def overlapRun : C (Vector UInt8 3) := extractAndAddBytes (Vector.replicate 200 1) #v[4, 0, 0] 0 1 0 2

theorem overlapRun_eq : overlapRun = .ok #v[4, 5, 4] := by
  refine Wp.eq_ok ?_
  unfold overlapRun extractAndAddBytes walkBytes firstLane laneLoop
  have e : rdMap 0 = .ok 0 := by rfl
  have e2 : loopCount 2 = 2 := loopCount_eq (by omega) (by omega)
  simp only [Nat.reduceMod, Nat.reduceSub, if_true, Wp.bind_iff, Wp.pure_iff, OfNat.ofNat_ne_zero, if_false,
    Nat.reduceLT, dite_true]
  unfold lastLane extractAddPass
  simp only [OfNat.ofNat_ne_zero, if_false, e, Wp.bind_iff, Wp.ok_iff]
  rw [ldq_ok _ _ (by omega), e2]
  exact (rfl : (#v[4, 5, 4] : Vector UInt8 3) = #v[4, 5, 4])

/-- C79 is false if the output begins inside of the input: with the input 4, 0 and a state of bytes 1, the second byte of
the output is 4 instead of 1. -/
theorem C79_fails_overlap : ∃ (st : Vector UInt8 200) (mem d : Vector UInt8 3), extractAndAddBytes st mem 0 1 0 2 = .ok d ∧
    g d 2 ≠ Spec.stateByte st 1 ^^^ g mem 1 :=
  ⟨Vector.replicate 200 1, #v[4, 0, 0], #v[4, 5, 4], overlapRun_eq, by decide +kernel⟩

/-- An instance that begins inside of a lane and ends inside of another one. -/
example : ∃ t, addBytes (Vector.replicate 200 7) (Vector.ofFn fun i : Fin 30 => UInt8.ofNat i) 5 30 = .ok t ∧
    ∀ j < 200, Spec.stateByte t j = if 5 ≤ j ∧ j < 5 + 30 then Spec.stateByte (Vector.replicate 200 7) j ^^^
      g (Vector.ofFn fun i : Fin 30 => UInt8.ofNat i) (j - 5) else Spec.stateByte (Vector.replicate 200 7) j :=
  C79_add_bytes _ _ 5 30 (by decide) (by decide)

/-! ## C80: absorbing -/

/-- The lanes of a state given as bytes: what the absorbing functions see of a state filled by those of C79. -/
def lanesOfBytes (s : Vector UInt8 200) : Lanes := Vector.ofFn fun k : Fin 25 => laneOfBytes fun i => g s (8 * k.val + i)

theorem dataBit_eq {n : Nat} (data : Vector UInt8 n) (i : Nat) : dataBit data i = (Spec.bits data.toList).getD i false := by
  rw [bits_getD]
  unfold dataBit
  congr 2
  by_cases h : i / 8 < n
  · rw [g_eq_getElem _ _ h, List.getD_eq_getElem _ _ (by simpa using h)]
    simp
  · unfold g
    rw [dif_neg h, List.getD_eq_default _ _ (by simpa using h)]
    rfl

/-- C80: reading the bytes as lanes gives the same bits. -/
theorem C80_same_bits (s : Vector UInt8 200) : avx2Bit (lanesOfBytes s) = Spec.stateBits s := by
  funext x y z
  have hx := x.2
  have hy := y.2
  have hz := z.2
  unfold avx2Bit lanesOfBytes Spec.stateBits Spec.stateByte
  rw [g_ofFn _ _ (avx2Pos_lt x y)]
  refine (laneOfBytes_bit _ z).trans ?_
  dsimp only
  rw [avx2Byte_add _ _ (by omega)]
  unfold Spec.avx2Byte
  have e1 : Fin.ofNat 5 (8 * (x.val + 5 * y.val) / 8) = x := Fin.ext (by simp only [Fin.ofNat]; omega)
  have e2 : Fin.ofNat 5 (8 * (x.val + 5 * y.val) / 40) = y := Fin.ext (by simp only [Fin.ofNat]; omega)
  rw [e1, e2, show 8 * (x.val + 5 * y.val) % 8 = 0 by omega, Nat.add_zero]

/-- C80: adding the first `8 n` bytes of the data with the function of C79 adds the bits of `n` lanes. -/
theorem C80_add_bytes {m : Nat} (st : Vector UInt8 200) (data : Vector UInt8 m) (n : Nat) (hn : n ≤ 25) (hm : 8 * n ≤ m) :
    ∃ t, addBytes st data 0 (8 * n) = .ok t ∧
      Spec.stateBits t = Spec.xorLanes n (fun i => (Spec.bits data.toList).getD i false) (Spec.stateBits st) := by
  obtain ⟨t, e, h⟩ := C79_add_bytes st data 0 (8 * n) (by omega) hm
  refine ⟨t, e, ?_⟩
  funext x y z
  have hx := x.2
  have hy := y.2
  have hz := z.2
  unfold Spec.xorLanes Spec.stateBits
  dsimp only
  rw [h _ (by omega), ← dataBit_eq]
  by_cases hlt : x.val + 5 * y.val < n
  · rw [if_pos (by omega), decide_eq_true hlt, Bool.true_and, UInt8.toNat_xor, Nat.testBit_xor]
    unfold dataBit
    rw [show (64 * (x.val + 5 * y.val) + z.val) / 8 = 8 * (x.val + 5 * y.val) + z.val / 8 by omega,
      show (64 * (x.val + 5 * y.val) + z.val) % 8 = z.val % 8 by omega, Nat.sub_zero]
  · rw [if_neg (by omega), decide_eq_false hlt, Bool.false_and, Bool.xor_false]

/-- C80: `KeccakF1600_FastLoop_Absorb` absorbs all whole blocks of `laneCount` lanes of the data and returns the number of bytes in
them; for every state, every data and every `laneCount` from 1 to 25, and whatever the registers contain. -/
theorem C80_absorb {n : Nat} (s : Machine UInt64) (regs : Nat → Machine UInt64) (st : Lanes) (laneCount : UInt32) (data : Vector UInt8 n)
    (h0 : 0 < laneCount.toNat) (h25 : laneCount.toNat ≤ 25) :
    ∃ t, fastLoop24 s regs st laneCount data = .ok (t, 8 * laneCount.toNat * (n / (8 * laneCount.toNat))) ∧
      avx2Bit t = Spec.absorbWith Spec.keccakF laneCount.toNat (n / (8 * laneCount.toNat))
        (fun i => (Spec.bits data.toList).getD i false) (avx2Bit st) := by
  have hp : ∀ s st, ∃ t, variant24.permute s st = .ok t ∧ avx2Bit t = roundsFrom 0 23 (avx2Bit st) := by
    intro s st
    obtain ⟨t, e, h⟩ := C78_24rounds s st
    exact ⟨t, e, by rw [h]; rfl⟩
  obtain ⟨t, e, h⟩ := fastLoopAbsorb_run data variant24 0 23 rfl rfl rfl hp s regs st laneCount.toNat h0 h25
  rw [Nat.div_div_eq_div_mul] at e h
  refine ⟨t, e, h.trans ?_⟩
  have hf : roundsFrom 0 23 = Spec.keccakF := rfl
  rw [hf]
  exact absorbWith_congr _ _ (dataBit_eq data) _

/-- C80: the variant with 12 rounds. -/
theorem C80_absorb_12rounds {n : Nat} (s : Machine UInt64) (regs : Nat → Machine UInt64) (st : Lanes) (laneCount : UInt32)
    (data : Vector UInt8 n) (h0 : 0 < laneCount.toNat) (h25 : laneCount.toNat ≤ 25) :
    ∃ t, fastLoop12 s regs st laneCount data = .ok (t, 8 * laneCount.toNat * (n / (8 * laneCount.toNat))) ∧
      avx2Bit t = Spec.absorbWith (fun A => ((List.range 24).drop 12).foldl Spec.rnd A) laneCount.toNat (n / (8 * laneCount.toNat))
        (fun i => (Spec.bits data.toList).getD i false) (avx2Bit st) := by
  have hp : ∀ s st, ∃ t, variant12.permute s st = .ok t ∧ avx2Bit t = roundsFrom 12 11 (avx2Bit st) := by
    intro s st
    obtain ⟨t, e, h⟩ := C78_12rounds s st
    exact ⟨t, e, by rw [h]; rfl⟩
  obtain ⟨t, e, h⟩ := fastLoopAbsorb_run data variant12 12 11 rfl rfl rfl hp s regs st laneCount.toNat h0 h25
  rw [Nat.div_div_eq_div_mul] at e h
  refine ⟨t, e, h.trans ?_⟩
  have hf : roundsFrom 12 11 = fun A => ((List.range 24).drop 12).foldl Spec.rnd A := rfl
  rw [hf]
  exact absorbWith_congr _ _ (dataBit_eq data) _

theorem toArray_toStr (A : Spec.StateArray) : Spec.toArray (Spec.toStr A) = A := by
  funext x y z
  have hx := x.2
  have hy := y.2
  have hz := z.2
  unfold Spec.toArray Spec.toStr
  dsimp only
  congr 1
  · apply Fin.ext; dsimp only; omega
  · apply Fin.ext; dsimp only; omega
  · apply Fin.ext; dsimp only; omega

theorem xorBlock_lanes (lc : Nat) (P : List Bool) (d : Nat → Bool) (A : Spec.StateArray) (hl : 64 * lc ≤ P.length)
    (hd : ∀ i < P.length, P.getD i false = d i) :
    Spec.keccakFStr (Spec.xorBlock (Spec.toStr A) (P.take (64 * lc))) = Spec.toStr (Spec.keccakF (Spec.xorLanes lc d A)) := by
  have : Spec.xorBlock (Spec.toStr A) (P.take (64 * lc)) = Spec.toStr (Spec.xorLanes lc d A) := by
    funext i
    have hi := i.2
    unfold Spec.xorBlock Spec.toStr Spec.xorLanes
    dsimp only
    congr 1
    have e : 64 * (i.val / 64 % 5 + 5 * (i.val / 320)) + i.val % 64 = i.val := by omega
    rw [e]
    by_cases hlt : i.val < 64 * lc
    · rw [decide_eq_true (by omega), Bool.true_and, ← hd i.val (by omega)]
      simp [List.getD_eq_getElem?_getD, hlt]
    · rw [decide_eq_false (by omega), Bool.false_and, List.getD_eq_default _ _ (by rw [List.length_take]; omega)]
  rw [this]
  unfold Spec.keccakFStr
  rw [toArray_toStr]

theorem absorbWith_bits (lc : Nat) (h0 : 0 < lc) : ∀ (k : Nat) (P : List Bool) (d : Nat → Bool) (A : Spec.StateArray),
    P.length = 64 * lc * k → (∀ i < P.length, P.getD i false = d i) →
    Spec.toStr (Spec.absorbWith Spec.keccakF lc k d A) = Spec.absorbBits (64 * lc) (Spec.toStr A) P := by
  intro k
  induction k with
  | zero =>
    intro P d A hl hd
    have : P = [] := List.length_eq_zero_iff.mp (by omega)
    rw [this, Spec.absorbBits, dif_pos (Or.inl rfl)]
    rfl
  | succ k ih =>
    intro P d A hl hd
    have hl' : P.length = 64 * lc * k + 64 * lc := by rw [hl]; ring
    have hne : ¬(P = [] ∨ 64 * lc = 0) := by
      rintro (rfl | h)
      · simp at hl'
        omega
      · omega
    rw [Spec.absorbBits, dif_neg hne, xorBlock_lanes lc P d A (by omega) hd]
    refine ih (P.drop (64 * lc)) _ _ (by rw [List.length_drop]; omega) fun i hi => ?_
    rw [List.length_drop] at hi
    rw [← hd (64 * lc + i) (by omega)]
    simp [List.getD_eq_getElem?_getD, List.getElem?_drop]

/-- C80: what the loop computes is the absorbing phase of the sponge of FIPS 202 on the whole blocks of the data. -/
theorem C80_sponge {n : Nat} (s : Machine UInt64) (regs : Nat → Machine UInt64) (st : Lanes) (laneCount : UInt32) (data : Vector UInt8 n)
    (h0 : 0 < laneCount.toNat) (h25 : laneCount.toNat ≤ 25) :
    ∃ t k, fastLoop24 s regs st laneCount data = .ok (t, k) ∧ k ≤ n ∧ n < k + 8 * laneCount.toNat ∧
      Spec.toStr (avx2Bit t) = Spec.absorbBits (64 * laneCount.toNat) (Spec.toStr (avx2Bit st)) (Spec.bits (data.toList.take k)) := by
  obtain ⟨t, e, h⟩ := C80_absorb s regs st laneCount data h0 h25
  generalize laneCount.toNat = lc at *
  have h1 := Nat.div_add_mod n (8 * lc)
  have h2 := Nat.mod_lt n (show 8 * lc > 0 by omega)
  refine ⟨t, _, e, by omega, by omega, ?_⟩
  rw [h]
  have hlen : (Spec.bits (data.toList.take (8 * lc * (n / (8 * lc))))).length = 64 * lc * (n / (8 * lc)) := by
    rw [bits_length, List.length_take, Vector.length_toList, Nat.min_eq_left (by omega)]
    ring
  refine absorbWith_bits lc h0 _ _ _ _ hlen fun i hi => ?_
  rw [bits_length] at hi
  rw [bits_take]
  simp only [List.getD_eq_getElem?_getD]
  rw [List.getElem?_take_of_lt]
  rw [List.length_take] at hi
  omega

theorem lanesAdd_fails {n : Nat} (data : Vector UInt8 n) (lc rdx : Nat) (h : 25 < loopCount lc) (st t : Lanes) :
    lanesAdd data lc rdx st ≠ .ok t := by
  intro e
  unfold lanesAdd at e
  generalize loopCount lc = c at *
  obtain ⟨f, -, -, hf⟩ := forUp_states e
  have := hf 25 h
  have hm : rdMap (8 * 25) = .error .oob := by rfl
  obtain ⟨r8, -, h2⟩ := bind_inv this
  rw [hm] at h2
  exact absurd h2 (by intro h; cases h)

/-- C80 is false for other numbers of lanes: with 0 lanes, or with more than 25 if there is data for them, the function does
not return. -/
theorem C80_fails_lane_count {n : Nat} (s : Machine UInt64) (regs : Nat → Machine UInt64) (st : Lanes) (laneCount : UInt32)
    (data : Vector UInt8 n) (h : laneCount = 0 ∨ 25 < laneCount.toNat ∧ 8 * laneCount.toNat ≤ n) (r : Lanes × Nat) :
    fastLoop24 s regs st laneCount data ≠ .ok r := by
  have hlt := laneCount.toNat_lt
  have hl : laneCount.toNat = 0 ∨ 25 < laneCount.toNat ∧ 8 * laneCount.toNat ≤ n := by
    rcases h with h | h
    · left; rw [h]; rfl
    · exact Or.inr h
  unfold fastLoop24 fastLoopAbsorb
  dsimp only
  generalize laneCount.toNat = lc at *
  have hc : 25 < loopCount lc := by
    unfold loopCount
    omega
  rw [if_neg (by omega), if_neg (by omega), if_neg (by omega)]
  intro e
  obtain ⟨⟨a, b⟩, e1, -⟩ := bind_inv e
  unfold otherLoop at e1
  obtain ⟨t, e2, -⟩ := bind_inv e1
  exact lanesAdd_fails data lc 0 hc st t e2

/-- Instances: two blocks of SHAKE128 and a byte that is left, and one block of SHA3-512. -/
example : ∃ t, fastLoop24 ⟨fun _ => ⟨7, 7, 7, 7⟩, fun _ => 0, ⟨1, 2, 3, 4, 5, 6⟩⟩ (fun _ => ⟨fun _ => ⟨1, 2, 3, 4⟩, fun _ => 0, ⟨0, 0, 0, 0, 0, 0⟩⟩)
      (Vector.replicate 25 3) 21 (Vector.ofFn fun i : Fin 337 => UInt8.ofNat i) = .ok (t, 336) ∧ avx2Bit t = Spec.absorbWith
        Spec.keccakF 21 2 (fun i => (Spec.bits (Vector.ofFn fun i : Fin 337 => UInt8.ofNat i).toList).getD i false) (avx2Bit (Vector.replicate 25 3)) :=
  C80_absorb _ _ _ 21 _ (by decide) (by decide)

example : ∃ t, fastLoop24 ⟨fun _ => ⟨7, 7, 7, 7⟩, fun _ => 0, ⟨1, 2, 3, 4, 5, 6⟩⟩ (fun _ => ⟨fun _ => ⟨1, 2, 3, 4⟩, fun _ => 0, ⟨0, 0, 0, 0, 0, 0⟩⟩)
      (Vector.replicate 25 3) 9 (Vector.ofFn fun i : Fin 100 => UInt8.ofNat i) = .ok (t, 72) ∧ avx2Bit t = Spec.absorbWith
        Spec.keccakF 9 1 (fun i => (Spec.bits (Vector.ofFn fun i : Fin 100 => UInt8.ofNat i).toList).getD i false) (avx2Bit (Vector.replicate 25 3)) :=
  C80_absorb _ _ _ 9 _ (by decide) (by decide)

end LESS
