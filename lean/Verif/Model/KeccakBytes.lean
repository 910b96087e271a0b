import Verif.Model.KeccakAsm
/-!
# The other functions of `Optimized_Implementation/avx2/lib/KeccakP-1600-AVX2.s`

Modelled: `KeccakP1600_Initialize`, `AddByte`, `AddBytes`, `OverwriteBytes`, `OverwriteWithZeroes`, `ExtractBytes`,
`ExtractAndAddBytes`, `KeccakF1600_FastLoop_Absorb` and `KeccakP1600_12rounds_FastLoop_Absorb`.  In the functions for bytes the state
is an array of 200 bytes and an 8-byte register is an array of 8 bytes, the lowest first; in the absorbing loops the
state is 25 lanes, as in `Model/KeccakAsm`.

Simplifications.  State, data and tables do not overlap (for the two buffers of `ExtractAndAddBytes`, see there).  A loop
that ends in `dec` and `jnz` runs as often as its counter says, 2^64 times for the counter 0.  Of arguments of type
`unsigned int` in a 64-bit register the upper half is taken to be 0 (the calling convention does not say so).
-/
namespace LESS.Asm

/-- How often the body of a loop is run that ends in `dec n` and `jnz`. -/
@[irreducible] def loopCount (n : Nat) : Nat := (n + 18446744073709551615) % 18446744073709551616 + 1

/-- A load of 8 bytes. -/
def ldq {n : Nat} (v : Vector UInt8 n) (a : Nat) : C (Vector UInt8 8) :=
  if a + 8 ≤ n then .ok (Vector.ofFn fun i : Fin 8 => g v (a + i)) else .error .oob

/-- A store of 8 bytes. -/
def stq {n : Nat} (v : Vector UInt8 n) (a : Nat) (q : Vector UInt8 8) : C (Vector UInt8 n) :=
  if a + 8 ≤ n then .ok (Vector.ofFn fun i : Fin n => if a ≤ i.val ∧ i.val < a + 8 then g q (i - a) else v[i]) else .error .oob

/-- `xor` of registers. -/
def xorq (p q : Vector UInt8 8) : Vector UInt8 8 := Vector.ofFn fun i : Fin 8 => g p i ^^^ g q i

/-- `shr $8`. -/
def shr8 (q : Vector UInt8 8) : Vector UInt8 8 := Vector.ofFn fun i : Fin 8 => if i.val + 1 < 8 then g q (i + 1) else 0

/-- An entry of `mapState` (KeccakP-1600-AVX2.s:1112-1117), at byte `a` of the table; the entries are multiples of 8. -/
def rdMap (a : Nat) : C Nat :=
  if a % 8 = 0 then
    match mapState[a / 8]? with
    | some l => .ok (l * 8)
    | none => .error .oob
  else .error .oob

/-- KeccakP-1600-AVX2.s:32-43 `KeccakP1600_Initialize`. -/
def initState (st : Vector UInt8 200) : C (Vector UInt8 200) := do
  let zero : Vector UInt8 8 := Vector.replicate 8 0
  let vmovdqu (a : Nat) (st : Vector UInt8 200) : C (Vector UInt8 200) := forUp 4 (fun k st => stq st (a + 8 * k) zero) st
  let st ← vmovdqu (0 * 32) st
  let st ← vmovdqu (1 * 32) st
  let st ← vmovdqu (2 * 32) st
  let st ← vmovdqu (3 * 32) st
  let st ← vmovdqu (4 * 32) st
  let st ← vmovdqu (5 * 32) st
  stq st (6 * 32) zero

/-- KeccakP-1600-AVX2.s:62-72 `KeccakP1600_AddByte`. -/
def addByte (st : Vector UInt8 200) (data : UInt8) (offset : Nat) : C (Vector UInt8 200) := do
  let rax := offset % 8
  let rdx := offset - offset % 8
  let rdx ← rdMap rdx
  let b ← rd st (rdx + rax)
  wr st (rdx + rax) (b ^^^ data)

section
variable {σ : Type}

/-- What a function does with one byte of the first lane, with a whole lane, and with the last lane.  The first argument
is the address in the state, the second the number of bytes already done; the third, for the last lane, the number of
bytes to do. -/
structure Pass (σ : Type) where
  head : Nat → Nat → σ → C σ
  lane : Nat → Nat → σ → C σ
  last : Nat → Nat → Nat → σ → C σ

/-- KeccakP-1600-AVX2.s:119-128 (`LaneAlignedLoop`, `LaneAlignedCheck`; the same in the other functions): `rcx` bytes to do, `rdx`
is the address in `mapState`, `i` bytes are done.  The subtraction that ends the loop is undone in line 130. -/
def laneLoop (P : Pass σ) (rcx rdx i : Nat) (s : σ) : C (Nat × Nat × Nat × σ) :=
  if h : rcx < 8 then pure (rcx, rdx, i, s)
  else do
    let a ← rdMap rdx
    let s ← P.lane a i s
    laneLoop P (rcx - 8) (rdx + 8) (i + 8) s
termination_by rcx
decreasing_by omega

/-- KeccakP-1600-AVX2.s:129-140 (`LastIncompleteLane`; the same in the other functions). -/
def lastLane (P : Pass σ) : Nat × Nat × Nat × σ → C σ
  | (rcx, rdx, i, s) =>
    if rcx = 0 then pure s
    else do
      let a ← rdMap rdx
      P.last a i rcx s

/-- KeccakP-1600-AVX2.s:97-118 (the same in the other functions): the bytes of the first lane, if it is not done as a whole. -/
def firstLane (P : Pass σ) (offset length : Nat) (s : σ) : C (Nat × Nat × Nat × σ) :=
  let rax := offset % 8
  let rdx := offset - offset % 8
  if rax = 0 then pure (length, rdx, 0, s)
  else do
    let r9 := if length ≤ 8 - rax then length else 8 - rax
    let a ← rdMap rdx
    let s ← forUp (loopCount r9) (fun k s => P.head (a + rax + k) k s) s
    pure (length - r9, rdx + 8, r9, s)

/-- KeccakP-1600-AVX2.s:95-142, the skeleton of `AddBytes`, and of `OverwriteBytes` (164-211), `ExtractBytes` (278-328) and
`ExtractAndAddBytes` (350-408). -/
def walkBytes (P : Pass σ) (offset length : Nat) (s : σ) : C σ :=
  if length = 0 then pure s
  else do
    let r ← firstLane P offset length s
    let r ← laneLoop P r.1 r.2.1 r.2.2.1 r.2.2.2
    lastLane P r

end

section
variable {n : Nat}

/-- KeccakP-1600-AVX2.s:92-142 `KeccakP1600_AddBytes`. -/
def addBytesPass (data : Vector UInt8 n) : Pass (Vector UInt8 200) :=
  let byte (a i : Nat) (st : Vector UInt8 200) : C (Vector UInt8 200) := do
    let r8b ← rd data i
    let b ← rd st a
    wr st a (b ^^^ r8b)
  { head := byte
    lane := fun a i st => do
      let r8 ← ldq data i
      let q ← ldq st a
      stq st a (xorq q r8)
    last := fun a i rcx st => forUp (loopCount rcx) (fun k st => byte (a + k) (i + k) st) st }

@[inherit_doc addBytesPass] def addBytes (st : Vector UInt8 200) (data : Vector UInt8 n) (offset length : Nat) : C (Vector UInt8 200) :=
  walkBytes (addBytesPass data) offset length st

/-- KeccakP-1600-AVX2.s:161-211 `KeccakP1600_OverwriteBytes`. -/
def overwritePass (data : Vector UInt8 n) : Pass (Vector UInt8 200) :=
  let byte (a i : Nat) (st : Vector UInt8 200) : C (Vector UInt8 200) := do
    let r8b ← rd data i
    wr st a r8b
  { head := byte
    lane := fun a i st => do
      let r8 ← ldq data i
      stq st a r8
    last := fun a i rcx st => forUp (loopCount rcx) (fun k st => byte (a + k) (i + k) st) st }

@[inherit_doc overwritePass] def overwriteBytes (st : Vector UInt8 200) (data : Vector UInt8 n) (offset length : Nat) : C (Vector UInt8 200) :=
  walkBytes (overwritePass data) offset length st

/-- KeccakP-1600-AVX2.s:230-256 `KeccakP1600_OverwriteWithZeroes`: there is no first incomplete lane. -/
def zeroesPass : Pass (Vector UInt8 200) where
  head _ _ st := pure st
  lane a _ st := stq st a (Vector.replicate 8 0)
  last a _ rsi st := forUp (loopCount rsi) (fun k st => wr st (a + k) 0) st

@[inherit_doc zeroesPass] def overwriteWithZeroes (st : Vector UInt8 200) (byteCount : Nat) : C (Vector UInt8 200) :=
  if byteCount = 0 then pure st
  else do
    let r ← laneLoop zeroesPass byteCount 0 0 st
    lastLane zeroesPass r

/-- KeccakP-1600-AVX2.s:275-328 `KeccakP1600_ExtractBytes`: the last lane is loaded once and shifted. -/
def extractPass (st : Vector UInt8 200) : Pass (Vector UInt8 n) where
  head a i data := do
    let r8b ← rd st a
    wr data i r8b
  lane a i data := do
    let r8 ← ldq st a
    stq data i r8
  last a i rcx data := do
    let r8 ← ldq st a
    let (data, _) ← forUp (loopCount rcx) (fun k (s : Vector UInt8 n × Vector UInt8 8) => do
      let data ← wr s.1 (i + k) (g s.2 0)
      pure (data, shr8 s.2)) (data, r8)
    pure data

@[inherit_doc extractPass] def extractBytesAsm (st : Vector UInt8 200) (data : Vector UInt8 n) (offset length : Nat) : C (Vector UInt8 n) :=
  walkBytes (extractPass st) offset length data

/-- KeccakP-1600-AVX2.s:347-408 `KeccakP1600_ExtractAndAddBytes`.  Input and output are two places, `inp` and `out`, of one memory,
so that they may overlap. -/
def extractAddPass (st : Vector UInt8 200) (inp out : Nat) : Pass (Vector UInt8 n) where
  head a i mem := do
    let r10b ← rd st a
    let b ← rd mem (inp + i)
    wr mem (out + i) (r10b ^^^ b)
  lane a i mem := do
    let r10 ← ldq st a
    let q ← ldq mem (inp + i)
    stq mem (out + i) (xorq r10 q)
  last a i r8 mem := do
    let r10 ← ldq st a
    let (mem, _) ← forUp (loopCount r8) (fun k (s : Vector UInt8 n × Vector UInt8 8) => do
      let b ← rd s.1 (inp + (i + k))
      let r10 := upd s.2 0 (g s.2 0 ^^^ b)
      let mem ← wr s.1 (out + (i + k)) (g r10 0)
      pure (mem, shr8 r10)) (mem, r10)
    pure mem

@[inherit_doc extractAddPass] def extractAndAddBytes (st : Vector UInt8 200) (mem : Vector UInt8 n) (inp out offset length : Nat) :
    C (Vector UInt8 n) := walkBytes (extractAddPass st inp out) offset length mem

end

/-! ## The absorbing loops -/

/-- KeccakP-1600-AVX2.s:1071. -/
def ALLON : Nat := 0xFFFFFFFFFFFFFFFF

/-- KeccakP-1600-AVX2.s:1120-1129. -/
def map2 : V4 Nat := ⟨10 * 8, 20 * 8, 5 * 8, 15 * 8⟩
@[inherit_doc map2] def map3 : V4 Nat := ⟨16 * 8, 7 * 8, 23 * 8, 14 * 8⟩
@[inherit_doc map2] def map4 : V4 Nat := ⟨11 * 8, 22 * 8, 8 * 8, 19 * 8⟩
@[inherit_doc map2] def map5 : V4 Nat := ⟨21 * 8, 17 * 8, 13 * 8, 9 * 8⟩
@[inherit_doc map2] def map6 : V4 Nat := ⟨6 * 8, 12 * 8, 18 * 8, 24 * 8⟩

/-- KeccakP-1600-AVX2.s:742, `vpcmpeqd` of a register with itself. -/
def mask2_21 : V4 Nat := ⟨ALLON, ALLON, ALLON, ALLON⟩
/-- KeccakP-1600-AVX2.s:1132-1139. -/
def mask3_21 : V4 Nat := ⟨ALLON, ALLON, 0, ALLON⟩
@[inherit_doc mask3_21] def mask4_21 : V4 Nat := ⟨ALLON, 0, ALLON, ALLON⟩
@[inherit_doc mask3_21] def mask5_21 : V4 Nat := ⟨0, ALLON, ALLON, ALLON⟩
@[inherit_doc mask3_21] def mask6_21 : V4 Nat := ⟨ALLON, ALLON, ALLON, 0⟩
/-- KeccakP-1600-AVX2.s:1141-1150. -/
def mask2_17 : V4 Nat := ⟨ALLON, 0, ALLON, ALLON⟩
@[inherit_doc mask2_17] def mask3_17 : V4 Nat := ⟨ALLON, ALLON, 0, ALLON⟩
@[inherit_doc mask2_17] def mask4_17 : V4 Nat := ⟨ALLON, 0, ALLON, 0⟩
@[inherit_doc mask2_17] def mask5_17 : V4 Nat := ⟨0, 0, ALLON, ALLON⟩
@[inherit_doc mask2_17] def mask6_17 : V4 Nat := ⟨ALLON, ALLON, 0, 0⟩

section
variable {n : Nat}

/-- The lane made of 8 bytes, the lowest first. -/
def laneOfBytes (b : Nat → UInt8) : UInt64 := UInt64.ofNat (leNat ((List.range 8).map b))

/-- A lane of the data, at byte `a`. -/
def ldLane (data : Vector UInt8 n) (a : Nat) : C UInt64 :=
  if a + 8 ≤ n then .ok (laneOfBytes fun i => g data (a + i)) else .error .oob

/-- `vpgatherdq`: the lanes of the data at `rdx` plus the entries of `map`, where the highest bit of the mask is set; the
other lanes of the destination are left as they are, and their data is not read. -/
def gather (data : Vector UInt8 n) (rdx : Nat) (mask map : V4 Nat) (d : V4 UInt64) : C (V4 UInt64) := do
  let pick (m a : Nat) (old : UInt64) : C UInt64 := if m.testBit 63 then ldLane data (rdx + a) else pure old
  let a ← pick mask.l0 map.l0 d.l0
  let b ← pick mask.l1 map.l1 d.l1
  let c ← pick mask.l2 map.l2 d.l2
  let e ← pick mask.l3 map.l3 d.l3
  pure ⟨a, b, c, e⟩

/-- KeccakP-1600-AVX2.s:739-771 with the masks for 21 lanes, 809-842 with those for 17: the data of one block is loaded to
the registers 7 to 13 and added to the registers 0 to 6.  (In line 743 the destination of `vpgatherdq` is not set to 0
before, as all four lanes are loaded.)  The registers 14 and 15, which contain mask and map, are not modelled. -/
def addBlock (mask2 mask3 mask4 mask5 mask6 : V4 Nat) (data : Vector UInt8 n) (rdx : Nat) (y : Nat → V4 UInt64) :
    C (Nat → V4 UInt64) := do
  let zero : V4 UInt64 := ⟨0, 0, 0, 0⟩
  let b ← ldLane data rdx
  let y := setAt y 7 ⟨b, b, b, b⟩
  let b0 ← ldLane data (rdx + 8)
  let b1 ← ldLane data (rdx + 16)
  let b2 ← ldLane data (rdx + 24)
  let b3 ← ldLane data (rdx + 32)
  let y := setAt y 8 ⟨b0, b1, b2, b3⟩
  let v ← gather data rdx mask2 map2 zero
  let y := setAt y 9 v
  let v ← gather data rdx mask3 map3 zero
  let y := setAt y 10 v
  let v ← gather data rdx mask4 map4 zero
  let y := setAt y 11 v
  let v ← gather data rdx mask5 map5 zero
  let y := setAt y 12 v
  let v ← gather data rdx mask6 map6 zero
  let y := setAt y 13 v
  let xor (b a d : Nat) (y : Nat → V4 UInt64) : Nat → V4 UInt64 := setAt y d (V4.map2 ops64.xor (y a) (y b))
  pure (xor 13 6 6 (xor 12 5 5 (xor 11 4 4 (xor 10 3 3 (xor 9 2 2 (xor 8 1 1 (xor 7 0 0 y)))))))

/-- What distinguishes the two absorbing loops: the first round constant, the number of rounds, and the function that is
called for other numbers of lanes. -/
structure Variant where
  iota : Nat
  rounds : Nat
  permute : Machine UInt64 → Lanes → C Lanes

/-- KeccakP-1600-AVX2.s:773-775 and 862-866. -/
def variant24 : Variant := ⟨iotas, 24, permute24⟩

/-- KeccakP-1600-AVX2.s:956-958 and 1045-1049. -/
def variant12 : Variant := ⟨iotas + 12 * 4 * 8, 12, permute12⟩

/-- KeccakP-1600-AVX2.s:738-778 and 808-849: one block after the other; `rcx` lanes of data are left after the block at `rdx`. -/
def blockLoop (v : Variant) (add : Nat → (Nat → V4 UInt64) → C (Nat → V4 UInt64)) (lanes : Nat) (rcx rdx : Nat)
    (s : Machine UInt64) : C (Nat × Machine UInt64) := do
  let y ← add rdx s.ymm
  let s := { s with ymm := y, gpr := { s.gpr with r10 := v.iota, rax := v.rounds } }
  let s ← keccakLoop ops64 v.rounds s
  if h : rcx < lanes ∨ lanes = 0 then pure (rdx + lanes * 8, s)
  else blockLoop v add lanes (rcx - lanes) (rdx + lanes * 8) s
termination_by rcx
decreasing_by omega

/-- KeccakP-1600-AVX2.s:728-737 (798-807): before the loop. -/
def enterAbsorb : List Instr := [
  .leaData .r8 (rhotates_left + 96), .leaData .r9 (rhotates_right + 96), .leaAdd .rdi 96, .vpbroadcastq (0) 96 0,
  .vmovdquLoad (8 + 32 * 0) 96 1, .vmovdquLoad (8 + 32 * 1) 96 2, .vmovdquLoad (8 + 32 * 2) 96 3,
  .vmovdquLoad (8 + 32 * 3) 96 4, .vmovdquLoad (8 + 32 * 4) 96 5, .vmovdquLoad (8 + 32 * 5) 96 6]

/-- KeccakP-1600-AVX2.s:854-861 `LanesAddLoop`. -/
def lanesAdd (data : Vector UInt8 n) (laneCount rdx : Nat) (st : Lanes) : C Lanes :=
  forUp (loopCount laneCount) (fun k st => do
    let r8 ← ldLane data (rdx + 8 * k)
    let r10 ← rdMap (8 * k)
    let x ← rd st (r10 / 8)
    wr st (r10 / 8) (x ^^^ r8)) st

/-- KeccakP-1600-AVX2.s:851-877 `Not17Lanes`; `regs rcx` are the registers in which the block with `rcx` lanes left is
permuted. -/
def otherLoop (v : Variant) (data : Vector UInt8 n) (regs : Nat → Machine UInt64) (laneCount : Nat) (rcx rdx : Nat) (st : Lanes) :
    C (Nat × Lanes) := do
  let st ← lanesAdd data laneCount rdx st
  let st ← v.permute (regs rcx) st
  if h : rcx - laneCount < laneCount ∨ laneCount = 0 then pure (rdx + 8 * laneCount, st)
  else otherLoop v data regs laneCount (rcx - laneCount) (rdx + 8 * laneCount) st
termination_by rcx
decreasing_by omega

/-- KeccakP-1600-AVX2.s:716-877 `KeccakF1600_FastLoop_Absorb` (with `variant24`) and 899-1060
`KeccakP1600_12rounds_FastLoop_Absorb` (with `variant12`), which differ in nothing else: the state afterwards and the number of bytes
processed.  The data has `n` bytes, `s` and `regs` are the registers. -/
def fastLoopAbsorb (v : Variant) (s : Machine UInt64) (regs : Nat → Machine UInt64) (st : Lanes) (laneCount : Nat) (data : Vector UInt8 n) :
    C (Lanes × Nat) :=
  let rcx := n / 8
  if rcx < laneCount then pure (st, 0)
  else if laneCount = 21 then do
    let s ← run ops64 (.vzeroupper :: enterAbsorb) (call s st laneCount)
    let (rdx, s) ← blockLoop v (addBlock mask2_21 mask3_21 mask4_21 mask5_21 mask6_21 data) 21 (rcx - 21) 0 s
    let s ← run ops64 leave s
    pure (stateOf s, rdx)
  else if laneCount = 17 then do
    let s ← run ops64 (.vzeroupper :: enterAbsorb) (call s st laneCount)
    let (rdx, s) ← blockLoop v (addBlock mask2_17 mask3_17 mask4_17 mask5_17 mask6_17 data) 17 (rcx - 17) 0 s
    let s ← run ops64 leave s
    pure (stateOf s, rdx)
  else do
    let (rdx, st) ← otherLoop v data regs laneCount rcx 0 st
    pure (st, rdx)

@[inherit_doc fastLoopAbsorb] def fastLoop24 (s : Machine UInt64) (regs : Nat → Machine UInt64) (st : Lanes) (laneCount : UInt32)
    (data : Vector UInt8 n) : C (Lanes × Nat) := fastLoopAbsorb variant24 s regs st laneCount.toNat data

@[inherit_doc fastLoopAbsorb] def fastLoop12 (s : Machine UInt64) (regs : Nat → Machine UInt64) (st : Lanes) (laneCount : UInt32)
    (data : Vector UInt8 n) : C (Lanes × Nat) := fastLoopAbsorb variant12 s regs st laneCount.toNat data

end

end LESS.Asm
