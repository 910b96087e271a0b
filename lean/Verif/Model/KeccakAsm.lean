import Verif.Model.Keccak
/-!
# The assembly permutation: `Optimized_Implementation/avx2/lib/KeccakP-1600-AVX2.s`

The file is part of the avx2 library; the call in keccakf1600.c:62-66 is disabled by `#if 0`.  Modelled:
`__KeccakF1600`, `KeccakP1600_Permute_24rounds`, `_12rounds` and `_Nrounds`, as lists of
instructions with the operands in the order of the source (sources first, destination last), and the data they use.
The other functions of the file (adding and extracting bytes, `FastLoop_Absorb`) are in `Model/KeccakBytes`.

The data ends with `iotas` here; in the file `mapState` follows.

The machine: sixteen registers of four 64-bit lanes, the state as 25 lanes, and the registers `r8`, `r9`, `r10`, `rdi`,
`rsi`, `rax`.  Addresses are relative: `r8`, `r9` and `r10` to the start of the data, `rdi` to the start of the state.  An access outside of them is
`.oob`; so are the immediate operands that would split a lane (the code has none), and an access that is not aligned to
lanes.  The lanes are of any type with the operations `LaneOps`: the code is run on `UInt64`, and on terms in the proofs.
-/
namespace LESS.Asm

/-- What the instructions do with lanes. -/
structure LaneOps (α : Type) where
  zero : α
  const : Nat → α
  xor : α → α → α
  or : α → α → α
  /-- `andn a b` is `~a & b`. -/
  andn : α → α → α
  add : α → α → α
  shl : α → Nat → α
  shr : α → Nat → α

/-- The operations on 64-bit lanes; shifts by 64 and more give 0. -/
def ops64 : LaneOps UInt64 where
  zero := 0
  const := UInt64.ofNat
  xor a b := a ^^^ b
  or a b := a ||| b
  andn a b := ~~~a &&& b
  add a b := a + b
  shl a n := if n < 64 then a <<< UInt64.ofNat n else 0
  shr a n := if n < 64 then a >>> UInt64.ofNat n else 0

/-- A vector register: four lanes, the lowest first. -/
structure V4 (α : Type) where
  l0 : α
  l1 : α
  l2 : α
  l3 : α

/-- Lane `i`, `i < 4`. -/
def V4.lane {α : Type} (v : V4 α) : Nat → α
  | 0 => v.l0
  | 1 => v.l1
  | 2 => v.l2
  | _ => v.l3

/-- Lane by lane. -/
def V4.map2 {α : Type} (f : α → α → α) (v w : V4 α) : V4 α := ⟨f v.l0 w.l0, f v.l1 w.l1, f v.l2 w.l2, f v.l3 w.l3⟩

/-- The pointer registers. -/
inductive Ptr where
  | r8 | r9 | r10 | rdi

/-- The general registers. -/
structure Gpr where
  r8 : Nat
  r9 : Nat
  r10 : Nat
  rdi : Nat
  rsi : Nat
  rax : Nat

/-- The machine. -/
structure Machine (α : Type) where
  ymm : Nat → V4 α
  mem : Nat → α
  gpr : Gpr

/-- The instructions.  `p m` is the displacement `p - m`. -/
inductive Instr where
  | vpshufd (imm s d : Nat)
  | vpermq (imm s d : Nat)
  | vpblendd (imm s₂ s₁ d : Nat)
  | vpxor (s₂ s₁ d : Nat)
  | vpor (s₂ s₁ d : Nat)
  | vpandn (s₂ s₁ d : Nat)
  | vpaddq (s₂ s₁ d : Nat)
  | vpsrlq (n s d : Nat)
  | vpsrldq (n s d : Nat)
  /-- With the counts at `p-m(%r8)`. -/
  | vpsllvq (p m s d : Nat)
  /-- With the counts at `p-m(%r9)`. -/
  | vpsrlvq (p m s d : Nat)
  /-- `vpxor p-m(%r10), s, d`. -/
  | vpxorm (p m s d : Nat)
  /-- From `p-m(%rdi)`. -/
  | vpbroadcastq (p m d : Nat)
  | vmovdquLoad (p m d : Nat)
  | vmovdquStore (s p m : Nat)
  /-- The lowest lane. -/
  | vmovq (s p m : Nat)
  | vzeroupper
  /-- `lea symbol(%rip), r`. -/
  | leaData (r : Ptr) (a : Nat)
  /-- `lea n(r), r`. -/
  | leaAdd (r : Ptr) (n : Nat)
  | movEax (n : Nat)
  | movRaxRsi
  | shlRsi (n : Nat)
  | subR10Rsi

/-- The address of `rhotates_left` (KeccakP-1600-AVX2.s:1072). -/
def rhotates_left : Nat := 0
/-- The address of `rhotates_right` (KeccakP-1600-AVX2.s:1079). -/
def rhotates_right : Nat := 192
/-- The address of `iotas` (KeccakP-1600-AVX2.s:1086). -/
def iotas : Nat := 384

/-- KeccakP-1600-AVX2.s:1087-1110, the round constants; each is stored four times. -/
def iotaTable : List Nat := [
  0x0000000000000001, 0x0000000000008082, 0x800000000000808a, 0x8000000080008000,
  0x000000000000808b, 0x0000000080000001, 0x8000000080008081, 0x8000000000008009,
  0x000000000000008a, 0x0000000000000088, 0x0000000080008009, 0x000000008000000a,
  0x000000008000808b, 0x800000000000008b, 0x8000000000008089, 0x8000000000008003,
  0x8000000000008002, 0x8000000000000080, 0x000000000000800a, 0x800000008000000a,
  0x8000000080008081, 0x8000000000008080, 0x0000000080000001, 0x8000000080008008]

/-- KeccakP-1600-AVX2.s:1073-1078. -/
def leftTable : List Nat := [
  3, 18, 36, 41,
  1, 62, 28, 27,
  45, 6, 56, 39,
  10, 61, 55, 8,
  2, 15, 25, 20,
  44, 43, 21, 14]

/-- KeccakP-1600-AVX2.s:1080-1085. -/
def rightTable : List Nat := [
  64 - 3, 64 - 18, 64 - 36, 64 - 41,
  64 - 1, 64 - 62, 64 - 28, 64 - 27,
  64 - 45, 64 - 6, 64 - 56, 64 - 39,
  64 - 10, 64 - 61, 64 - 55, 64 - 8,
  64 - 2, 64 - 15, 64 - 25, 64 - 20,
  64 - 44, 64 - 43, 64 - 21, 64 - 14]

/-- The data, in units of 8 bytes: the two tables of rotations and the round constants. -/
def dataQuads : List Nat := leftTable ++ rightTable ++ iotaTable.flatMap fun c => [c, c, c, c]

/-- `mapState` (KeccakP-1600-AVX2.s:1112-1117) in units of 8 bytes: where lane `x + 5 y` is stored. -/
def mapState : List Nat := [
  0, 1, 2, 3, 4,
  7, 21, 10, 15, 20,
  5, 13, 22, 19, 12,
  8, 9, 18, 23, 16,
  6, 17, 14, 11, 24]

/-- Four consecutive entries of the data, starting at byte `a`. -/
def rdData (a : Nat) : C (V4 Nat) :=
  if a % 8 = 0 then
    match dataQuads[a / 8]?, dataQuads[a / 8 + 1]?, dataQuads[a / 8 + 2]?, dataQuads[a / 8 + 3]? with
    | some a, some b, some c, some d => .ok ⟨a, b, c, d⟩
    | _, _, _, _ => .error .oob
  else .error .oob

/-- The address `p-m(r)`. -/
def addr (r p m : Nat) : C Nat := if m ≤ r + p then .ok (r + p - m) else .error .oob

/-- The number of the lane of the state at byte `a`, for an access to `k` lanes. -/
def laneNo (a k : Nat) : C Nat := if a % 8 = 0 ∧ a / 8 + k ≤ 25 then .ok (a / 8) else .error .oob

/-- The function `f` changed at `i`. -/
def setAt {α : Type} (f : Nat → α) (i : Nat) (x : α) : Nat → α := fun j => if j = i then x else f j

section
variable {α : Type}

/-- Bits `2 i` and `2 i + 1` of an immediate operand. -/
def field2 (imm i : Nat) : Nat := imm / 4 ^ i % 4

/-- `vpshufd` on lanes: within each half, the two parts of lane `h` of the result must be the two parts of one lane. -/
def shufd (imm : Nat) (v : V4 α) : C (V4 α) :=
  let ok (h : Nat) : Bool := field2 imm (2 * h) % 2 == 0 && field2 imm (2 * h + 1) == field2 imm (2 * h) + 1
  if ok 0 && ok 1 then
    let i := field2 imm 0 / 2
    let j := field2 imm 2 / 2
    .ok ⟨v.lane i, v.lane j, v.lane (2 + i), v.lane (2 + j)⟩
  else .error .oob

/-- `vpblendd` on lanes: both parts of a lane come from the same operand. -/
def blendd (imm : Nat) (s₂ s₁ : V4 α) : C (V4 α) :=
  let pick (i : Nat) : C α :=
    if field2 imm i = 3 then .ok (s₂.lane i) else if field2 imm i = 0 then .ok (s₁.lane i) else .error .oob
  do
    let a ← pick 0
    let b ← pick 1
    let c ← pick 2
    let d ← pick 3
    pure ⟨a, b, c, d⟩

/-- One instruction. -/
def step (o : LaneOps α) (s : Machine α) (i : Instr) : C (Machine α) :=
  match s.gpr with
  | ⟨r8, r9, r10, rdi, rsi, rax⟩ =>
    let y := s.ymm
    let mem := s.mem
    let put (d : Nat) (v : V4 α) : C (Machine α) := pure ⟨setAt y d v, mem, ⟨r8, r9, r10, rdi, rsi, rax⟩⟩
    let store (mem : Nat → α) : C (Machine α) := pure ⟨y, mem, ⟨r8, r9, r10, rdi, rsi, rax⟩⟩
    match i with
    | .vpshufd imm a d => do
      let v ← shufd imm (y a)
      put d v
    | .vpermq imm a d =>
      put d ⟨(y a).lane (field2 imm 0), (y a).lane (field2 imm 1), (y a).lane (field2 imm 2), (y a).lane (field2 imm 3)⟩
    | .vpblendd imm b a d => do
      let v ← blendd imm (y b) (y a)
      put d v
    | .vpxor b a d => put d (V4.map2 o.xor (y a) (y b))
    | .vpor b a d => put d (V4.map2 o.or (y a) (y b))
    | .vpandn b a d => put d (V4.map2 o.andn (y a) (y b))
    | .vpaddq b a d => put d (V4.map2 o.add (y a) (y b))
    | .vpsrlq n a d => put d ⟨o.shr (y a).l0 n, o.shr (y a).l1 n, o.shr (y a).l2 n, o.shr (y a).l3 n⟩
    | .vpsrldq n a d => if n = 8 then put d ⟨(y a).l1, o.zero, (y a).l3, o.zero⟩ else .error .oob
    | .vpsllvq p m a d => do
      let i ← addr r8 p m
      let n ← rdData i
      put d ⟨o.shl (y a).l0 n.l0, o.shl (y a).l1 n.l1, o.shl (y a).l2 n.l2, o.shl (y a).l3 n.l3⟩
    | .vpsrlvq p m a d => do
      let i ← addr r9 p m
      let n ← rdData i
      put d ⟨o.shr (y a).l0 n.l0, o.shr (y a).l1 n.l1, o.shr (y a).l2 n.l2, o.shr (y a).l3 n.l3⟩
    | .vpxorm p m a d => do
      let i ← addr r10 p m
      let n ← rdData i
      put d (V4.map2 o.xor (y a) ⟨o.const n.l0, o.const n.l1, o.const n.l2, o.const n.l3⟩)
    | .vpbroadcastq p m d => do
      let i ← addr rdi p m
      let i ← laneNo i 1
      put d ⟨mem i, mem i, mem i, mem i⟩
    | .vmovdquLoad p m d => do
      let i ← addr rdi p m
      let i ← laneNo i 4
      put d ⟨mem i, mem (i + 1), mem (i + 2), mem (i + 3)⟩
    | .vmovdquStore a p m => do
      let i ← addr rdi p m
      let i ← laneNo i 4
      store (setAt (setAt (setAt (setAt mem i (y a).l0) (i + 1) (y a).l1) (i + 2) (y a).l2) (i + 3) (y a).l3)
    | .vmovq a p m => do
      let i ← addr rdi p m
      let i ← laneNo i 1
      store (setAt mem i (y a).l0)
    | .vzeroupper => pure ⟨fun r => ⟨(y r).l0, (y r).l1, o.zero, o.zero⟩, mem, ⟨r8, r9, r10, rdi, rsi, rax⟩⟩
    | .leaData .r8 a => pure ⟨y, mem, ⟨a, r9, r10, rdi, rsi, rax⟩⟩
    | .leaData .r9 a => pure ⟨y, mem, ⟨r8, a, r10, rdi, rsi, rax⟩⟩
    | .leaData .r10 a => pure ⟨y, mem, ⟨r8, r9, a, rdi, rsi, rax⟩⟩
    | .leaAdd .r10 n => pure ⟨y, mem, ⟨r8, r9, r10 + n, rdi, rsi, rax⟩⟩
    | .leaAdd .rdi n => pure ⟨y, mem, ⟨r8, r9, r10, rdi + n, rsi, rax⟩⟩
    | .movEax n => pure ⟨y, mem, ⟨r8, r9, r10, rdi, rsi, n⟩⟩
    | .movRaxRsi => pure ⟨y, mem, ⟨r8, r9, r10, rdi, rsi, rsi⟩⟩
    | .shlRsi n => pure ⟨y, mem, ⟨r8, r9, r10, rdi, rsi * 2 ^ n % 18446744073709551616, rax⟩⟩
    | .subR10Rsi => if rsi ≤ r10 then pure ⟨y, mem, ⟨r8, r9, r10 - rsi, rdi, rsi, rax⟩⟩ else .error .oob
    | _ => .error .oob

/-- A piece of code without jumps. -/
def run (o : LaneOps α) : List Instr → Machine α → C (Machine α)
  | [], s => pure s
  | i :: is, s => do
    let s ← step o s i
    run o is s
end

/-- KeccakP-1600-AVX2.s:428-458, θ. -/
def thetaCode : List Instr := [
  .vpshufd 0b01001110 2 13, .vpxor 3 5 12, .vpxor 6 4 9, .vpxor 1 12 12, .vpxor 9 12 12, .vpermq 0b10010011 12 11,
  .vpxor 2 13 13, .vpermq 0b01001110 13 7, .vpsrlq 63 12 8, .vpaddq 12 12 9, .vpor 9 8 8, .vpermq 0b00111001 8 15,
  .vpxor 11 8 14, .vpermq 0b00000000 14 14, .vpxor 0 13 13, .vpxor 7 13 13, .vpsrlq 63 13 7, .vpaddq 13 13 8,
  .vpor 7 8 8, .vpxor 14 2 2, .vpxor 14 0 0, .vpblendd 0b11000000 8 15 15, .vpblendd 0b00000011 13 11 11,
  .vpxor 11 15 15]

/-- KeccakP-1600-AVX2.s:461-492, ρ and π. -/
def rhoPiCode : List Instr := [
  .vpsllvq (0 * 32) 96 2 10, .vpsrlvq (0 * 32) 96 2 2, .vpor 10 2 2, .vpxor 15 3 3, .vpsllvq (2 * 32) 96 3 11,
  .vpsrlvq (2 * 32) 96 3 3, .vpor 11 3 3, .vpxor 15 4 4, .vpsllvq (3 * 32) 96 4 12, .vpsrlvq (3 * 32) 96 4 4,
  .vpor 12 4 4, .vpxor 15 5 5, .vpsllvq (4 * 32) 96 5 13, .vpsrlvq (4 * 32) 96 5 5, .vpor 13 5 5, .vpxor 15 6 6,
  .vpermq 0b10001101 2 10, .vpermq 0b10001101 3 11, .vpsllvq (5 * 32) 96 6 14, .vpsrlvq (5 * 32) 96 6 8, .vpor 14 8 8,
  .vpxor 15 1 1, .vpermq 0b00011011 4 12, .vpermq 0b01110010 5 13, .vpsllvq (1 * 32) 96 1 15,
  .vpsrlvq (1 * 32) 96 1 9, .vpor 15 9 9]

/-- KeccakP-1600-AVX2.s:495-554, χ. -/
def chiCode : List Instr := [
  .vpsrldq 8 8 14, .vpandn 14 8 7, .vpblendd 0b00001100 13 9 3, .vpblendd 0b00001100 9 11 15,
  .vpblendd 0b00001100 11 10 5, .vpblendd 0b00001100 10 9 14, .vpblendd 0b00110000 11 3 3,
  .vpblendd 0b00110000 12 15 15, .vpblendd 0b00110000 9 5 5, .vpblendd 0b00110000 13 14 14,
  .vpblendd 0b11000000 12 3 3, .vpblendd 0b11000000 13 15 15, .vpblendd 0b11000000 13 5 5,
  .vpblendd 0b11000000 11 14 14, .vpandn 15 3 3, .vpandn 14 5 5, .vpblendd 0b00001100 9 12 6,
  .vpblendd 0b00001100 12 10 15, .vpxor 10 3 3, .vpblendd 0b00110000 10 6 6, .vpblendd 0b00110000 11 15 15,
  .vpxor 12 5 5, .vpblendd 0b11000000 11 6 6, .vpblendd 0b11000000 9 15 15, .vpandn 15 6 6, .vpxor 13 6 6,
  .vpermq 0b00011110 8 4, .vpblendd 0b00110000 0 4 15, .vpermq 0b00111001 8 1, .vpblendd 0b11000000 0 1 1,
  .vpandn 15 1 1, .vpblendd 0b00001100 12 11 2, .vpblendd 0b00001100 11 13 14, .vpblendd 0b00110000 13 2 2,
  .vpblendd 0b00110000 10 14 14, .vpblendd 0b11000000 10 2 2, .vpblendd 0b11000000 12 14 14, .vpandn 14 2 2,
  .vpxor 9 2 2, .vpermq 0b00000000 7 7, .vpermq 0b00011011 3 3, .vpermq 0b10001101 5 5, .vpermq 0b01110010 6 6,
  .vpblendd 0b00001100 10 13 4, .vpblendd 0b00001100 13 12 14, .vpblendd 0b00110000 12 4 4,
  .vpblendd 0b00110000 9 14 14, .vpblendd 0b11000000 9 4 4, .vpblendd 0b11000000 10 14 14, .vpandn 14 4 4,
  .vpxor 7 0 0, .vpxor 8 1 1, .vpxor 11 4 4]

/-- KeccakP-1600-AVX2.s:557-558, ι. -/
def iotaCode : List Instr := [
  .vpxorm (0) 0 0 0, .leaAdd .r10 32]

/-- KeccakP-1600-AVX2.s:584-596, `KeccakP1600_Permute_24rounds` before the call. -/
def enter24 : List Instr := [
  .leaData .r8 (rhotates_left + 96), .leaData .r9 (rhotates_right + 96), .leaData .r10 (iotas), .movEax 24,
  .leaAdd .rdi 96, .vzeroupper, .vpbroadcastq (0) 96 0, .vmovdquLoad (8 + 32 * 0) 96 1,
  .vmovdquLoad (8 + 32 * 1) 96 2, .vmovdquLoad (8 + 32 * 2) 96 3, .vmovdquLoad (8 + 32 * 3) 96 4,
  .vmovdquLoad (8 + 32 * 4) 96 5, .vmovdquLoad (8 + 32 * 5) 96 6]

/-- KeccakP-1600-AVX2.s:628-640, `KeccakP1600_Permute_12rounds` before the call. -/
def enter12 : List Instr := [
  .leaData .r8 (rhotates_left + 96), .leaData .r9 (rhotates_right + 96), .leaData .r10 (iotas + 12 * 4 * 8),
  .movEax 12, .leaAdd .rdi 96, .vzeroupper, .vpbroadcastq (0) 96 0, .vmovdquLoad (8 + 32 * 0) 96 1,
  .vmovdquLoad (8 + 32 * 1) 96 2, .vmovdquLoad (8 + 32 * 2) 96 3, .vmovdquLoad (8 + 32 * 3) 96 4,
  .vmovdquLoad (8 + 32 * 4) 96 5, .vmovdquLoad (8 + 32 * 5) 96 6]

/-- KeccakP-1600-AVX2.s:672-686, `KeccakP1600_Permute_Nrounds` before the call. -/
def enterN : List Instr := [
  .leaData .r8 (rhotates_left + 96), .leaData .r9 (rhotates_right + 96), .leaData .r10 (iotas + 24 * 4 * 8),
  .movRaxRsi, .shlRsi (2 + 3), .subR10Rsi, .leaAdd .rdi 96, .vzeroupper, .vpbroadcastq (0) 96 0,
  .vmovdquLoad (8 + 32 * 0) 96 1, .vmovdquLoad (8 + 32 * 1) 96 2, .vmovdquLoad (8 + 32 * 2) 96 3,
  .vmovdquLoad (8 + 32 * 3) 96 4, .vmovdquLoad (8 + 32 * 4) 96 5, .vmovdquLoad (8 + 32 * 5) 96 6]

/-- KeccakP-1600-AVX2.s:598-605 (and 642-649, 688-695), after the call. -/
def leave : List Instr := [
  .vmovq 0 (0) 96, .vmovdquStore 1 (8 + 32 * 0) 96, .vmovdquStore 2 (8 + 32 * 1) 96, .vmovdquStore 3 (8 + 32 * 2) 96,
  .vmovdquStore 4 (8 + 32 * 3) 96, .vmovdquStore 5 (8 + 32 * 4) 96, .vmovdquStore 6 (8 + 32 * 5) 96, .vzeroupper]

section
variable {α : Type}

/-- KeccakP-1600-AVX2.s:425-562 `__KeccakF1600`: the body, then `dec %eax` and `jnz`.  The first argument bounds the
number of iterations. -/
def keccakLoop (o : LaneOps α) : (fuel : Nat) → Machine α → C (Machine α)
  | 0, _ => .error .fuel
  | f + 1, s => do
    let s ← run o (thetaCode ++ rhoPiCode ++ chiCode ++ iotaCode) s
    let eax := u32 (u32 s.gpr.rax + 4294967295)
    let s := { s with gpr := { s.gpr with rax := eax } }
    if eax = 0 then pure s else keccakLoop o f s

/-- The three functions, with the code before the call: `rdi` points to the state, `rsi` is the second argument, the
other registers are arbitrary (`s`). -/
def permuteAsm (o : LaneOps α) (enter : List Instr) (fuel : Nat) (s : Machine α) : C (Machine α) := do
  let s ← run o enter s
  let s ← keccakLoop o fuel s
  run o leave s

end

/-- The machine when a function is called with the state at `rdi`: the vector registers, `r8`, `r9`, `r10` and `rax` contain what `s` says. -/
def call (s : Machine UInt64) (st : Lanes) (nrounds : Nat) : Machine UInt64 :=
  { s with mem := g st, gpr := { s.gpr with rdi := 0, rsi := nrounds } }

/-- The state afterwards. -/
def stateOf (s : Machine UInt64) : Lanes := Vector.ofFn fun i : Fin 25 => s.mem i

/-- `KeccakP1600_Permute_24rounds` (KeccakP-1600-AVX2.s:581-606). -/
def permute24 (s : Machine UInt64) (st : Lanes) : C Lanes := do
  let s ← permuteAsm ops64 enter24 24 (call s st 0)
  pure (stateOf s)

/-- `KeccakP1600_Permute_12rounds` (KeccakP-1600-AVX2.s:625-650). -/
def permute12 (s : Machine UInt64) (st : Lanes) : C Lanes := do
  let s ← permuteAsm ops64 enter12 12 (call s st 0)
  pure (stateOf s)

/-- `KeccakP1600_Permute_Nrounds` (KeccakP-1600-AVX2.s:669-696).  Of the second argument, an `unsigned int`, the upper half of
the register is taken to be 0 (the calling convention does not say so). -/
def permuteN (fuel : Nat) (s : Machine UInt64) (st : Lanes) (nrounds : UInt32) : C Lanes := do
  let s ← permuteAsm ops64 enterN fuel (call s st nrounds.toNat)
  pure (stateOf s)

end LESS.Asm
