import Verif.Model.Sign
/-!
# The functional testbench: `Reference_Implementation/lib/test/less_test.c`

Every tester is a function of the state of the global generator and of the contents of its uninitialised
locals.  A tester that only prints is modelled by the Boolean "no branch that reports a failure was taken";
the printed text is not modelled.  `memcmp` of two structures compares the members: with the sizes of
parameters.h there is no padding (`N` and `K` are even where `POSITION_T` has two bytes).
-/
namespace LESS

variable {p : Params}

/-- less_test.c:32-53: the body of `inverse_mod_tester` for the values `1, ..., n`: the tables are filled first,
then checked; the product is a `uint32_t`. -/
def inverseTest (n : Nat) : C Bool := do
  let (value, inverse) ← forUp n (fun j (s : Vector Nat n × Vector Nat n) => do
    let (value, inverse) := s
    let value ← wr value j (j + 1)
    let inverse ← wr inverse j (fqInv (j + 1))
    pure (value, inverse)) (Vector.replicate _ 0, Vector.replicate _ 0)
  forUp n (fun j (allOk : Bool) => do
    let v ← rd value j
    let w ← rd inverse j
    pure (if u32 (v * w) % Q ≠ 1 then false else allOk)) true

/-- less_test.c:32-53 `inverse_mod_tester`. -/
def inverseModTester : C Bool := inverseTest (Q - 1)

/-- less_test.c:57-70 `monomial_tester`. -/
def monomialTester (fuel : Nat) (sl sl' : Stale p) (rng : Inc) : C (Bool × Inc) := do
  let idcheck ← monomialId sl.mono
  let (mat1, rng) ← monomialRnd fuel sl.mono' rng
  let mat2 ← monomialInv sl'.mono mat1
  let id ← monomialMul sl'.mono' mat2 mat1
  pure (decide (id.coefficients = idcheck.coefficients ∧ id.permutation = idcheck.permutation), rng)

/-- less_test.c:79-82 (also 149-152, 183-186, 243-246, 332-335): draw matrices until one has full rank; at most
`n` times.  The matrix, brought into reduced form, the pivot flags and the generator state. -/
def rndFullRank (fuel : Nat) : (n : Nat) → GenMat p → Inc → C (GenMat p × Vector Nat p.N × Inc)
  | 0, _, _ => .error .fuel
  | n + 1, G, rng => do
    let (G, rng) ← generatorRnd fuel G rng
    let (ok, G, isPivot) ← generatorRREF G (Vector.replicate _ 0)
    if ok = 0 then rndFullRank fuel n G rng else pure (G, isPivot, rng)

/-- less_test.c:107-111: the scan for the first nonzero entry of a row, starting at column `col`; `n` bounds the
number of steps.  The entry is read before `found_pivot_column < N` is tested. -/
def pivotScan (G : GenMat p) (row : Nat) : (n : Nat) → (col : Nat) → C Nat
  | 0, _ => .error .fuel
  | n + 1, col => do
    let x ← rd2 G row col
    if x = 0 ∧ col < p.N then pivotScan G row n (col + 1) else pure col

/-- less_test.c:106-124: the check of one row of a matrix in reduced form; `rref_ok` is passed on. -/
def rowCheck (G : GenMat p) (isPivot : Vector Nat p.N) (row : Nat) (rrefOk : Bool) : C Bool := do
  let col ← pivotScan G row (p.N + 2) 0
  let x ← rd2 G row col
  let rrefOk := if x ≠ 1 then false else rrefOk
  let rrefOk := if p.N ≤ col then false else rrefOk
  let f ← rd isPivot col
  pure (if f ≠ 1 then false else rrefOk)

/-- less_test.c:87-138: one iteration of the loop of `gausselim_tester`.  The state is `G`, `all_ok` and the
generator. -/
def gausselimStep (fuel : Nat) (sl : Nat → Stale p) (i : Nat) (s : GenMat p × Bool × Inc) : C (GenMat p × Bool × Inc) := do
  let (G, allOk, rng) := s
  if allOk then do
    let (mat1, rng) ← monomialRnd fuel (sl i).mono rng
    let GMul ← generatorMonomialMul (sl i).gen G mat1
    let (fullRank, R, isPivot) ← generatorRREF GMul (Vector.replicate _ 0)
    let allOk := if fullRank = 0 then false else allOk
    let rrefOk ← forUp p.K (rowCheck R isPivot) true
    pure (GMul, (if fullRank ≠ 0 ∧ rrefOk = false then false else allOk), rng)
  else pure (G, allOk, rng)

/-- less_test.c:74-142 `gausselim_tester` with `tests` iterations (`NUMBER_OF_GE_TESTS`, 10000). -/
def gausselimTester (fuel tests : Nat) (sl : Nat → Stale p) (G : GenMat p) (rng : Inc) : C (Bool × Inc) := do
  let (G, _, rng) ← rndFullRank fuel fuel G rng
  let (_, allOk, rng) ← forUp tests (gausselimStep fuel sl) (G, true, rng)
  pure (allOk, rng)

/-- less_test.c:145-165 `gen_by_monom_tester`. -/
def genByMonomTester (fuel : Nat) (sl sl' : Stale p) (rng : Inc) : C (Bool × Inc) := do
  let (G, _, rng) ← rndFullRank fuel fuel (Vector.replicate _ (Vector.replicate _ 0)) rng
  let (mat1, rng) ← monomialRnd fuel sl.mono rng
  let mat2 ← monomialInv sl.mono' mat1
  let G2 ← generatorMonomialMul sl.gen G mat1
  let Gcheck ← generatorMonomialMul sl'.gen G2 mat2
  pure (decide (Gcheck = G), rng)

/-- less_test.c:173-232 `rref_gen_by_monom_tester`.  The pivot flags are not cleared between the eliminations.
`Gcheck` is reduced twice (lines 212 and 213). -/
def rrefGenByMonomTester (fuel : Nat) (sl : Nat → Stale p) (G : GenMat p) (rng : Inc) : C (Bool × Inc) := do
  let (Qa, rng) ← monomialRnd fuel (sl 0).mono rng
  let QaInv ← monomialInv (sl 1).mono Qa
  let (Qb, rng) ← monomialRnd fuel (sl 2).mono rng
  let (G, isPivot, rng) ← rndFullRank fuel fuel G rng
  let G2 ← generatorMonomialMul (sl 3).gen G Qa
  let (r2, G2, isPivot) ← generatorRREF G2 isPivot
  let G3 ← generatorMonomialMul (sl 4).gen G Qb
  let (r3, G3, isPivot) ← generatorRREF G3 isPivot
  let mu ← monomialMul (sl 5).mono QaInv Qb
  let Qcheck ← monomialMul (sl 6).mono Qa mu
  let Gcheck ← generatorMonomialMul (sl 7).gen G2 mu
  let (_, Gcheck, isPivot) ← generatorRREF Gcheck isPivot
  let (rc, Gcheck, _) ← generatorRREF Gcheck isPivot
  pure (decide (r2 = 1 ∧ r3 = 1 ∧ (Qb.coefficients = Qcheck.coefficients ∧ Qb.permutation = Qcheck.permutation) ∧
    rc = 1 ∧ Gcheck = G3), rng)

/-- less_test.c:237-268 `rref_gen_compress_tester`. -/
def rrefGenCompressTester (fuel : Nat) (sl : Stale p) (rng : Inc) : C (Bool × Inc) := do
  let (G, isPivot, rng) ← rndFullRank fuel fuel (Vector.replicate _ (Vector.replicate _ 0)) rng
  let c ← generatorRrefCompact sl.rref G isPivot
  let (garbage, rng) ← generatorRnd fuel G rng
  let G' ← generatorRrefExpand garbage c
  pure (decide (G = G'), rng)

/-- less_test.c:273-320 `mono_is_compress_tester`. -/
def monoIsCompressTester (fuel : Nat) (sl : Stale p) (buf : Vector UInt8 p.monoBytes) (rng : Inc) : C (Bool × Inc) := do
  let (m, rng) ← monomialRnd fuel sl.mono rng
  let (co, pe) ← forUp p.K (fun i (s : Vector Nat p.K × Vector Nat p.K) => do
    let c ← rd m.coefficients i
    let co ← wr s.1 i c
    let x ← rd m.permutation i
    let pe ← wr s.2 i x
    pure (co, pe)) (sl.act.coefficients, sl.act.permutation)
  let enc ← compressMonomAction buf ⟨co, pe⟩
  let chk ← expandToMonomAction sl.act' enc
  pure (decide (chk.coefficients = co ∧ chk.permutation = pe), rng)

/-- less_test.c:326-356 `rref_gen_byte_compress_tester`. -/
def rrefGenByteCompressTester (fuel : Nat) (buf : Vector UInt8 p.rrefBytes) (rng : Inc) : C (Bool × Inc) := do
  let (G, isPivot, rng) ← rndFullRank fuel fuel (Vector.replicate _ (Vector.replicate _ 0)) rng
  let enc ← compressRref buf G isPivot
  let (garbage, rng) ← generatorRnd fuel G rng
  let G' ← expandToRref garbage enc
  pure (decide (G = G'), rng)

/-- less_test.c:376 `message`: `"Signme!"` with the final zero byte. -/
def signme : Bytes := [83, 105, 103, 110, 109, 101, 33, 0]

/-- less_test.c:372-383 `LESS_sign_verify_test`: the returned value. -/
def signVerifyTest (fuel : Nat) (sl₁ sl₂ sl₃ : Nat → Stale p) (sig : SignT p p.storageLen) (rng : Inc) : C (Nat × Inc) := do
  let (sk, pk, rng) ← lessKeygen fuel sl₁ rng
  let (sig, _, rng) ← lessSign fuel sl₂ rng sk signme sig
  let ok ← lessVerify fuel sl₃ pk signme sig
  pure (ok, rng)

/-- The first `smlen` bytes of a buffer: what `crypto_sign_open(m, &mlen1, sm, smlen, pk)` is given. -/
def openArg {k : Nat} (sm : Vector UInt8 k) (smlen : Nat) : Vector UInt8 smlen := Vector.ofFn fun i => g sm i.val

/-- The buffers and the generator of `LESS_sign_verify_test_multiple` (less_test.c:391-393). -/
structure MultState (p : Params) where
  m : Vector UInt8 160
  sm : Vector UInt8 (160 + p.sigLen)
  rng : Inc

/-- less_test.c:397-423: one iteration; `.inl` is `return`.  `len` is the value of `rand()`.  The `ASSERT` of
line 419 compiles to nothing unless assertions are enabled (fq_arith.h:37-41); if it fails the model returns 1. -/
def multipleStep (fuel : Nat) (sl : Nat → Nat → Nat → Stale p) (rand : Nat → Nat) (i : Nat) (s : MultState p) :
    C (Int ⊕ MultState p) := do
  let m ← blit s.m 0 (csprngBytes p (rand i % 160) s.rng).1
  let (pk, sk, rng) ← cryptoSignKeypair fuel (sl i 0) (csprngBytes p (rand i % 160) s.rng).2
  let msg ← slice m 0 (rand i % 160)
  let (sm, smlen, rng) ← cryptoSign fuel (sl i 1) rng s.sm msg sk
  let (ret, out) ← cryptoSignOpen fuel (sl i 2) 160 (openArg sm smlen) pk
  let m ← match out with
    | some b => blit m 0 b
    | none => pure m
  if ret ≠ 0 then pure (.inl (-1))
  else if out.map List.length ≠ some (rand i % 160) then pure (.inl 1)
  else pure (.inr ⟨m, sm, rng⟩)

/-- less_test.c:389-426 `LESS_sign_verify_test_multiple` with `tests` iterations (`NUMBER_OF_TESTS`, 100): the
returned value and, if the loop ends, the generator state. -/
def signVerifyTestMultiple (fuel tests : Nat) (sl : Nat → Nat → Nat → Stale p) (rand : Nat → Nat) (rng : Inc) :
    C (Int × Option Inc) := do
  match ← forRet tests (multipleStep fuel sl rand) ⟨Vector.replicate _ 0, Vector.replicate _ 0, rng⟩ with
  | .inl r => pure (r, none)
  | .inr s => pure (0, some s.rng)

/-- less_test.c:430: the message of the known-answer test. -/
def katMessage : Bytes := [0xD8,0x1C,0x4D,0x8D,0x73,0x4F,0xCB,0xFB,0xEA,0xDE,0x3D,0x3F,0x8A,0x03,0x9F,0xAA,0x2A,0x2C,
  0x99,0x57,0xE8,0x35,0xAD,0x55,0xB2,0x2E,0x75,0xBF,0x57,0xBB,0x55,0x6A,0xC8]

/-- less_test.c:431-435: the seed, overwritten with 0, 1, ..., 47. -/
def katTestSeed : Bytes := (List.range 48).map UInt8.ofNat

/-- less_test.c:429-468 `LESS_sign_verify_test_KAT`: the returned value and the generator state. -/
def signVerifyTestKAT (p : Params) (fuel : Nat) (sl : Nat → Nat → Stale p) : C (Int × Inc) := do
  let (pk, sk, rng) ← cryptoSignKeypair fuel (sl 0) (initCsprng p katTestSeed)
  let (sm, smlen, rng) ← cryptoSign fuel (sl 1) rng (Vector.replicate (33 + p.sigLen) 0) katMessage sk
  let (ret, _) ← cryptoSignOpen fuel (sl 2) (33 + p.sigLen) (openArg sm smlen) pk
  pure ((if ret ≠ 0 then -1 else 0), rng)

/-- rng.c:38 `platform_csprng_state`: a global without initialiser, so all bytes are zero when the program
starts.  `main` (less_test.c:472-475) runs `LESS_sign_verify_test_multiple` on it without a call to
`initialize_csprng`. -/
def platformInitial : Inc := ⟨Vector.replicate 25 0, 0⟩

/-- less_test.c:472-475 `main`: the program returns before line 478. -/
def testMain (p : Params) (fuel : Nat) (sl : Nat → Nat → Nat → Stale p) (rand : Nat → Nat) : C (Int × Option Inc) :=
  signVerifyTestMultiple fuel 100 sl rand platformInitial

end LESS
