import Verif.Model.Params
/-!
# Keccak: `Reference_Implementation/lib/keccakf1600.c`, `Reference_Implementation/lib/fips202.c`,
the SHAKE/SHA-3 selection of `include/sha3.h` and the generator of `lib/rng.c`, `include/rng.h`

All functions here are total and `size_t` lengths are `Nat`: the arrays, pointers and fixed-width lengths of the same
functions are in `Model/KeccakMem`, which `Proofs/KeccakMem` relates to this file.
-/
namespace LESS

/-- The 1600-bit state: `uint64_t state[25]`. -/
abbrev Lanes := Vector UInt64 25

/-- keccakf1600.c:12 `ROL(a, offset)`. -/
def rol (a : UInt64) (offset : UInt64) : UInt64 := (a <<< offset) ^^^ (a >>> (64 - offset))

/-- keccakf1600.c:14-39 `KeccakF_RoundConstants`. -/
def roundConstants : Vector UInt64 24 := #v[
  0x0000000000000001, 0x0000000000008082, 0x800000000000808a, 0x8000000080008000,
  0x000000000000808b, 0x0000000080000001, 0x8000000080008081, 0x8000000000008009,
  0x000000000000008a, 0x0000000000000088, 0x0000000080008009, 0x000000008000000a,
  0x000000008000808b, 0x800000000000008b, 0x8000000000008089, 0x8000000000008003,
  0x8000000000008002, 0x8000000000000080, 0x000000000000800a, 0x800000008000000a,
  0x8000000080008081, 0x8000000000008080, 0x0000000080000001, 0x8000000080008008]

/-- keccakf1600.c `KeccakF_RoundConstants[i]`. -/
def roundConstant (i : Nat) : UInt64 := g roundConstants i

/-- The body of the round loop, keccakf1600.c:103-293 (two rounds), line by line. -/
def permuteBody (round : Nat) (s : Lanes) : Lanes :=
  let Aba := s[0]
  let Abe := s[1]
  let Abi := s[2]
  let Abo := s[3]
  let Abu := s[4]
  let Aga := s[5]
  let Age := s[6]
  let Agi := s[7]
  let Ago := s[8]
  let Agu := s[9]
  let Aka := s[10]
  let Ake := s[11]
  let Aki := s[12]
  let Ako := s[13]
  let Aku := s[14]
  let Ama := s[15]
  let Ame := s[16]
  let Ami := s[17]
  let Amo := s[18]
  let Amu := s[19]
  let Asa := s[20]
  let Ase := s[21]
  let Asi := s[22]
  let Aso := s[23]
  let Asu := s[24]
  let BCa := Aba ^^^ Aga ^^^ Aka ^^^ Ama ^^^ Asa
  let BCe := Abe ^^^ Age ^^^ Ake ^^^ Ame ^^^ Ase
  let BCi := Abi ^^^ Agi ^^^ Aki ^^^ Ami ^^^ Asi
  let BCo := Abo ^^^ Ago ^^^ Ako ^^^ Amo ^^^ Aso
  let BCu := Abu ^^^ Agu ^^^ Aku ^^^ Amu ^^^ Asu
  let Da := BCu ^^^ (rol BCe 1)
  let De := BCa ^^^ (rol BCi 1)
  let Di := BCe ^^^ (rol BCo 1)
  let Do_ := BCi ^^^ (rol BCu 1)
  let Du := BCo ^^^ (rol BCa 1)
  let Aba := Aba ^^^ Da
  let BCa := Aba
  let Age := Age ^^^ De
  let BCe := (rol Age 44)
  let Aki := Aki ^^^ Di
  let BCi := (rol Aki 43)
  let Amo := Amo ^^^ Do_
  let BCo := (rol Amo 21)
  let Asu := Asu ^^^ Du
  let BCu := (rol Asu 14)
  let Eba := BCa ^^^ (~~~BCe &&& BCi)
  let Eba := Eba ^^^ roundConstant round
  let Ebe := BCe ^^^ (~~~BCi &&& BCo)
  let Ebi := BCi ^^^ (~~~BCo &&& BCu)
  let Ebo := BCo ^^^ (~~~BCu &&& BCa)
  let Ebu := BCu ^^^ (~~~BCa &&& BCe)
  let Abo := Abo ^^^ Do_
  let BCa := (rol Abo 28)
  let Agu := Agu ^^^ Du
  let BCe := (rol Agu 20)
  let Aka := Aka ^^^ Da
  let BCi := (rol Aka 3)
  let Ame := Ame ^^^ De
  let BCo := (rol Ame 45)
  let Asi := Asi ^^^ Di
  let BCu := (rol Asi 61)
  let Ega := BCa ^^^ (~~~BCe &&& BCi)
  let Ege := BCe ^^^ (~~~BCi &&& BCo)
  let Egi := BCi ^^^ (~~~BCo &&& BCu)
  let Ego := BCo ^^^ (~~~BCu &&& BCa)
  let Egu := BCu ^^^ (~~~BCa &&& BCe)
  let Abe := Abe ^^^ De
  let BCa := (rol Abe 1)
  let Agi := Agi ^^^ Di
  let BCe := (rol Agi 6)
  let Ako := Ako ^^^ Do_
  let BCi := (rol Ako 25)
  let Amu := Amu ^^^ Du
  let BCo := (rol Amu 8)
  let Asa := Asa ^^^ Da
  let BCu := (rol Asa 18)
  let Eka := BCa ^^^ (~~~BCe &&& BCi)
  let Eke := BCe ^^^ (~~~BCi &&& BCo)
  let Eki := BCi ^^^ (~~~BCo &&& BCu)
  let Eko := BCo ^^^ (~~~BCu &&& BCa)
  let Eku := BCu ^^^ (~~~BCa &&& BCe)
  let Abu := Abu ^^^ Du
  let BCa := (rol Abu 27)
  let Aga := Aga ^^^ Da
  let BCe := (rol Aga 36)
  let Ake := Ake ^^^ De
  let BCi := (rol Ake 10)
  let Ami := Ami ^^^ Di
  let BCo := (rol Ami 15)
  let Aso := Aso ^^^ Do_
  let BCu := (rol Aso 56)
  let Ema := BCa ^^^ (~~~BCe &&& BCi)
  let Eme := BCe ^^^ (~~~BCi &&& BCo)
  let Emi := BCi ^^^ (~~~BCo &&& BCu)
  let Emo := BCo ^^^ (~~~BCu &&& BCa)
  let Emu := BCu ^^^ (~~~BCa &&& BCe)
  let Abi := Abi ^^^ Di
  let BCa := (rol Abi 62)
  let Ago := Ago ^^^ Do_
  let BCe := (rol Ago 55)
  let Aku := Aku ^^^ Du
  let BCi := (rol Aku 39)
  let Ama := Ama ^^^ Da
  let BCo := (rol Ama 41)
  let Ase := Ase ^^^ De
  let BCu := (rol Ase 2)
  let Esa := BCa ^^^ (~~~BCe &&& BCi)
  let Ese := BCe ^^^ (~~~BCi &&& BCo)
  let Esi := BCi ^^^ (~~~BCo &&& BCu)
  let Eso := BCo ^^^ (~~~BCu &&& BCa)
  let Esu := BCu ^^^ (~~~BCa &&& BCe)
  let BCa := Eba ^^^ Ega ^^^ Eka ^^^ Ema ^^^ Esa
  let BCe := Ebe ^^^ Ege ^^^ Eke ^^^ Eme ^^^ Ese
  let BCi := Ebi ^^^ Egi ^^^ Eki ^^^ Emi ^^^ Esi
  let BCo := Ebo ^^^ Ego ^^^ Eko ^^^ Emo ^^^ Eso
  let BCu := Ebu ^^^ Egu ^^^ Eku ^^^ Emu ^^^ Esu
  let Da := BCu ^^^ (rol BCe 1)
  let De := BCa ^^^ (rol BCi 1)
  let Di := BCe ^^^ (rol BCo 1)
  let Do_ := BCi ^^^ (rol BCu 1)
  let Du := BCo ^^^ (rol BCa 1)
  let Eba := Eba ^^^ Da
  let BCa := Eba
  let Ege := Ege ^^^ De
  let BCe := (rol Ege 44)
  let Eki := Eki ^^^ Di
  let BCi := (rol Eki 43)
  let Emo := Emo ^^^ Do_
  let BCo := (rol Emo 21)
  let Esu := Esu ^^^ Du
  let BCu := (rol Esu 14)
  let Aba := BCa ^^^ (~~~BCe &&& BCi)
  let Aba := Aba ^^^ roundConstant (round + 1)
  let Abe := BCe ^^^ (~~~BCi &&& BCo)
  let Abi := BCi ^^^ (~~~BCo &&& BCu)
  let Abo := BCo ^^^ (~~~BCu &&& BCa)
  let Abu := BCu ^^^ (~~~BCa &&& BCe)
  let Ebo := Ebo ^^^ Do_
  let BCa := (rol Ebo 28)
  let Egu := Egu ^^^ Du
  let BCe := (rol Egu 20)
  let Eka := Eka ^^^ Da
  let BCi := (rol Eka 3)
  let Eme := Eme ^^^ De
  let BCo := (rol Eme 45)
  let Esi := Esi ^^^ Di
  let BCu := (rol Esi 61)
  let Aga := BCa ^^^ (~~~BCe &&& BCi)
  let Age := BCe ^^^ (~~~BCi &&& BCo)
  let Agi := BCi ^^^ (~~~BCo &&& BCu)
  let Ago := BCo ^^^ (~~~BCu &&& BCa)
  let Agu := BCu ^^^ (~~~BCa &&& BCe)
  let Ebe := Ebe ^^^ De
  let BCa := (rol Ebe 1)
  let Egi := Egi ^^^ Di
  let BCe := (rol Egi 6)
  let Eko := Eko ^^^ Do_
  let BCi := (rol Eko 25)
  let Emu := Emu ^^^ Du
  let BCo := (rol Emu 8)
  let Esa := Esa ^^^ Da
  let BCu := (rol Esa 18)
  let Aka := BCa ^^^ (~~~BCe &&& BCi)
  let Ake := BCe ^^^ (~~~BCi &&& BCo)
  let Aki := BCi ^^^ (~~~BCo &&& BCu)
  let Ako := BCo ^^^ (~~~BCu &&& BCa)
  let Aku := BCu ^^^ (~~~BCa &&& BCe)
  let Ebu := Ebu ^^^ Du
  let BCa := (rol Ebu 27)
  let Ega := Ega ^^^ Da
  let BCe := (rol Ega 36)
  let Eke := Eke ^^^ De
  let BCi := (rol Eke 10)
  let Emi := Emi ^^^ Di
  let BCo := (rol Emi 15)
  let Eso := Eso ^^^ Do_
  let BCu := (rol Eso 56)
  let Ama := BCa ^^^ (~~~BCe &&& BCi)
  let Ame := BCe ^^^ (~~~BCi &&& BCo)
  let Ami := BCi ^^^ (~~~BCo &&& BCu)
  let Amo := BCo ^^^ (~~~BCu &&& BCa)
  let Amu := BCu ^^^ (~~~BCa &&& BCe)
  let Ebi := Ebi ^^^ Di
  let BCa := (rol Ebi 62)
  let Ego := Ego ^^^ Do_
  let BCe := (rol Ego 55)
  let Eku := Eku ^^^ Du
  let BCi := (rol Eku 39)
  let Ema := Ema ^^^ Da
  let BCo := (rol Ema 41)
  let Ese := Ese ^^^ De
  let BCu := (rol Ese 2)
  let Asa := BCa ^^^ (~~~BCe &&& BCi)
  let Ase := BCe ^^^ (~~~BCi &&& BCo)
  let Asi := BCi ^^^ (~~~BCo &&& BCu)
  let Aso := BCo ^^^ (~~~BCu &&& BCa)
  let Asu := BCu ^^^ (~~~BCa &&& BCe)
  #v[Aba, Abe, Abi, Abo, Abu, Aga, Age, Agi, Ago, Agu, Aka, Ake, Aki, Ako, Aku,
     Ama, Ame, Ami, Amo, Amu, Asa, Ase, Asi, Aso, Asu]

/-- The first `n` iterations of the loop of keccakf1600.c:103-293 (`round = 0, 2, ..., 2(n-1)`). -/
def permuteLoop : (n : Nat) → Lanes → Lanes
  | 0, s => s
  | n + 1, s => permuteBody (2 * n) (permuteLoop n s)

/-- keccakf1600.c:59-322 `KeccakF1600_StatePermute`: twelve iterations of the two-round body.  The
copies from and to `state` around the loop are part of `permuteBody` here. -/
def permute (s : Lanes) : Lanes := permuteLoop 12 s

/-- keccakf1600.c:41-48 `KeccakF1600_StateExtractBytes`. -/
def extractBytes (s : Lanes) (offset length : Nat) : Bytes :=
  (List.range length).map fun i =>
    (g s ((offset + i) >>> 3) >>> (8 * ((offset + i) &&& 7)).toUInt64).toUInt8

/-- keccakf1600.c:50-57 `KeccakF1600_StateXORBytes`; `data` is exactly the `length` bytes. -/
def xorBytes (s : Lanes) : Bytes → Nat → Lanes
  | [], _ => s
  | b :: data, offset =>
    xorBytes (upd s (offset >>> 3)
      (g s (offset >>> 3) ^^^ (b.toUInt64 <<< (8 * (offset &&& 7)).toUInt64))) data (offset + 1)

/-- `uint64_t ctx[26]` of the incremental interface: `pos` is `ctx[25]` (fips202.h). -/
structure Inc where
  s : Lanes
  pos : Nat

/-- fips202.c:91-99 `keccak_inc_init`. -/
def incInit : Inc := ⟨Vector.replicate 25 0, 0⟩

/-- fips202.c:114-130 `keccak_inc_absorb`.  The C loop condition is `mlen + s_inc[25] >= r`; the extra
`pos < r` is the invariant of the incremental state and makes the recursion terminate. -/
def incAbsorb (r : Nat) (st : Inc) (m : Bytes) : Inc :=
  if _h : r ≤ m.length + st.pos ∧ st.pos < r then
    incAbsorb r ⟨permute (xorBytes st.s (m.take (r - st.pos)) st.pos), 0⟩ (m.drop (r - st.pos))
  else ⟨xorBytes st.s m st.pos, st.pos + m.length⟩
termination_by m.length
decreasing_by simp only [List.length_drop]; omega

/-- fips202.c:145-158 `keccak_inc_finalize`. -/
def incFinalize (r : Nat) (p : UInt8) (st : Inc) : Inc :=
  if st.pos = r - 1 then
    ⟨xorBytes st.s [p ||| 128] st.pos, 0⟩
  else
    ⟨xorBytes (xorBytes st.s [p] st.pos) [128] (r - 1), 0⟩

/-- The `while (outlen > 0)` loop of fips202.c:189-201 (for `r = 0` the C code does not terminate). -/
def squeezeLoop (r : Nat) (st : Inc) (outlen : Nat) : Bytes × Inc :=
  if _h : outlen = 0 ∨ r = 0 then ([], st)
  else
    let s := permute st.s
    let len := if outlen < r then outlen else r
    let rest := squeezeLoop r ⟨s, r - len⟩ (outlen - len)
    (extractBytes s 0 len ++ rest.1, rest.2)
termination_by outlen
decreasing_by simp only [not_or] at _h; split <;> omega

/-- fips202.c:173-202 `keccak_inc_squeeze`. -/
def incSqueeze (r : Nat) (st : Inc) (outlen : Nat) : Bytes × Inc :=
  let len := if outlen < st.pos then outlen else st.pos
  let first := extractBytes st.s (r - st.pos) len
  let rest := squeezeLoop r ⟨st.s, st.pos - len⟩ (outlen - len)
  (first ++ rest.1, rest.2)

/-- fips202.c:31-55 `keccak_absorb` (the state is zeroed by the callers, fips202.c:258-264, 302-309). -/
def keccakAbsorb (r : Nat) (s : Lanes) (m : Bytes) (p : UInt8) : Lanes :=
  if _h : r ≤ m.length ∧ 0 < r then
    keccakAbsorb r (permute (xorBytes s (m.take r) 0)) (m.drop r) p
  else
    let s := if m.length > 0 then xorBytes s m 0 else s
    if m.length = r - 1 then xorBytes s [p ||| 128] m.length
    else xorBytes (xorBytes s [p] m.length) [128] (r - 1)
termination_by m.length
decreasing_by simp only [List.length_drop]; omega

/-- fips202.c:70-79 `keccak_squeezeblocks`. -/
def squeezeBlocks (r : Nat) : (nblocks : Nat) → Lanes → Bytes × Lanes
  | 0, s => ([], s)
  | n + 1, s =>
    let s := permute s
    let rest := squeezeBlocks r n s
    (extractBytes s 0 r ++ rest.1, rest.2)

/-- fips202.h `SHAKE128_RATE`, `SHAKE256_RATE`, `SHA3_256_RATE`, `SHA3_384_RATE`, `SHA3_512_RATE`. -/
def shake128Rate : Nat := 168
@[inherit_doc shake128Rate] def shake256Rate : Nat := 136
@[inherit_doc shake128Rate] def sha3_256Rate : Nat := 136
@[inherit_doc shake128Rate] def sha3_384Rate : Nat := 104
@[inherit_doc shake128Rate] def sha3_512Rate : Nat := 72

/-- fips202.c:283-295 `shake128`. -/
def shake128 (outlen : Nat) (input : Bytes) : Bytes :=
  (incSqueeze shake128Rate (incFinalize shake128Rate 0x1F (incAbsorb shake128Rate incInit input)) outlen).1

/-- fips202.c:328-341 `shake256`. -/
def shake256 (outlen : Nat) (input : Bytes) : Bytes :=
  (incSqueeze shake256Rate (incFinalize shake256Rate 0x1F (incAbsorb shake256Rate incInit input)) outlen).1

/-- fips202.c:358-369 `sha3_256`. -/
def sha3_256 (input : Bytes) : Bytes :=
  (incSqueeze sha3_256Rate (incFinalize sha3_256Rate 0x06 (incAbsorb sha3_256Rate incInit input)) 32).1

/-- fips202.c:425-436 `sha3_384`. -/
def sha3_384 (input : Bytes) : Bytes :=
  (incSqueeze sha3_384Rate (incFinalize sha3_384Rate 0x06 (incAbsorb sha3_384Rate incInit input)) 48).1

/-- fips202.c:447-458 `sha3_512`. -/
def sha3_512 (input : Bytes) : Bytes :=
  (incSqueeze sha3_512Rate (incFinalize sha3_512Rate 0x06 (incAbsorb sha3_512Rate incInit input)) 64).1

/-- fips202.c:381-391, 404-414, 471-481 `sha3_{256,384,512}_inc_finalize`: one block is squeezed into
`t`, its first `outlen` bytes are copied. -/
def sha3IncFinalize (r outlen : Nat) (st : Inc) : Bytes :=
  ((squeezeBlocks r 1 (incFinalize r 0x06 st).s).1).take outlen

/-- fips202.c:258-264 `shake128_absorb`. -/
def shake128Absorb (input : Bytes) : Lanes :=
  keccakAbsorb shake128Rate (Vector.replicate 25 0) input 0x1F

/-- fips202.c:302-309 `shake256_absorb`. -/
def shake256Absorb (input : Bytes) : Lanes :=
  keccakAbsorb shake256Rate (Vector.replicate 25 0) input 0x1F

namespace Params

/-- Rate of `SHAKE_STATE_STRUCT`: SHAKE128 in category 1, SHAKE256 otherwise (sha3.h:122-126). -/
def xofRate (p : Params) : Nat := match p.cat with
  | .one => shake128Rate | .three => shake256Rate | .five => shake256Rate

/-- Rate of `LESS_SHA3_INC_CTX` (sha3.h:177-194). -/
def hashRate (p : Params) : Nat := match p.cat with
  | .one => sha3_256Rate | .three => sha3_384Rate | .five => sha3_512Rate

end Params

/-- rng.c:38-46 `initialize_csprng` (the security-level argument is ignored, sha3.h:130-138). -/
def initCsprng (p : Params) (seed : Bytes) : Inc :=
  incFinalize p.xofRate 0x1F (incAbsorb p.xofRate incInit seed)

/-- rng.h:36-42 `csprng_randombytes`, sha3.h:164-173 `xof_shake_extract`. -/
def csprngBytes (p : Params) (n : Nat) (st : Inc) : Bytes × Inc := incSqueeze p.xofRate st n

/-- `LESS_SHA3_INC_INIT` (sha3.h:179,184,189). -/
def hashInit : Inc := incInit

/-- `LESS_SHA3_INC_ABSORB` (sha3.h:180,185,190). -/
def hashAbsorb (p : Params) (st : Inc) (m : Bytes) : Inc := incAbsorb p.hashRate st m

/-- `LESS_SHA3_INC_FINALIZE` (sha3.h:181,186,191): the output is `HASH_DIGEST_LENGTH` bytes long. -/
def hashFinalize (p : Params) (st : Inc) : Bytes := sha3IncFinalize p.hashRate p.hashLen st

/-- A little-endian unsigned integer of the given bytes (how C reads a `uintN_t` written bytewise). -/
def leNat : Bytes → Nat
  | [] => 0
  | b :: bs => b.toNat + 256 * leNat bs

end LESS
