import Verif.Model.KatRng
import Verif.Model.Sign
/-!
# The test-vector program: `Reference_Implementation/lib/nist/PQCgenKAT_sign.c`

(The copies under `Optimized_Implementation/common/lib/nist` and `Utilities/KAT_Generation/lib` are identical.)
A file being read is the list of its remaining bytes, a file being written the list of the bytes written so far;
opening a file and `calloc` succeed.  `fgetc`, `fprintf`, `fscanf`, `isxdigit` and `strncmp` follow the C standard, in the
"C" locale.
-/
namespace LESS.Kat
open LESS

/-- The bytes of a string literal. -/
def ascii (s : String) : Bytes := s.toList.map fun c => UInt8.ofNat c.toNat

/-- What `%d`, `%u`, `%llu` print for a non-negative number; the first argument bounds the number of digits. -/
def decLoop : (fuel : Nat) → Nat → Bytes
  | 0, _ => []
  | f + 1, n => if n < 10 then [UInt8.ofNat (48 + n)] else decLoop f (n / 10) ++ [UInt8.ofNat (48 + n % 10)]

@[inherit_doc decLoop] def dec (n : Nat) : Bytes := decLoop (n + 1) n

/-- The upper-case hexadecimal digit of a number below 16. -/
def hexDigit (n : Nat) : UInt8 := if n < 10 then UInt8.ofNat (48 + n) else UInt8.ofNat (55 + n)

/-- What `%02X` prints for a byte. -/
def hex2 (b : UInt8) : Bytes := [hexDigit (b.toNat / 16), hexDigit (b.toNat % 16)]

/-- PQCgenKAT_sign.c:252-260 `fprintBstr`: the bytes written. -/
def fprintBstr {n : Nat} (S : Bytes) (A : Vector UInt8 n) (L : Nat) : C Bytes := do
  let out ← forUp L (fun i out => do
    let b ← rd A i
    pure (out ++ hex2 b)) S
  let out := if L = 0 then out ++ ascii "00" else out
  pure (out ++ ascii "\n")

/-- `MAX_MARKER_LEN` (PQCgenKAT_sign.c:12). -/
def maxMarkerLen : Nat := 50

/-- `!strncmp(line, marker, n)`; `marker` is a string, so it ends with a zero byte. -/
def strncmpEq {k : Nat} (line : Vector UInt8 k) (marker : Bytes) (n : Nat) : C Bool := do
  match ← forRet n (fun i (_ : Unit) => do
      let x ← rd line i
      let y ← if i ≤ marker.length then pure (marker.getD i 0) else .error .oob
      if x ≠ y then pure (.inl false)
      else if x = 0 then pure (.inl true)
      else pure (.inr ())) () with
  | .inl b => pure b
  | .inr _ => pure true

/-- PQCgenKAT_sign.c:191-192: `for (i=0; i<len-1; i++) line[i] = line[i+1];`, called with `len > 0`. -/
def shiftLine {k : Nat} (line : Vector UInt8 k) (len : Nat) : C (Vector UInt8 k) :=
  forUp (len - 1) (fun i line => do
    let x ← rd line (i + 1)
    wr line i x) line

/-- PQCgenKAT_sign.c:186-198: the `while (1)` loop of `FindMarker`; every iteration reads one byte. -/
def findLoop (marker : Bytes) (len : Nat) : (infile : Bytes) → (line : Vector UInt8 maxMarkerLen) → C (Nat × Bytes)
  | [], line => do
    if ← strncmpEq line marker len then pure (1, [])
    else do
      let line ← shiftLine line len
      let _ ← wr line (len - 1) 0xff
      pure (0, [])
  | c :: infile, line => do
    if ← strncmpEq line marker len then pure (1, c :: infile)
    else do
      let line ← shiftLine line len
      let line ← wr line (len - 1) c
      let line ← wr line len 0
      findLoop marker len infile line

/-- PQCgenKAT_sign.c:179-182: one byte of the first window; `.inl` is `return 0`.  The byte stored for `EOF` is 0xff. -/
def fillStep (i : Nat) (s : Vector UInt8 maxMarkerLen × Bytes) :
    C ((Nat × Bytes) ⊕ (Vector UInt8 maxMarkerLen × Bytes)) := do
  let (line, infile) := s
  match infile with
  | [] => do
    let _ ← wr line i 0xff
    pure (.inl (0, []))
  | c :: infile => do
    let line ← wr line i c
    pure (.inr (line, infile))

/-- PQCgenKAT_sign.c:167-202 `FindMarker`: the returned value and what is left to read.  `line` is uninitialised. -/
def findMarker (line : Vector UInt8 maxMarkerLen) (infile marker : Bytes) : C (Nat × Bytes) := do
  let len := if maxMarkerLen - 1 < marker.length then maxMarkerLen - 1 else marker.length
  match ← forRet len fillStep (line, infile) with
  | .inl r => pure r
  | .inr (line, infile) => do
    let line ← wr line len 0
    findLoop marker len infile line

/-- `isxdigit` in the "C" locale. -/
def isXDigit (c : UInt8) : Bool := (48 ≤ c && c ≤ 57) || (65 ≤ c && c ≤ 70) || (97 ≤ c && c ≤ 102)

/-- PQCgenKAT_sign.c:234-241: the value of a digit. -/
def ichOf (c : UInt8) : Nat :=
  if 48 ≤ c ∧ c ≤ 57 then c.toNat - 48
  else if 65 ≤ c ∧ c ≤ 70 then c.toNat - 65 + 10
  else if 97 ≤ c ∧ c ≤ 102 then c.toNat - 97 + 10
  else 0

/-- PQCgenKAT_sign.c:243-245: shift the whole array left by four bits, `Length > 0`.  The counter is a `uint32_t`: the
loop does not end if `Length - 1 > 2^32 - 1`, reported as `fuel`. -/
def shiftNibble {n : Nat} (A : Vector UInt8 n) (len ich : Nat) : C (Vector UInt8 n) := do
  if 4294967296 < len then .error .fuel
  else do
    let A ← forUp (len - 1) (fun i A => do
      let a ← rdB A i
      let b ← rdB A (i + 1)
      wrB A i ((a <<< 4) ||| (b >>> 4))) A
    let a ← rdB A (len - 1)
    wrB A (len - 1) ((a <<< 4) ||| ich)

/-- PQCgenKAT_sign.c:219-246: the `while` loop of `ReadHex`: the array and what is left to read. -/
def hexLoop {n : Nat} (len : Nat) : (infile : Bytes) → (started : Bool) → Vector UInt8 n → C (Vector UInt8 n × Bytes)
  | [], _, A => pure (A, [])
  | c :: infile, started, A =>
    if isXDigit c then do
      let A ← shiftNibble A len (ichOf c)
      hexLoop len infile true A
    else if started then pure (A, infile)
    else if c = 10 then pure (A, infile)
    else hexLoop len infile started A

/-- PQCgenKAT_sign.c:207-250 `ReadHex`: the returned value, the array and what is left to read. -/
def readHex {n : Nat} (line : Vector UInt8 maxMarkerLen) (infile : Bytes) (A : Vector UInt8 n) (len : Nat) (str : Bytes) :
    C (Nat × Vector UInt8 n × Bytes) := do
  if len = 0 then do
    let A ← wr A 0 0
    pure (1, A, infile)
  else do
    let A ← blit A 0 (List.replicate len 0)
    let (found, infile) ← findMarker line infile str
    if found ≠ 0 then do
      let (A, infile) ← hexLoop len infile false A
      pure (1, A, infile)
    else pure (0, A, infile)

/-- `isspace` in the "C" locale. -/
def isSpace (c : UInt8) : Bool := c = 32 || (9 ≤ c && c ≤ 13)

/-- Digits read by `%d` and `%llu`: number of digits, value, what is left to read. -/
def scanDigits : (infile : Bytes) → (count acc : Nat) → Nat × Nat × Bytes
  | [], n, acc => (n, acc, [])
  | c :: infile, n, acc =>
    if 48 ≤ c ∧ c ≤ 57 then scanDigits infile (n + 1) (10 * acc + (c.toNat - 48)) else (n, acc, c :: infile)

/-- `fscanf(infile, "%d", ..)` and `fscanf(infile, "%llu", ..)`: the returned value, the number if one was stored, what is
left to read.  A sign before the digits is not modelled (the program writes none): it counts as a mismatch. -/
def fscanDec (infile : Bytes) : Int × Option Nat × Bytes :=
  match infile.dropWhile isSpace with
  | [] => (-1, none, [])
  | c :: rest =>
    match scanDigits (c :: rest) 0 0 with
    | (0, _, _) => (0, none, c :: rest)
    | (_, v, left) => (1, some v, left)

/-- `"%d"`: a number that does not fit an `int` is undefined behaviour, reported as `oob`. -/
def fscanInt (infile : Bytes) (old : Nat) : C (Int × Nat × Bytes) :=
  match fscanDec infile with
  | (r, none, left) => pure (r, old, left)
  | (r, some v, left) => if intMax < v then .error .oob else pure (r, v, left)

/-- `"%llu"`: `strtoull` stops at the largest value. -/
def fscanULL (infile : Bytes) (old : Nat) : Int × Nat × Bytes :=
  match fscanDec infile with
  | (r, none, left) => (r, old, left)
  | (r, some v, left) => (r, if 2 ^ 64 ≤ v then 2 ^ 64 - 1 else v, left)

/-- PQCgenKAT_sign.c:56-66: one request; `tmp` are the uninitialised locals of the generator's update function. -/
def requestStep (aes : Aes) (tmp : Nat → Vector UInt8 48) (i : Nat)
    (s : Drbg × Vector UInt8 48 × Vector UInt8 3300 × Bytes) :
    C (Drbg × Vector UInt8 48 × Vector UInt8 3300 × Bytes) := do
  let (st, seed, msg, req) := s
  let req := req ++ ascii "count = " ++ dec i ++ ascii "\n"
  let (st, seed) ← randombytes aes st (tmp (2 * i)) seed 48
  let t ← fprintBstr (ascii "seed = ") seed 48
  let req := req ++ t
  let mlen := 33 * (i + 1)
  let req := req ++ ascii "mlen = " ++ dec mlen ++ ascii "\n"
  let (st, msg) ← randombytes aes st (tmp (2 * i + 1)) msg mlen
  let t ← fprintBstr (ascii "msg = ") msg mlen
  let req := req ++ t
  let req := req ++ ascii "pk =\n"
  let req := req ++ ascii "sk =\n"
  let req := req ++ ascii "smlen =\n"
  let req := req ++ ascii "sm =\n\n"
  pure (st, seed, msg, req)

/-- PQCgenKAT_sign.c:49-67: the request file with `n` requests (the program writes 100), and what is left in `seed`. -/
def requestFile (aes : Aes) (tmp : Nat → Vector UInt8 48) (tmp0 : Vector UInt8 48) (st : Drbg)
    (entropy seed : Vector UInt8 48) (msg : Vector UInt8 3300) (n : Nat) : C (Bytes × Vector UInt8 48) := do
  let entropy ← forUp 48 (fun i entropy => wrB entropy i i) entropy
  let st ← randombytesInit aes st tmp0 entropy none
  let (_, seed, _, req) ← forUp n (requestStep aes tmp) (st, seed, msg, [])
  pure (req, seed)

/-- Uninitialised memory of one iteration of the response loop. -/
structure KatStale (p : Params) where
  line : Vector UInt8 maxMarkerLen
  keygen : Nat → Stale p
  sign : Nat → Stale p
  verify : Nat → Stale p

/-- The variables that survive an iteration of the response loop. -/
structure KatVars where
  count : Nat
  seed : Vector UInt8 48
  mlen : Nat

variable {p : Params}

/-- PQCgenKAT_sign.c:110-154: keys, signature and check for one request; `.inl` is `return`. -/
def responseBody (fuel : Nat) (sl : KatStale p) (rng : Inc) (infile rsp : Bytes) (mlen : Nat) :
    C ((Int × Bytes) ⊕ (Bytes × Bytes)) := do
  let (ok, m, infile) ← readHex sl.line infile (Vector.replicate mlen 0) mlen (ascii "msg = ")
  if ok = 0 then pure (.inl (-3, rsp))
  else do
    let t ← fprintBstr (ascii "msg = ") m mlen
    let rsp := rsp ++ t
    let (pk, sk, rng) ← cryptoSignKeypair (p := p) fuel sl.keygen rng
    let t ← fprintBstr (ascii "pk = ") pk p.pkLen
    let rsp := rsp ++ t
    let t ← fprintBstr (ascii "sk = ") sk p.skLen
    let rsp := rsp ++ t
    let (sm, smlen, _) ← cryptoSign (p := p) fuel sl.sign rng (Vector.replicate (mlen + p.sigLen) 0) m.toList sk
    let rsp := rsp ++ ascii "smlen = " ++ dec smlen ++ ascii "\n"
    let t ← fprintBstr (ascii "sm = ") sm smlen
    let rsp := rsp ++ t
    let rsp := rsp ++ ascii "\n"
    let signed ← slice sm 0 smlen
    let (ret, m1) ← cryptoSignOpen (p := p) fuel sl.verify (mlen + p.sigLen) (toVec smlen signed) pk
    if ret ≠ 0 then pure (.inl (-4, rsp))
    else
      match m1 with
      | none => .error .oob
      | some m1 =>
        if mlen ≠ m1.length then pure (.inl (-4, rsp))
        else if m.toList ≠ m1 then pure (.inl (-4, rsp))
        else pure (.inr (infile, rsp))

/-- PQCgenKAT_sign.c:79-154: one iteration of the response loop; `.inl` leaves the loop with the program's result. -/
def responseStep (fuel : Nat) (sl : KatStale p) (v : KatVars) (infile rsp : Bytes) :
    C ((Int × Bytes) ⊕ (KatVars × Bytes × Bytes)) := do
  let (found, infile) ← findMarker sl.line infile (ascii "count = ")
  if found = 0 then pure (.inl (0, rsp))
  else do
    let (ret, count, infile) ← fscanInt infile v.count
    if ret = 0 then pure (.inl (-3, rsp))
    else do
      let rsp := rsp ++ ascii "count = " ++ dec count ++ ascii "\n"
      let (ok, seed, infile) ← readHex sl.line infile v.seed 48 (ascii "seed = ")
      if ok = 0 then pure (.inl (-3, rsp))
      else do
        let t ← fprintBstr (ascii "seed = ") seed 48
        let rsp := rsp ++ t
        let rng := initCsprng p seed.toList
        let (found, infile) ← findMarker sl.line infile (ascii "mlen = ")
        if found = 0 then pure (.inl (-3, rsp))
        else do
          let (ret, mlen, infile) := fscanULL infile v.mlen
          if ret = 0 then pure (.inl (-3, rsp))
          else do
            let rsp := rsp ++ ascii "mlen = " ++ dec mlen ++ ascii "\n"
            match ← responseBody fuel sl rng infile rsp mlen with
            | .inl r => pure (.inl r)
            | .inr (infile, rsp) => pure (.inr (⟨count, seed, mlen⟩, infile, rsp))

/-- PQCgenKAT_sign.c:78-156: the response loop; every iteration reads a marker, so the length of the file bounds their
number. -/
def responseLoop (fuel : Nat) (sl : Nat → KatStale p) : (iter : Nat) → KatVars → (infile rsp : Bytes) → C (Int × Bytes)
  | 0, _, _, _ => .error .fuel
  | n + 1, v, infile, rsp => do
    match ← responseStep fuel (sl n) v infile rsp with
    | .inl r => pure r
    | .inr (v, infile, rsp) => responseLoop fuel sl n v infile rsp

/-- PQCgenKAT_sign.c:24-162 `main` with `n` requests (100 in the program): the returned value, the request file and the
response file. -/
def katMain (aes : Aes) (tmp : Nat → Vector UInt8 48) (tmp0 : Vector UInt8 48) (st : Drbg) (entropy : Vector UInt8 48)
    (msg : Vector UInt8 3300) (v : KatVars) (fuel : Nat) (sl : Nat → KatStale p) (n : Nat) : C (Int × Bytes × Bytes) := do
  let (req, seed) ← requestFile aes tmp tmp0 st entropy v.seed msg n
  let rsp := ascii "# " ++ ascii "LESS" ++ ascii "\n\n"
  let (ret, rsp) ← responseLoop fuel sl (req.length + 1) { v with seed := seed } req rsp
  pure (ret, req, rsp)

end LESS.Kat
