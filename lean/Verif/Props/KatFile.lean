import Verif.Proofs.KatRun
/-!
# The test-vector program (C52)

`aes` is the block cipher, arbitrary.  All uninitialised memory is arbitrary.
-/
namespace LESS.Kat
open LESS Spec Spec.Kat

variable {p : Params}

/-- C52, searching a marker: for every file, every marker of any length and whatever the window contained, `FindMarker`
stops right after the first occurrence of the marker's first 49 characters, and reports failure iff there is none. -/
theorem C52_find_marker (line : Vector UInt8 maxMarkerLen) (infile marker : Bytes)
    (hz : (0 : UInt8) ∉ marker) : findMarker line infile marker = .ok (match afterFirst (marker.take 49) infile with
      | some rest => (1, rest)
      | none => (0, [])) := findMarker_take line infile marker hz

/-- `afterFirst` means what it says: the text before the occurrence contains no earlier one. -/
theorem C52_after_first (marker infile rest : Bytes) : afterFirst marker infile = some rest →
    ∃ before, infile = before ++ marker ++ rest ∧
      ∀ before' rest', infile = before' ++ marker ++ rest' → before.length ≤ before'.length := by
  induction infile with
  | nil =>
    intro h
    rw [afterFirst] at h
    by_cases hm : marker = []
    · rw [if_pos hm] at h
      cases h
      exact ⟨[], by simp [hm], fun _ _ _ => Nat.zero_le _⟩
    · rw [if_neg hm] at h; cases h
  | cons c t ih =>
    intro h
    rw [afterFirst] at h
    by_cases hm : marker <+: c :: t
    · rw [if_pos hm] at h
      cases h
      refine ⟨[], ?_, fun _ _ _ => Nat.zero_le _⟩
      obtain ⟨r, hr⟩ := hm
      rw [← hr, List.nil_append, List.drop_left]
    · rw [if_neg hm] at h
      obtain ⟨b, e, hmin⟩ := ih h
      refine ⟨c :: b, by rw [e]; rfl, ?_⟩
      intro b' r' e'
      cases b' with
      | nil => exact absurd ⟨r', e'.symm⟩ hm
      | cons c' b' =>
        rw [List.cons_append, List.cons_append, List.cons.injEq] at e'
        exact Nat.succ_le_succ (hmin b' r' e'.2)

example : findMarker (Vector.replicate _ 7) (text "smsm = 1\nsm = 2\n") (text "sm = ") = .ok (1, text "1\nsm = 2\n") := by
  rw [C52_find_marker _ _ _ (by decide)]; decide +kernel

/-- A marker of 60 characters: the last 11 are not compared. -/
example : findMarker (Vector.replicate _ 7) (List.replicate 3 98 ++ List.replicate 49 97 ++ text "rest") (List.replicate 60 97) =
    .ok (1, text "rest") := by
  rw [C52_find_marker _ _ _ (by decide)]; decide +kernel

/-- C52, reading a field: for every file, `ReadHex` returns 1 iff the marker occurs; the array then holds, right aligned,
the number denoted by the digits that follow (upper or lower case, however many), and is zero otherwise. -/
theorem C52_read_hex {n : Nat} (line : Vector UInt8 maxMarkerLen) (infile : Bytes) (A : Vector UInt8 n) (len : Nat) (str : Bytes)
    (h0 : 0 < len) (hn : len ≤ n) (h32 : len ≤ 2 ^ 32) (hlen : str.length < maxMarkerLen) (hz : (0 : UInt8) ∉ str) :
    ∃ A', readHex line infile A len str = .ok (match afterFirst str infile with
      | some r => (1, A', fieldRest r)
      | none => (0, A', [])) ∧
      num (seg A' 0 len) = (match afterFirst str infile with | some r => hexValue (fieldDigits r) % 256 ^ len | none => 0) ∧
      ∀ i, len ≤ i → i < n → g A' i = g A i := by
  rw [readHex_eq line infile A len str h0 hn h32 hlen hz]
  have hs : ∀ N, seg (blitV A 0 (be len N)) 0 len = be len N := by
    intro N
    apply List.ext_getElem (by rw [be_length]; simp)
    intro i h1 h2
    have hi : i < len := by simpa using h1
    rw [← getD_of_lt _ _ h1, ← getD_of_lt _ _ h2, getD_seg _ _ _ _ hi, Nat.zero_add, g_blitV _ _ _ _ (by omega),
      if_pos (by rw [be_length]; omega), Nat.sub_zero]
  have hrest : ∀ N i, len ≤ i → i < n → g (blitV A 0 (be len N)) i = g A i := by
    intro N i h hi
    rw [g_blitV _ _ _ _ hi, if_neg (by rw [be_length]; omega)]
  cases afterFirst str infile with
  | none => exact ⟨_, rfl, by rw [hs, num_be, Nat.zero_mod], hrest 0⟩
  | some r => exact ⟨_, rfl, by rw [hs, num_be], hrest _⟩

/-- C52, hexadecimal round trip: what `fprintBstr` writes, `ReadHex` reads back, for every non-empty byte string, whatever
precedes the label (without containing it) and follows the line. -/
theorem C52_hex_round_trip {k n : Nat} (line : Vector UInt8 maxMarkerLen) (B : Vector UInt8 k) (A : Vector UInt8 n)
    (str pre rest : Bytes) (len : Nat) (h0 : 0 < len) (hk : len ≤ k) (hn : len ≤ n) (h32 : len ≤ 2 ^ 32)
    (hlen : str.length < maxMarkerLen) (hz : (0 : UInt8) ∉ str) (hne : str ≠ [])
    (hc : ∀ j < pre.length, (pre.drop j ++ str).take str.length ≠ str) :
    ∃ out A', fprintBstr str B len = .ok out ∧ readHex line (pre ++ out ++ rest) A len str = .ok (1, A', rest) ∧
      (∀ i < len, g A' i = g B i) ∧ ∀ i, len ≤ i → i < n → g A' i = g A i := by
  have hs : (seg B 0 len).length = len := by simp
  refine ⟨_, blitV A 0 (seg B 0 len), fprintBstr_eq str B len hk h0, ?_, ?_, ?_⟩
  · have := readHex_written line A str pre (seg B 0 len) rest (by omega) (by omega) (by omega) hlen hz hne hc
    rw [hs] at this
    rw [← this, show text "\n" = [10] from by decide]
    simp only [List.append_assoc, List.cons_append, List.nil_append]
  · intro i hi
    rw [g_blitV _ _ _ _ (by omega), if_pos (by rw [hs]; omega), Nat.sub_zero, getD_seg _ _ _ _ hi, Nat.zero_add]
  · intro i h hi
    rw [g_blitV _ _ _ _ hi, if_neg (by rw [hs]; omega)]

example : ∃ out A', fprintBstr (text "sk = ") (#v[0, 0xAB, 0xFF] : Vector UInt8 3) 3 = .ok out ∧
    readHex (Vector.replicate _ 9) (text "pk = 00\nsm = 1\n" ++ out ++ text "x") (Vector.replicate 5 1) 3 (text "sk = ") =
      .ok (1, A', text "x") ∧ g A' 1 = 0xAB ∧ g A' 4 = 1 := by
  obtain ⟨out, A', h1, h2, h3, h4⟩ := C52_hex_round_trip (Vector.replicate _ 9) (#v[0, 0xAB, 0xFF] : Vector UInt8 3)
    (Vector.replicate 5 1) (text "sk = ") (text "pk = 00\nsm = 1\n") (text "x") 3 (by decide) (by decide) (by decide)
    (by decide) (by decide) (by decide) (by decide) (by decide)
  exact ⟨out, A', h1, h2, by rw [h3 1 (by decide)]; rfl, by rw [h4 4 (by decide) (by decide)]; rfl⟩

/-- C52, the length zero is not handled: `ReadHex` stores a byte into the empty array. -/
theorem C52_fails_zero_length (line : Vector UInt8 maxMarkerLen) (infile : Bytes) (A : Vector UInt8 0) (str : Bytes) :
    readHex line infile A 0 str = .error .oob := rfl

/-- C52, decimal round trip. -/
theorem C52_decimal_round_trip (n : Nat) (rest : Bytes) : dec n = decimal n ∧
    fscanDec (dec n ++ 10 :: rest) = (1, some n, 10 :: rest) := ⟨dec_eq n, fscanDec_eq n rest⟩

/-- C52, the files: for every parameter set and every contents of uninitialised memory, the program touches no memory
out of bounds; the request file is the one determined by the counter-mode generator with the fixed entropy `0, 1, …, 47`;
the response file answers the requests in order, each with keys and a signature made by `crypto_sign_keypair` and
`crypto_sign` from a generator seeded with that request's seed alone; the program returns 0 after `n` responses, or -4
right after the first response whose signed message `crypto_sign_open` refuses. -/
theorem C52_files (hp : p.WF) (aes : Aes) (tmp : Nat → Vector UInt8 48) (tmp0 : Vector UInt8 48) (st : Drbg)
    (entropy : Vector UInt8 48) (msg : Vector UInt8 3300) (v : KatVars) (fuel : Nat) (sl : Nat → KatStale p) (n : Nat)
    (hn : n ≤ 100) :
    katMain aes tmp tmp0 st entropy msg v fuel sl n ≠ .error .oob ∧
    ∀ ret req rsp, katMain aes tmp tmp0 st entropy msg v fuel sl n = .ok (ret, req, rsp) →
      req = ((List.range n).map fun i => request i (requestSeed aes i) (requestMsg aes i)).flatten ∧
      ∃ out, Responses p fuel aes n 0 ret out ∧ rsp = text "# LESS\n\n" ++ out := by
  have h := katMain_wp hp aes tmp tmp0 st entropy msg v fuel sl n hn
  constructor
  · intro e; rw [e] at h; exact h
  · intro ret req rsp e; exact h.of_ok e

/-- The program returns, whatever uninitialised memory contains, if for every request the scheme's own functions return
for some contents (the rejection samplers finish within the bound).  Reading the request file back never makes it stop. -/
theorem C52_returns (hp : p.WF) (aes : Aes) (tmp : Nat → Vector UInt8 48) (tmp0 : Vector UInt8 48) (st : Drbg)
    (entropy : Vector UInt8 48) (msg : Vector UInt8 3300) (v : KatVars) (fuel : Nat) (sl : Nat → KatStale p) (n : Nat)
    (hn : n ≤ 100) (hruns : ∀ i < n, Runs p fuel (requestSeed aes i) (requestMsg aes i)) :
    ∃ r, katMain aes tmp tmp0 st entropy msg v fuel sl n = .ok r := by
  have h := katMain_wp hp aes tmp tmp0 st entropy msg v fuel sl n hn
  generalize katMain aes tmp tmp0 st entropy msg v fuel sl n = x at h ⊢
  obtain ⟨r, e, -⟩ := (h.monoF (fun hF => hF hruns)).exists_ok
  exact ⟨r, e⟩

theorem responses_zero (p : Params) (fuel : Nat) (E : Cipher)
    (hall : ∀ i resp ok, KatRun p fuel i (requestSeed E i) (requestMsg E i) resp ok → ok = true) :
    ∀ k i ret out, Responses p fuel E k i ret out → ret = 0 := by
  intro k
  induction k with
  | zero => intro i ret out h; exact h.1
  | succ k ih =>
    rintro i ret out ⟨resp, ok, ⟨run⟩, h⟩
    cases hall _ _ _ run
    obtain ⟨out', h', -⟩ := h
    exact ih _ _ _ h'

/-- C52, no refusal: for the parameter sets whose signatures never publish the maximal number of seeds (all but
category 1 BALANCED and INTERMEDIATE, see `C02_strict_sets`), a run that ends returns 0. -/
theorem C52_returns_zero (hp : p.WF) (hstrict : p.worstSeeds < p.maxPublishedSeeds) (aes : Aes) (tmp : Nat → Vector UInt8 48)
    (tmp0 : Vector UInt8 48) (st : Drbg) (entropy : Vector UInt8 48) (msg : Vector UInt8 3300) (v : KatVars) (fuel : Nat)
    (sl : Nat → KatStale p) (n : Nat) (hn : n ≤ 100) {ret : Int} {req rsp : Bytes}
    (h : katMain aes tmp tmp0 st entropy msg v fuel sl n = .ok (ret, req, rsp)) : ret = 0 := by
  obtain ⟨-, out, ho, -⟩ := (C52_files hp aes tmp tmp0 st entropy msg v fuel sl n hn).2 _ _ _ h
  refine responses_zero p fuel aes ?_ _ _ _ _ ho
  intro i resp ok run
  have hr := initCsprng_ok p (requestSeed aes i)
  rw [run.accepted]
  obtain ⟨root, salt, ⟨count, hc1, hc2, hlen, hcb, hS, -⟩, -, -⟩ :=
    sign_signedMessage hp (rngOk_keygen hp hr run.keygen) run.cap run.sign
  rw [hcb]
  obtain ⟨-, v, coms, G0, -, hv, -, -, hcount, -⟩ := hS
  have := pubCount_le_worst hp (hides v) (by rw [hiddenSet_card, hv.weight])
  unfold pubCount at this
  omega

/-- Every run is determined by the request. -/
theorem KatRun.unique (hp : p.WF) {fuel fuel' i : Nat} {seed msg resp resp' : Bytes} {ok ok' : Bool}
    (a : KatRun p fuel i seed msg resp ok) (b : KatRun p fuel' i seed msg resp' ok') : resp = resp' ∧ ok = ok' := by
  have hr := initCsprng_ok p seed
  obtain ⟨s, hs⟩ := exists_stream p _ hr
  have sa := ((cryptoSignKeypair_wp hp _ _ _ s hs).of_ok a.keygen).2.2
  have sb := ((cryptoSignKeypair_wp hp _ _ _ s hs).of_ok b.keygen).2.2
  have keys : a.pk = b.pk ∧ a.sk = b.sk := by
    have ka := a.keygen
    have kb := b.keygen
    unfold cryptoSignKeypair at ka kb
    cases ea : lessKeygen fuel a.slk (initCsprng p seed) with
    | error e => rw [ea] at ka; cases ka
    | ok x =>
      cases eb : lessKeygen fuel' b.slk (initCsprng p seed) with
      | error e => rw [eb] at kb; cases kb
      | ok y =>
        obtain ⟨sk, pk, r⟩ := x
        obtain ⟨sk', pk', r'⟩ := y
        obtain ⟨rfl, rfl⟩ := C47_keygen_no_stale_dependence hp hr ea eb
        rw [ea, ok_bind] at ka
        rw [eb, ok_bind] at kb
        have ka' := Except.ok.inj ka
        have kb' := Except.ok.inj kb
        rw [Prod.mk.injEq, Prod.mk.injEq] at ka' kb'
        exact ⟨ka'.1.symm.trans kb'.1, ka'.2.1.symm.trans kb'.2.1⟩
  obtain ⟨hpk, hsk⟩ := keys
  have sigb := b.sign
  rw [← hsk] at sigb
  obtain ⟨hl, hbytes⟩ := sign_same_stream hp sa sb a.cap b.cap a.sign sigb
  have hseg : seg a.sm 0 a.smlen = seg b.sm 0 b.smlen := by
    rw [← hl]
    unfold seg
    apply List.map_congr_left
    intro k hk
    rw [Nat.zero_add, hbytes k (List.mem_range.1 hk)]
  obtain ⟨root, salt, hsm⟩ := sign_signedMessage hp sa.1 a.cap a.sign
  have hpos := hsm.smlen_le.1
  refine ⟨?_, ?_⟩
  · rw [a.resp, b.resp, hpk, hsk, hseg]
  · rw [Bool.eq_iff_iff, a.accepted, b.accepted, ← hl, hbytes _ (by omega)]

theorem responses_unique (hp : p.WF) (E : Cipher) {fuel fuel' : Nat} : ∀ k i ret ret' out out',
    Responses p fuel E k i ret out → Responses p fuel' E k i ret' out' → ret = ret' ∧ out = out' := by
  intro k
  induction k with
  | zero => rintro i ret ret' out out' ⟨rfl, rfl⟩ ⟨rfl, rfl⟩; exact ⟨rfl, rfl⟩
  | succ k ih =>
    rintro i ret ret' out out' ⟨resp, ok, ⟨run⟩, h⟩ ⟨resp', ok', ⟨run'⟩, h'⟩
    obtain ⟨rfl, rfl⟩ := run.unique hp run'
    cases ok with
    | false =>
      obtain ⟨rfl, rfl⟩ := h
      obtain ⟨rfl, rfl⟩ := h'
      exact ⟨rfl, rfl⟩
    | true =>
      obtain ⟨o, h1, rfl⟩ := h
      obtain ⟨o', h1', rfl⟩ := h'
      obtain ⟨rfl, rfl⟩ := ih _ _ _ _ _ h1 h1'
      exact ⟨rfl, rfl⟩

/-- C52, reproducibility: two executions of the program produce the same files and the same result, whatever the
contents of uninitialised memory in either. -/
theorem C52_reproducible (hp : p.WF) (aes : Aes) {n : Nat} (hn : n ≤ 100)
    {tmp tmp' : Nat → Vector UInt8 48} {tmp0 tmp0' : Vector UInt8 48} {st st' : Drbg} {entropy entropy' : Vector UInt8 48}
    {msg msg' : Vector UInt8 3300} {v v' : KatVars} {fuel fuel' : Nat} {sl sl' : Nat → KatStale p}
    {r r' : Int × Bytes × Bytes} (h : katMain aes tmp tmp0 st entropy msg v fuel sl n = .ok r)
    (h' : katMain aes tmp' tmp0' st' entropy' msg' v' fuel' sl' n = .ok r') : r = r' := by
  obtain ⟨ret, req, rsp⟩ := r
  obtain ⟨ret', req', rsp'⟩ := r'
  obtain ⟨rfl, out, ho, rfl⟩ := (C52_files hp aes _ _ _ _ _ _ _ _ n hn).2 _ _ _ h
  obtain ⟨rfl, out', ho', rfl⟩ := (C52_files hp aes _ _ _ _ _ _ _ _ n hn).2 _ _ _ h'
  obtain ⟨rfl, rfl⟩ := responses_unique hp aes _ _ _ _ _ _ ho ho'
  rfl

theorem bind_result {α β : Type} {x : C α} {f : α → C β} {b : β} (h : (x >>= f) = .ok b) :
    ∃ a, x = .ok a ∧ f a = .ok b := by
  cases x with
  | error e => cases h
  | ok a => exact ⟨a, rfl, h⟩

theorem responseBody_result {fuel : Nat} {sl : KatStale p} {rng : Inc} {infile rsp out : Bytes} {mlen : Nat} {ret : Int}
    (h : responseBody fuel sl rng infile rsp mlen = .ok (.inl (ret, out))) : ret = -3 ∨ ret = -4 := by
  unfold responseBody at h
  obtain ⟨⟨ok, m, infile'⟩, -, h⟩ := bind_result h
  dsimp only at h
  split at h
  · cases h; exact Or.inl rfl
  · obtain ⟨_, -, h⟩ := bind_result h
    obtain ⟨⟨pk, sk, rng'⟩, -, h⟩ := bind_result h
    obtain ⟨_, -, h⟩ := bind_result h
    obtain ⟨_, -, h⟩ := bind_result h
    obtain ⟨⟨sm, smlen, _⟩, -, h⟩ := bind_result h
    obtain ⟨_, -, h⟩ := bind_result h
    obtain ⟨_, -, h⟩ := bind_result h
    obtain ⟨⟨r, m1⟩, -, h⟩ := bind_result h
    dsimp only at h
    split at h
    · cases h; exact Or.inr rfl
    · cases m1 with
      | none => cases h
      | some m1 =>
        dsimp only at h
        split at h
        · cases h; exact Or.inr rfl
        · split at h
          · cases h; exact Or.inr rfl
          · cases h

/-- C52, other request files: whatever the file contains, an iteration ends the program with result 0 only if no further
request follows, and otherwise with -3 or -4. -/
theorem C52_success_at_end {fuel : Nat} {sl : KatStale p} {v : KatVars} {infile rsp out : Bytes} {ret : Int}
    (h : responseStep fuel sl v infile rsp = .ok (.inl (ret, out))) :
    ret = 0 ∧ out = rsp ∧ afterFirst (text "count = ") infile = none ∨ ret = -3 ∨ ret = -4 := by
  unfold responseStep at h
  rw [ascii_eq "count = ", findMarker_eq _ _ _ (by decide) (by decide), ok_bind] at h
  cases hc : afterFirst (text "count = ") infile with
  | none =>
    rw [hc] at h
    cases h
    exact Or.inl ⟨rfl, rfl, rfl⟩
  | some rest =>
    rw [hc] at h
    refine Or.inr ?_
    dsimp only at h
    rw [if_neg (by decide)] at h
    obtain ⟨⟨r, count, infile'⟩, -, h⟩ := bind_result h
    dsimp only at h
    split at h
    · cases h; exact Or.inl rfl
    · obtain ⟨⟨ok, seed, infile2⟩, -, h⟩ := bind_result h
      dsimp only at h
      split at h
      · cases h; exact Or.inl rfl
      · obtain ⟨_, -, h⟩ := bind_result h
        obtain ⟨⟨found, infile3⟩, -, h⟩ := bind_result h
        dsimp only at h
        split at h
        · cases h; exact Or.inl rfl
        · generalize fscanULL infile3 v.mlen = sc at h
          obtain ⟨r, mlen, infile4⟩ := sc
          dsimp only at h
          split at h
          · cases h; exact Or.inl rfl
          · obtain ⟨o, ho, h⟩ := bind_result h
            cases o with
            | inl r =>
              cases h
              exact responseBody_result ho
            | inr r => cases h

/-- A file without a request. -/
example (fuel : Nat) (sl : KatStale p) (v : KatVars) :
    responseStep fuel sl v (text "seed = 00") [7] = .ok (.inl (0, [7])) := by
  unfold responseStep
  rw [ascii_eq "count = ", findMarker_eq _ _ _ (by decide) (by decide), ok_bind,
    show afterFirst (text "count = ") (text "seed = 00") = none by decide +kernel]
  rfl

end LESS.Kat
