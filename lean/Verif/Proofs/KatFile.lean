import Verif.Proofs.KatRng
import Verif.Model.KatFile
import Verif.Spec.KatFile
import Mathlib.Data.Nat.Digits.Lemmas
/-!
# The test-vector files: markers, hexadecimal fields, decimal numbers
-/
namespace LESS.Kat
open LESS Spec.Kat

theorem ascii_eq (s : String) : ascii s = text s := rfl

/-! ## Searching a marker -/

theorem afterFirst_short (m : Bytes) : ∀ s : Bytes, s.length < m.length → afterFirst m s = none := by
  intro s
  induction s with
  | nil => intro h; unfold afterFirst; rw [if_neg]; rintro rfl; simp at h
  | cons c t ih =>
    intro h
    unfold afterFirst
    rw [if_neg (fun hp => by have := hp.length_le; omega), ih (by simp at h; omega)]

theorem afterFirst_hit (m s : Bytes) (h : m <+: s) : afterFirst m s = some (s.drop m.length) := by
  cases s with
  | nil => obtain rfl := List.prefix_nil.1 h; rfl
  | cons c t => unfold afterFirst; rw [if_pos h]

theorem afterFirst_miss (m s : Bytes) (h : ¬ m <+: s) : afterFirst m s = afterFirst m s.tail := by
  cases s with
  | nil => rfl
  | cons c t => conv_lhs => unfold afterFirst
                rw [if_neg h]; rfl

theorem seg_eq_take {k : Nat} (line : Vector UInt8 k) (m : Bytes) (n : Nat) (hn : n ≤ m.length) :
    seg line 0 n = m.take n ↔ ∀ j < n, g line j = m.getD j 0 := by
  constructor
  · intro h j hj
    have := getD_seg line 0 n j hj
    rw [h, Nat.zero_add] at this
    rw [← this, getD_of_lt _ _ (by simp; omega), getD_of_lt _ _ (by omega), List.getElem_take]
  · intro h
    apply List.ext_getElem
    · simp [hn]
    · intro i h1 h2
      simp only [seg_length] at h1
      rw [getElem_seg, Nat.zero_add, h i h1, List.getElem_take, getD_of_lt _ _ (by omega)]

theorem strncmpEq_eq {k : Nat} (line : Vector UInt8 k) (marker : Bytes) (n : Nat) (hn : n ≤ marker.length) (hk : n ≤ k)
    (hz : (0 : UInt8) ∉ marker) : strncmpEq line marker n = .ok (decide (seg line 0 n = marker.take n)) := by
  apply Wp.eq_ok
  unfold strncmpEq
  rw [Wp.bind_iff]
  refine Wp.forRet (I := fun i _ => ∀ j < i, g line j = marker.getD j 0)
    (R := fun b => b = decide (seg line 0 n = marker.take n)) ?_ ?_ ?_ ?_
  · intro j hj; omega
  · intro i _ hi hI
    rw [Wp.bind_iff, Wp.rd_iff]
    refine ⟨by omega, ?_⟩
    rw [if_pos (by omega)]
    simp only [pure_bind]
    have hne : marker.getD i 0 ≠ 0 := by
      rw [getD_of_lt _ _ (by omega)]
      intro h
      exact hz (h ▸ List.getElem_mem _)
    by_cases h : g line i = marker.getD i 0
    · rw [if_neg (by simpa using h), if_neg (by rw [h]; exact hne)]
      intro j hj
      by_cases e : j = i
      · rw [e, h]
      · exact hI j (by omega)
    · rw [if_pos h]
      show false = _
      symm
      rw [decide_eq_false_iff_not, seg_eq_take _ _ _ hn]
      intro hall
      exact h (hall i hi)
  · intro r h; exact h
  · intro _ h
    show true = _
    symm
    rw [decide_eq_true_iff, seg_eq_take _ _ _ hn]
    exact h

theorem shiftLine_wp {k : Nat} (line : Vector UInt8 k) (len : Nat) (hk : len ≤ k) :
    Wp False (shiftLine line len) (fun l => ∀ j < k, g l j = if j + 1 < len then g line (j + 1) else g line j) := by
  unfold shiftLine
  refine Wp.forUp (I := fun i l => ∀ j < k, g l j = if j < i then g line (j + 1) else g line j) ?_ ?_ ?_
  · intro j _; rw [if_neg (by omega)]
  · intro i l hi hI
    rw [Wp.bind_iff, Wp.rd_iff]
    refine ⟨by omega, ?_⟩
    rw [Wp.wr_iff]
    refine ⟨by omega, ?_⟩
    intro j hj
    rw [g_upd _ _ _ _ (by omega), hI (i + 1) (by omega), hI j hj, if_neg (show ¬ i + 1 < i by omega)]
    by_cases e : i = j
    · rw [if_pos e, if_pos (by omega), e]
    · rw [if_neg e]
      by_cases h : j < i
      · rw [if_pos h, if_pos (by omega)]
      · rw [if_neg h, if_neg (by omega)]
  · intro l h j hj
    rw [h j hj]
    by_cases c : j + 1 < len
    · rw [if_pos c, if_pos (by omega)]
    · rw [if_neg c, if_neg (by omega)]

theorem findLoop_eq (marker : Bytes) (len : Nat) (hlen : len ≤ marker.length) (h49 : len < maxMarkerLen)
    (hz : (0 : UInt8) ∉ marker) : ∀ (infile : Bytes) (line : Vector UInt8 maxMarkerLen),
    findLoop marker len infile line =
      .ok (match afterFirst (marker.take len) (seg line 0 len ++ infile) with | some r => (1, r) | none => (0, [])) := by
  have hm : (marker.take len).length = len := by simp [hlen]
  intro infile
  induction infile with
  | nil =>
    intro line
    unfold findLoop
    rw [strncmpEq_eq _ _ _ hlen (by omega) hz, ok_bind]
    by_cases h : seg line 0 len = marker.take len
    · rw [if_pos (by simpa using h), List.append_nil, h, afterFirst_hit _ _ (List.prefix_refl _), List.drop_length]
      rfl
    · rw [if_neg (by simpa using h), List.append_nil, afterFirst_miss]
      · have h0 : len ≠ 0 := by rintro rfl; exact h (by simp [seg])
        obtain ⟨l, e, -⟩ := (shiftLine_wp line len (by omega)).exists_ok
        rw [e, ok_bind, wr_ok _ _ _ (by omega), ok_bind, afterFirst_short]
        · rfl
        · rw [List.length_tail, seg_length, hm]; omega
      · intro hp
        exact h (hp.eq_of_length (by rw [hm, seg_length])).symm
  | cons c infile ih =>
    intro line
    unfold findLoop
    rw [strncmpEq_eq _ _ _ hlen (by omega) hz, ok_bind]
    by_cases h : seg line 0 len = marker.take len
    · rw [if_pos (by simpa using h), h, afterFirst_hit _ _ (List.prefix_append _ _), List.drop_left]
      rfl
    · rw [if_neg (by simpa using h), afterFirst_miss]
      · have h0 : len ≠ 0 := by rintro rfl; exact h (by simp [seg])
        obtain ⟨l, e, hl⟩ := (shiftLine_wp line len (by omega)).exists_ok
        rw [e, ok_bind, wr_ok _ _ _ (by omega), ok_bind, wr_ok _ _ _ (by omega), ok_bind, ih]
        have : seg (upd (upd l (len - 1) c) len 0) 0 len ++ infile = (seg line 0 len ++ c :: infile).tail := by
          obtain ⟨n, rfl⟩ := Nat.exists_eq_succ_of_ne_zero h0
          rw [show seg line 0 (n + 1) = seg line 0 1 ++ seg line 1 n by rw [Nat.add_comm, seg_append], seg_succ,
            List.append_assoc, List.append_assoc]
          rw [show seg line 0 1 = [g line 0] by simp [seg]]
          simp only [List.singleton_append, List.tail_cons]
          congr 1
          · apply seg_ext
            intro i hi
            rw [Nat.zero_add, g_upd_ne _ _ _ _ (by omega), g_upd_ne _ _ _ _ (by omega), hl _ (by omega), if_pos (by omega),
              Nat.add_comm]
          · rw [g_upd_ne _ _ _ _ (by omega), g_upd _ _ _ _ (by omega), if_pos (by omega)]
        rw [this]
      · intro hp
        rw [List.prefix_iff_eq_take, hm, List.take_left' (seg_length _ _ _)] at hp
        exact h hp.symm

/-- The search finds the first occurrence of the first 49 characters. -/
theorem findMarker_take (line : Vector UInt8 maxMarkerLen) (infile marker : Bytes) (hz : (0 : UInt8) ∉ marker) :
    findMarker line infile marker =
      .ok (match afterFirst (marker.take 49) infile with | some r => (1, r) | none => (0, [])) := by
  have h50 : maxMarkerLen = 50 := rfl
  unfold findMarker
  have hl : ∃ len, (if maxMarkerLen - 1 < marker.length then maxMarkerLen - 1 else marker.length) = len ∧
      marker.take 49 = marker.take len ∧ len ≤ marker.length ∧ len < maxMarkerLen := by
    by_cases h : maxMarkerLen - 1 < marker.length
    · rw [if_pos h]; exact ⟨49, rfl, rfl, by omega, by decide⟩
    · rw [if_neg h]
      exact ⟨marker.length, rfl, by rw [List.take_length, List.take_of_length_le (by omega)], Nat.le_refl _, by omega⟩
  obtain ⟨len, e1, e2, hle, hlen⟩ := hl
  have hm : (marker.take len).length = len := by simp [hle]
  rw [e1, e2]
  have key : Wp False (forRet len fillStep (line, infile)) (fun o => match o with
        | .inl r => infile.length < len ∧ r = (0, [])
        | .inr (l, rest) => seg l 0 len ++ rest = infile) := by
    refine Wp.forRet (I := fun i (s : Vector UInt8 maxMarkerLen × Bytes) => seg s.1 0 i ++ s.2 = infile)
      (R := fun r => infile.length < len ∧ r = (0, [])) ?_ ?_ (fun r h => h) (fun s h => h)
    · simp [seg]
    · rintro i ⟨l, rest⟩ hi hI
      dsimp only at hI
      unfold fillStep
      cases rest with
      | nil =>
        dsimp only
        rw [Wp.bind_iff, Wp.wr_iff]
        refine ⟨by omega, ?_, rfl⟩
        rw [← hI]
        simp only [List.append_nil, seg_length]
        exact hi
      | cons c rest =>
        dsimp only
        rw [Wp.bind_iff, Wp.wr_iff]
        refine ⟨by omega, ?_⟩
        show seg (upd l i c) 0 (i + 1) ++ rest = infile
        rw [seg_succ, Nat.zero_add, g_upd_self _ _ _ (by omega), List.append_assoc, ← hI]
        congr 1
        apply seg_ext
        intro j hj
        rw [g_upd_ne _ _ _ _ (by omega)]
  obtain ⟨o, e, h⟩ := key.exists_ok
  dsimp only at e ⊢
  rw [e, ok_bind]
  cases o with
  | inl r =>
    obtain ⟨h1, rfl⟩ := h
    rw [afterFirst_short _ _ (by rw [hm]; exact h1)]
    rfl
  | inr s =>
    obtain ⟨l, rest⟩ := s
    dsimp only at h ⊢
    rw [wr_ok _ _ _ (by omega), ok_bind, findLoop_eq _ _ hle hlen hz]
    have : seg (upd l len 0) 0 len = seg l 0 len := by
      apply seg_ext
      intro j hj
      rw [g_upd_ne _ _ _ _ (by omega)]
    rw [this, h]

/-- The search finds the first occurrence. -/
theorem findMarker_eq (line : Vector UInt8 maxMarkerLen) (infile marker : Bytes) (hlen : marker.length < maxMarkerLen)
    (hz : (0 : UInt8) ∉ marker) : findMarker line infile marker =
      .ok (match afterFirst marker infile with | some r => (1, r) | none => (0, [])) := by
  have h50 : maxMarkerLen = 50 := rfl
  rw [findMarker_take _ _ _ hz, List.take_of_length_le (by omega)]

/-! ## Hexadecimal fields -/

theorem forall_byte {P : UInt8 → Prop} (h : ∀ n < 256, P (UInt8.ofNat n)) (c : UInt8) : P c := by
  have := h c.toNat c.toNat_lt
  rwa [UInt8.ofNat_toNat] at this

theorem isXDigit_eq (c : UInt8) : isXDigit c = isHex c :=
  forall_byte (P := fun c => isXDigit c = isHex c) (by decide +kernel) c

theorem ichOf_eq (c : UInt8) (h : isHex c = true) : ichOf c = hexDigitValue c :=
  forall_byte (P := fun c => isHex c = true → ichOf c = hexDigitValue c) (by decide +kernel) c h

theorem hexDigitValue_lt (c : UInt8) (h : isHex c = true) : hexDigitValue c < 16 :=
  forall_byte (P := fun c => isHex c = true → hexDigitValue c < 16) (by decide +kernel) c h

theorem isHex_ne_newline (c : UInt8) (h : isHex c = true) : c ≠ 10 :=
  forall_byte (P := fun c => isHex c = true → c ≠ 10) (by decide +kernel) c h

theorem hexDigit_eq (n : Nat) (h : n < 16) : hexDigit n = hexDigits.getD n 0 := by
  revert n; decide +kernel

theorem hex_roundtrip (n : Nat) (h : n < 16) : isHex (hexDigits.getD n 0) = true ∧ hexDigitValue (hexDigits.getD n 0) = n := by
  revert n; decide +kernel

theorem nibbles (M : Nat) : ((M / 256 % 256) <<< 4 ||| (M % 256) >>> 4) % 256 = M / 16 % 256 := by
  have h : (M % 256) >>> 4 < 2 ^ 4 := by rw [Nat.shiftRight_eq_div_pow]; omega
  rw [← Nat.shiftLeft_add_eq_or_of_lt h, Nat.shiftLeft_eq, Nat.shiftRight_eq_div_pow]
  omega

theorem be_getD (w n i : Nat) (h : i < w) : (be w n).getD i 0 = UInt8.ofNat (n / 256 ^ (w - 1 - i)) := by
  rw [getD_of_lt _ _ (by rw [be_length]; exact h)]
  simp [be]

theorem ofNat_congr {a b : Nat} (h : a % 256 = b % 256) : UInt8.ofNat a = UInt8.ofNat b := by
  apply UInt8.toNat_inj.1
  simpa using h

/-- Shifting in one digit multiplies the number by 16. -/
theorem shiftNibble_eq {n : Nat} (A : Vector UInt8 n) (len d N : Nat) (h0 : 0 < len) (hn : len ≤ n) (h32 : len ≤ 2 ^ 32)
    (hd : d < 16) : shiftNibble (blitV A 0 (be len N)) len d = .ok (blitV A 0 (be len (16 * N + d))) := by
  apply Wp.eq_ok
  unfold shiftNibble
  rw [if_neg (by omega), Wp.bind_iff]
  have val : ∀ i, i < len → g (blitV A 0 (be len N)) i = UInt8.ofNat (N / 256 ^ (len - 1 - i)) := by
    intro i hi
    rw [g_blitV _ _ _ _ (by omega), if_pos (by rw [be_length]; omega), Nat.sub_zero, be_getD _ _ _ hi]
  have oth : ∀ (N i : Nat), i < n → ¬ i < len → g (blitV A 0 (be len N)) i = g A i := by
    intro N i hi h
    rw [g_blitV _ _ _ _ hi, if_neg (by rw [be_length]; omega)]
  have new : ∀ i, i < len → g (blitV A 0 (be len (16 * N + d))) i = UInt8.ofNat ((16 * N + d) / 256 ^ (len - 1 - i)) := by
    intro i hi
    rw [g_blitV _ _ _ _ (by omega), if_pos (by rw [be_length]; omega), Nat.sub_zero, be_getD _ _ _ hi]
  refine Wp.forUp (I := fun i B => ∀ j < n, g B j = if j < i then g (blitV A 0 (be len (16 * N + d))) j
    else g (blitV A 0 (be len N)) j) ?_ ?_ ?_
  · intro j _; rw [if_neg (by omega)]
  · intro i B hi hI
    simp only [Wp.bind_iff, Wp.rdB_iff, Wp.wrB_iff]
    refine ⟨by omega, by omega, by omega, ?_⟩
    intro j hj
    rw [g_upd _ _ _ _ (by omega)]
    by_cases e : i = j
    · subst e
      rw [if_pos rfl, if_pos (by omega), hI i (by omega), hI (i + 1) (by omega), if_neg (by omega), if_neg (by omega),
        val i (by omega), val (i + 1) (by omega), new i (by omega)]
      apply ofNat_congr
      obtain ⟨k, hk⟩ : ∃ k, len - 1 - i = k + 1 := ⟨len - 2 - i, by omega⟩
      rw [hk, show len - 1 - (i + 1) = k by omega]
      have h1 : N / 256 ^ (k + 1) = N / 256 ^ k / 256 := by rw [Nat.pow_succ, Nat.div_div_eq_div_mul]
      have h2 : (16 * N + d) / 256 ^ (k + 1) = N / 256 ^ k / 16 := by
        rw [Nat.pow_succ, show 256 ^ k * 256 = 16 * (256 ^ k * 16) by omega, ← Nat.div_div_eq_div_mul,
          show (16 * N + d) / 16 = N by omega, Nat.div_div_eq_div_mul]
      rw [h1, h2]
      have h3 : ∀ x, (UInt8.ofNat x).toNat = x % 256 := by intro x; simp
      rw [h3, h3, nibbles]
    · rw [if_neg e, hI j hj]
      by_cases h : j < i
      · rw [if_pos h, if_pos (by omega)]
      · rw [if_neg h, if_neg (by omega)]
  · intro B hB
    simp only [Wp.bind_iff, Wp.rdB_iff, Wp.wrB_iff]
    refine ⟨by omega, by omega, ?_⟩
    apply vec_ext
    intro j hj
    rw [g_upd _ _ _ _ (by omega)]
    by_cases e : len - 1 = j
    · rw [if_pos e, hB _ (by omega), if_neg (by omega), val _ (by omega), ← e, new _ (by omega)]
      apply ofNat_congr
      have h3 : ∀ x, (UInt8.ofNat x).toNat = x % 256 := by intro x; simp
      rw [Nat.sub_self, Nat.pow_zero, Nat.div_one, Nat.div_one, h3, ← Nat.shiftLeft_add_eq_or_of_lt (by omega),
        Nat.shiftLeft_eq]
      omega
    · rw [if_neg e, hB j hj]
      by_cases h : j < len - 1
      · rw [if_pos h]
      · rw [if_neg h, oth _ _ hj (by omega), oth _ _ hj (by omega)]

theorem hexValue_foldl (ds : Bytes) : ∀ N, ds.foldl (fun a c => 16 * a + hexDigitValue c) N = 16 ^ ds.length * N + hexValue ds := by
  induction ds with
  | nil => intro N; simp [hexValue]
  | cons c ds ih =>
    intro N
    rw [List.foldl_cons, ih]
    conv_rhs => rw [hexValue, List.foldl_cons, ih]
    rw [List.length_cons, Nat.pow_succ, Nat.mul_add, ← Nat.mul_assoc, Nat.mul_zero, Nat.zero_add, Nat.add_assoc]

theorem hexLoop_started {n : Nat} (A : Vector UInt8 n) (len : Nat) (h0 : 0 < len) (hn : len ≤ n) (h32 : len ≤ 2 ^ 32) :
    ∀ (infile : Bytes) (N : Nat), hexLoop len infile true (blitV A 0 (be len N)) =
      .ok (blitV A 0 (be len ((infile.takeWhile isHex).foldl (fun a c => 16 * a + hexDigitValue c) N)),
        (infile.dropWhile isHex).tail) := by
  intro infile
  induction infile with
  | nil => intro N; rfl
  | cons c infile ih =>
    intro N
    unfold hexLoop
    rw [isXDigit_eq]
    by_cases h : isHex c = true
    · rw [if_pos h, ichOf_eq c h, shiftNibble_eq _ _ _ _ h0 hn h32 (hexDigitValue_lt c h), ok_bind, ih,
        List.takeWhile_cons_of_pos h, List.dropWhile_cons_of_pos h, List.foldl_cons]
    · rw [if_neg h, if_pos rfl, List.takeWhile_cons_of_neg h, List.dropWhile_cons_of_neg h]
      rfl

theorem hexLoop_eq {n : Nat} (A : Vector UInt8 n) (len : Nat) (h0 : 0 < len) (hn : len ≤ n) (h32 : len ≤ 2 ^ 32) :
    ∀ infile : Bytes, hexLoop len infile false (blitV A 0 (be len 0)) =
      .ok (blitV A 0 (be len (hexValue (fieldDigits infile))), fieldRest infile) := by
  intro infile
  induction infile with
  | nil => rfl
  | cons c infile ih =>
    unfold hexLoop
    rw [isXDigit_eq]
    by_cases h : isHex c = true
    · have hs : fieldStart (c :: infile) = c :: infile := by
        unfold fieldStart
        rw [List.dropWhile_cons_of_neg (by simp [h])]
      rw [if_pos h, ichOf_eq c h, shiftNibble_eq _ _ _ _ h0 hn h32 (hexDigitValue_lt c h), ok_bind,
        hexLoop_started _ _ h0 hn h32]
      unfold fieldDigits fieldRest hexValue
      rw [hs, List.takeWhile_cons_of_pos h, List.dropWhile_cons_of_pos h, List.foldl_cons]
    · rw [if_neg h, if_neg (by simp)]
      by_cases h10 : c = 10
      · rw [if_pos h10]
        have hs : fieldStart (c :: infile) = c :: infile := by
          unfold fieldStart
          rw [List.dropWhile_cons_of_neg (by simp [h10])]
        unfold fieldDigits fieldRest hexValue
        rw [hs, List.takeWhile_cons_of_neg h, List.dropWhile_cons_of_neg h]
        rfl
      · rw [if_neg h10, ih]
        have hs : fieldStart (c :: infile) = fieldStart infile := by
          unfold fieldStart
          rw [List.dropWhile_cons_of_pos (by simp [h, h10])]
        unfold fieldDigits fieldRest
        rw [hs]

/-- Reading a field: the number denoted by its digits, in as many bytes as asked for. -/
theorem readHex_eq {n : Nat} (line : Vector UInt8 maxMarkerLen) (infile : Bytes) (A : Vector UInt8 n) (len : Nat) (str : Bytes)
    (h0 : 0 < len) (hn : len ≤ n) (h32 : len ≤ 2 ^ 32) (hlen : str.length < maxMarkerLen) (hz : (0 : UInt8) ∉ str) :
    readHex line infile A len str = .ok (match afterFirst str infile with
      | some r => (1, blitV A 0 (be len (hexValue (fieldDigits r))), fieldRest r)
      | none => (0, blitV A 0 (be len 0), [])) := by
  have hb : (List.replicate len (0 : UInt8)) = be len 0 := by
    unfold be
    simp [List.map_const']
  have hblit : blit A 0 (List.replicate len 0) = .ok (blitV A 0 (be len 0)) := by
    apply Wp.eq_ok
    rw [Wp.blit_iff, hb]
    exact ⟨by rw [be_length]; omega, rfl⟩
  unfold readHex
  rw [if_neg (by omega), hblit, ok_bind, findMarker_eq _ _ _ hlen hz, ok_bind]
  cases afterFirst str infile with
  | none => rfl
  | some r =>
    dsimp only
    rw [if_pos (by decide), hexLoop_eq _ _ h0 hn h32, ok_bind]
    rfl

theorem hexText_nil : hexText [] = [] := rfl

theorem hexText_cons (b : UInt8) (l : Bytes) : hexText (b :: l) =
    hexDigits.getD (b.toNat / 16) 0 :: hexDigits.getD (b.toNat % 16) 0 :: hexText l := rfl

theorem hexText_append (l l' : Bytes) : hexText (l ++ l') = hexText l ++ hexText l' := by
  unfold hexText
  rw [List.map_append, List.flatten_append]

theorem hexText_isHex (l : Bytes) : ∀ c ∈ hexText l, isHex c = true := by
  induction l with
  | nil => intro c h; simp [hexText_nil] at h
  | cons b l ih =>
    have := b.toNat_lt
    intro c h
    rw [hexText_cons, List.mem_cons, List.mem_cons] at h
    rcases h with rfl | rfl | h
    · exact (hex_roundtrip _ (by omega)).1
    · exact (hex_roundtrip _ (by omega)).1
    · exact ih c h

theorem hexText_length (l : Bytes) : (hexText l).length = 2 * l.length := by
  induction l with
  | nil => rfl
  | cons b l ih => rw [hexText_cons, List.length_cons, List.length_cons, ih, List.length_cons]; omega

theorem num_cons (b : UInt8) (l : Bytes) : num (b :: l) = 256 ^ l.length * b.toNat + num l := by
  have key : ∀ (l : Bytes) (N : Nat), l.foldl (fun a b => 256 * a + b.toNat) N = 256 ^ l.length * N + num l := by
    intro l
    induction l with
    | nil => intro N; simp [num]
    | cons c l ih =>
      intro N
      rw [List.foldl_cons, ih]
      conv_rhs => rw [num, List.foldl_cons, ih]
      rw [List.length_cons, Nat.pow_succ, Nat.mul_add, ← Nat.mul_assoc, Nat.mul_zero, Nat.zero_add, Nat.add_assoc]
  rw [num, List.foldl_cons, key]
  simp

theorem hexValue_hexText (l : Bytes) : hexValue (hexText l) = num l := by
  induction l with
  | nil => rfl
  | cons b l ih =>
    have := b.toNat_lt
    rw [hexText_cons, hexValue, List.foldl_cons, List.foldl_cons, hexValue_foldl, ih, num_cons, hexText_length,
      (hex_roundtrip _ (by omega)).2, (hex_roundtrip _ (by omega)).2, Nat.pow_mul]
    congr 2
    omega

theorem fprintBstr_eq {n : Nat} (S : Bytes) (A : Vector UInt8 n) (L : Nat) (hL : L ≤ n) (h0 : 0 < L) :
    fprintBstr S A L = .ok (S ++ hexText (seg A 0 L) ++ text "\n") := by
  apply Wp.eq_ok
  unfold fprintBstr
  rw [Wp.bind_iff]
  refine Wp.forUp (I := fun i out => out = S ++ hexText (seg A 0 i)) ?_ ?_ ?_
  · simp [seg, hexText_nil]
  · rintro i out hi rfl
    rw [Wp.bind_iff, Wp.rd_iff]
    refine ⟨by omega, ?_⟩
    have := (g A i).toNat_lt
    show _ = _
    rw [seg_succ, hexText_append, Nat.zero_add, hex2, hexDigit_eq _ (by omega), hexDigit_eq _ (by omega), List.append_assoc]
    rfl
  · rintro out rfl
    rw [if_neg (by omega)]
    rfl

/-! ## Decimal numbers -/

theorem decimal_succ (n : Nat) (h : 10 ≤ n) : decimal n = decimal (n / 10) ++ [UInt8.ofNat (48 + n % 10)] := by
  unfold decimal
  rw [if_neg (by omega), if_neg (by omega), Nat.digits_def' (by decide) (by omega), List.reverse_cons, List.map_append]
  rfl

theorem decLoop_eq : ∀ f n, n < f → decLoop f n = decimal n := by
  intro f
  induction f with
  | zero => intro n h; omega
  | succ f ih =>
    intro n h
    unfold decLoop
    by_cases h10 : n < 10
    · rw [if_pos h10]
      revert h10
      revert n
      have : ∀ n < 10, [UInt8.ofNat (48 + n)] = decimal n := by
        intro n hn
        unfold decimal
        by_cases h0 : n = 0
        · subst h0; decide
        · rw [if_neg h0, Nat.digits_of_lt _ _ h0 hn]; rfl
      intro n _ hn
      exact this n hn
    · rw [if_neg h10, decimal_succ n (by omega), ih _ (by omega)]

theorem dec_eq (n : Nat) : dec n = decimal n := decLoop_eq _ _ (by omega)

theorem scanDigits_map (rest : Bytes) : ∀ (ds : List Nat), (∀ d ∈ ds, d < 10) → ∀ n acc,
    scanDigits (ds.map (fun d => UInt8.ofNat (48 + d)) ++ rest) n acc =
      scanDigits rest (n + ds.length) (ds.foldl (fun a d => 10 * a + d) acc) := by
  intro ds
  induction ds with
  | nil => intros; rfl
  | cons d ds ih =>
    intro h n acc
    have hd : d < 10 := h d List.mem_cons_self
    have hc : (48 : UInt8) ≤ UInt8.ofNat (48 + d) ∧ UInt8.ofNat (48 + d) ≤ 57 ∧ (UInt8.ofNat (48 + d)).toNat = 48 + d := by
      clear h ih; revert d; decide +kernel
    rw [List.map_cons, List.cons_append, scanDigits, if_pos ⟨hc.1, hc.2.1⟩, ih (fun d hd => h d (List.mem_cons_of_mem _ hd)), hc.2.2, List.length_cons, List.foldl_cons,
      Nat.add_sub_cancel_left, show n + 1 + ds.length = n + (ds.length + 1) by omega]

/-- The digits of a number. -/
def digs (n : Nat) : List Nat := if n = 0 then [0] else (Nat.digits 10 n).reverse

theorem decimal_digs (n : Nat) : decimal n = (digs n).map (fun d => UInt8.ofNat (48 + d)) := by
  unfold decimal digs
  split
  · rfl
  · rfl

theorem digs_lt (n : Nat) : ∀ d ∈ digs n, d < 10 := by
  unfold digs
  split
  · simp
  · intro d hd
    exact Nat.digits_lt_base (by decide) (List.mem_reverse.1 hd)

theorem digs_value (n : Nat) : (digs n).foldl (fun a d => 10 * a + d) 0 = n := by
  unfold digs
  split
  · next h => rw [h]; rfl
  · rw [List.foldl_reverse]
    have := Nat.ofDigits_digits 10 n
    rw [Nat.ofDigits_eq_foldr] at this
    conv_rhs => rw [← this]
    congr 1
    funext a b
    simp [Nat.add_comm]

theorem digs_ne (n : Nat) : digs n ≠ [] := by
  unfold digs
  split
  · simp
  · next h => simpa using Nat.digits_ne_nil_iff_ne_zero.2 h

theorem fscanDec_eq (n : Nat) (rest : Bytes) : fscanDec (dec n ++ 10 :: rest) = (1, some n, 10 :: rest) := by
  have hs : scanDigits (dec n ++ 10 :: rest) 0 0 = ((digs n).length, n, 10 :: rest) := by
    rw [dec_eq, decimal_digs, scanDigits_map _ _ (digs_lt n), Nat.zero_add, digs_value]
    unfold scanDigits
    rw [if_neg (by decide)]
  obtain ⟨d, ds, hd⟩ := List.exists_cons_of_ne_nil (digs_ne n)
  have hlt := digs_lt n d (by rw [hd]; exact List.mem_cons_self)
  have hsp : isSpace (UInt8.ofNat (48 + d)) = false := by
    clear hd; revert d; decide +kernel
  have hc : dec n ++ 10 :: rest = UInt8.ofNat (48 + d) :: (ds.map (fun d => UInt8.ofNat (48 + d)) ++ 10 :: rest) := by
    rw [dec_eq, decimal_digs, hd]; rfl
  unfold fscanDec
  rw [hc, List.dropWhile_cons_of_neg (by rw [hsp]; simp)]
  dsimp only
  rw [← hc, hs, hd]
  rfl

/-! ## Markers in the text -/

/-- No copy of the marker starts inside `pre`. -/
def Clean (pre m : Bytes) : Prop := ∀ j < pre.length, (pre.drop j ++ m).take m.length ≠ m

instance (pre m : Bytes) : Decidable (Clean pre m) := inferInstanceAs (Decidable (∀ j < pre.length, _))

theorem afterFirst_pre (m : Bytes) (hm : m ≠ []) (rest : Bytes) : ∀ pre : Bytes, Clean pre m →
    afterFirst m (pre ++ (m ++ rest)) = some rest := by
  intro pre
  induction pre with
  | nil =>
    intro _
    rw [List.nil_append]
    obtain ⟨c, t, rfl⟩ := List.exists_cons_of_ne_nil hm
    rw [List.cons_append, afterFirst, if_pos (show c :: t <+: c :: (t ++ rest) from List.prefix_append (c :: t) rest)]
    rw [show c :: (t ++ rest) = (c :: t) ++ rest from rfl, List.drop_left]
  | cons c pre ih =>
    intro hc
    rw [List.cons_append, afterFirst, if_neg, ih]
    · intro j hj
      have := hc (j + 1) (by simpa using hj)
      simpa using this
    · intro hpre
      have h0 := hc 0 (by simp)
      apply h0
      rw [List.prefix_iff_eq_take] at hpre
      rw [List.drop_zero]
      conv_rhs => rw [hpre]
      have e : c :: (pre ++ (m ++ rest)) = (c :: pre ++ m) ++ rest := by simp
      rw [e, List.take_append_of_le_length (l₁ := c :: pre ++ m) (by simp; omega)]

/-- A hexadecimal field written by the program and read back. -/
theorem field_hexText (l rest : Bytes) : fieldDigits (hexText l ++ 10 :: rest) = hexText l ∧
    fieldRest (hexText l ++ 10 :: rest) = rest := by
  have hall := hexText_isHex l
  have hst : fieldStart (hexText l ++ 10 :: rest) = hexText l ++ 10 :: rest := by
    unfold fieldStart
    cases h : hexText l with
    | nil => rw [List.nil_append, List.dropWhile_cons_of_neg (by decide)]
    | cons c t =>
      rw [List.cons_append, List.dropWhile_cons_of_neg]
      have := hall c (by rw [h]; exact List.mem_cons_self)
      simp [this]
  constructor
  · unfold fieldDigits
    rw [hst, List.takeWhile_append_of_pos hall, List.takeWhile_cons_of_neg (by decide), List.append_nil]
  · unfold fieldRest
    rw [hst, List.dropWhile_append_of_pos hall, List.dropWhile_cons_of_neg (by decide)]
    rfl

/-- Reading back a field written with `fprintBstr`: the bytes themselves. -/
theorem readHex_written {n : Nat} (line : Vector UInt8 maxMarkerLen) (A : Vector UInt8 n) (str pre l rest : Bytes)
    (h0 : 0 < l.length) (hn : l.length ≤ n) (h32 : l.length ≤ 2 ^ 32) (hlen : str.length < maxMarkerLen) (hz : (0 : UInt8) ∉ str)
    (hne : str ≠ []) (hc : Clean pre str) :
    readHex line (pre ++ (str ++ (hexText l ++ 10 :: rest))) A l.length str = .ok (1, blitV A 0 l, rest) := by
  rw [readHex_eq line _ A _ str h0 hn h32 hlen hz, afterFirst_pre _ hne _ _ hc]
  dsimp only
  rw [(field_hexText l rest).1, (field_hexText l rest).2, hexValue_hexText, be_num _ _ rfl]

theorem findMarker_written (line : Vector UInt8 maxMarkerLen) (str pre rest : Bytes)
    (hlen : str.length < maxMarkerLen) (hz : (0 : UInt8) ∉ str) (hne : str ≠ []) (hc : Clean pre str) :
    findMarker line (pre ++ (str ++ rest)) str = .ok (1, rest) := by
  rw [findMarker_eq _ _ _ hlen hz, afterFirst_pre _ hne _ _ hc]

/-! ## The request file -/

/-- The generator as a state. -/
def Drbg.pair (st : Drbg) : Vector UInt8 32 × Vector UInt8 16 := (st.key, st.V)

theorem update_congr (E : Cipher) (key : Vector UInt8 32) (v : Nat) {d d' : Nat → UInt8} (h : ∀ i < 48, d i = d' i) :
    update E key v d = update E key v d' := by
  have h1 : (fun i : Fin 32 => g (E key (blk (v + 1 + i.val / 16))) (i.val % 16) ^^^ d i.val) =
      fun i : Fin 32 => g (E key (blk (v + 1 + i.val / 16))) (i.val % 16) ^^^ d' i.val := by
    funext i
    rw [h i.val (by omega)]
  have h2 : (fun i : Fin 16 => g (E key (blk (v + 1 + (32 + i.val) / 16))) ((32 + i.val) % 16) ^^^ d (32 + i.val)) =
      fun i : Fin 16 => g (E key (blk (v + 1 + (32 + i.val) / 16))) ((32 + i.val) % 16) ^^^ d' (32 + i.val) := by
    funext i
    rw [h (32 + i.val) (by omega)]
  exact Prod.ext (congrArg Vector.ofFn h1) (congrArg Vector.ofFn h2)

theorem randombytes_draw (aes : Aes) (st : Drbg) (temp : Vector UInt8 48) {cap : Nat} (x : Vector UInt8 cap) (xlen : Nat)
    (hcap : xlen ≤ cap) (hint : xlen ≤ 4000) (hc : st.reseedCounter < intMax) :
    Wp False (randombytes aes st temp x xlen) (fun r => r.1.pair = (draw aes xlen st.pair).2 ∧
      r.1.reseedCounter = st.reseedCounter + 1 ∧ seg r.2 0 xlen = (draw aes xlen st.pair).1) := by
  refine (randombytes_eq aes st temp x xlen hcap (by unfold intMax; omega) hc).mono ?_
  rintro ⟨st', y⟩ ⟨h1, h2, h3⟩
  refine ⟨h1, h2, ?_⟩
  unfold draw seg
  dsimp only
  apply List.map_congr_left
  intro k hk
  have hk := List.mem_range.1 hk
  dsimp only at h3
  rw [Nat.zero_add, h3 k (by omega), if_pos hk]
  rfl

theorem draw_length (E : Cipher) (n : Nat) (s) : (draw E n s).1.length = n := by simp [draw]

theorem ascii_text (s : String) : ascii s = text s := rfl

/-- All requests before the `n`-th. -/
def requests (E : Cipher) (n : Nat) : Bytes :=
  ((List.range n).map fun i => request i (requestSeed E i) (requestMsg E i)).flatten

theorem requests_succ (E : Cipher) (n : Nat) : requests E (n + 1) = requests E n ++ request n (requestSeed E n) (requestMsg E n) := by
  unfold requests
  rw [List.range_succ, List.map_append, List.flatten_append]
  simp

theorem requestStep_wp (aes : Aes) (tmp : Nat → Vector UInt8 48) (i : Nat) (hi : i < 100)
    (s : Drbg × Vector UInt8 48 × Vector UInt8 3300 × Bytes) (h1 : s.1.pair = requestState aes i) (h2 : s.1.reseedCounter = 2 * i + 1)
    (h3 : s.2.2.2 = requests aes i) :
    Wp False (requestStep aes tmp i s) (fun s' => s'.1.pair = requestState aes (i + 1) ∧
      s'.1.reseedCounter = 2 * (i + 1) + 1 ∧ s'.2.2.2 = requests aes (i + 1)) := by
  obtain ⟨st, seed, msg, req⟩ := s
  dsimp only at h1 h2 h3
  unfold requestStep
  dsimp only
  rw [Wp.bind_iff]
  refine (randombytes_draw aes st _ seed 48 (by omega) (by omega) (by rw [h2]; unfold intMax; omega)).mono ?_
  rintro ⟨st', seed'⟩ ⟨a1, a2, a3⟩
  dsimp only at a1 a2 a3 ⊢
  rw [fprintBstr_eq _ _ _ (by omega) (by omega), ok_bind, Wp.bind_iff]
  refine (randombytes_draw aes st' _ msg (33 * (i + 1)) (by omega) (by omega) (by rw [a2, h2]; unfold intMax; omega)).mono ?_
  rintro ⟨st'', msg'⟩ ⟨b1, b2, b3⟩
  dsimp only at b1 b2 b3 ⊢
  rw [fprintBstr_eq _ _ _ (by omega) (by omega), ok_bind]
  have e1 : seg seed' 0 48 = requestSeed aes i := by rw [a3, h1]; rfl
  have e2 : seg msg' 0 (33 * (i + 1)) = requestMsg aes i := by rw [b3, a1, h1]; rfl
  have e3 : (requestMsg aes i).length = 33 * (i + 1) := draw_length _ _ _
  refine ⟨?_, ?_, ?_⟩
  · show st''.pair = _
    rw [b1, a1, h1]; rfl
  · show st''.reseedCounter = _
    omega
  · show _ = _
    rw [requests_succ, e1, e2, h3]
    unfold request field
    rw [e3, dec_eq, dec_eq]
    simp only [List.append_assoc, ascii_text]
    rfl

theorem entropy_wp (entropy : Vector UInt8 48) : Wp False (forUp 48 (fun i entropy => wrB entropy i i) entropy)
    (fun e => ∀ i < 48, g e i = UInt8.ofNat i) := by
  refine Wp.forUp (I := fun k e => ∀ i < k, g e i = UInt8.ofNat i) (by omega) ?_ ?_
  · intro i e hi hI
    rw [Wp.wrB_iff]
    refine ⟨hi, ?_⟩
    intro j hj
    rw [g_upd _ _ _ _ (by omega)]
    split
    · next h => rw [h]
    · exact hI j (by omega)
  · intro e he; exact he

theorem requestFile_wp (aes : Aes) (tmp : Nat → Vector UInt8 48) (tmp0 : Vector UInt8 48) (st : Drbg)
    (entropy seed : Vector UInt8 48) (msg : Vector UInt8 3300) (n : Nat) (hn : n ≤ 100) :
    Wp False (requestFile aes tmp tmp0 st entropy seed msg n) (fun r => r.1 = requests aes n) := by
  unfold requestFile
  rw [Wp.bind_iff]
  refine (entropy_wp entropy).mono ?_
  intro e he
  rw [randombytesInit_eq, ok_bind, Wp.bind_iff]
  refine Wp.forUp (I := fun k s => s.1.pair = requestState aes k ∧ s.1.reseedCounter = 2 * k + 1 ∧ s.2.2.2 = requests aes k)
    ?_ ?_ ?_
  · refine ⟨?_, rfl, rfl⟩
    have := update_congr aes (Vector.replicate 32 0) 0 (d := fun i => g e i ^^^ dataFn none i) (d' := fun i => UInt8.ofNat i)
      (fun i hi => by rw [he i hi]; exact UInt8.xor_zero)
    rw [this]
    rfl
  · rintro i s hi ⟨a, b, c⟩
    exact requestStep_wp aes tmp i (by omega) s a b c
  · rintro ⟨st', seed', msg', req⟩ ⟨-, -, h⟩
    exact h

end LESS.Kat
