import Verif.Model.KatRng
import Verif.Spec.KatRng
import Mathlib.Data.List.GetD
/-!
# The NIST test-vector generator: proofs
-/
namespace LESS.Kat
open LESS Spec.Kat

/-! ## Big-endian numbers -/

theorem num_concat (l : Bytes) (b : UInt8) : num (l ++ [b]) = 256 * num l + b.toNat := by
  simp [num]

theorem be_length (w n : Nat) : (be w n).length = w := by simp [be]

theorem be_succ (w n : Nat) : be (w + 1) n = be w (n / 256) ++ [UInt8.ofNat n] := by
  unfold be
  rw [List.range_succ, List.map_append]
  congr 1
  · apply List.map_congr_left
    intro i hi
    have hi := List.mem_range.1 hi
    rw [Nat.div_div_eq_div_mul, ← Nat.pow_succ', show w + 1 - 1 - i = (w - 1 - i) + 1 by omega]
  · simp

theorem num_be (w n : Nat) : num (be w n) = n % 256 ^ w := by
  induction w generalizing n with
  | zero => simp [be, num, Nat.mod_one]
  | succ w ih =>
    rw [be_succ, num_concat, ih, Nat.pow_succ']
    have : (UInt8.ofNat n).toNat = n % 256 := by simp
    rw [this, Nat.mod_mul]
    omega

theorem list_concat {α : Type} : ∀ (l : List α) (w : Nat), l.length = w + 1 → ∃ l' a, l = l' ++ [a] ∧ l'.length = w := by
  intro l w h
  have hne : l ≠ [] := by intro e; simp [e] at h
  refine ⟨l.dropLast, l.getLast hne, (List.dropLast_concat_getLast hne).symm, ?_⟩
  rw [List.length_dropLast]
  omega

theorem be_num (w : Nat) : ∀ l : Bytes, l.length = w → be w (num l) = l := by
  induction w with
  | zero => intro l h; rw [List.length_eq_zero_iff.1 h]; rfl
  | succ w ih =>
    intro l h
    obtain ⟨l', b, rfl, h'⟩ := list_concat l w h
    have hb := b.toNat_lt
    rw [be_succ, num_concat, show (256 * num l' + b.toNat) / 256 = num l' by omega, ih l' h']
    congr 2
    apply UInt8.toNat_inj.1
    simp

theorem be_congr {w a b : Nat} (h : a % 256 ^ w = b % 256 ^ w) : be w a = be w b := by
  rw [← be_num w (be w a) (be_length _ _), ← be_num w (be w b) (be_length _ _), num_be, num_be, h]

theorem num_lt (l : Bytes) : num l < 256 ^ l.length := by
  have h := num_be l.length (num l)
  rw [be_num _ l rfl] at h
  rw [h]
  exact Nat.mod_lt _ (Nat.pow_pos (by decide))

theorem blk_toList (n : Nat) : (blk n).toList = be 16 n := toVec_toList (be_length _ _)

theorem blk_num (V : Vector UInt8 16) : blk (num V.toList) = V := by
  unfold blk
  rw [be_num 16 _ (by simp), toVec_of_toList]

theorem blk_next (n : Nat) : blk (num (blk n).toList + 1) = blk (n + 1) := by
  unfold blk
  rw [toVec_toList (be_length _ _), num_be, be_congr (b := n + 1)]
  rw [Nat.add_mod, Nat.mod_mod, ← Nat.add_mod]

/-! ## Counter increment -/

theorem seg_succ {n : Nat} (V : Vector UInt8 n) (lo c : Nat) : seg V lo (c + 1) = seg V lo c ++ [g V (lo + c)] := by
  rw [seg_append]
  simp [seg]

theorem rd_ok {α : Type} [Inhabited α] {n : Nat} (v : Vector α n) (i : Nat) (h : i < n) : rd v i = .ok (g v i) := by
  simp [rd, g, h]

theorem wr_ok {α : Type} {n : Nat} (v : Vector α n) (i : Nat) (x : α) (h : i < n) : wr v i x = .ok (upd v i x) := by
  simp [wr, upd, h]

theorem bump_eq (lo c : Nat) : ∀ V : Vector UInt8 16, lo + c ≤ 16 →
    bump lo c V = .ok (blitV V lo (be c (num (seg V lo c) + 1))) := by
  induction c with
  | zero =>
    intro V h
    show Except.ok V = _
    congr 1
    apply vec_ext
    intro i hi
    rw [g_blitV _ _ _ _ hi, if_neg (by simp [be])]
  | succ c ih =>
    intro V h
    unfold bump
    rw [rd_ok _ _ (by omega)]
    show (if g V (lo + c) = 0xff then _ else _) = _
    have hb := (g V (lo + c)).toNat_lt
    rw [seg_succ, num_concat, be_succ]
    by_cases hff : g V (lo + c) = 0xff
    · rw [if_pos hff, wr_ok _ _ _ (by omega)]
      show bump lo c _ = _
      rw [ih _ (by omega), hff]
      congr 1
      have hs : seg (upd V (lo + c) 0x00) lo c = seg V lo c := by
        apply seg_ext
        intro i hi
        rw [g_upd_ne _ _ _ _ (by omega)]
      rw [hs]
      have h255 : (0xff : UInt8).toNat = 255 := rfl
      rw [h255, show (256 * num (seg V lo c) + 255 + 1) / 256 = num (seg V lo c) + 1 by omega]
      apply vec_ext
      intro i hi
      rw [g_blitV _ _ _ _ hi, g_blitV _ _ _ _ hi, List.length_append, be_length, List.length_singleton]
      by_cases h1 : lo ≤ i ∧ i < lo + c
      · rw [if_pos h1, if_pos (by omega), List.getD_append _ _ _ _ (by rw [be_length]; omega)]
      · rw [if_neg h1, g_upd _ _ _ _ (by omega)]
        by_cases h2 : lo + c = i
        · rw [if_pos h2, if_pos (by omega), List.getD_append_right _ _ _ _ (by rw [be_length]; omega), be_length,
            show i - lo - c = 0 by omega]
          apply UInt8.toNat_inj.1
          simp [show (256 * num (seg V lo c) + 255 + 1) = 256 * (num (seg V lo c) + 1) by omega]
        · rw [if_neg h2, if_neg (by omega)]
    · rw [if_neg hff, wr_ok _ _ _ (by omega)]
      congr 1
      have hne : (g V (lo + c)).toNat ≠ 255 := fun e => hff (UInt8.toNat_inj.1 e)
      rw [show (256 * num (seg V lo c) + (g V (lo + c)).toNat + 1) / 256 = num (seg V lo c) by omega,
        be_num _ _ (seg_length _ _ _)]
      apply vec_ext
      intro i hi
      rw [g_blitV _ _ _ _ hi, g_upd _ _ _ _ (by omega), List.length_append, seg_length, List.length_singleton]
      by_cases h1 : lo ≤ i ∧ i < lo + c
      · rw [if_neg (by omega), if_pos (by omega), List.getD_append _ _ _ _ (by rw [seg_length]; omega),
          getD_seg _ _ _ _ (by omega)]
        congr 1; omega
      · by_cases h2 : lo + c = i
        · rw [if_pos h2, if_pos (by omega), List.getD_append_right _ _ _ _ (by rw [seg_length]; omega), seg_length,
            show i - lo - c = 0 by omega]
          apply UInt8.toNat_inj.1
          simp
        · rw [if_neg h2, if_neg (by omega)]

theorem bump_blk (n : Nat) : bump 0 16 (blk n) = .ok (blk (n + 1)) := by
  rw [bump_eq _ _ _ (by omega), seg_full, ← blk_next n]
  generalize num (blk n).toList + 1 = m
  refine congrArg _ (vec_ext fun i hi => ?_)
  unfold blk
  rw [g_blitV _ _ _ _ hi, be_length, if_pos (by omega), g_toVec _ _ _ hi, Nat.sub_zero]

/-! ## DRBG update -/

theorem ok_bind {α β : Type} (a : α) (f : α → C β) : ((Except.ok a : C α) >>= f) = f a := rfl

theorem getD_zeros (n i : Nat) : (List.replicate n (0 : UInt8)).getD i 0 = 0 := by
  rw [List.getD, List.getElem?_replicate]
  split <;> rfl


theorem getD_toList {n : Nat} (v : Vector UInt8 n) (i : Nat) (h : i < n) : v.toList.getD i 0 = g v i := by
  rw [← seg_full, getD_seg _ _ _ _ h, Nat.zero_add]

/-- The optional data as a function. -/
def dataFn (data : Option (Vector UInt8 48)) (i : Nat) : UInt8 := match data with | none => 0 | some d => g d i

theorem xorBytes_wp {n : Nat} (a d : Vector UInt8 n) : Wp False (xorBytes a d) (fun t => ∀ i < n, g t i = g a i ^^^ g d i) := by
  unfold xorBytes
  refine Wp.forUp (fun k t' => ∀ i < n, g t' i = if i < k then g a i ^^^ g d i else g a i) (fun i hi => by simp) ?_ ?_
  · intro k t' hk ht'
    rw [Wp.bind_iff, Wp.rd_iff]
    refine ⟨hk, ?_⟩
    rw [Wp.bind_iff, Wp.rd_iff]
    refine ⟨hk, ?_⟩
    rw [Wp.wr_iff]
    refine ⟨hk, fun i hi => ?_⟩
    rw [g_upd _ _ _ _ hk]
    by_cases h : k = i
    · subst h
      rw [if_pos rfl, if_pos (by omega), ht' _ hk, if_neg (by omega)]
    · rw [if_neg h, ht' i hi]
      by_cases h2 : i < k
      · rw [if_pos h2, if_pos (by omega)]
      · rw [if_neg h2, if_neg (by omega)]
  · intro t' ht' i hi
    rw [ht' i hi, if_pos hi]

theorem drbgUpdate_eq (aes : Aes) (temp : Vector UInt8 48) (data : Option (Vector UInt8 48)) (key : Vector UInt8 32)
    (v : Nat) : drbgUpdate aes temp data key (blk v) = .ok (update aes key v (dataFn data)) := by
  suffices h : Wp False (drbgUpdate aes temp data key (blk v)) (fun r => r = update aes key v (dataFn data)) by
    obtain ⟨r, e, rfl⟩ := h.exists_ok
    exact e
  unfold drbgUpdate
  rw [Wp.bind_iff]
  refine Wp.forUp (fun k s => s.1 = blk (v + k) ∧ ∀ i < 16 * k, g s.2 i = g (aes key (blk (v + 1 + i / 16))) (i % 16))
    ⟨rfl, fun i hi => by omega⟩ ?_ ?_
  · rintro k ⟨V, t⟩ hk ⟨rfl, ht⟩
    dsimp only at ht ⊢
    rw [bump_blk]
    show Wp False (blit t (16 * k) _ >>= fun t' => pure (blk (v + k + 1), t')) _
    rw [Wp.bind_iff, Wp.blit_iff]
    refine ⟨by simp; omega, ?_⟩
    rw [Wp.pure_iff]
    refine ⟨rfl, fun i hi => ?_⟩
    rw [g_blitV _ _ _ _ (by omega)]
    by_cases h : 16 * k ≤ i
    · rw [if_pos (by simp; omega), getD_toList _ _ (by omega), show i / 16 = k by omega, show i % 16 = i - 16 * k by omega,
        show v + 1 + k = v + k + 1 by omega]
    · rw [if_neg (by omega), ht i (by omega)]
  · rintro ⟨V, t⟩ ⟨-, ht⟩
    dsimp only at ht ⊢
    have hmask : Wp False (match data with
        | none => (pure t : C (Vector UInt8 48))
        | some d => xorBytes t d) (fun t' => ∀ i < 48, g t' i = g t i ^^^ dataFn data i) := by
      cases data with
      | none => intro i hi; simp [dataFn]
      | some d => exact xorBytes_wp t d
    have hfin : ∀ t' : Vector UInt8 48, (∀ i < 48, g t' i = g t i ^^^ dataFn data i) → Wp False (do
        let k ← slice t' 0 32
        let key ← blit key 0 k
        let v ← slice t' 32 16
        let V ← blit V 0 v
        pure (key, V)) (fun r => r = update aes key v (dataFn data)) := by
      intro t' ht'
      simp only [Wp.bind_iff, Wp.slice_iff, Wp.blit_iff, Wp.pure_iff, seg_length]
      refine ⟨by omega, by omega, by omega, by omega, ?_⟩
      unfold update
      refine Prod.ext (vec_ext fun i hi => ?_) (vec_ext fun i hi => ?_)
      · dsimp only
        rw [g_blitV _ _ _ _ hi, if_pos (by simp; omega), getD_seg _ _ _ _ (by omega), g_ofFn _ _ hi, ht' _ (by omega),
          ht _ (by omega), show 0 + (i - 0) = i by omega]
      · dsimp only
        rw [g_blitV _ _ _ _ hi, if_pos (by simp; omega), getD_seg _ _ _ _ (by omega), g_ofFn _ _ hi, ht' _ (by omega),
          ht _ (by omega), show 32 + (i - 0) = 32 + i by omega]
    cases data with
    | none =>
      exact hfin t (by exact hmask)
    | some d =>
      dsimp only at hmask ⊢
      rw [Wp.bind_iff]
      exact hmask.mono hfin

attribute [local irreducible] drbgUpdate update blk be bump in
theorem randombytesInit_eq (aes : Aes) (st : Drbg) (temp entropy : Vector UInt8 48) (pers : Option (Vector UInt8 48)) :
    randombytesInit aes st temp entropy pers =
      .ok ⟨(update aes (Vector.replicate 32 0) 0 fun i => g entropy i ^^^ dataFn pers i).1,
           (update aes (Vector.replicate 32 0) 0 fun i => g entropy i ^^^ dataFn pers i).2, 1⟩ := by
  have hrun : ∀ seed : Vector UInt8 48, (∀ i < 48, g seed i = g entropy i ^^^ dataFn pers i) → (do
      let key ← blit st.key 0 (List.replicate 32 0)
      let V ← blit st.V 0 (List.replicate 16 0)
      let (key, V) ← drbgUpdate aes temp (some seed) key V
      (pure ⟨key, V, 1⟩ : C Drbg)) =
      .ok ⟨(update aes (Vector.replicate 32 0) 0 fun i => g entropy i ^^^ dataFn pers i).1,
           (update aes (Vector.replicate 32 0) 0 fun i => g entropy i ^^^ dataFn pers i).2, 1⟩ := by
    intro seed hs
    have h1 : blit st.key 0 (List.replicate 32 0) = .ok (Vector.replicate 32 0) := by
      obtain ⟨a, e, rfl⟩ := (show Wp False (blit st.key 0 (List.replicate 32 0)) (fun a => a = Vector.replicate 32 0) by
        rw [Wp.blit_iff]
        refine ⟨by simp, vec_ext fun i hi => ?_⟩
        rw [g_blitV _ _ _ _ hi, if_pos (by simp; omega), g_replicate _ _ hi, getD_zeros]).exists_ok
      exact e
    have h2 : blit st.V 0 (List.replicate 16 0) = .ok (blk 0) := by
      obtain ⟨a, e, rfl⟩ := (show Wp False (blit st.V 0 (List.replicate 16 0)) (fun a => a = blk 0) by
        rw [Wp.blit_iff]
        refine ⟨by simp, vec_ext fun i hi => ?_⟩
        unfold blk
        rw [g_blitV _ _ _ _ hi, if_pos (by simp; omega), g_toVec _ _ _ hi, getD_zeros,
          getD_of_lt _ _ (by rw [be_length]; omega)]
        simp [be]).exists_ok
      exact e
    rw [h1, ok_bind, h2, ok_bind, drbgUpdate_eq, ok_bind]
    have : update aes (Vector.replicate 32 0) 0 (dataFn (some seed)) =
        update aes (Vector.replicate 32 0) 0 fun i => g entropy i ^^^ dataFn pers i := by
      unfold update
      refine Prod.ext (vec_ext fun i hi => ?_) (vec_ext fun i hi => ?_)
      · dsimp only
        rw [g_ofFn _ _ hi, g_ofFn _ _ hi]
        dsimp only [dataFn]
        rw [hs i (by omega)]
        rfl
      · dsimp only
        rw [g_ofFn _ _ hi, g_ofFn _ _ hi]
        dsimp only [dataFn]
        rw [hs (32 + i) (by omega)]
        rfl
    rw [this]
    rfl
  unfold randombytesInit
  cases pers with
  | none =>
    dsimp only
    rw [pure_bind]
    exact hrun entropy (fun i hi => by simp [dataFn])
  | some s =>
    dsimp only
    have hx := xorBytes_wp entropy s
    obtain ⟨seed, e, hs⟩ := hx.exists_ok
    rw [e, ok_bind]
    exact hrun seed hs

/-! ## DRBG output -/

theorem randLoop_wp (aes : Aes) (key : Vector UInt8 32) {cap : Nat} : ∀ (f v : Nat) (x : Vector UInt8 cap) (i xlen : Nat),
    xlen < f → 16 * i + xlen ≤ cap → 16 * i + 16 * (xlen / 16) ≤ intMax →
    Wp False (randLoop aes key f (blk (v + i)) x (16 * i) xlen) (fun r =>
      r.1 = blk (v + i + (xlen + 15) / 16) ∧
      ∀ k < cap, g r.2 k = if 16 * i ≤ k ∧ k < 16 * i + xlen then stream aes key v k else g x k) := by
  intro f
  induction f with
  | zero => intro v x i xlen h; omega
  | succ f ih =>
    intro v x i xlen hf hcap hint
    unfold randLoop
    by_cases h0 : 0 < xlen
    · rw [if_pos h0, bump_blk]
      show Wp False (if 15 < xlen then _ else _) _
      by_cases h15 : 15 < xlen
      · rw [if_pos h15]
        rw [Wp.bind_iff, Wp.blit_iff]
        refine ⟨by simp; omega, ?_⟩
        rw [if_neg (by omega)]
        have := ih v (blitV x (16 * i) (aes key (blk (v + i + 1))).toList) (i + 1) (xlen - 16) (by omega) (by omega) (by omega)
        refine Wp.mono (by exact this) ?_
        rintro r ⟨h1, h2⟩
        refine ⟨by rw [h1]; congr 1; omega, fun k hk => ?_⟩
        rw [h2 k hk]
        by_cases hc : 16 * (i + 1) ≤ k ∧ k < 16 * (i + 1) + (xlen - 16)
        · rw [if_pos hc, if_pos (by omega)]
        · rw [if_neg hc, g_blitV _ _ _ _ hk]
          by_cases hd : 16 * i ≤ k ∧ k < 16 * i + 16
          · rw [if_pos (by simpa using hd), if_pos (by omega), getD_toList _ _ (by omega)]
            unfold stream
            rw [show k / 16 = i by omega, show k % 16 = k - 16 * i by omega, show v + 1 + i = v + i + 1 by omega]
          · rw [if_neg (by simpa using hd), if_neg (by omega)]
      · rw [if_neg h15]
        simp only [Wp.bind_iff, Wp.slice_iff, Wp.blit_iff, seg_length]
        refine ⟨by omega, by omega, ?_⟩
        have hend : ∀ (V : Vector UInt8 16) (y : Vector UInt8 cap), randLoop aes key f V y (16 * i) 0 = .ok (V, y) := by
          intro V y
          cases f <;> rfl
        rw [hend]
        refine ⟨by show blk _ = _; congr 1; omega, fun k hk => ?_⟩
        dsimp only
        rw [g_blitV _ _ _ _ hk, seg_length]
        by_cases hd : 16 * i ≤ k ∧ k < 16 * i + xlen
        · rw [if_pos hd, if_pos hd, getD_seg _ _ _ _ (by omega)]
          unfold stream
          rw [show k / 16 = i by omega, show k % 16 = 0 + (k - 16 * i) by omega, show v + 1 + i = v + i + 1 by omega]
        · rw [if_neg hd, if_neg hd]
    · rw [if_neg h0]
      refine ⟨by show blk _ = _; congr 1; omega, fun k hk => ?_⟩
      rw [if_neg (by omega)]

theorem randLoop_overflow (aes : Aes) (key : Vector UInt8 32) {cap : Nat} : ∀ (f : Nat) (V : Vector UInt8 16)
    (x : Vector UInt8 cap) (i xlen : Nat), xlen < f → intMax < 16 * i + 16 * (xlen / 16) → 16 * i ≤ intMax →
    randLoop aes key f V x (16 * i) xlen = .error .oob := by
  intro f
  induction f with
  | zero => intro V x i xlen h; omega
  | succ f ih =>
    intro V x i xlen hf hbig hi
    unfold randLoop
    rw [if_pos (by omega), bump_eq _ _ _ (by omega), ok_bind]
    dsimp only
    rw [if_pos (by omega)]
    unfold blit
    split
    · rw [ok_bind]
      split
      · rfl
      · rw [show 16 * i + 16 = 16 * (i + 1) by omega]
        exact ih _ _ (i + 1) (xlen - 16) (by omega) (by omega) (by omega)
    · rfl

theorem randombytes_eq (aes : Aes) (st : Drbg) (temp : Vector UInt8 48) {cap : Nat} (x : Vector UInt8 cap) (xlen : Nat)
    (hcap : xlen ≤ cap) (hint : 16 * (xlen / 16) ≤ intMax) (hc : st.reseedCounter < intMax) :
    Wp False (randombytes aes st temp x xlen) (fun r =>
      (r.1.key, r.1.V) = update aes st.key (num st.V.toList + (xlen + 15) / 16) (fun _ => 0) ∧
      r.1.reseedCounter = st.reseedCounter + 1 ∧
      ∀ k < cap, g r.2 k = if k < xlen then stream aes st.key (num st.V.toList) k else g x k) := by
  unfold randombytes
  have h := randLoop_wp aes st.key (xlen + 1) (num st.V.toList) x 0 xlen (by omega) (by omega) (by omega)
  simp only [Nat.add_zero, blk_num] at h
  obtain ⟨⟨V, y⟩, e, hV, hy⟩ := h.exists_ok
  dsimp only at hV hy
  subst hV
  have e' : randLoop aes st.key (xlen + 1) st.V x 0 xlen = .ok (blk (num st.V.toList + (xlen + 15) / 16), y) := e
  rw [e', ok_bind]
  dsimp only
  rw [drbgUpdate_eq, ok_bind]
  rw [if_neg (by omega), Wp.pure_iff, show dataFn none = fun _ => 0 from rfl]
  refine ⟨Prod.eta _, by dsimp only, fun k hk => ?_⟩
  dsimp only
  rw [hy k hk]
  by_cases hk' : k < xlen
  · rw [if_pos (by omega), if_pos hk']
  · rw [if_neg (by omega), if_neg hk']

theorem randombytes_overflow (aes : Aes) (st : Drbg) (temp : Vector UInt8 48) {cap : Nat} (x : Vector UInt8 cap) (xlen : Nat)
    (hint : intMax < 16 * (xlen / 16)) : randombytes aes st temp x xlen = .error .oob := by
  unfold randombytes
  rw [show (0 : Nat) = 16 * 0 from rfl, randLoop_overflow aes st.key _ _ _ 0 _ (by omega) (by omega) (by simp)]
  rfl

/-! ## Seed expander -/

/-- The counter block. -/
def xofBlk (div : Vector UInt8 8) (maxlen n : Nat) : Vector UInt8 16 := toVec 16 (div.toList ++ be 4 maxlen ++ be 4 n)

theorem g_xofBlk (div : Vector UInt8 8) (maxlen n i : Nat) (hi : i < 16) :
    g (xofBlk div maxlen n) i = if i < 8 then g div i else if i < 12 then (be 4 maxlen).getD (i - 8) 0 else (be 4 n).getD (i - 12) 0 := by
  unfold xofBlk
  rw [g_toVec _ _ _ hi]
  by_cases h8 : i < 8
  · rw [if_pos h8, List.getD_append _ _ _ _ (by simp [be_length]; omega), List.getD_append _ _ _ _ (by simpa using h8),
      getD_toList _ _ h8]
  · rw [if_neg h8]
    by_cases h12 : i < 12
    · rw [if_pos h12, List.getD_append _ _ _ _ (by simp [be_length]; omega), List.getD_append_right _ _ _ _ (by simp; omega)]
      simp
    · rw [if_neg h12, List.getD_append_right _ _ _ _ (by simp [be_length]; omega)]
      simp [be_length]

theorem bump_xofBlk (div : Vector UInt8 8) (maxlen n : Nat) : bump 12 4 (xofBlk div maxlen n) = .ok (xofBlk div maxlen (n + 1)) := by
  rw [bump_eq _ _ _ (by omega)]
  have hs : seg (xofBlk div maxlen n) 12 4 = be 4 n := by
    apply List.ext_getElem
    · simp [be_length]
    · intro i h1 h2
      have hi : i < 4 := by simpa using h1
      rw [getElem_seg, g_xofBlk _ _ _ _ (by omega), if_neg (by omega), if_neg (by omega), Nat.add_sub_cancel_left,
        getD_of_lt _ _ h2]
  rw [hs, num_be, be_congr (b := n + 1) (by rw [Nat.add_mod, Nat.mod_mod, ← Nat.add_mod])]
  congr 1
  apply vec_ext
  intro i hi
  rw [g_blitV _ _ _ _ hi, be_length, g_xofBlk _ _ _ _ hi, g_xofBlk _ _ _ _ hi]
  by_cases h8 : i < 8
  · rw [if_neg (by omega), if_pos h8, if_pos h8]
  · by_cases h12 : i < 12
    · rw [if_neg (by omega), if_neg h8, if_neg h8, if_pos h12, if_pos h12]
    · rw [if_pos (by omega), if_neg h8, if_neg h12]

/-- The state of the expander after `c` bytes have been handed out, `n` blocks have been computed. -/
def Pos (aes : Aes) (seed : Vector UInt8 32) (div : Vector UInt8 8) (maxlen c n : Nat) (ctx : Xof) : Prop :=
  ctx.key = seed ∧ ctx.ctr = xofBlk div maxlen n ∧ ctx.bufferPos ≤ 16 ∧ c + 16 = 16 * n + ctx.bufferPos ∧
    (ctx.bufferPos < 16 → ∀ k < 16, g ctx.buffer k = xofStream aes seed div maxlen (16 * (n - 1) + k))

theorem xofLoop_wp (aes : Aes) (seed : Vector UInt8 32) (div : Vector UInt8 8) (maxlen : Nat) {cap : Nat} :
    ∀ (f c n : Nat) (ctx : Xof) (x : Vector UInt8 cap) (off xlen : Nat), Pos aes seed div maxlen c n ctx →
    xlen + ctx.bufferPos < f + 15 → (xlen = 0 ∨ 0 < f) → off + xlen ≤ cap →
    Wp False (xofLoop aes f ctx x off xlen) (fun r =>
      (∃ n', Pos aes seed div maxlen (c + xlen) n' r.1) ∧ r.1.lengthRemaining = ctx.lengthRemaining ∧
      ∀ k < cap, g r.2 k = if off ≤ k ∧ k < off + xlen then xofStream aes seed div maxlen (c + (k - off)) else g x k) := by
  intro f
  induction f with
  | zero =>
    intro c n ctx x off xlen hpos hf hf' hcap
    obtain rfl : xlen = 0 := by omega
    refine ⟨⟨n, hpos⟩, rfl, fun k hk => ?_⟩
    rw [if_neg (by omega)]
  | succ f ih =>
    intro c n ctx x off xlen hpos hf hf' hcap
    obtain ⟨hk, hctr, hb, hc, hbuf⟩ := hpos
    unfold xofLoop
    have hleft : u32 (16 + 4294967296 - ctx.bufferPos) = 16 - ctx.bufferPos := by unfold u32; omega
    by_cases h0 : 0 < xlen
    · rw [if_pos h0]
      simp only [hleft]
      by_cases hle : xlen ≤ 16 - ctx.bufferPos
      · rw [if_pos hle]
        simp only [Wp.bind_iff, Wp.slice_iff, Wp.blit_iff, Wp.pure_iff, seg_length]
        have hu : u32 (ctx.bufferPos + xlen) = ctx.bufferPos + xlen := by unfold u32; omega
        refine ⟨by omega, by omega, ⟨n, hk, hctr, by dsimp only; rw [hu]; omega, by dsimp only; rw [hu]; omega,
          fun _ => hbuf (by omega)⟩, trivial, fun k hk' => ?_⟩
        rw [g_blitV _ _ _ _ hk', seg_length]
        by_cases hd : off ≤ k ∧ k < off + xlen
        · rw [if_pos hd, if_pos hd, getD_seg _ _ _ _ (by omega), hbuf (by omega) _ (by omega),
            show 16 * (n - 1) + (ctx.bufferPos + (k - off)) = c + (k - off) by omega]
        · rw [if_neg hd, if_neg hd]
      · rw [if_neg hle]
        simp only [Wp.bind_iff, Wp.slice_iff, Wp.blit_iff, seg_length, hctr, bump_xofBlk, Wp.ok_iff]
        refine ⟨by omega, by omega, ?_⟩
        have hpos' : Pos aes seed div maxlen (16 * n) (n + 1)
            { ctx with buffer := aes ctx.key (xofBlk div maxlen n), bufferPos := 0, ctr := xofBlk div maxlen (n + 1) } := by
          refine ⟨hk, rfl, Nat.zero_le _, by dsimp only; omega, fun _ k hk' => ?_⟩
          dsimp only
          unfold xofStream
          rw [hk, show (16 * (n + 1 - 1) + k) / 16 = n by omega, show (16 * (n + 1 - 1) + k) % 16 = k by omega]
          rfl
        refine (ih (16 * n) (n + 1) _ (blitV x off (seg ctx.buffer ctx.bufferPos (16 - ctx.bufferPos)))
          (off + (16 - ctx.bufferPos)) (xlen - (16 - ctx.bufferPos)) hpos' (by dsimp only; omega) (by omega) (by omega)).mono ?_
        rintro r ⟨⟨n', h1⟩, h2, h3⟩
        refine ⟨⟨n', by rw [show c + xlen = 16 * n + (xlen - (16 - ctx.bufferPos)) by omega]; exact h1⟩, h2, fun k hk' => ?_⟩
        rw [h3 k hk']
        by_cases hd : off + (16 - ctx.bufferPos) ≤ k ∧ k < off + (16 - ctx.bufferPos) + (xlen - (16 - ctx.bufferPos))
        · rw [if_pos hd, if_pos (by omega),
            show 16 * n + (k - (off + (16 - ctx.bufferPos))) = c + (k - off) by omega]
        · rw [if_neg hd, g_blitV _ _ _ _ hk', seg_length]
          by_cases he : off ≤ k ∧ k < off + (16 - ctx.bufferPos)
          · rw [if_pos he, if_pos (by omega), getD_seg _ _ _ _ (by omega), hbuf (by omega) _ (by omega),
              show 16 * (n - 1) + (ctx.bufferPos + (k - off)) = c + (k - off) by omega]
          · rw [if_neg he, if_neg (by omega)]
    · rw [if_neg h0]
      obtain rfl : xlen = 0 := by omega
      refine ⟨⟨n, hk, hctr, hb, hc, hbuf⟩, rfl, fun k hk => ?_⟩
      rw [if_neg (by omega)]

/-- The expander after `c` of at most `maxlen` bytes. -/
def XofAt (aes : Aes) (seed : Vector UInt8 32) (div : Vector UInt8 8) (maxlen c : Nat) (ctx : Xof) : Prop :=
  c ≤ maxlen ∧ ctx.lengthRemaining = maxlen - c ∧ ∃ n, Pos aes seed div maxlen c n ctx

theorem seedexpanderInit_wp (aes : Aes) (ctx : Xof) (seed : Vector UInt8 32) (div : Vector UInt8 8) (maxlen : Nat)
    (h : maxlen < 4294967296) : Wp False (seedexpanderInit ctx seed div maxlen) (fun r => r.1 = 0 ∧ XofAt aes seed div maxlen 0 r.2) := by
  unfold seedexpanderInit
  rw [if_neg (by omega)]
  simp only [Wp.bind_iff, Wp.blit_iff, Wp.wrB_iff, Wp.pure_iff]
  refine ⟨by simp, by simp, by omega, by omega, by omega, by omega, by simp, by simp, trivial, Nat.zero_le _, rfl, 0, ?_, ?_,
    Nat.le_refl _, rfl, fun h => absurd h (Nat.lt_irrefl _)⟩
  · apply vec_ext
    intro i hi
    dsimp only
    rw [g_blitV _ _ _ _ hi, if_pos (by simp; omega), getD_toList _ _ (by omega)]
    rfl
  · apply vec_ext
    intro i hi
    dsimp only
    have e8 : ∀ a b : Nat, a % 256 = b % 256 → UInt8.ofNat a = UInt8.ofNat b := by
      intro a b hab
      apply UInt8.toNat_inj.1
      simpa using hab
    rw [g_xofBlk _ _ _ _ hi, g_blitV _ _ _ _ hi, g_upd _ _ _ _ (by omega), g_upd _ _ _ _ (by omega), g_upd _ _ _ _ (by omega),
      g_upd _ _ _ _ (by omega), g_blitV _ _ _ _ hi]
    by_cases h8 : i < 8
    · rw [if_neg (by omega), if_neg (by omega), if_neg (by omega), if_neg (by omega), if_neg (by omega), if_pos (by simp; omega),
        if_pos h8, getD_toList _ _ (by omega)]
      rfl
    · rw [if_neg h8]
      by_cases h12 : i < 12
      · rw [if_neg (by omega), if_pos h12]
        have hbe : ∀ k < 4, (be 4 maxlen).getD k 0 = UInt8.ofNat (maxlen / 256 ^ (3 - k)) := by
          intro k hk
          rw [getD_of_lt _ _ (by rw [be_length]; omega)]
          simp [be]
        rw [hbe _ (by omega)]
        obtain rfl | rfl | rfl | rfl : i = 8 ∨ i = 9 ∨ i = 10 ∨ i = 11 := by omega
        all_goals
          rw [Nat.shiftRight_eq_div_pow, Nat.shiftRight_eq_div_pow, Nat.shiftRight_eq_div_pow]
          simp
          apply e8
          omega
      · rw [if_pos (by simp; omega), if_neg h12, getD_zeros, getD_of_lt _ _ (by rw [be_length]; omega)]
        simp [be]

theorem seedexpander_wp (aes : Aes) (seed : Vector UInt8 32) (div : Vector UInt8 8) (maxlen c : Nat) (ctx : Xof)
    (hat : XofAt aes seed div maxlen c ctx) {cap : Nat} (x : Vector UInt8 cap) (xlen : Nat) (hcap : xlen ≤ cap) :
    Wp False (seedexpander aes ctx (some x) xlen) (fun r =>
      (maxlen ≤ c + xlen ∧ r = (-3, ctx, some x)) ∨
      (c + xlen < maxlen ∧ r.1 = 0 ∧ XofAt aes seed div maxlen (c + xlen) r.2.1 ∧ ∃ y, r.2.2 = some y ∧
        ∀ k < cap, g y k = if k < xlen then xofStream aes seed div maxlen (c + k) else g x k)) := by
  obtain ⟨hc, hr, n, hp⟩ := hat
  unfold seedexpander
  dsimp only
  by_cases h : ctx.lengthRemaining ≤ xlen
  · rw [if_pos h]
    exact .inl ⟨by omega, rfl⟩
  · rw [if_neg h, Wp.bind_iff]
    refine (xofLoop_wp aes seed div maxlen (xlen + 2) c n _ x 0 xlen (show Pos aes seed div maxlen c n
      { ctx with lengthRemaining := ctx.lengthRemaining - xlen } from hp) ?_ (by omega) (by omega)).mono ?_
    · have := hp.2.2.1
      dsimp only
      omega
    · rintro ⟨ctx', y⟩ ⟨⟨n', h1⟩, h2, h3⟩
      dsimp only at h1 h2 h3 ⊢
      rw [Wp.pure_iff]
      refine .inr ⟨by omega, rfl, ⟨by omega, by rw [h2]; omega, n', h1⟩, y, rfl, fun k hk => ?_⟩
      rw [h3 k hk]
      by_cases hk' : k < xlen
      · rw [if_pos (by omega), if_pos hk', Nat.sub_zero]
      · rw [if_neg (by omega), if_neg hk']

end LESS.Kat
