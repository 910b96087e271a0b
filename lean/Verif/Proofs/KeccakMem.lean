import Verif.Model.KeccakMem
import Verif.Proofs.Sponge
import Verif.Proofs.KatRng
/-!
# Keccak in memory computes what the functions on values compute, within its buffers
-/
namespace LESS.Mem
open LESS

theorem u32_lt {x : Nat} (h : x < 4294967296) : u32 x = x := Nat.mod_eq_of_lt h
theorem u64_lt {x : Nat} (h : x < 18446744073709551616) : u64 x = x := Nat.mod_eq_of_lt h
theorem sub64_eq {a b : Nat} (h : b ≤ a) (ha : a < 18446744073709551616) : sub64 a b = a - b := by
  unfold sub64 u64
  rw [show a + 18446744073709551616 - b = (a - b) + 18446744073709551616 by omega, Nat.add_mod_right,
    Nat.mod_eq_of_lt (by omega)]

theorem advance_ok {k p d : Nat} (h : p + d ≤ k) : advance k p d = .ok (p + d) := if_pos h

/-- The first 25 lanes of a context. -/
def lanes {n : Nat} (s : Vector UInt64 n) : Lanes := Vector.ofFn fun i => g s i

theorem g_lanes {n : Nat} (s : Vector UInt64 n) (i : Nat) (h : i < 25) : g (lanes s) i = g s i := by
  rw [lanes, g_ofFn _ _ h]

theorem lanes_self (s : Vector UInt64 25) : lanes s = s := vec_ext fun i h => g_lanes s i h

theorem lanes_upd {n : Nat} (s : Vector UInt64 n) (i : Nat) (x : UInt64) (hi : i < 25) (hn : 25 ≤ n) :
    lanes (upd s i x) = upd (lanes s) i x := by
  apply vec_ext
  intro j hj
  rw [g_lanes _ _ hj, g_upd _ _ _ _ (by omega), g_upd _ _ _ _ hi, g_lanes _ _ hj]

theorem lanes_upd_25 (s : Ctx) (x : UInt64) : lanes (upd s 25 x) = lanes s := by
  apply vec_ext
  intro j hj
  rw [g_lanes _ _ hj, g_lanes _ _ hj, g_upd_ne _ _ _ _ (by omega)]

theorem xorBytes_snoc (s : Lanes) (a : Bytes) (b : UInt8) (off : Nat) :
    xorBytes s (a ++ [b]) off = upd (xorBytes s a off) ((off + a.length) >>> 3)
      (g (xorBytes s a off) ((off + a.length) >>> 3) ^^^ (b.toUInt64 <<< (8 * ((off + a.length) &&& 7)).toUInt64)) := by
  rw [xorBytes_append]; rfl

theorem stateXor_eq {n k : Nat} (s : Vector UInt64 n) (data : Vector UInt8 k) (m off len : Nat) (hn : 25 ≤ n)
    (ho : off + len ≤ 200) (hm : m + len ≤ k) :
    ∃ s', stateXor s data m off len = .ok s' ∧ lanes s' = xorBytes (lanes s) (seg data m len) off ∧
      ∀ j, 25 ≤ j → g s' j = g s j := by
  apply Wp.exists_ok
  unfold stateXor
  rw [u32_lt (by omega), u32_lt (x := off) (by omega)]
  refine Wp.forUp (fun i s' => lanes s' = xorBytes (lanes s) (seg data m i) off ∧ ∀ j, 25 ≤ j → g s' j = g s j)
    ⟨rfl, fun _ _ => rfl⟩ ?_ fun _ h => h
  intro i s' hi ⟨h1, h2⟩
  have hj : (off + i) >>> 3 < 25 := by rw [Nat.shiftRight_eq_div_pow]; omega
  dsimp only
  rw [u32_lt (by omega), Wp.bind_iff, Wp.rd_iff, Wp.bind_iff, Wp.rd_iff, Wp.wr_iff]
  refine ⟨by omega, by omega, by omega, ?_, ?_⟩
  · rw [lanes_upd _ _ _ hj hn, h1, Kat.seg_succ, xorBytes_snoc, seg_length, ← h1, g_lanes _ _ hj]
  · intro j hj'
    rw [g_upd_ne _ _ _ _ (by omega), h2 j hj']

theorem blitV_nil {k : Nat} (a : Vector UInt8 k) (h : Nat) : blitV a h [] = a := by
  apply vec_ext
  intro i hi
  rw [g_blitV _ _ _ _ hi, if_neg (by simp)]

theorem blitV_append {k : Nat} (a : Vector UInt8 k) (h : Nat) (x y : Bytes) :
    blitV (blitV a h x) (h + x.length) y = blitV a h (x ++ y) := by
  apply vec_ext
  intro i hi
  rw [g_blitV _ _ _ _ hi, g_blitV _ _ _ _ hi, g_blitV _ _ _ _ hi, List.length_append]
  by_cases c1 : h ≤ i ∧ i < h + x.length
  · rw [if_neg (by omega), if_pos c1, if_pos (by omega), List.getD_append _ _ _ _ (by omega)]
  · by_cases c2 : h + x.length ≤ i ∧ i < h + x.length + y.length
    · rw [if_pos c2, if_pos (by omega), List.getD_append_right _ _ _ _ (by omega)]
      congr 1; omega
    · rw [if_neg c2, if_neg c1, if_neg (by omega)]

theorem blitV_snoc {k : Nat} (a : Vector UInt8 k) (h : Nat) (x : Bytes) (b : UInt8) (hk : h + x.length < k) :
    blitV a h (x ++ [b]) = upd (blitV a h x) (h + x.length) b := by
  rw [← blitV_append]
  apply vec_ext
  intro i hi
  rw [g_blitV _ _ _ _ hi, g_upd _ _ _ _ hk]
  by_cases c : h + x.length = i
  · subst c; simp
  · rw [if_neg (by simp; omega), if_neg c]

theorem extractBytes_succ (s : Lanes) (off n : Nat) : extractBytes s off (n + 1) = extractBytes s off n ++
    [(g s ((off + n) >>> 3) >>> (8 * ((off + n) &&& 7)).toUInt64).toUInt8] := by
  rw [extractBytes_add]; rfl

theorem stateExtract_eq {n k : Nat} (s : Vector UInt64 n) (out : Vector UInt8 k) (h off len : Nat) (hn : 25 ≤ n)
    (ho : off + len ≤ 200) (hk : h + len ≤ k) :
    stateExtract s out h off len = .ok (blitV out h (extractBytes (lanes s) off len)) := by
  apply Wp.eq_ok
  unfold stateExtract
  rw [u32_lt (by omega), u32_lt (x := off) (by omega)]
  refine Wp.forUp (fun i out' => out' = blitV out h (extractBytes (lanes s) off i)) (blitV_nil out h).symm ?_ fun _ h => h
  intro i out' hi e
  have hj : (off + i) >>> 3 < 25 := by rw [Nat.shiftRight_eq_div_pow]; omega
  dsimp only
  rw [u32_lt (by omega), Wp.bind_iff, Wp.rd_iff, Wp.wr_iff]
  refine ⟨by omega, by omega, ?_⟩
  rw [extractBytes_succ, blitV_snoc _ _ _ _ (by rw [extractBytes_length]; omega), extractBytes_length, e, g_lanes _ _ hj]

theorem statePermute_eq {n : Nat} (s : Vector UInt64 n) (hn : 25 ≤ n) :
    ∃ s', statePermute s = .ok s' ∧ lanes s' = permute (lanes s) ∧ ∀ j, 25 ≤ j → g s' j = g s j := by
  apply Wp.exists_ok
  unfold statePermute
  rw [Wp.bind_iff]
  refine Wp.forUp (fun i (a : Vector UInt64 25) => ∀ j, j < i → g a j = g s j) (fun j hj => absurd hj (Nat.not_lt_zero j)) ?_ ?_
  · intro i a hi h
    rw [Wp.bind_iff, Wp.rd_iff, Wp.wr_iff]
    refine ⟨by omega, hi, fun j hj => ?_⟩
    rw [g_upd _ _ _ _ hi]
    by_cases c : i = j
    · rw [if_pos c, c]
    · rw [if_neg c, h j (by omega)]
  · intro a h
    have ea : a = lanes s := vec_ext fun i hi => by rw [h i hi, g_lanes _ _ hi]
    subst ea
    refine Wp.forUp (fun i s' => ∀ j, g s' j = if j < i then g (permute (lanes s)) j else g s j)
      (fun j => by rw [if_neg (Nat.not_lt_zero j)]) ?_ ?_
    · intro i s' hi h'
      rw [Wp.bind_iff, Wp.rd_iff, Wp.wr_iff]
      refine ⟨hi, by omega, fun j => ?_⟩
      rw [g_upd _ _ _ _ (by omega)]
      by_cases c : i = j
      · subst c; rw [if_pos rfl, if_pos (by omega)]
      · rw [if_neg c, h' j]
        by_cases c' : j < i
        · rw [if_pos c', if_pos (by omega)]
        · rw [if_neg c', if_neg (by omega)]
    · intro s' h'
      exact ⟨vec_ext fun i hi => by rw [g_lanes _ _ hi, h' i, if_pos hi], fun j hj => by rw [h' j, if_neg (by omega)]⟩

/-- A context holds a state of the value-level model. -/
def Rep (s : Ctx) (st : Inc) : Prop := lanes s = st.s ∧ (g s 25).toNat = st.pos

theorem incInit_eq (s : Ctx) : ∃ s', incInit s = .ok s' ∧ Rep s' LESS.incInit := by
  apply Wp.exists_ok
  unfold incInit
  rw [Wp.bind_iff]
  refine Wp.forUp (fun i (a : Ctx) => ∀ j, j < i → g a j = 0) (fun j hj => absurd hj (Nat.not_lt_zero j)) ?_ ?_
  · intro i a hi h
    rw [Wp.wr_iff]
    refine ⟨by omega, fun j hj => ?_⟩
    rw [g_upd _ _ _ _ (by omega)]
    by_cases c : i = j
    · rw [if_pos c]
    · rw [if_neg c, h j (by omega)]
  · intro a h
    rw [Wp.wr_iff]
    refine ⟨by decide, ?_, ?_⟩
    · rw [lanes_upd_25]
      exact vec_ext fun i hi => by rw [g_lanes _ _ hi, h i hi]; exact (g_replicate _ _ hi).symm
    · rw [g_upd_self _ _ _ (by decide)]; rfl

theorem seg_drop {k : Nat} (data : Vector UInt8 k) (m a b : Nat) : (seg data m (a + b)).drop a = seg data (m + a) b := by
  rw [seg_append]
  exact List.drop_left' (seg_length _ _ _)

theorem seg_take {k : Nat} (data : Vector UInt8 k) (m a b : Nat) : (seg data m (a + b)).take a = seg data m a := by
  rw [seg_append]
  exact List.take_left' (seg_length _ _ _)

theorem ofNat_toNat {x : Nat} (h : x < 18446744073709551616) : (UInt64.ofNat x).toNat = x := by
  rw [UInt64.toNat_ofNat']; exact Nat.mod_eq_of_lt h

/-- The loop of `keccak_inc_absorb` followed by the last, incomplete block. -/
theorem absorb_aux {k : Nat} (r : Nat) (hr' : r ≤ 200) (data : Vector UInt8 k) (fuel : Nat) (s : Ctx) (st : Inc)
    (m mlen : Nat) (h : Rep s st) (hp : st.pos < r) (hm : m + mlen ≤ k) (hw : mlen + st.pos < 18446744073709551616)
    (hf : mlen < fuel) :
    ∃ s' st' m' mlen', absorbLoop r data fuel s m mlen = .ok (s', m', mlen') ∧ Rep s' st' ∧ m' + mlen' ≤ k ∧
      mlen' + st'.pos < r ∧ LESS.incAbsorb r st (seg data m mlen) = ⟨xorBytes st'.s (seg data m' mlen') st'.pos, st'.pos + mlen'⟩ := by
  induction fuel generalizing s st m mlen with
  | zero => omega
  | succ fuel ih =>
    have hrd : rd s 25 = .ok (g s 25) := Kat.rd_ok _ _ (by decide)
    unfold absorbLoop
    rw [hrd, Kat.ok_bind]
    rw [h.2, u64_lt hw]
    by_cases c : r ≤ mlen + st.pos
    · rw [if_pos c, sub64_eq (by omega) (by omega)]
      obtain ⟨s1, e1, l1, o1⟩ := stateXor_eq s data m st.pos (r - st.pos) (by decide) (by omega) (by omega)
      rw [e1, Kat.ok_bind]
      have hrd1 : rd s1 25 = .ok (g s1 25) := Kat.rd_ok _ _ (by decide)
      rw [hrd1, Kat.ok_bind, o1 25 (Nat.le_refl _), h.2, sub64_eq (by omega) (by omega), advance_ok (by omega), Kat.ok_bind,
        Kat.wr_ok _ _ _ (by decide), Kat.ok_bind]
      obtain ⟨s2, e2, l2, o2⟩ := statePermute_eq (upd s1 25 0) (by decide)
      rw [e2, Kat.ok_bind, sub64_eq (by omega) (by omega)]
      have hrep : Rep s2 ⟨permute (xorBytes st.s (seg data m (r - st.pos)) st.pos), 0⟩ := by
        refine ⟨by rw [l2, lanes_upd_25, l1, h.1], ?_⟩
        rw [o2 25 (Nat.le_refl _), g_upd_self _ _ _ (by decide)]; rfl
      obtain ⟨s', st', m', mlen', e, r1, r2, r3, r4⟩ := ih s2 _ (m + (r - st.pos)) (mlen - (r - st.pos)) hrep
        (show 0 < r by omega) (by omega) (show _ + 0 < _ by omega) (by omega)
      refine ⟨s', st', m', mlen', e, r1, r2, r3, ?_⟩
      rw [← r4]
      conv => lhs; rw [LESS.incAbsorb, dif_pos ⟨by rw [seg_length]; exact c, hp⟩]
      conv => lhs; rw [show mlen = (r - st.pos) + (mlen - (r - st.pos)) by omega]
      rw [seg_take, seg_drop]
    · rw [if_neg c]
      refine ⟨s, st, m, mlen, rfl, h, hm, by omega, ?_⟩
      rw [LESS.incAbsorb, dif_neg (fun h => c (by simpa using h.1)), seg_length]

theorem incAbsorb_eq {k : Nat} (r : Nat) (hr' : r ≤ 200) (data : Vector UInt8 k) (s : Ctx) (st : Inc)
    (m mlen : Nat) (h : Rep s st) (hp : st.pos < r) (hm : m + mlen ≤ k) (hw : mlen + st.pos < 18446744073709551616) :
    ∃ s', incAbsorb r s data m mlen = .ok s' ∧ Rep s' (LESS.incAbsorb r st (seg data m mlen)) := by
  obtain ⟨s1, st1, m1, mlen1, e1, r1, r2, r3, r4⟩ := absorb_aux r hr' data (mlen + 1) s st m mlen h hp hm hw (by omega)
  unfold incAbsorb
  rw [e1, Kat.ok_bind]
  dsimp only
  obtain ⟨s2, e2, l2, o2⟩ := stateXor_eq s1 data m1 st1.pos mlen1 (by decide) (by omega) r2
  rw [Kat.rd_ok s1 25 (by decide), Kat.ok_bind, r1.2, e2, Kat.ok_bind, Kat.rd_ok s2 25 (by decide), Kat.ok_bind,
    Kat.wr_ok _ _ _ (by decide), r4, o2 25 (Nat.le_refl _), r1.2]
  refine ⟨_, rfl, ?_, ?_⟩
  · rw [lanes_upd_25, l2, r1.1]
  · rw [g_upd_self _ _ _ (by decide), ofNat_toNat (by omega)]

theorem rm1 {r : Nat} (h0 : 0 < r) (h : r ≤ 200) : u32 (r + 4294967296 - 1) = r - 1 := by
  unfold u32; omega

theorem seg1 (b : UInt8) : seg #v[b] 0 1 = [b] := rfl

theorem incFinalize_eq (r : Nat) (h0 : 0 < r) (hr' : r ≤ 200) (p : UInt8) (s : Ctx) (st : Inc) (h : Rep s st) (hp : st.pos < r) :
    ∃ s', incFinalize r p s = .ok s' ∧ Rep s' (LESS.incFinalize r p st) := by
  unfold incFinalize LESS.incFinalize
  rw [Kat.rd_ok s 25 (by decide), Kat.ok_bind, h.2, rm1 h0 hr']
  by_cases c : st.pos = r - 1
  · rw [if_pos c, if_pos c]
    obtain ⟨s2, e2, l2, o2⟩ := stateXor_eq s #v[p ||| 128] 0 st.pos 1 (by decide) (by omega) (by decide)
    simp only [e2, Kat.ok_bind, Kat.wr_ok _ _ _ (show 25 < 26 by decide)]
    refine ⟨_, rfl, ?_, ?_⟩
    · rw [lanes_upd_25, l2, h.1, seg1]
    · rw [g_upd_self _ _ _ (by decide)]; rfl
  · rw [if_neg c, if_neg c]
    obtain ⟨s1, e1, l1, o1⟩ := stateXor_eq s #v[p] 0 st.pos 1 (by decide) (by omega) (by decide)
    obtain ⟨s2, e2, l2, o2⟩ := stateXor_eq s1 #v[(128 : UInt8)] 0 (r - 1) 1 (by decide) (by omega) (by decide)
    simp only [e1, e2, Kat.ok_bind, Kat.wr_ok _ _ _ (show 25 < 26 by decide)]
    refine ⟨_, rfl, ?_, ?_⟩
    · rw [lanes_upd_25, l2, l1, h.1, seg1, seg1]
    · rw [g_upd_self _ _ _ (by decide)]; rfl

theorem squeezeLoop_eq {k : Nat} (r : Nat) (h0 : 0 < r) (hr' : r ≤ 200) (fuel : Nat) (out : Vector UInt8 k) (h outlen : Nat)
    (s : Ctx) (st : Inc) (hs : Rep s st) (hk : h + outlen ≤ k) (hf : outlen < fuel) :
    ∃ s', squeezeLoop r fuel out h outlen s = .ok (blitV out h (LESS.squeezeLoop r st outlen).1, s') ∧
      Rep s' (LESS.squeezeLoop r st outlen).2 ∧ (LESS.squeezeLoop r st outlen).1.length = outlen := by
  induction fuel generalizing out h outlen s st with
  | zero => omega
  | succ fuel ih =>
    unfold squeezeLoop
    by_cases c : outlen > 0
    · rw [if_pos c]
      obtain ⟨s1, e1, l1, o1⟩ := statePermute_eq s (by decide)
      have hlen : ∀ len, len = (if outlen < r then outlen else r) → 0 < len ∧ len ≤ r ∧ len ≤ outlen := by
        intro len e; subst e; split <;> omega
      conv => enter [1, s']; rw [LESS.squeezeLoop, dif_neg (by omega)]
      dsimp only
      generalize hl : (if outlen < r then outlen else r) = len at *
      obtain ⟨hl1, hl2, hl3⟩ := hlen len rfl
      rw [e1, Kat.ok_bind, stateExtract_eq s1 out h 0 len (by decide) (by omega) (by omega), Kat.ok_bind, advance_ok (by omega),
        Kat.ok_bind, Kat.wr_ok _ _ _ (by decide), Kat.ok_bind, sub64_eq hl2 (by omega)]
      have hrep : Rep (upd s1 25 (UInt64.ofNat (r - len))) ⟨permute st.s, r - len⟩ := by
        refine ⟨by rw [lanes_upd_25, l1, hs.1], ?_⟩
        rw [g_upd_self _ _ _ (by decide), ofNat_toNat (by omega)]
      obtain ⟨s', e, r1, r2⟩ := ih (blitV out h (extractBytes (lanes s1) 0 len)) (h + len) (outlen - len) _ _ hrep (by omega) (by omega)
      refine ⟨s', ?_, r1, ?_⟩
      · rw [e]
        have := blitV_append out h (extractBytes (lanes s1) 0 len) (LESS.squeezeLoop r ⟨permute st.s, r - len⟩ (outlen - len)).1
        rw [extractBytes_length] at this
        rw [this, l1, hs.1]
      · rw [List.length_append, extractBytes_length, r2]; omega
    · have c0 : outlen = 0 := by omega
      subst c0
      rw [if_neg c]
      conv => enter [1, s']; rw [LESS.squeezeLoop, dif_pos (Or.inl rfl)]
      exact ⟨s, by rw [blitV_nil]; rfl, hs, rfl⟩

theorem incSqueeze_mem {k : Nat} (r : Nat) (h0 : 0 < r) (hr' : r ≤ 200) (out : Vector UInt8 k) (h outlen : Nat)
    (s : Ctx) (st : Inc) (hs : Rep s st) (hp : st.pos ≤ r) (hk : h + outlen ≤ k) :
    ∃ s', incSqueeze r out h outlen s = .ok (blitV out h (LESS.incSqueeze r st outlen).1, s') ∧
      Rep s' (LESS.incSqueeze r st outlen).2 := by
  unfold incSqueeze LESS.incSqueeze
  rw [Kat.rd_ok s 25 (by decide), Kat.ok_bind, hs.2]
  have hlen : ∀ len, len = (if outlen < st.pos then outlen else st.pos) → len ≤ st.pos ∧ len ≤ outlen := by
    intro len e; subst e; split <;> omega
  dsimp only
  generalize hl : (if outlen < st.pos then outlen else st.pos) = len at *
  obtain ⟨hl1, hl2⟩ := hlen len rfl
  rw [sub64_eq hp (by omega), stateExtract_eq s out h (r - st.pos) len (by decide) (by omega) (by omega), Kat.ok_bind,
    advance_ok (by omega), Kat.ok_bind, Kat.wr_ok _ _ _ (by decide), Kat.ok_bind, sub64_eq hl1 (by omega)]
  have hrep : Rep (upd s 25 (UInt64.ofNat (st.pos - len))) ⟨st.s, st.pos - len⟩ := by
    refine ⟨by rw [lanes_upd_25, hs.1], ?_⟩
    rw [g_upd_self _ _ _ (by decide), ofNat_toNat (by omega)]
  obtain ⟨s', e, r1, r2⟩ := squeezeLoop_eq r h0 hr' (outlen + 1) (blitV out h (extractBytes (lanes s) (r - st.pos) len)) (h + len)
    (outlen - len) _ _ hrep (by omega) (by omega)
  refine ⟨s', ?_, r1⟩
  rw [e]
  have := blitV_append out h (extractBytes (lanes s) (r - st.pos) len) (LESS.squeezeLoop r ⟨st.s, st.pos - len⟩ (outlen - len)).1
  rw [extractBytes_length] at this
  rw [this, hs.1]

theorem oneShot_eq {k k' : Nat} (r : Nat) (h0 : 0 < r) (hr' : r ≤ 200) (d : UInt8) (s : Ctx) (out : Vector UInt8 k)
    (h outlen : Nat) (data : Vector UInt8 k') (m inlen : Nat) (hk : h + outlen ≤ k) (hm : m + inlen ≤ k')
    (hw : inlen < 18446744073709551616) :
    oneShot r d s out h outlen data m inlen = .ok (blitV out h
      (LESS.incSqueeze r (LESS.incFinalize r d (LESS.incAbsorb r LESS.incInit (seg data m inlen))) outlen).1) := by
  obtain ⟨s1, e1, h1⟩ := incInit_eq s
  obtain ⟨s2, e2, h2⟩ := incAbsorb_eq r hr' data s1 _ m inlen h1 h0 hm (by show inlen + 0 < _; omega)
  obtain ⟨s3, e3, h3⟩ := incFinalize_eq r h0 hr' d s2 _ h2 (incAbsorb_pos r _ _ h0)
  obtain ⟨s4, e4, h4⟩ := incSqueeze_mem r h0 hr' out h outlen s3 _ h3 (by rw [incFinalize_pos]; omega) hk
  unfold oneShot
  rw [e1, Kat.ok_bind, e2, Kat.ok_bind, e3, Kat.ok_bind, e4]
  rfl

/-! ## The non-incremental interface -/

theorem absorbOnce_aux {k : Nat} (r : Nat) (h0 : 0 < r) (hr' : r ≤ 200) (data : Vector UInt8 k) (d : UInt8) (fuel : Nat) (s : Vector UInt64 25)
    (m mlen : Nat) (hm : m + mlen ≤ k) (hf : mlen < fuel) :
    ∃ s' m' mlen', absorbOnceLoop r data fuel s m mlen = .ok (s', m', mlen') ∧ m' + mlen' ≤ k ∧ mlen' < r ∧
      keccakAbsorb r s (seg data m mlen) d = keccakAbsorb r s' (seg data m' mlen') d := by
  induction fuel generalizing s m mlen with
  | zero => omega
  | succ fuel ih =>
    unfold absorbOnceLoop
    by_cases c : r ≤ mlen
    · rw [if_pos c]
      obtain ⟨s1, e1, l1, -⟩ := stateXor_eq s data m 0 r (Nat.le_refl _) (by omega) (by omega)
      obtain ⟨s2, e2, l2, -⟩ := statePermute_eq s1 (Nat.le_refl _)
      rw [e1, Kat.ok_bind, e2, Kat.ok_bind, advance_ok (by omega), Kat.ok_bind]
      obtain ⟨s', m', mlen', e, q1, q2, q3⟩ := ih s2 (m + r) (mlen - r) (by omega) (by omega)
      refine ⟨s', m', mlen', e, q1, q2, ?_⟩
      rw [← q3]
      conv => lhs; rw [keccakAbsorb, dif_pos ⟨by rw [seg_length]; exact c, h0⟩]
      conv => lhs; rw [show mlen = r + (mlen - r) by omega]
      rw [seg_take, seg_drop]
      rw [lanes_self, lanes_self] at l1 l2
      rw [l2, l1]
    · rw [if_neg c]
      exact ⟨s, m, mlen, rfl, hm, by omega, rfl⟩

theorem absorbOnce_eq {k : Nat} (r : Nat) (h0 : 0 < r) (hr' : r ≤ 200) (data : Vector UInt8 k) (d : UInt8) (s : Vector UInt64 25)
    (m mlen : Nat) (hm : m + mlen ≤ k) :
    absorbOnce r s data m mlen d = .ok (keccakAbsorb r s (seg data m mlen) d) := by
  obtain ⟨s1, m1, mlen1, e1, q1, q2, q3⟩ := absorbOnce_aux r h0 hr' data d (mlen + 1) s m mlen hm (by omega)
  unfold absorbOnce
  rw [e1, Kat.ok_bind, q3, keccakAbsorb, dif_neg (by rw [seg_length]; omega), seg_length, rm1 h0 hr']
  dsimp only
  have hx : ∀ {n : Nat} (s : Vector UInt64 25) (dt : Vector UInt8 n) (m off len : Nat), off + len ≤ 200 → m + len ≤ n →
      stateXor s dt m off len = .ok (xorBytes s (seg dt m len) off) := by
    intro n s dt m off len a b
    obtain ⟨s', e, l, -⟩ := stateXor_eq s dt m off len (Nat.le_refl _) a b
    rw [lanes_self, lanes_self] at l
    rw [e, l]
  have tail : ∀ s2 : Vector UInt64 25, (if mlen1 = r - 1 then stateXor s2 #v[d ||| 128] 0 mlen1 1
      else do
        let s ← stateXor s2 #v[d] 0 mlen1 1
        stateXor s #v[(128 : UInt8)] 0 (r - 1) 1) =
      .ok (if mlen1 = r - 1 then xorBytes s2 [d ||| 128] mlen1 else xorBytes (xorBytes s2 [d] mlen1) [128] (r - 1)) := by
    intro s2
    split
    · rw [hx _ _ _ _ _ (by omega) (by decide), seg1]
    · rw [hx _ _ _ _ _ (by omega) (by decide), Kat.ok_bind, hx _ _ _ _ _ (by omega) (by decide), seg1, seg1]
  by_cases c : mlen1 > 0
  · simp only [if_pos c]
    rw [hx _ _ _ _ _ (by omega) q1, Kat.ok_bind, tail]
  · simp only [if_neg c]
    exact tail s1

theorem shakeAbsorb_eq {k : Nat} (r : Nat) (h0 : 0 < r) (hr' : r ≤ 200) (data : Vector UInt8 k) (s : Vector UInt64 25)
    (m inlen : Nat) (hm : m + inlen ≤ k) :
    shakeAbsorb r s data m inlen = .ok (keccakAbsorb r (Vector.replicate 25 0) (seg data m inlen) 0x1F) := by
  have h : forUp 25 (fun i (s : Vector UInt64 25) => wr s i 0) s = .ok (Vector.replicate 25 0) := by
    apply Wp.eq_ok
    refine Wp.forUp (fun i (a : Vector UInt64 25) => ∀ j, j < i → g a j = 0) (fun j hj => absurd hj (Nat.not_lt_zero j)) ?_ ?_
    · intro i a hi h
      rw [Wp.wr_iff]
      refine ⟨by omega, fun j hj => ?_⟩
      rw [g_upd _ _ _ _ (by omega)]
      by_cases c : i = j
      · rw [if_pos c]
      · rw [if_neg c, h j (by omega)]
    · intro a h
      exact vec_ext fun i hi => by rw [h i hi]; exact (g_replicate _ _ hi).symm
  unfold shakeAbsorb
  rw [h, Kat.ok_bind, absorbOnce_eq r h0 hr' data 0x1F _ m inlen hm]

theorem squeezeBlocks_eq {n k : Nat} (hn : 25 ≤ n) (r : Nat) (hr' : r ≤ 200) (nb : Nat) (out : Vector UInt8 k) (h : Nat) (s : Vector UInt64 n)
    (hk : h + nb * r ≤ k) :
    ∃ s', squeezeBlocks r nb out h s = .ok (blitV out h (LESS.squeezeBlocks r nb (lanes s)).1, s') ∧
      lanes s' = (LESS.squeezeBlocks r nb (lanes s)).2 ∧ ∀ j, 25 ≤ j → g s' j = g s j := by
  induction nb generalizing out h s with
  | zero => exact ⟨s, by rw [show (LESS.squeezeBlocks r 0 (lanes s)).1 = [] from rfl, blitV_nil]; rfl, rfl, fun _ _ => rfl⟩
  | succ nb ih =>
    rw [Nat.succ_mul] at hk
    unfold squeezeBlocks
    obtain ⟨s1, e1, l1, o1⟩ := statePermute_eq s hn
    rw [e1, Kat.ok_bind, stateExtract_eq s1 out h 0 r hn (by omega) (by omega), Kat.ok_bind, advance_ok (by omega), Kat.ok_bind]
    obtain ⟨s', e, q1, q2⟩ := ih (blitV out h (extractBytes (lanes s1) 0 r)) (h + r) s1 (by omega)
    refine ⟨s', ?_, ?_, fun j hj => by rw [q2 j hj, o1 j hj]⟩
    · rw [e]
      have := blitV_append out h (extractBytes (lanes s1) 0 r) (LESS.squeezeBlocks r nb (lanes s1)).1
      rw [extractBytes_length] at this
      rw [this, l1]; rfl
    · rw [q1, l1]; rfl

theorem sha3IncFinalize_mem {k : Nat} (r outlen : Nat) (h0 : 0 < r) (hr' : r ≤ 200) (ho : outlen ≤ r) (t : Vector UInt8 r)
    (out : Vector UInt8 k) (h : Nat) (hk : h + outlen ≤ k) (s : Ctx) (st : Inc) (hs : Rep s st) (hp : st.pos < r) :
    ∃ s', sha3IncFinalize r outlen t out h s = .ok (blitV out h (LESS.sha3IncFinalize r outlen st), s') := by
  obtain ⟨s1, e1, h1⟩ := incFinalize_eq r h0 hr' 0x06 s st hs hp
  obtain ⟨s2, e2, -, -⟩ := squeezeBlocks_eq (by decide) r hr' 1 t 0 s1 (by omega)
  have hl : (LESS.squeezeBlocks r 1 (lanes s1)).1.length = r := by
    show (extractBytes _ 0 r ++ []).length = r
    rw [List.append_nil, extractBytes_length]
  unfold sha3IncFinalize LESS.sha3IncFinalize
  rw [e1, Kat.ok_bind, e2, Kat.ok_bind]
  dsimp only
  rw [← h1.1]
  generalize (LESS.squeezeBlocks r 1 (lanes s1)).1 = B at hl ⊢
  refine ⟨s2, ?_⟩
  have hcopy : forUp outlen (fun i (out : Vector UInt8 k) => do
      let b ← rd (blitV t 0 B) i
      wr out (h + i) b) out = .ok (blitV out h (B.take outlen)) := by
    apply Wp.eq_ok
    refine Wp.forUp (fun i out' => out' = blitV out h (B.take i)) (by rw [List.take_zero, blitV_nil]) ?_ fun _ h => h
    intro i out' hi e
    rw [Wp.bind_iff, Wp.rd_iff, Wp.wr_iff]
    refine ⟨by omega, by omega, ?_⟩
    rw [g_blitV _ _ _ _ (by omega), if_pos (by omega), Nat.sub_zero, List.take_succ_eq_append_getElem (by omega),
      blitV_snoc _ _ _ _ (by rw [List.length_take]; omega), List.length_take, Nat.min_eq_left (by omega), e,
      getD_of_lt _ _ (by omega)]
  rw [hcopy]; rfl

end LESS.Mem
