import Verif.Proofs.KeccakMem
import Verif.Props.Hash
/-!
# The hash functions in memory (C53) and the length of `randombytes` (C54)
-/
namespace LESS.Mem
open LESS Spec

/-- `out'` is `out` with the `len` bytes from `h` on replaced by bytes with the given bits; nothing else has changed. -/
def Wrote {k : Nat} (out out' : Vector UInt8 k) (h len : Nat) (b : List Bool) : Prop :=
  bits (seg out' h len) = b ∧ ∀ i, i < h ∨ h + len ≤ i → g out' i = g out i

theorem wrote_blit {k : Nat} (out : Vector UInt8 k) (h len : Nat) (hk : h + len ≤ k) (B : Bytes) (hB : B.length = len) :
    Wrote out (blitV out h B) h len (bits B) := by
  refine ⟨by rw [seg_blitV_same _ _ _ _ hB hk], fun i hi => ?_⟩
  by_cases c : i < k
  · rw [g_blitV _ _ _ _ c, if_neg (by omega)]
  · unfold g; rw [dif_neg c, dif_neg c]

/-- C53: the one-shot functions, called on any buffers, with any memory in their context, read only the `inlen` bytes of
input, write only the output, in full, and what they write is the function of FIPS 202 of the input. -/
theorem C53_one_shot {k k' : Nat} (s : Ctx) (out : Vector UInt8 k) (h : Nat) (data : Vector UInt8 k') (m inlen : Nat)
    (hm : m + inlen ≤ k') (hw : inlen < 2 ^ 64) :
    (∀ outlen, h + outlen ≤ k → ∃ out', shake128 s out h outlen data m inlen = .ok out' ∧
      Wrote out out' h outlen (Spec.shake 256 (8 * outlen) (seg data m inlen))) ∧
    (∀ outlen, h + outlen ≤ k → ∃ out', shake256 s out h outlen data m inlen = .ok out' ∧
      Wrote out out' h outlen (Spec.shake 512 (8 * outlen) (seg data m inlen))) ∧
    (h + 32 ≤ k → ∃ out', sha3_256 s out h data m inlen = .ok out' ∧ Wrote out out' h 32 (Spec.sha3 256 (seg data m inlen))) ∧
    (h + 48 ≤ k → ∃ out', sha3_384 s out h data m inlen = .ok out' ∧ Wrote out out' h 48 (Spec.sha3 384 (seg data m inlen))) ∧
    (h + 64 ≤ k → ∃ out', sha3_512 s out h data m inlen = .ok out' ∧ Wrote out out' h 64 (Spec.sha3 512 (seg data m inlen))) := by
  have key : ∀ (r : Nat) (d : UInt8) (outlen : Nat) (b : List Bool), 0 < r → r ≤ 200 → h + outlen ≤ k →
      bits (LESS.incSqueeze r (LESS.incFinalize r d (LESS.incAbsorb r LESS.incInit (seg data m inlen))) outlen).1 = b →
      ∃ out', oneShot r d s out h outlen data m inlen = .ok out' ∧ Wrote out out' h outlen b := by
    intro r d outlen b h0 hr' hk hb
    refine ⟨_, oneShot_eq r h0 hr' d s out h outlen data m inlen hk hm hw, ?_⟩
    rw [← hb]
    exact wrote_blit out h outlen hk _ (C34_squeeze_length r h0 _ (by rw [incFinalize_pos]; omega) outlen).1
  have f := C35_fips202 (seg data m inlen)
  refine ⟨fun n hk => ?_, fun n hk => ?_, fun hk => ?_, fun hk => ?_, fun hk => ?_⟩
  · exact key 168 0x1F n _ (by decide) (by decide) hk (f n).1
  · exact key 136 0x1F n _ (by decide) (by decide) hk (f n).2.1
  · exact key 136 0x06 32 _ (by decide) (by decide) hk (f 0).2.2.1
  · exact key 104 0x06 48 _ (by decide) (by decide) hk (f 0).2.2.2.1
  · exact key 72 0x06 64 _ (by decide) (by decide) hk (f 0).2.2.2.2

/-- Part of a buffer. -/
structure Part where
  size : Nat
  buf : Vector UInt8 size
  off : Nat
  len : Nat
  inside : off + len ≤ size

/-- The bytes of the part. -/
def Part.bytes (x : Part) : Bytes := seg x.buf x.off x.len

/-- Absorb parts of buffers, one call each. -/
def absorbAll (r : Nat) (s : Ctx) (l : List Part) : C Ctx :=
  l.foldlM (fun s x => incAbsorb r s x.buf x.off x.len) s

/-- Squeeze into parts of buffers, one call each; the buffers afterwards. -/
def squeezeAll (r : Nat) : List Part → Ctx → C (List Part × Ctx)
  | [], s => pure ([], s)
  | x :: l, s => do
    let (buf, s) ← incSqueeze r x.buf x.off x.len s
    let (rest, s) ← squeezeAll r l s
    pure (⟨x.size, buf, x.off, x.len, x.inside⟩ :: rest, s)

/-- The same part of a buffer of the same size, nothing outside the part has changed. -/
def OnlyPart (x y : Part) : Prop :=
  x.size = y.size ∧ x.off = y.off ∧ x.len = y.len ∧ ∀ i, i < x.off ∨ x.off + x.len ≤ i → g y.buf i = g x.buf i

theorem absorbAll_eq (r : Nat) (hr' : r ≤ 200) (l : List Part) (s : Ctx) (st : Inc) (h : Rep s st) (hp : st.pos < r)
    (hl : ∀ x ∈ l, x.len + r ≤ 2 ^ 64) :
    ∃ s', absorbAll r s l = .ok s' ∧ Rep s' (LESS.incAbsorb r st (l.map Part.bytes).flatten) := by
  induction l generalizing s st with
  | nil =>
    refine ⟨s, rfl, ?_⟩
    have : LESS.incAbsorb r st [] = st := by rw [incAbsorb_eq_foldl r st [] hp]; rfl
    show Rep s (LESS.incAbsorb r st [])
    rw [this]; exact h
  | cons x l ih =>
    have hx := hl x (List.mem_cons_self ..)
    obtain ⟨s1, e1, h1⟩ := incAbsorb_eq r hr' x.buf s st x.off x.len h hp x.inside (by omega)
    obtain ⟨s2, e2, h2⟩ := ih s1 _ h1 (incAbsorb_pos r _ _ hp) fun y hy => hl y (List.mem_cons_of_mem _ hy)
    refine ⟨s2, ?_, ?_⟩
    · show (incAbsorb r s x.buf x.off x.len >>= fun s => absorbAll r s l) = _
      rw [e1, Kat.ok_bind, e2]
    · rw [List.map_cons, List.flatten_cons, incAbsorb_append r st _ _ hp] at *
      exact h2

theorem squeezeAll_eq (r : Nat) (h0 : 0 < r) (hr' : r ≤ 200) (l : List Part) (s : Ctx) (st : Inc) (h : Rep s st) (hp : st.pos ≤ r) :
    ∃ l' s', squeezeAll r l s = .ok (l', s') ∧ List.Forall₂ OnlyPart l l' ∧
      (l'.map Part.bytes).flatten = (squeezePieces r (l.map Part.len) st).1 ∧ Rep s' (squeezePieces r (l.map Part.len) st).2 := by
  induction l generalizing s st with
  | nil => exact ⟨[], s, rfl, List.Forall₂.nil, rfl, h⟩
  | cons x l ih =>
    obtain ⟨s1, e1, h1⟩ := incSqueeze_mem r h0 hr' x.buf x.off x.len s st h hp x.inside
    have hlen := C34_squeeze_length r h0 st hp x.len
    obtain ⟨l', s2, e2, o2, b2, h2⟩ := ih s1 _ h1 hlen.2
    refine ⟨⟨x.size, blitV x.buf x.off (LESS.incSqueeze r st x.len).1, x.off, x.len, x.inside⟩ :: l', s2, ?_, ?_, ?_, h2⟩
    · unfold squeezeAll
      rw [e1, Kat.ok_bind]
      dsimp only
      rw [e2]; rfl
    · exact List.Forall₂.cons ⟨rfl, rfl, rfl, (wrote_blit x.buf x.off x.len x.inside _ hlen.1).2⟩ o2
    · rw [List.map_cons, List.flatten_cons, b2]
      show seg (blitV _ _ _) _ _ ++ _ = (LESS.incSqueeze r st x.len).1 ++ _
      rw [seg_blitV_same _ _ _ _ hlen.1 x.inside]

/-- C53 for the incremental interfaces of SHAKE: initialise, absorb any parts of any buffers, finalize, squeeze into any parts
of any buffers.  Whatever memory held before, everything stays inside the parts, and the concatenation of the output is
SHAKE of the concatenation of the input. -/
theorem C53_incremental (s : Ctx) (ins outs : List Part) (hl : ∀ x ∈ ins, x.len + 200 ≤ 2 ^ 64) :
    (∃ outs' s', (do
        let s ← incInit s
        let s ← absorbAll shake128Rate s ins
        let s ← incFinalize shake128Rate 0x1F s
        squeezeAll shake128Rate outs s) = .ok (outs', s') ∧ List.Forall₂ OnlyPart outs outs' ∧
      bits (outs'.map Part.bytes).flatten = Spec.shake 256 (8 * (outs.map Part.len).sum) (ins.map Part.bytes).flatten) ∧
    (∃ outs' s', (do
        let s ← incInit s
        let s ← absorbAll shake256Rate s ins
        let s ← incFinalize shake256Rate 0x1F s
        squeezeAll shake256Rate outs s) = .ok (outs', s') ∧ List.Forall₂ OnlyPart outs outs' ∧
      bits (outs'.map Part.bytes).flatten = Spec.shake 512 (8 * (outs.map Part.len).sum) (ins.map Part.bytes).flatten) := by
  have key : ∀ r, 0 < r → r ≤ 200 → ∃ outs' s', (do
        let s ← incInit s
        let s ← absorbAll r s ins
        let s ← incFinalize r 0x1F s
        squeezeAll r outs s) = .ok (outs', s') ∧ List.Forall₂ OnlyPart outs outs' ∧
      (outs'.map Part.bytes).flatten = (LESS.incSqueeze r (LESS.incFinalize r 0x1F (LESS.incAbsorb r LESS.incInit
        (ins.map Part.bytes).flatten)) (outs.map Part.len).sum).1 := by
    intro r h0 hr'
    obtain ⟨s1, e1, h1⟩ := incInit_eq s
    obtain ⟨s2, e2, h2⟩ := absorbAll_eq r hr' ins s1 _ h1 h0 fun x hx => by have := hl x hx; omega
    obtain ⟨s3, e3, h3⟩ := incFinalize_eq r h0 hr' 0x1F s2 _ h2 (incAbsorb_pos r _ _ h0)
    have hp : (LESS.incFinalize r 0x1F (LESS.incAbsorb r LESS.incInit (ins.map Part.bytes).flatten)).pos ≤ r := by
      rw [incFinalize_pos]; omega
    obtain ⟨l', s4, e4, o4, b4, -⟩ := squeezeAll_eq r h0 hr' outs s3 _ h3 hp
    refine ⟨l', s4, ?_, o4, ?_⟩
    · rw [e1, Kat.ok_bind, e2, Kat.ok_bind, e3, Kat.ok_bind, e4]
    · rw [b4, C34_squeeze_split r h0 _ hp]
  have f := C35_fips202 (ins.map Part.bytes).flatten (outs.map Part.len).sum
  constructor
  · obtain ⟨a, b, e, o, x⟩ := key 168 (by decide) (by decide)
    exact ⟨a, b, e, o, by rw [x]; exact f.1⟩
  · obtain ⟨a, b, e, o, x⟩ := key 136 (by decide) (by decide)
    exact ⟨a, b, e, o, by rw [x]; exact f.2.1⟩

/-- C53 for the incremental interface of the digest used by the scheme; `t` is the block on the stack as found. -/
theorem C53_digest {k : Nat} (p : Params) (s : Ctx) (ins : List Part) (hl : ∀ x ∈ ins, x.len + 200 ≤ 2 ^ 64)
    (t : Vector UInt8 p.hashRate) (out : Vector UInt8 k) (h : Nat) (hk : h + p.hashLen ≤ k) :
    ∃ out' s', (do
        let s ← incInit s
        let s ← absorbAll p.hashRate s ins
        sha3IncFinalize p.hashRate p.hashLen t out h s) = .ok (out', s') ∧
      Wrote out out' h p.hashLen (Spec.sha3 (match p.cat with | .one => 256 | .three => 384 | .five => 512)
        (ins.map Part.bytes).flatten) := by
  have h0 := hashRate_pos p
  have hr' := hashRate_le p
  obtain ⟨s1, e1, h1⟩ := incInit_eq s
  obtain ⟨s2, e2, h2⟩ := absorbAll_eq _ hr' ins s1 _ h1 h0 fun x hx => by have := hl x hx; omega
  obtain ⟨s3, e3⟩ := sha3IncFinalize_mem p.hashRate p.hashLen h0 hr' (hashLen_le p) t out h hk s2 _ h2 (incAbsorb_pos _ _ _ h0)
  refine ⟨_, s3, by rw [e1, Kat.ok_bind, e2, Kat.ok_bind, e3], ?_⟩
  have d := C35_digest p [(ins.map Part.bytes).flatten]
  rw [show [(ins.map Part.bytes).flatten].flatten = (ins.map Part.bytes).flatten by simp] at d
  have w := wrote_blit out h p.hashLen hk (hashFinalize p ([(ins.map Part.bytes).flatten].foldl (hashAbsorb p) hashInit))
    (hashFinalize_length p _)
  rw [d] at w
  exact w

/-- C53 for `shake*_absorb` and `shake*_squeezeblocks`. -/
theorem C53_blocks {k k' : Nat} (s : Vector UInt64 25) (data : Vector UInt8 k') (m inlen : Nat) (hm : m + inlen ≤ k')
    (out : Vector UInt8 k) (h nblocks : Nat) :
    (h + nblocks * 168 ≤ k → ∃ out' s', (do
        let s ← shakeAbsorb shake128Rate s data m inlen
        squeezeBlocks shake128Rate nblocks out h s) = .ok (out', s') ∧
      Wrote out out' h (nblocks * 168) (Spec.shake 256 (8 * (nblocks * 168)) (seg data m inlen))) ∧
    (h + nblocks * 136 ≤ k → ∃ out' s', (do
        let s ← shakeAbsorb shake256Rate s data m inlen
        squeezeBlocks shake256Rate nblocks out h s) = .ok (out', s') ∧
      Wrote out out' h (nblocks * 136) (Spec.shake 512 (8 * (nblocks * 136)) (seg data m inlen))) := by
  have key : ∀ r, 0 < r → r ≤ 200 → h + nblocks * r ≤ k → ∃ out' s', (do
        let s ← shakeAbsorb r s data m inlen
        squeezeBlocks r nblocks out h s) = .ok (out', s') ∧
      Wrote out out' h (nblocks * r) (bits (LESS.squeezeBlocks r nblocks (keccakAbsorb r (Vector.replicate 25 0) (seg data m inlen) 0x1F)).1) := by
    intro r h0 hr' hk
    obtain ⟨s1, e1, -, -⟩ := squeezeBlocks_eq (Nat.le_refl 25) r hr' nblocks out h
      (keccakAbsorb r (Vector.replicate 25 0) (seg data m inlen) 0x1F) hk
    rw [lanes_self] at e1
    rw [shakeAbsorb_eq r h0 hr' data s m inlen hm, Kat.ok_bind]
    exact ⟨_, s1, e1, wrote_blit out h _ hk _ (squeezeBlocks_length r nblocks _)⟩
  have f := C37_squeezeblocks (seg data m inlen) nblocks 0
  constructor
  · intro hk
    obtain ⟨a, b, e, w⟩ := key 168 (by decide) (by decide) hk
    refine ⟨a, b, e, ?_⟩
    rw [← (C35_fips202 (seg data m inlen) (nblocks * 168)).1, ← f.1]; exact w
  · intro hk
    obtain ⟨a, b, e, w⟩ := key 136 (by decide) (by decide) hk
    refine ⟨a, b, e, ?_⟩
    rw [← (C35_fips202 (seg data m inlen) (nblocks * 136)).2.1, ← f.2.1]; exact w

/-- SHA3-256 of the two middle bytes of a buffer of four, written into the middle of a buffer of 40. -/
example : ∃ out', sha3_256 (Vector.replicate 26 5) (Vector.replicate 40 0xee) 4 #v[1, 2, 3, 4] 1 2 = .ok out' ∧
    Wrote (Vector.replicate 40 0xee) out' 4 32 (Spec.sha3 256 [2, 3]) :=
  (C53_one_shot (Vector.replicate 26 5) (Vector.replicate 40 0xee) 4 #v[1, 2, 3, 4] 1 2 (by decide) (by decide)).2.2.1 (by decide)

/-- Input in three parts of two buffers, one of them empty; the digest at the end of a buffer. -/
example : ∃ out' s', (do
      let s ← incInit (Vector.replicate 26 5)
      let s ← absorbAll Params.cat1Balanced.hashRate s
        [⟨4, #v[1, 2, 3, 4], 1, 2, by decide⟩, ⟨4, #v[1, 2, 3, 4], 4, 0, by decide⟩, ⟨1, #v[9], 0, 1, by decide⟩]
      sha3IncFinalize Params.cat1Balanced.hashRate 32 (Vector.replicate 136 3) (Vector.replicate 40 0xee) 8 s) = .ok (out', s') ∧
    Wrote (Vector.replicate 40 0xee) out' 8 32 (Spec.sha3 256 [2, 3, 9]) :=
  C53_digest .cat1Balanced (Vector.replicate 26 5)
    [⟨4, #v[1, 2, 3, 4], 1, 2, by decide⟩, ⟨4, #v[1, 2, 3, 4], 4, 0, by decide⟩, ⟨1, #v[9], 0, 1, by decide⟩]
    (by decide) (Vector.replicate 136 3) (Vector.replicate 40 0xee) 8 (by decide)

theorem forUp_error {σ : Type} (body : Nat → σ → C σ) (s : σ) (e : CErr) (a b : Nat) (h : forUp a body s = .error e) (hab : a ≤ b) :
    forUp b body s = .error e := by
  induction b with
  | zero => rw [show a = 0 by omega] at h; exact h
  | succ b ih =>
    by_cases c : a = b + 1
    · rw [← c]; exact h
    · show (forUp b body s >>= body b) = _
      rw [ih (by omega)]; rfl

theorem forUp_next {σ : Type} (n : Nat) (body : Nat → σ → C σ) (s : σ) : forUp (n + 1) body s = forUp n body s >>= body n := rfl

/-- The bound on the length of a piece in C53 cannot be dropped: with one byte pending, the sum of the loop condition of
`keccak_inc_absorb` wraps around for a piece of 2^64-1 bytes, and the state is overrun. -/
theorem C53_fails_wraparound (r : Nat) (h0 : 0 < r) (s : Ctx) (hs : (g s 25).toNat = 1) (k : Nat) (hk : k = 2 ^ 64 - 1)
    (data : Vector UInt8 k) : incAbsorb r s data 0 k = .error .oob := by
  have hu : u64 (k + 1) = 0 := by unfold u64; omega
  have hu' : u32 k = 4294967295 := by unfold u32; omega
  have e1 : absorbLoop r data (k + 1) s 0 k = .ok (s, 0, k) := by
    unfold absorbLoop
    rw [Kat.rd_ok s 25 (by decide), Kat.ok_bind, hs, hu, if_neg (by omega)]
    rfl
  have e2 : stateXor s data 0 1 k = .error .oob := by
    unfold stateXor
    rw [hu']
    have first : ∀ n, n ≤ 207 → Wp False (forUp n (fun i (state : Ctx) => do
        let j := u32 (u32 1 + i)
        let lane ← rd state (j >>> 3)
        let b ← rd data (0 + i)
        wr state (j >>> 3) (lane ^^^ (b.toUInt64 <<< (8 * (j &&& 7)).toUInt64))) s) (fun _ => True) := by
      intro n hn
      refine Wp.forUp (fun _ _ => True) trivial ?_ fun _ _ => trivial
      intro i s' hi _
      have hj : (1 + i) >>> 3 < 26 := by rw [Nat.shiftRight_eq_div_pow]; omega
      dsimp only
      rw [u32_lt (x := 1) (by decide), u32_lt (by omega), Wp.bind_iff, Wp.rd_iff, Wp.bind_iff, Wp.rd_iff, Wp.wr_iff]
      exact ⟨hj, by omega, hj, trivial⟩
    have last : ∀ n, n = 207 → forUp (n + 1) (fun i (state : Ctx) => do
        let j := u32 (u32 1 + i)
        let lane ← rd state (j >>> 3)
        let b ← rd data (0 + i)
        wr state (j >>> 3) (lane ^^^ (b.toUInt64 <<< (8 * (j &&& 7)).toUInt64))) s = .error .oob := by
      intro n hn
      obtain ⟨s', e, -⟩ := (first n (by omega)).exists_ok
      have : rd s' (u32 (u32 1 + n) >>> 3) = .error .oob := by rw [hn]; rfl
      rw [forUp_next, e, Kat.ok_bind]
      dsimp only
      rw [this]; rfl
    exact forUp_error _ _ _ (207 + 1) _ (last 207 rfl) (by decide)
  unfold incAbsorb
  rw [e1, Kat.ok_bind]
  dsimp only
  rw [Kat.rd_ok s 25 (by decide), Kat.ok_bind, hs, e2]
  rfl

/-- Such states occur: one byte absorbed. -/
example : ∃ s', (do let s ← incInit (Vector.replicate 26 7); incAbsorb 168 s #v[42] 0 1) = .ok s' ∧ (g s' 25).toNat = 1 := by
  obtain ⟨s1, e1, h1⟩ := incInit_eq (Vector.replicate 26 7)
  obtain ⟨s2, e2, h2⟩ := incAbsorb_eq 168 (by decide) #v[42] s1 _ 0 1 h1 (by decide) (by decide) (by decide)
  refine ⟨s2, by rw [e1, Kat.ok_bind, e2], ?_⟩
  rw [h2.2, incAbsorb_eq_foldl _ _ _ (by decide)]
  rfl

/-! ## The length of `randombytes` -/

/-- What `randombytes` does for every length: it writes as many of the next bytes of the generator as the length is modulo
2^32. -/
theorem randombytes_eq {k : Nat} (p : Params) (x : Vector UInt8 k) (h xlen : Nat) (hk : h + xlen ≤ k) (s : Ctx) (st : Inc)
    (hs : Rep s st) (ho : RngOk p st) :
    ∃ s', randombytes p x h xlen s = .ok (blitV x h (csprngBytes p (xlen % 2 ^ 32) st).1, s') ∧
      Rep s' (csprngBytes p (xlen % 2 ^ 32) st).2 := by
  have e : u32 xlen = xlen % 2 ^ 32 := rfl
  unfold randombytes
  rw [e]
  generalize hn : xlen % 2 ^ 32 = n
  have : n ≤ xlen := hn ▸ Nat.mod_le _ _
  exact incSqueeze_mem p.xofRate (xofRate_pos p) (xofRate_le p) x h n s st hs ho (by omega)

/-- Draw into parts of buffers, one `randombytes` each. -/
def drawAll (p : Params) : List Part → Ctx → C (List Part × Ctx)
  | [], s => pure ([], s)
  | x :: l, s => do
    let (buf, s) ← randombytes p x.buf x.off x.len s
    let (rest, s) ← drawAll p l s
    pure (⟨x.size, buf, x.off, x.len, x.inside⟩ :: rest, s)

theorem drawAll_eq (p : Params) (l : List Part) (hl : ∀ x ∈ l, x.len < 2 ^ 32) (s : Ctx) :
    drawAll p l s = squeezeAll p.xofRate l s := by
  induction l generalizing s with
  | nil => rfl
  | cons x l ih =>
    unfold drawAll squeezeAll randombytes
    rw [u32_lt (hl x (List.mem_cons_self ..))]
    congr 1
    funext y
    dsimp only
    rw [ih fun z hz => hl z (List.mem_cons_of_mem _ hz)]

/-- C54 is false as stated: asked for 2^32 bytes (or any multiple), `randombytes` writes nothing. -/
theorem C54_fails_long_request {k : Nat} (p : Params) (x : Vector UInt8 k) (c : Nat) (hk : k = c * 2 ^ 32) (s : Ctx) (st : Inc)
    (hs : Rep s st) (ho : RngOk p st) : ∃ s', randombytes p x 0 k s = .ok (x, s') ∧ Rep s' st := by
  obtain ⟨s', e, h⟩ := randombytes_eq p x 0 k (by omega) s st hs ho
  have h0 : k % 2 ^ 32 = 0 := by rw [hk]; exact Nat.mul_mod_left ..
  have e0 : csprngBytes p 0 st = ([], st) := by
    show LESS.incSqueeze _ _ _ = _
    rw [incSqueeze_eq _ (xofRate_pos p) _ _ ho]; rfl
  rw [h0, e0] at e h
  rw [blitV_nil] at e
  exact ⟨s', e, h⟩

/-- C54, for requests below 2^32 bytes (all requests of the library are): a generator seeded from any part of any buffer, in
any memory, then asked for any number of pieces, fills every piece completely, touches nothing else, and the pieces are the
successive bytes of SHAKE of the seed.  What is missing: longer requests. -/
theorem C54_fills_partial {k : Nat} (p : Params) (s : Ctx) (seed : Vector UInt8 k) (m seedLen : Nat) (hm : m + seedLen ≤ k)
    (hsl : seedLen < 2 ^ 32) (outs : List Part) (hl : ∀ x ∈ outs, x.len < 2 ^ 32) :
    ∃ outs' s', (do
        let s ← initCsprng p s seed m seedLen
        drawAll p outs s) = .ok (outs', s') ∧ List.Forall₂ OnlyPart outs outs' ∧
      bits (outs'.map Part.bytes).flatten =
        Spec.shake (match p.cat with | .one => 256 | _ => 512) (8 * (outs.map Part.len).sum) (seg seed m seedLen) := by
  have h0 := xofRate_pos p
  have hr' := xofRate_le p
  obtain ⟨s1, e1, h1⟩ := incInit_eq s
  obtain ⟨s2, e2, h2⟩ := incAbsorb_eq p.xofRate hr' seed s1 _ m seedLen h1 h0 hm (by show seedLen + 0 < _; omega)
  obtain ⟨s3, e3, h3⟩ := incFinalize_eq p.xofRate h0 hr' 0x1F s2 _ h2 (incAbsorb_pos _ _ _ h0)
  obtain ⟨l', s4, e4, o4, b4, -⟩ := squeezeAll_eq p.xofRate h0 hr' outs s3 _ h3 (by rw [incFinalize_pos]; omega)
  refine ⟨l', s4, ?_, o4, ?_⟩
  · unfold initCsprng
    rw [u32_lt hsl, e1, Kat.ok_bind, e2, Kat.ok_bind, e3, Kat.ok_bind, drawAll_eq p outs hl, e4]
  · rw [b4]; exact C35_generator p (seg seed m seedLen) (outs.map Part.len)

/-- Two draws of 3 and 5 bytes into the middle of a buffer of 16. -/
example : ∃ outs' s', (do
      let s ← initCsprng .cat1Balanced (Vector.replicate 26 9) #v[1, 2, 3, 4] 1 2
      drawAll .cat1Balanced [⟨16, Vector.replicate 16 0, 4, 3, by decide⟩, ⟨16, Vector.replicate 16 0, 7, 5, by decide⟩] s) =
        .ok (outs', s') ∧ bits (outs'.map Part.bytes).flatten = Spec.shake 256 64 [2, 3] := by
  obtain ⟨a, b, e, -, w⟩ := C54_fills_partial .cat1Balanced (Vector.replicate 26 9) #v[1, 2, 3, 4] 1 2 (by decide) (by decide)
    [⟨16, Vector.replicate 16 0, 4, 3, by decide⟩, ⟨16, Vector.replicate 16 0, 7, 5, by decide⟩] (by decide)
  exact ⟨a, b, e, w⟩

end LESS.Mem
