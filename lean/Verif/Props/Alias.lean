import Verif.Model.Alias
import Verif.Props.Open
import Verif.Props.Simulator
/-!
# C71: message and signed message in one buffer
-/
namespace LESS
open Spec

variable {p : Params}

/-! ## The copy -/

/-- The arguments of `memcpy` are the same, do not overlap, or overlap in a way the direction of copying allows. -/
def CopyFits (back : Bool) (dst src len : Nat) : Prop :=
  dst = src ∨ dst + len ≤ src ∨ src + len ≤ dst ∨ (back = false ∧ dst ≤ src) ∨ (back = true ∧ src ≤ dst)

theorem copyWithin_eq {k : Nat} {back : Bool} {mem : Vector UInt8 k} {dst src len : Nat} (h : CopyFits back dst src len)
    (h1 : dst + len ≤ k) (h2 : src + len ≤ k) : copyWithin back mem dst src len = .ok (blitV mem dst (seg mem src len)) := by
  have hw : Wp False (copyWithin back mem dst src len) (fun r => r = blitV mem dst (seg mem src len)) := by
    unfold copyWithin
    refine Wp.forUp (I := fun i r => ∀ j < k, g r j =
      if (∃ l, l < len ∧ j = dst + l ∧ (if back then len - i ≤ l else l < i)) then g mem (src + (j - dst)) else g mem j) ?_ ?_ ?_
    · intro j hj
      rw [if_neg]
      rintro ⟨l, hl, -, h⟩
      cases back <;> (simp at h; try omega)
    · intro i r hi hr
      have hj : (if back then len - 1 - i else i) < len := by split <;> omega
      dsimp only
      generalize hjj : (if back then len - 1 - i else i) = j0 at hj
      rw [Wp.bind_iff, Wp.rd_iff]
      refine ⟨by omega, ?_⟩
      rw [Wp.wr_iff]
      refine ⟨by omega, fun j hjk => ?_⟩
      rw [g_upd _ _ _ _ (by omega)]
      have hsrc : g r (src + j0) = g mem (src + j0) := by
        rw [hr _ (by omega)]
        by_cases hc : ∃ l, l < len ∧ src + j0 = dst + l ∧ (if back then len - i ≤ l else l < i)
        · rw [if_pos hc]
          obtain ⟨l, hl, he, hb⟩ := hc
          rcases h with rfl | h | h | ⟨rfl, h⟩ | ⟨rfl, h⟩
          · congr 1; omega
          · omega
          · omega
          · simp at hb hjj; omega
          · simp at hb hjj; omega
        · rw [if_neg hc]
      by_cases hd : j = dst + j0
      · rw [if_pos (by omega), hsrc, if_pos ⟨j0, hj, hd, by cases back <;> simp at hjj ⊢ <;> omega⟩]
        congr 1; omega
      · rw [if_neg (by omega), hr _ hjk]
        congr 1
        apply propext
        constructor
        · rintro ⟨l, hl, he, hb⟩
          exact ⟨l, hl, he, by cases back <;> simp at hb ⊢ <;> omega⟩
        · rintro ⟨l, hl, he, hb⟩
          exact ⟨l, hl, he, by cases back <;> simp at hb hjj ⊢ <;> omega⟩
    · intro r hr
      apply vec_ext
      intro j hj
      rw [hr j hj, g_blitV _ _ _ _ hj, seg_length]
      by_cases hc : dst ≤ j ∧ j < dst + len
      · rw [if_pos hc, if_pos ⟨j - dst, by omega, by omega, by cases back <;> simp <;> omega⟩, getD_seg _ _ _ _ (by omega)]
      · rw [if_neg hc, if_neg]
        rintro ⟨l, hl, he, -⟩
        omega
  exact hw.eq_ok

/-! ## Signing -/

/-- The part of the memory that is the buffer at `off`. -/
def bufferAt {k : Nat} (mem : Vector UInt8 k) (off len : Nat) : Vector UInt8 len := toVec len (seg mem off len)

/-- The salt that `LESS_sign` draws from the generator. -/
def drawnSalt (p : Params) (rng : Inc) : Bytes := (csprngBytes p p.hashLen (csprngBytes p p.seedLen rng).2).1

/-- The message as it is in memory after the copy and after the salt has been written. -/
def hashedMessage {k : Nat} (p : Params) (rng : Inc) (mem : Vector UInt8 k) (sm m mlen : Nat) : Bytes :=
  seg (blitV (blitV mem sm (seg mem m mlen)) (sm + mlen) (drawnSalt p rng)) m mlen

theorem g_bufferAt {k : Nat} (mem : Vector UInt8 k) (off len i : Nat) (h : i < len) : g (bufferAt mem off len) i = g mem (off + i) := by
  rw [bufferAt, g_toVec _ _ _ h, getD_seg _ _ _ _ h]

theorem drawnSalt_length {rng : Inc} (hr : RngOk p rng) : (drawnSalt p rng).length = p.hashLen :=
  csprngBytes_length p _ _ (csprngBytes_ok p _ _ hr)

theorem viewSign_ext {k k' : Nat} {a : Vector UInt8 k} {b : Vector UInt8 k'} {off off' n : Nat}
    (h : ∀ i < p.fixedLen + n, g a (off + i) = g b (off' + i)) : (viewSign a off n : SignT p n) = viewSign b off' n := by
  unfold Params.fixedLen at h
  unfold viewSign
  have e : ∀ d len, d + len ≤ p.hashLen + p.W * p.monoBytes + p.hashLen + n → seg a (off + d) len = seg b (off' + d) len :=
    fun d len hd => seg_ext fun i hi => by rw [Nat.add_assoc, Nat.add_assoc]; exact h _ (by omega)
  have e0 := e 0 p.hashLen (by omega)
  have e1 : ∀ j : Fin p.W, seg a (off + p.hashLen + j.val * p.monoBytes) p.monoBytes =
      seg b (off' + p.hashLen + j.val * p.monoBytes) p.monoBytes := fun j => by
    have := Nat.mul_le_mul_right p.monoBytes (show j.val + 1 ≤ p.W from j.2)
    rw [Nat.succ_mul] at this
    rw [Nat.add_assoc, Nat.add_assoc]
    exact e _ _ (by omega)
  have e2 := e (p.hashLen + p.W * p.monoBytes) p.hashLen (by omega)
  have e3 := e p.fixedLen n (by unfold Params.fixedLen; omega)
  rw [← Nat.add_assoc, ← Nat.add_assoc] at e2
  simp only [Nat.add_zero] at e0
  simp only [e0, e1, e2, e3]

theorem lessSign_salt {n : Nat} (fuel : Nat) (sl : Nat → Stale p) (rng : Inc) (sk : PriKey p) (m : Bytes) (sig sig' : SignT p n)
    (h1 : sig.seedStorage = sig'.seedStorage) (h2 : sig.monomActions = sig'.monomActions) :
    lessSign fuel sl rng sk m sig = lessSign fuel sl rng sk m sig' := by
  unfold lessSign
  rw [h1, h2]

/-- The parts of a signature except the salt do not notice the salt. -/
theorem viewSign_blit_salt {k : Nat} (mem : Vector UInt8 k) (off n : Nat) (salt : Bytes) (hs : salt.length = p.hashLen)
    (hk : off + p.fixedLen + n ≤ k) :
    (viewSign (p := p) (blitV mem off salt) off n).seedStorage = (viewSign (p := p) mem off n).seedStorage ∧
    (viewSign (p := p) (blitV mem off salt) off n).monomActions = (viewSign (p := p) mem off n).monomActions := by
  unfold Params.fixedLen at hk
  unfold viewSign
  refine ⟨?_, ?_⟩
  · dsimp only
    rw [seg_blitV_disj _ _ _ _ _ (by unfold Params.fixedLen; omega) (by unfold Params.fixedLen; omega)]
  · dsimp only
    congr 1
    funext j
    have := Nat.mul_le_mul_right p.monoBytes (show j.val + 1 ≤ p.W from j.2)
    rw [Nat.succ_mul] at this
    rw [seg_blitV_disj _ _ _ _ _ (by omega) (by omega)]

theorem blitV_blitV {k : Nat} (mem : Vector UInt8 k) (off : Nat) (a b : Bytes) (h : a.length ≤ b.length) :
    blitV (blitV mem off a) off b = blitV mem off b := by
  apply vec_ext
  intro i hi
  rw [g_blitV _ _ _ _ hi, g_blitV _ _ _ _ hi, g_blitV _ _ _ _ hi]
  split
  · rfl
  · rw [if_neg (by omega)]

theorem blitV_append {k : Nat} (mem : Vector UInt8 k) (off : Nat) (a b : Bytes) :
    blitV (blitV mem off a) (off + a.length) b = blitV mem off (a ++ b) := by
  apply vec_ext
  intro i hi
  rw [g_blitV _ _ _ _ hi, g_blitV _ _ _ _ hi, g_blitV _ _ _ _ hi, List.length_append]
  by_cases h1 : off + a.length ≤ i
  · by_cases h2 : i < off + a.length + b.length
    · rw [if_pos ⟨h1, h2⟩, if_pos (by omega), List.getD_append_right _ _ _ _ (by omega)]
      congr 1; omega
    · rw [if_neg (by omega), if_neg (by omega), if_neg (by omega)]
  · rw [if_neg (by omega)]
    by_cases h2 : off ≤ i
    · rw [if_pos (by omega), if_pos (by omega), List.getD_append _ _ _ _ (by omega)]
    · rw [if_neg (by omega), if_neg (by omega)]

/-- `crypto_sign` with separate buffers, as one equation. -/
theorem cryptoSign_eq (fuel : Nat) (sl : Nat → Stale p) (rng : Inc) {k : Nat} (sm : Vector UInt8 k) (m : Bytes) (sk : Vector UInt8 p.skLen)
    (hk : m.length + p.sigLen ≤ k) : cryptoSign fuel sl rng sm m sk =
      (lessSign fuel sl rng (readPri sk) m (viewSign (blitV sm 0 m) m.length p.storageLen) >>= fun r =>
        .ok (blitV sm 0 (m ++ signBytes r.1), m.length + p.cryptoBytes r.2.1, r.2.2)) := by
  have hsl : p.sigLen = p.fixedLen + p.storageLen := rfl
  unfold cryptoSign
  rw [show blit sm 0 m = .ok (blitV sm 0 m) from if_pos (by omega), bind_ok, readSign_eq _ _ _ (by omega), bind_ok]
  congr 1
  funext r
  have hb : (signBytes r.1).length = p.sigLen := by rw [signBytes_length, hsl]
  dsimp only
  rw [show blit (blitV sm 0 m) m.length (signBytes r.1) = .ok (blitV (blitV sm 0 m) m.length (signBytes r.1)) from if_pos (by omega),
    bind_ok]
  have := blitV_append sm 0 m (signBytes r.1)
  rw [Nat.zero_add] at this
  rw [this]
  rfl

/-- `crypto_sign` in one memory signs what is at the address of the message after the salt has been written. -/
theorem alias_sign_eq {k : Nat} {back : Bool} (fuel : Nat) (sl : Nat → Stale p) {rng : Inc} (hr : RngOk p rng) {mem : Vector UInt8 k}
    {sm m mlen : Nat} (sk : Vector UInt8 p.skLen) (hc : CopyFits back sm m mlen) (hsm : sm + mlen + p.sigLen ≤ k) (hm : m + mlen ≤ k) :
    cryptoSignAlias back fuel sl rng mem sm m mlen sk =
      (cryptoSign fuel sl rng (bufferAt mem sm (mlen + p.sigLen)) (hashedMessage p rng mem sm m mlen) sk >>= fun r =>
        .ok (blitV mem sm (seg mem m mlen ++ r.1.toList.drop mlen), r.2.1, r.2.2)) := by
  have hsl : p.sigLen = p.fixedLen + p.storageLen := rfl
  have hsalt := drawnSalt_length (p := p) hr
  have hfix : p.hashLen ≤ p.fixedLen := by unfold Params.fixedLen; omega
  have hlen : (hashedMessage p rng mem sm m mlen).length = mlen := seg_length _ _ _
  rw [cryptoSign_eq _ _ _ _ _ _ (by rw [hlen])]
  unfold cryptoSignAlias
  rw [copyWithin_eq hc (by omega) hm, bind_ok]
  generalize hmem1 : blitV mem sm (seg mem m mlen) = mem1
  have e1 : (csprngBytes p p.hashLen (csprngBytes p p.seedLen rng).2).1 = drawnSalt p rng := rfl
  dsimp only
  rw [e1, show blit mem1 (sm + mlen) (drawnSalt p rng) = .ok (blitV mem1 (sm + mlen) (drawnSalt p rng)) from if_pos (by omega), bind_ok,
    slice_eq, if_pos hm, bind_ok, readSign_eq _ _ _ (by omega), bind_ok]
  have e2 : seg (blitV mem1 (sm + mlen) (drawnSalt p rng)) m mlen = hashedMessage p rng mem sm m mlen := by rw [hashedMessage, hmem1]
  obtain ⟨v1, v2⟩ := viewSign_blit_salt (p := p) mem1 (sm + mlen) p.storageLen _ hsalt (by omega)
  rw [e2, lessSign_salt fuel sl rng _ _ _ _ v1 v2]
  generalize hashedMessage p rng mem sm m mlen = msg at hlen ⊢
  have e3 : (viewSign mem1 (sm + mlen) p.storageLen : SignT p _) =
      viewSign (blitV (bufferAt mem sm (mlen + p.sigLen)) 0 msg) msg.length p.storageLen := by
    refine viewSign_ext fun i hi => ?_
    rw [← hmem1, g_blitV _ _ _ _ (by omega), g_blitV _ _ _ _ (by omega), if_neg (by rw [seg_length]; omega), if_neg (by omega),
      g_bufferAt _ _ _ _ (by omega)]
    congr 1; omega
  rw [e3]
  rcases lessSign fuel sl rng (readPri sk) msg (viewSign (blitV (bufferAt mem sm (mlen + p.sigLen)) 0 msg) msg.length p.storageLen) with e | r
  · rfl
  · have hb : (signBytes r.1).length = p.sigLen := by rw [signBytes_length, hsl]
    rw [bind_ok, bind_ok, bind_ok]
    dsimp only
    rw [show blit (blitV mem1 (sm + mlen) (drawnSalt p rng)) (sm + mlen) (signBytes r.1) =
      .ok (blitV (blitV mem1 (sm + mlen) (drawnSalt p rng)) (sm + mlen) (signBytes r.1)) from if_pos (by omega), bind_ok,
      blitV_blitV _ _ _ _ (by omega)]
    have e4 : (blitV (bufferAt mem sm (mlen + p.sigLen)) 0 (msg ++ signBytes r.1)).toList = msg ++ signBytes r.1 := by
      have := seg_blitV_same (bufferAt mem sm (mlen + p.sigLen)) 0 (mlen + p.sigLen) (msg ++ signBytes r.1)
        (by rw [List.length_append]; omega) (by omega)
      rw [← seg_full, this]
    rw [e4, ← hlen, List.drop_left, hlen]
    have e5 := blitV_append mem sm (seg mem m mlen) (signBytes r.1)
    rw [seg_length, hmem1] at e5
    rw [e5]
    rfl

/-- Signing with the message in the same buffer: if the message is at the beginning of the buffer for the signed message
(`m = sm`), ends before it, or begins after the place of the salt, then the memory afterwards contains what a call with
separate buffers writes.  Missing: the remaining positions (`C71_fails_sign`). -/
theorem C71_sign_partial {k : Nat} (back : Bool) (fuel : Nat) (sl : Nat → Stale p) {rng : Inc} (hr : RngOk p rng) (mem : Vector UInt8 k)
    {sm m mlen : Nat} (sk : Vector UInt8 p.skLen) (hsm : sm + mlen + p.sigLen ≤ k) (hm : m + mlen ≤ k)
    (hpos : m = sm ∨ m + mlen ≤ sm ∨ sm + mlen + p.hashLen ≤ m) :
    cryptoSignAlias back fuel sl rng mem sm m mlen sk =
      (cryptoSign fuel sl rng (bufferAt mem sm (mlen + p.sigLen)) (seg mem m mlen) sk >>= fun r =>
        .ok (blitV mem sm r.1.toList, r.2.1, r.2.2)) := by
  have hsl : p.sigLen = p.fixedLen + p.storageLen := rfl
  have hsalt := drawnSalt_length (p := p) hr
  have hfix : p.hashLen ≤ p.fixedLen := by unfold Params.fixedLen; omega
  have hmsg : hashedMessage p rng mem sm m mlen = seg mem m mlen := by
    unfold hashedMessage
    rw [seg_blitV_disj _ _ _ _ _ hm (by omega)]
    rcases hpos with rfl | h | h
    · rw [seg_blitV_same _ _ _ _ (seg_length _ _ _) hm]
    · rw [seg_blitV_disj _ _ _ _ _ hm (by omega)]
    · rw [seg_blitV_disj _ _ _ _ _ hm (by rw [seg_length]; omega)]
  rw [alias_sign_eq fuel sl hr sk (by unfold CopyFits; omega) hsm hm, hmsg, cryptoSign_eq _ _ _ _ _ _ (by rw [seg_length])]
  rcases lessSign fuel sl rng (readPri sk) (seg mem m mlen) _ with e | r
  · rfl
  · have hb : (signBytes r.1).length = p.sigLen := by rw [signBytes_length, hsl]
    rw [bind_ok, bind_ok, bind_ok]
    dsimp only
    have e4 : (blitV (bufferAt mem sm (mlen + p.sigLen)) 0 (seg mem m mlen ++ signBytes r.1)).toList = seg mem m mlen ++ signBytes r.1 := by
      have := seg_blitV_same (bufferAt mem sm (mlen + p.sigLen)) 0 (mlen + p.sigLen) (seg mem m mlen ++ signBytes r.1)
        (by rw [List.length_append, seg_length]; omega) (by omega)
      rw [← seg_full, this]
    rw [e4, List.drop_append_of_le_length (by rw [seg_length]), List.drop_of_length_le (by rw [seg_length]), List.nil_append]

/-! ## Signed messages whose message or salt has been overwritten -/

/-- The strings hashed for two signatures with the same digest are a collision of the hash function. -/
def SameDigestCollision (p : Params) (B B' : Nat) (pk : PK p) (m m' : Bytes) (sig sig' : Sig p) : Prop :=
  ∃ v coms coms', IsChallenge p B (xof p sig.digest) v ∧ (∀ i < p.T, RoundCommit p B pk sig v i (coms i)) ∧
    (∀ i < p.T, RoundCommit p B' pk sig' v i (coms' i)) ∧ transcript p coms m sig.salt ≠ transcript p coms' m' sig'.salt ∧
    hash p (transcript p coms m sig.salt) = hash p (transcript p coms' m' sig'.salt)

/-- A signed message that differs from the one `crypto_sign` made in the message and the salt only is opened only with a
collision. -/
theorem open_overwritten (hp : p.WF) {fuel₁ fuel₂ fuel₃ : Nat} {sl₁ sl₂ sl₃ : Nat → Stale p} {rng₁ rng₂ rng₁' rng₂' : Inc} (hr₁ : RngOk p rng₁)
    (hr₂ : RngOk p rng₂) {pk : Vector UInt8 p.pkLen} {sk : Vector UInt8 p.skLen}
    (hkeygen : cryptoSignKeypair fuel₁ sl₁ rng₁ = .ok (pk, sk, rng₁')) {k : Nat} {sm b : Vector UInt8 k} {msg : Bytes} {smlen mlen : Nat}
    (hl : msg.length = mlen) (hk : mlen + p.sigLen ≤ k) (hk64 : mlen + p.sigLen < 2 ^ 64)
    (hsign : cryptoSign fuel₂ sl₂ rng₂ sm msg sk = .ok (b, smlen, rng₂'))
    {c : Vector UInt8 smlen} (hc : ∀ i < smlen, mlen + p.hashLen ≤ i → g c i = g b i) {mcap : Nat} {out : Option Bytes}
    (hopen : cryptoSignOpen fuel₃ sl₃ mcap c pk = .ok (0, out)) :
    out = some (seg c 0 mlen) ∧ (seg c 0 mlen = msg ∧ seg c mlen p.hashLen = seg b mlen p.hashLen ∨
      SameDigestCollision p (max fuel₁ fuel₂) fuel₃ (readPub pk).spec msg (seg c 0 mlen) (viewSign (p := p) b mlen p.storageLen).spec
        (viewSign (p := p) c mlen (smlen - mlen - p.fixedLen)).spec) := by
  subst hl
  have hk1 := (cryptoSignKeypair_below (Nat.le_max_left fuel₁ fuel₂) sl₁ rng₁).ok hkeygen
  have hs1 := (cryptoSign_below (Nat.le_max_right fuel₁ fuel₂) sl₂ rng₂ sm msg sk).ok hsign
  obtain ⟨root, salt, hS⟩ := sign_signedMessage hp hr₂ hk hs1
  have hle := hS.smlen_le
  obtain ⟨⟨count, hcm, -, hsmlen, hcount, hsig, -, -⟩, -, -⟩ := hS
  have hacc := (complete hp (api_keygen_pair hp hr₁ hk1) hsig).1
  have hfix := fixedLen_cryptoBytes (p := p) count
  have hfx : p.fixedLen = p.hashLen + p.W * p.monoBytes + p.hashLen := rfl
  have hcb : (g c (smlen - 1)).toNat = count := by rw [hc _ (by omega) (by omega), hcount]
  obtain ⟨-, h1, h2⟩ := C55_open_result hp hr₁ hkeygen (by omega) hopen
  have hlt : count < p.maxPublishedSeeds := by
    by_contra hge
    have := (h1 (by omega)).1
    omega
  obtain ⟨h3, h4, h5⟩ := h2 count hcb hlt
  have hoff : smlen - p.cryptoBytes count = msg.length := by omega
  have hv := sigIn_view (p := p) c count
  have hn : smlen - msg.length - p.fixedLen = count * p.seedLen + 1 := by omega
  rw [hoff] at h4 h5 hv
  refine ⟨h4, ?_⟩
  rw [hn]
  have hacc' := (h5 _ hv).1 rfl
  have hd : (viewSign (p := p) b msg.length p.storageLen).spec.digest = (viewSign (p := p) c msg.length (count * p.seedLen + 1)).spec.digest := by
    show Vector.toList (toVec _ _) = Vector.toList (toVec _ _)
    congr 2
    exact seg_ext fun i hi => (hc _ (by omega) (by omega)).symm
  have hsl : (viewSign (p := p) b msg.length p.storageLen).spec.salt.length =
      (viewSign (p := p) c msg.length (count * p.seedLen + 1)).spec.salt.length := by
    show (Vector.toList _).length = (Vector.toList _).length
    simp
  obtain ⟨v, coms, coms', a1, a2, a3, a4⟩ := accepts_same_digest hsl hacc hacc' hd
  rcases a4 with ⟨-, e1, e2⟩ | ⟨e1, e2⟩
  · left
    refine ⟨e1.symm, ?_⟩
    have e3 : Vector.toList (toVec p.hashLen (seg b msg.length p.hashLen)) = Vector.toList (toVec p.hashLen (seg c msg.length p.hashLen)) := e2
    rw [toVec_toList (seg_length _ _ _), toVec_toList (seg_length _ _ _)] at e3
    exact e3.symm
  · exact .inr ⟨v, coms, coms', a1, a2, a3, e1, e2⟩

/-- The bytes of the salt in the output of `crypto_sign`. -/
theorem sign_salt (hp : p.WF) {fuel : Nat} {sl : Nat → Stale p} {rng rng' : Inc} (hr : RngOk p rng) {k : Nat} {sm b : Vector UInt8 k}
    {msg : Bytes} {sk : Vector UInt8 p.skLen} {smlen : Nat} (hk : msg.length + p.sigLen ≤ k)
    (h : cryptoSign fuel sl rng sm msg sk = .ok (b, smlen, rng')) : seg b msg.length p.hashLen = drawnSalt p rng := by
  obtain ⟨s, hs⟩ := exists_stream p rng hr
  have hw := (cryptoSign_wp hp fuel sl rng sm msg sk s hs hk).of_ok h
  obtain ⟨-, -, -, -, -, -, hsalt, -⟩ := hw.1.body
  have e : Vector.toList (toVec p.hashLen (seg b msg.length p.hashLen)) = saltOf p s := hsalt
  rw [toVec_toList (seg_length _ _ _)] at e
  rw [e, drawnSalt, (hs.next p.seedLen).2 p.hashLen]
  rfl

/-- If the message begins at or behind the end of the place for its copy but before the end of the salt, then
`crypto_sign` puts the message into the signed message but signs a string into which it has written the salt: unless the
bytes of the message there are those of the salt (which is drawn at random afterwards), the signed message is refused,
or an explicit pair of strings is a collision of the hash function. -/
theorem C71_fails_sign (hp : p.WF) {fuel₁ fuel₂ fuel₃ : Nat} {sl₁ sl₂ sl₃ : Nat → Stale p} {rng₁ rng₂ rng₁' rng₂' : Inc} (hr₁ : RngOk p rng₁)
    (hr₂ : RngOk p rng₂) {pk : Vector UInt8 p.pkLen} {sk : Vector UInt8 p.skLen}
    (hkeygen : cryptoSignKeypair fuel₁ sl₁ rng₁ = .ok (pk, sk, rng₁')) {k : Nat} {back : Bool} {mem mem' : Vector UInt8 k} {sm d mlen smlen : Nat}
    (hsm : sm + mlen + p.sigLen ≤ k) (hm : sm + d + mlen ≤ k) (hk64 : mlen + p.sigLen < 2 ^ 64) (hd : mlen ≤ d)
    (hsign : cryptoSignAlias back fuel₂ sl₂ rng₂ mem sm (sm + d) mlen sk = .ok (mem', smlen, rng₂')) :
    seg mem' sm mlen = seg mem (sm + d) mlen ∧
    ∀ mcap out, cryptoSignOpen fuel₃ sl₃ mcap (bufferAt mem' sm smlen) pk = .ok (0, out) → out = some (seg mem (sm + d) mlen) ∧
      ((∀ i < mlen, d + i < mlen + p.hashLen → g mem (sm + d + i) = (drawnSalt p rng₂).getD (d + i - mlen) 0) ∨
       SameDigestCollision p (max fuel₁ fuel₂) fuel₃ (readPub pk).spec (hashedMessage p rng₂ mem sm (sm + d) mlen) (seg mem (sm + d) mlen)
        (viewSign (p := p) mem' (sm + mlen) p.storageLen).spec (viewSign (p := p) mem' (sm + mlen) (smlen - mlen - p.fixedLen)).spec) := by
  have hsl : p.sigLen = p.fixedLen + p.storageLen := rfl
  have hsalt := drawnSalt_length (p := p) hr₂
  have hl : (hashedMessage p rng₂ mem sm (sm + d) mlen).length = mlen := seg_length _ _ _
  rw [alias_sign_eq fuel₂ sl₂ hr₂ sk (by unfold CopyFits; omega) hsm hm] at hsign
  obtain ⟨⟨b, n, r⟩, h1, h2⟩ := bind_inv hsign
  injection h2 with h2
  injection h2 with h2 h3
  injection h3 with h3 h4
  dsimp only at h2 h3 h4
  subst h3 h4
  obtain ⟨root, salt, hS⟩ := sign_signedMessage hp hr₂ (by omega) h1
  have hle := hS.smlen_le
  rw [hl] at hle
  have hmem : ∀ i < mlen + p.sigLen, g mem' (sm + i) = if i < mlen then g mem (sm + d + i) else g b i := by
    intro i hi
    rw [← h2, g_blitV _ _ _ _ (by omega), if_pos (by rw [List.length_append, seg_length, List.length_drop, Vector.length_toList]; omega)]
    rw [show sm + i - sm = i by omega]
    by_cases hlt : i < mlen
    · rw [if_pos hlt, List.getD_append _ _ _ _ (by rw [seg_length]; exact hlt), getD_seg _ _ _ _ hlt]
    · rw [if_neg hlt, List.getD_append_right _ _ _ _ (by rw [seg_length]; omega), seg_length,
        List.getD_eq_getElem?_getD, List.getElem?_drop, ← List.getD_eq_getElem?_getD, show mlen + (i - mlen) = i by omega,
        getD_toList _ _ hi]
  have hmsg : seg mem' sm mlen = seg mem (sm + d) mlen := seg_ext fun i hi => by rw [hmem i (by omega), if_pos hi]
  refine ⟨hmsg, fun mcap out hopen => ?_⟩
  have hbuf : seg (bufferAt mem' sm n) 0 mlen = seg mem (sm + d) mlen := by
    rw [← hmsg]
    exact seg_ext fun i hi => by rw [g_bufferAt _ _ _ _ (by omega)]; congr 1; omega
  have hov := open_overwritten hp hr₁ hr₂ hkeygen hl (le_refl _) hk64 h1
    (c := bufferAt mem' sm n) (fun i hi hge => by rw [g_bufferAt _ _ _ _ hi, hmem i (by omega), if_neg (by omega)]) hopen
  rw [hbuf] at hov
  refine ⟨hov.1, ?_⟩
  have e1 : (viewSign b mlen p.storageLen : SignT p _) = viewSign mem' (sm + mlen) p.storageLen :=
    viewSign_ext fun i hi => by rw [Nat.add_assoc, hmem _ (by omega), if_neg (by omega)]
  obtain ⟨⟨count, -, -, hsmlen, -⟩, -, -⟩ := hS
  have hfix := fixedLen_cryptoBytes (p := p) count
  rw [hl] at hsmlen
  have e2 : (viewSign (bufferAt mem' sm n) mlen (n - mlen - p.fixedLen) : SignT p _) = viewSign mem' (sm + mlen) (n - mlen - p.fixedLen) :=
    viewSign_ext fun i hi => by rw [g_bufferAt _ _ _ _ (by omega)]; congr 1; omega
  rw [e1, e2] at hov
  rcases hov.2 with ⟨e, -⟩ | h
  · left
    intro i hi hlt
    have := congrArg (fun l => l.getD i 0) e
    rw [getD_seg _ _ _ _ hi, hashedMessage, getD_seg _ _ _ _ hi, g_blitV _ _ _ _ (by omega), if_pos (by omega)] at this
    rw [this]
    congr 1; omega
  · exact .inr h

/-! ## Opening -/

/-- The length of the message in the signed message at `sm`. -/
def messageLength {k : Nat} (p : Params) (mem : Vector UInt8 k) (sm smlen : Nat) : Nat :=
  smlen - p.cryptoBytes (g mem (sm + (smlen - 1))).toNat

/-- What `LESS_verify` gets to see: the message, and the signature as it is after the message has been copied to `m`. -/
def openedBuffer {k : Nat} (p : Params) (mem : Vector UInt8 k) (m sm smlen : Nat) : Vector UInt8 smlen :=
  let mlen := messageLength p mem sm smlen
  toVec smlen (seg mem sm mlen ++ seg (blitV mem m (seg mem sm mlen)) (sm + mlen) (smlen - mlen))

theorem g_openedBuffer {k : Nat} (mem : Vector UInt8 k) (m sm smlen : Nat) (hsm : sm + smlen ≤ k) {i : Nat} (hi : i < smlen) :
    g (openedBuffer p mem m sm smlen) i =
      if messageLength p mem sm smlen ≤ i ∧ m ≤ sm + i ∧ sm + i < m + messageLength p mem sm smlen then g mem (sm + (sm + i - m))
      else g mem (sm + i) := by
  have hml : messageLength p mem sm smlen ≤ smlen := Nat.sub_le _ _
  unfold openedBuffer
  dsimp only
  generalize messageLength p mem sm smlen = mlen at hml ⊢
  rw [g_toVec _ _ _ hi]
  by_cases h : i < mlen
  · rw [List.getD_append _ _ _ _ (by rw [seg_length]; exact h), getD_seg _ _ _ _ h, if_neg (by omega)]
  · rw [List.getD_append_right _ _ _ _ (by rw [seg_length]; omega), seg_length, getD_seg _ _ _ _ (by omega),
      g_blitV _ _ _ _ (by omega), seg_length]
    by_cases h2 : m ≤ sm + i ∧ sm + i < m + mlen
    · rw [if_pos (by omega), if_pos (by omega), getD_seg _ _ _ _ (by omega)]
      congr 1; omega
    · rw [if_neg (by omega), if_neg (by omega)]
      congr 1; omega

/-- `crypto_sign_open` in one memory opens that buffer. -/
theorem alias_open_eq (hp : p.WF) {k : Nat} {back : Bool} (fuel : Nat) (sl : Nat → Stale p) {mem : Vector UInt8 k} {m sm smlen : Nat}
    (pk : Vector UInt8 p.pkLen) (hpos : 0 < smlen) (h64 : smlen < 2 ^ 64) (hsm : sm + smlen ≤ k) (hm : m + smlen ≤ k)
    (hlong : p.cryptoBytes (g mem (sm + (smlen - 1))).toNat ≤ smlen)
    (hc : CopyFits back m sm (messageLength p mem sm smlen))
    (hlast : sm + smlen ≤ m ∨ m + messageLength p mem sm smlen < sm + smlen) :
    cryptoSignOpenAlias back fuel sl mem m sm smlen pk =
      (cryptoSignOpen fuel sl smlen (openedBuffer p mem m sm smlen) pk >>= fun r =>
        .ok (r.1, r.2.map List.length, match r.2 with | none => mem | some msg => blitV mem m msg)) := by
  have hml : messageLength p mem sm smlen ≤ smlen := Nat.sub_le _ _
  have hlastc : countByte (openedBuffer p mem m sm smlen) = (g mem (sm + (smlen - 1))).toNat := by
    unfold countByte
    rw [g_openedBuffer _ _ _ _ hsm (by omega), if_neg (by omega)]
  rw [cryptoSignOpen_eq hp fuel sl smlen _ pk h64 hpos, hlastc]
  have hbuf : ∀ i < smlen, g (openedBuffer p mem m sm smlen) i = if i < messageLength p mem sm smlen then g mem (sm + i)
      else g (blitV mem m (seg mem sm (messageLength p mem sm smlen))) (sm + i) := by
    intro i hi
    rw [g_openedBuffer _ _ _ _ hsm hi, g_blitV _ _ _ _ (by omega), seg_length]
    by_cases h : i < messageLength p mem sm smlen
    · rw [if_neg (by omega), if_pos h]
    · rw [if_neg h]
      by_cases h2 : m ≤ sm + i ∧ sm + i < m + messageLength p mem sm smlen
      · rw [if_pos (by omega), if_pos (by omega), getD_seg _ _ _ _ (by omega)]
      · rw [if_neg (by omega), if_neg (by omega)]
  unfold messageLength at hml hc hlast hbuf
  unfold cryptoSignOpenAlias
  have e1 : (smlen + 2 ^ 64 - 1) % 2 ^ 64 = smlen - 1 := by omega
  have hrd : rdB mem (sm + (smlen + 2 ^ 64 - 1) % 2 ^ 64) = .ok (g mem (sm + (smlen - 1))).toNat := by
    rw [e1]
    unfold rdB rd
    rw [dif_pos (by omega), g_eq_getElem _ _ (by omega)]
    rfl
  rw [hrd]
  generalize openedBuffer p mem m sm smlen = c at hbuf
  have hcnt : (g mem (sm + (smlen - 1))).toNat ≤ 255 := by have := (g mem (sm + (smlen - 1))).toNat_lt; omega
  generalize (g mem (sm + (smlen - 1))).toNat = num at *
  have hcb := hp.cryptoBytes_lt hcnt
  have hfix := fixedLen_cryptoBytes (p := p) num
  show (if p.maxPublishedSeeds ≤ num then _ else _) = _
  by_cases hmax : p.maxPublishedSeeds ≤ num
  · rw [if_pos hmax, if_pos hmax]; rfl
  · rw [if_neg hmax, if_neg hmax, if_pos ⟨hlong, by omega⟩]
    have e2 : (smlen + 2 ^ 64 - p.cryptoBytes num) % 2 ^ 64 = smlen - p.cryptoBytes num := by omega
    generalize (smlen + 2 ^ 64 - p.cryptoBytes num) % 2 ^ 64 = mlen at e2 ⊢
    rw [← e2] at hc hbuf hml hlast ⊢
    rw [copyWithin_eq hc (by omega) (by omega), bind_ok, slice_eq, if_pos (by omega), bind_ok]
    have e3 : smlen - mlen - p.fixedLen = num * p.seedLen + 1 := by omega
    generalize smlen - mlen - p.fixedLen = n at e3 ⊢
    subst e3
    rw [readSign_eq _ _ _ (by omega), bind_ok, seg_blitV_same _ _ _ _ (seg_length _ _ _) (by omega)]
    have e4 : seg c 0 mlen = seg mem sm mlen := seg_ext fun i hi => by rw [Nat.zero_add, hbuf _ (by omega), if_pos hi]
    have e5 : (viewSign c mlen (num * p.seedLen + 1) : SignT p _) =
        viewSign (blitV mem m (seg mem sm mlen)) (sm + mlen) (num * p.seedLen + 1) :=
      viewSign_ext fun i hi => by rw [hbuf _ (by omega), if_neg (by omega), Nat.add_assoc]
    rw [e4, e5]
    rcases lessVerify fuel sl (readPub pk) (seg mem sm mlen) _ with e | r
    · rfl
    · rw [bind_ok, bind_ok, bind_ok]
      dsimp only [Option.map]
      rw [seg_length]
      rfl

/-- Opening into the same buffer: if the place for the message is at the beginning of the signed message (`m = sm`) or
disjoint from it (or before it and the bytes are copied forwards), the result is that of a call with separate buffers, and the
message is stored at `m`.  Missing: the remaining positions (`C71_fails_open`). -/
theorem C71_open_partial (hp : p.WF) {k : Nat} (back : Bool) (fuel : Nat) (sl : Nat → Stale p) (mem : Vector UInt8 k) {m sm smlen : Nat}
    (pk : Vector UInt8 p.pkLen) (hpos : 0 < smlen) (h64 : smlen < 2 ^ 64) (hsm : sm + smlen ≤ k) (hm : m + smlen ≤ k)
    (hlong : p.cryptoBytes (g mem (sm + (smlen - 1))).toNat ≤ smlen)
    (hplace : m = sm ∨ m + smlen ≤ sm ∨ sm + smlen ≤ m ∨ (back = false ∧ m ≤ sm)) :
    cryptoSignOpenAlias back fuel sl mem m sm smlen pk =
      (cryptoSignOpen fuel sl smlen (bufferAt mem sm smlen) pk >>= fun r =>
        .ok (r.1, r.2.map List.length, match r.2 with | none => mem | some msg => blitV mem m msg)) := by
  have hml : messageLength p mem sm smlen < smlen := by
    unfold messageLength
    have := fixedLen_cryptoBytes (p := p) (g mem (sm + (smlen - 1))).toNat
    omega
  rw [alias_open_eq hp fuel sl pk hpos h64 hsm hm hlong ?_ (by omega)]
  swap
  · rcases hplace with h | h | h | h
    · exact .inl h
    · exact .inr (.inl (by omega))
    · exact .inr (.inr (.inl (by omega)))
    · exact .inr (.inr (.inr (.inl h)))
  have e : openedBuffer p mem m sm smlen = bufferAt mem sm smlen := by
    apply vec_ext
    intro i hi
    rw [g_openedBuffer _ _ _ _ hsm hi, g_bufferAt _ _ _ _ hi, if_neg (by omega)]
  rw [e]

/-- If the place for the message begins inside the signed message, at a distance of at most the length of the salt, then
the copy overwrites the beginning of the salt with the end of the message.  A signed message made by `crypto_sign` is
then refused, unless those bytes agree, or explicit strings are a collision of the hash function. -/
theorem C71_fails_open (hp : p.WF) {fuel₁ fuel₂ fuel₃ : Nat} {sl₁ sl₂ sl₃ : Nat → Stale p} {rng₁ rng₂ rng₁' rng₂' : Inc} (hr₁ : RngOk p rng₁)
    (hr₂ : RngOk p rng₂) {pk : Vector UInt8 p.pkLen} {sk : Vector UInt8 p.skLen}
    (hkeygen : cryptoSignKeypair fuel₁ sl₁ rng₁ = .ok (pk, sk, rng₁')) {n : Nat} {sm₀ b : Vector UInt8 n} {msg : Bytes} {smlen : Nat}
    (hn : msg.length + p.sigLen ≤ n) (h64 : msg.length + p.sigLen < 2 ^ 64)
    (hsign : cryptoSign fuel₂ sl₂ rng₂ sm₀ msg sk = .ok (b, smlen, rng₂'))
    {k : Nat} {mem mem' : Vector UInt8 k} {sm d : Nat} {out : Option Nat} (hsm : sm + d + smlen ≤ k) (hmem : ∀ i < smlen, g mem (sm + i) = g b i)
    {back : Bool} (hd : 0 < d) (hd' : d ≤ p.hashLen) (hback : back = true ∨ msg.length ≤ d)
    (hopen : cryptoSignOpenAlias back fuel₃ sl₃ mem (sm + d) sm smlen pk = .ok (0, out, mem')) :
    (∀ j < d, d ≤ msg.length + j → (drawnSalt p rng₂).getD j 0 = msg.getD (msg.length + j - d) 0) ∨
      SameDigestCollision p (max fuel₁ fuel₂) fuel₃ (readPub pk).spec msg msg (viewSign (p := p) b msg.length p.storageLen).spec
        (viewSign (p := p) (openedBuffer p mem (sm + d) sm smlen) msg.length (smlen - msg.length - p.fixedLen)).spec := by
  obtain ⟨root, salt, hS⟩ := sign_signedMessage hp hr₂ hn hsign
  have hle := hS.smlen_le
  have hmsg := hS.msg
  obtain ⟨⟨count, -, -, hsmlen, hcount, -⟩, -, -⟩ := hS
  have hfix := fixedLen_cryptoBytes (p := p) count
  have hfx : p.fixedLen = p.hashLen + p.W * p.monoBytes + p.hashLen := rfl
  have hcnt : (g mem (sm + (smlen - 1))).toNat = count := by rw [hmem _ (by omega), hcount]
  have hml : messageLength p mem sm smlen = msg.length := by rw [messageLength, hcnt]; omega
  rw [alias_open_eq hp fuel₃ sl₃ pk (by omega) (by omega) (by omega) (by omega) (by rw [hcnt]; omega) ?_ (by omega)] at hopen
  swap
  · rcases hback with h | h
    · exact .inr (.inr (.inr (.inr ⟨h, by omega⟩)))
    · exact .inr (.inr (.inl (by omega)))
  obtain ⟨⟨r, o⟩, h1, h2⟩ := bind_inv hopen
  injection h2 with h2
  injection h2 with h2 h3
  dsimp only at h2
  subst h2
  have hg : ∀ i < smlen, g (openedBuffer p mem (sm + d) sm smlen) i =
      if msg.length ≤ i ∧ d ≤ i ∧ i < d + msg.length then msg.getD (i - d) 0 else g b i := by
    intro i hi
    rw [g_openedBuffer _ _ _ _ (by omega) hi, hml]
    by_cases h : msg.length ≤ i ∧ d ≤ i ∧ i < d + msg.length
    · rw [if_pos (by omega), if_pos h, hmem _ (by omega), hmsg _ (by omega)]
      congr 1; omega
    · rw [if_neg (by omega), if_neg h, hmem _ hi]
  obtain ⟨-, h4⟩ := open_overwritten hp hr₁ hr₂ hkeygen rfl hn h64 hsign (c := openedBuffer p mem (sm + d) sm smlen)
    (fun i hi hge => by rw [hg i hi, if_neg (by omega)]) h1
  have e1 : seg (openedBuffer p mem (sm + d) sm smlen) 0 msg.length = msg := by
    apply List.ext_getElem
    · rw [seg_length]
    · intro i h5 h6
      rw [getElem_seg, Nat.zero_add, hg i (by omega), if_neg (by omega), hmsg i h6, List.getD_eq_getElem _ _ h6]
  rw [e1] at h4
  rcases h4 with ⟨-, h4⟩ | h4
  · left
    intro j hj hdj
    have := congrArg (fun l => l.getD j 0) h4
    rw [getD_seg _ _ _ _ (by omega), hg _ (by omega), if_pos (by omega), sign_salt hp hr₂ hn hsign] at this
    exact this.symm
  · exact .inr h4

end LESS
