import Verif.Proofs.Complete
import Verif.Proofs.Fuel
/-!
# The NIST API: layouts of keys and signatures
-/
namespace LESS
open Spec

variable {p : Params} {F : Prop}

/-! ## Structures as bytes -/

theorem getD_flatten (c : Nat) (l : List Bytes) (hl : ∀ x ∈ l, x.length = c) (i j : Nat) (hi : i < l.length) (hj : j < c) :
    l.flatten.getD (i * c + j) 0 = (l[i]).getD j 0 := by
  induction l generalizing i with
  | nil => simp at hi
  | cons a t ih =>
    have ha := hl a (by simp)
    rw [List.flatten_cons]
    cases i with
    | zero => rw [Nat.zero_mul, Nat.zero_add, List.getD_append _ _ _ _ (by omega)]; rfl
    | succ i =>
      have e : (i + 1) * c = i * c + c := by ring
      rw [List.getD_append_right _ _ _ _ (by rw [ha]; omega), ha, show (i + 1) * c + j - c = i * c + j by omega]
      rw [ih (fun x hx => hl x (by simp [hx])) i (by simpa using hi)]
      rfl

theorem flatten_length (c : Nat) (l : List Bytes) (hl : ∀ x ∈ l, x.length = c) : l.flatten.length = l.length * c := by
  induction l with
  | nil => simp
  | cons a t ih =>
    rw [List.flatten_cons, List.length_append, hl a (by simp), ih (fun x hx => hl x (by simp [hx])), List.length_cons]
    ring

theorem vecs_flatten_length {c r : Nat} (v : Vector (Vector UInt8 c) r) :
    (v.toList.map Vector.toList).flatten.length = r * c := by
  rw [flatten_length c _ (by simp)]; simp

theorem getD_vecs_flatten {c r : Nat} (v : Vector (Vector UInt8 c) r) (i j : Nat) (hi : i < r) (hj : j < c) :
    (v.toList.map Vector.toList).flatten.getD (i * c + j) 0 = g (g v i) j := by
  rw [getD_flatten c _ (by simp) i j (by simpa using hi) hj, g_eq_getElem _ _ hj]
  simp only [List.getElem_map, Vector.getElem_toList, g_eq_getElem _ _ hi]
  rw [getD_of_lt _ _ (by simpa using hj)]
  simp

theorem getD_toList {n : Nat} (v : Vector UInt8 n) (i : Nat) (hi : i < n) : v.toList.getD i 0 = g v i := by
  rw [getD_of_lt _ _ (by simpa using hi), g_eq_getElem _ _ hi]; simp

theorem pubBytes_length (pk : PubKey p) : (pubBytes pk).length = p.pkLen := by
  unfold pubBytes Params.pkLen
  rw [List.length_append, vecs_flatten_length]; simp

theorem priBytes_length (sk : PriKey p) : (priBytes sk).length = p.skLen := by
  unfold priBytes Params.skLen
  simp

theorem mul_block {a b c j : Nat} (h : a < b) (hj : j < c) : a * c + j < b * c := by
  have := Nat.mul_le_mul_right c (show a + 1 ≤ b from h)
  rw [Nat.succ_mul] at this; omega

theorem readPub_pubBytes (pk : PubKey p) : readPub (toVec _ (pubBytes pk)) = pk := by
  obtain ⟨s, v⟩ := pk
  unfold readPub
  congr 1
  · apply vec_ext
    intro i hi
    have hi' : i < p.pkLen := by unfold Params.pkLen; omega
    rw [g_toVec _ _ _ hi, getD_seg _ _ _ _ hi, Nat.zero_add, g_toVec _ _ _ hi', pubBytes,
      List.getD_append _ _ _ _ (by simpa using hi), getD_toList _ _ hi]
  · apply vec_ext
    intro i hi
    rw [g_ofFn _ _ hi]
    dsimp only
    apply vec_ext
    intro j hj
    have hlt := mul_block hi hj
    rw [g_toVec _ _ _ hj, getD_seg _ _ _ _ hj, g_toVec _ _ _ (by unfold Params.pkLen; omega), pubBytes,
      List.getD_append_right _ _ _ _ (by simp; omega)]
    rw [show p.seedLen + i * p.rrefBytes + j - s.toList.length = i * p.rrefBytes + j by simp; omega]
    exact getD_vecs_flatten v i j hi hj

theorem readPri_priBytes (sk : PriKey p) : readPri (toVec _ (priBytes sk)) = sk := by
  obtain ⟨a, b⟩ := sk
  unfold readPri
  congr 1
  · apply vec_ext
    intro i hi
    rw [g_toVec _ _ _ hi, getD_seg _ _ _ _ hi, Nat.zero_add, g_toVec _ _ _ (by unfold Params.skLen; omega), priBytes,
      List.getD_append _ _ _ _ (by simpa using hi), getD_toList _ _ hi]
  · apply vec_ext
    intro i hi
    rw [g_toVec _ _ _ hi, getD_seg _ _ _ _ hi, g_toVec _ _ _ (by unfold Params.skLen; omega), priBytes,
      List.getD_append_right _ _ _ _ (by simp)]
    rw [show p.skSeedLen + i - a.toList.length = i by simp]
    exact getD_toList _ _ hi

/-! ## Signatures as bytes -/

/-- The structure that `readSign` reads. -/
def viewSign {k : Nat} (buf : Vector UInt8 k) (off n : Nat) : SignT p n :=
  ⟨toVec _ (seg buf off p.hashLen),
    Vector.ofFn fun i => toVec _ (seg buf (off + p.hashLen + i.val * p.monoBytes) p.monoBytes),
    toVec _ (seg buf (off + p.hashLen + p.W * p.monoBytes) p.hashLen),
    toVec _ (seg buf (off + p.fixedLen) n)⟩

theorem readSign_wp {k : Nat} (buf : Vector UInt8 k) (off n : Nat) (h : off + p.fixedLen + n ≤ k) :
    Wp F (readSign (p := p) buf off n) (fun r => r = viewSign buf off n) := by
  unfold Params.fixedLen at h
  unfold readSign
  rw [Wp.bind_iff, Wp.slice_iff]
  refine ⟨by omega, ?_⟩
  rw [Wp.bind_iff]
  refine Wp.forUp (fun i (v : Vector (Vector UInt8 p.monoBytes) p.W) => ∀ j < i, g v j =
    toVec _ (seg buf (off + p.hashLen + j * p.monoBytes) p.monoBytes)) (by simp) ?_ ?_
  · intro i v hi hv
    have := Nat.mul_le_mul_right p.monoBytes (show i + 1 ≤ p.W from hi)
    rw [Nat.succ_mul] at this
    rw [Wp.bind_iff, Wp.slice_iff]
    refine ⟨by omega, ?_⟩
    rw [Wp.wr_iff]
    refine ⟨hi, fun j hj => ?_⟩
    rw [g_upd _ _ _ _ hi]
    by_cases e : i = j
    · subst e; rw [if_pos rfl]
    · rw [if_neg e]; exact hv j (by omega)
  · intro v hv
    rw [Wp.bind_iff, Wp.slice_iff]
    refine ⟨by omega, ?_⟩
    rw [Wp.bind_iff, Wp.slice_iff]
    refine ⟨by unfold Params.fixedLen; omega, ?_⟩
    rw [Wp.pure_iff, viewSign]
    congr 1
    apply vec_ext
    intro i hi
    rw [hv i hi, g_ofFn _ _ hi]

theorem signBytes_length {n : Nat} (s : SignT p n) : (signBytes s).length = p.fixedLen + n := by
  unfold signBytes Params.fixedLen
  simp only [List.length_append, vecs_flatten_length, Vector.length_toList]

theorem getD_signBytes_salt {n : Nat} (s : SignT p n) (j : Nat) (h : j < p.hashLen) :
    (signBytes s).getD j 0 = g s.treeSalt j := by
  unfold signBytes
  rw [List.getD_append _ _ _ _ (by simp only [List.length_append, vecs_flatten_length, Vector.length_toList]; omega),
    List.getD_append _ _ _ _ (by simp only [List.length_append, vecs_flatten_length, Vector.length_toList]; omega),
    List.getD_append _ _ _ _ (by simpa using h), getD_toList _ _ h]

theorem getD_signBytes_mono {n : Nat} (s : SignT p n) (i j : Nat) (hi : i < p.W) (hj : j < p.monoBytes) :
    (signBytes s).getD (p.hashLen + i * p.monoBytes + j) 0 = g (g s.monomActions i) j := by
  have := mul_block hi hj
  unfold signBytes
  rw [List.getD_append _ _ _ _ (by simp only [List.length_append, vecs_flatten_length, Vector.length_toList]; omega),
    List.getD_append _ _ _ _ (by simp only [List.length_append, vecs_flatten_length, Vector.length_toList]; omega),
    List.getD_append_right _ _ _ _ (by simp only [Vector.length_toList]; omega),
    show p.hashLen + i * p.monoBytes + j - s.treeSalt.toList.length = i * p.monoBytes + j by simp; omega]
  exact getD_vecs_flatten _ _ _ hi hj

theorem getD_signBytes_digest {n : Nat} (s : SignT p n) (j : Nat) (h : j < p.hashLen) :
    (signBytes s).getD (p.hashLen + p.W * p.monoBytes + j) 0 = g s.digest j := by
  unfold signBytes
  rw [List.getD_append _ _ _ _ (by simp only [List.length_append, vecs_flatten_length, Vector.length_toList]; omega),
    List.getD_append_right _ _ _ _ (by simp only [List.length_append, vecs_flatten_length, Vector.length_toList]; omega),
    List.length_append, vecs_flatten_length, Vector.length_toList, Nat.add_sub_cancel_left, getD_toList _ _ h]

theorem getD_signBytes_storage {n : Nat} (s : SignT p n) (j : Nat) (h : j < n) :
    (signBytes s).getD (p.fixedLen + j) 0 = g s.seedStorage j := by
  unfold signBytes Params.fixedLen
  rw [List.getD_append_right _ _ _ _ (by simp only [List.length_append, vecs_flatten_length, Vector.length_toList]; omega)]
  simp only [List.length_append, vecs_flatten_length, Vector.length_toList]
  rw [Nat.add_sub_cancel_left, getD_toList _ _ h]

/-- Reading back a stored signature, of whose seed storage only the first `n'` bytes are there. -/
theorem viewSign_eq {k n n' : Nat} (buf : Vector UInt8 k) (off : Nat) (s : SignT p n) (hn : n' ≤ n)
    (h : ∀ j < p.fixedLen + n', g buf (off + j) = (signBytes s).getD j 0) :
    (viewSign (p := p) buf off n').treeSalt = s.treeSalt ∧ (viewSign (p := p) buf off n').monomActions = s.monomActions ∧
      (viewSign (p := p) buf off n').digest = s.digest ∧
      ∀ j < n', g (viewSign (p := p) buf off n').seedStorage j = g s.seedStorage j := by
  have hf : p.fixedLen = p.hashLen + p.W * p.monoBytes + p.hashLen := rfl
  refine ⟨?_, ?_, ?_, ?_⟩
  · apply vec_ext
    intro j hj
    rw [viewSign, g_toVec _ _ _ hj, getD_seg _ _ _ _ hj, h j (by omega), getD_signBytes_salt s j hj]
  · apply vec_ext
    intro i hi
    rw [viewSign, g_ofFn _ _ hi]
    dsimp only
    apply vec_ext
    intro j hj
    have := mul_block hi hj
    rw [g_toVec _ _ _ hj, getD_seg _ _ _ _ hj, Nat.add_assoc off, Nat.add_assoc off, h _ (by omega),
      getD_signBytes_mono s i j hi hj]
  · apply vec_ext
    intro j hj
    rw [viewSign, g_toVec _ _ _ hj, getD_seg _ _ _ _ hj, Nat.add_assoc off, Nat.add_assoc off, h _ (by omega),
      getD_signBytes_digest s j hj]
  · intro j hj
    rw [viewSign, g_toVec _ _ _ hj, getD_seg _ _ _ _ hj, Nat.add_assoc off, h _ (by omega),
      getD_signBytes_storage s j (by omega)]

/-! ## The calls -/

theorem Spec.Signed.congr {B : Nat} {sk : SK p} {root m : List UInt8} {sig sig' : Sig p} {count : Nat}
    (h : Signed p B sk root m sig count) (h1 : sig'.salt = sig.salt) (h2 : sig'.responses = sig.responses)
    (h3 : sig'.digest = sig.digest) (h4 : ∀ k < count, sig'.stored k = sig.stored k) :
    Signed p B sk root m sig' count := by
  obtain ⟨hroot, v, coms, G0, a1, a2, a3, a4, a5, a6⟩ := h
  refine ⟨hroot, v, coms, G0, a1, ?_, ?_, ?_, a5, ?_⟩
  · rw [h3]; exact a2
  · rw [h3, h1]; exact a3
  · rw [h1, h2]; exact a4
  · intro i hi
    rw [h1, h4 _ (by rw [a5]; exact rank_lt_pubCount hi)]
    exact a6 i hi

theorem Spec.Signed.count_eq {B : Nat} {sk : SK p} {root m : List UInt8} {sig : Sig p} {count : Nat}
    (h : Signed p B sk root m sig count) {B' : Nat} {v} (hv : IsChallenge p B' (xof p sig.digest) v) :
    count = pubCount p (hides v) := by
  obtain ⟨_, v', _, _, _, a2, _, _, a5, _⟩ := h
  obtain rfl := hv.unique a2
  exact a5

theorem Spec.Signed.count_le (hp : p.WF) {B : Nat} {sk : SK p} {root m : List UInt8} {sig : Sig p} {count : Nat}
    (h : Signed p B sk root m sig count) : count * p.seedLen ≤ p.maxPublishedBytes ∧ count ≤ p.maxPublishedSeeds := by
  obtain ⟨_, v, _, _, _, a2, _, _, a5, _⟩ := h
  rw [a5]
  exact ⟨pubCount_le hp a2.weight,
    (pubCount_le_worst hp (hides v) (by rw [hiddenSet_card, a2.weight])).trans hp.storage⟩

/-- The key pair an honest key generation outputs. -/
theorem cryptoSignKeypair_wp (hp : p.WF) (fuel : Nat) (sl : Nat → Stale p) (rng : Inc) (s : Stream) (hs : StreamAt p rng s) :
    Wp (¬ KeyFits p fuel (skOf p s)) (cryptoSignKeypair fuel sl rng) (fun r =>
      (readPri r.2.1).spec = skOf p s ∧ KeyPair p fuel (skOf p s) (readPub r.1).spec ∧
        StreamAt p r.2.2 (s.drop (p.skSeedLen + p.seedLen))) := by
  unfold cryptoSignKeypair
  rw [Wp.bind_iff]
  refine (lessKeygen_wp hp fuel sl rng s hs).mono ?_
  rintro ⟨sk, pk, rng'⟩ ⟨h1, h2, h3⟩
  rw [Wp.pure_iff]
  dsimp only
  rw [readPri_priBytes, readPub_pubBytes]
  exact ⟨h1, h2, h3⟩

theorem fixedLen_cryptoBytes (c : Nat) : p.cryptoBytes c = p.fixedLen + c * p.seedLen + 1 := by
  unfold Params.cryptoBytes Params.fixedLen; ring

/-- What `crypto_sign` leaves in the buffer. -/
structure SignedMessage (p : Params) (B : Nat) (sk : SK p) (root salt m : Bytes) {k : Nat} (sm0 sm : Vector UInt8 k)
    (smlen : Nat) : Prop where
  body : ∃ count, count ≤ p.maxPublishedSeeds ∧ count * p.seedLen ≤ p.maxPublishedBytes ∧
    smlen = m.length + p.cryptoBytes count ∧ (g sm (smlen - 1)).toNat = count ∧
    Signed p B sk root m (viewSign (p := p) sm m.length p.storageLen).spec count ∧
    (viewSign (p := p) sm m.length p.storageLen).spec.salt = salt ∧
    ∀ j, smlen ≤ j → j < m.length + p.fixedLen + p.maxPublishedBytes → g sm j = 0
  msg : ∀ i < m.length, g sm i = m.getD i 0
  rest : ∀ i, m.length + p.sigLen ≤ i → i < k → g sm i = g sm0 i

theorem cryptoSign_wp (hp : p.WF) {k : Nat} (fuel : Nat) (sl : Nat → Stale p) (rng : Inc) (sm : Vector UInt8 k) (m : Bytes)
    (sk : Vector UInt8 p.skLen) (s : Stream) (hs : StreamAt p rng s) (hk : m.length + p.sigLen ≤ k) :
    Wp (¬ SignerFits p fuel (readPri sk).spec (rootOf p s) m (saltOf p s)) (cryptoSign fuel sl rng sm m sk) (fun r =>
      SignedMessage p fuel (readPri sk).spec (rootOf p s) (saltOf p s) m sm r.1 r.2.1 ∧
      StreamAt p r.2.2 (s.drop (p.seedLen + p.hashLen))) := by
  have hsl : p.sigLen = p.fixedLen + p.storageLen := rfl
  unfold cryptoSign
  rw [Wp.bind_iff, Wp.blit_iff]
  refine ⟨by omega, ?_⟩
  rw [Wp.bind_iff]
  refine (readSign_wp _ _ _ (by omega)).mono ?_
  intro sig0 _
  rw [Wp.bind_iff]
  refine (lessSign_wp hp fuel sl rng (readPri sk) m sig0 s hs (Nat.le_refl _)).mono ?_
  rintro ⟨sig, num, rng'⟩ ⟨h1, h2, h3, h4, h5⟩
  dsimp only at h1 h2 h3 h4 h5 ⊢
  rw [Wp.bind_iff, Wp.blit_iff, signBytes_length]
  refine ⟨by omega, ?_⟩
  rw [Wp.pure_iff]
  refine ⟨?_, h5⟩
  dsimp only
  have hcount := h2.count_le hp
  have hst : p.storageLen = p.maxPublishedBytes + 1 := rfl
  have hg : ∀ j < p.fixedLen + p.storageLen, g (blitV (blitV sm 0 m) m.length (signBytes sig)) (m.length + j) =
      (signBytes sig).getD j 0 := by
    intro j hj
    rw [g_blitV _ _ _ _ (by omega), if_pos (by rw [signBytes_length]; omega), Nat.add_sub_cancel_left]
  have hview := viewSign_eq (n' := p.storageLen) (blitV (blitV sm 0 m) m.length (signBytes sig)) m.length sig (Nat.le_refl _) hg
  refine ⟨⟨num, hcount.2, hcount.1, rfl, ?_, ?_, ?_, ?_⟩, ?_, ?_⟩
  · rw [fixedLen_cryptoBytes, show m.length + (p.fixedLen + num * p.seedLen + 1) - 1 =
      m.length + (p.fixedLen + num * p.seedLen) by omega, hg _ (by omega), getD_signBytes_storage _ _ (by omega)]
    exact h3
  · refine h2.congr ?_ ?_ ?_ ?_
    · show (viewSign (p := p) _ _ _).treeSalt.toList = _; rw [hview.1]; rfl
    · show (fun i => g (viewSign (p := p) _ _ _).monomActions i) = _; rw [hview.2.1]; rfl
    · show (viewSign (p := p) _ _ _).digest.toList = _; rw [hview.2.2.1]; rfl
    · intro c hc
      have := mul_bound (c := p.seedLen) hc
      apply seg_ext
      intro i hi
      rw [Nat.mul_comm p.seedLen]
      exact hview.2.2.2 _ (by omega)
  · show (viewSign (p := p) _ _ _).treeSalt.toList = _; rw [hview.1]; exact h1
  · intro j hj hj2
    rw [fixedLen_cryptoBytes] at hj
    obtain ⟨c, rfl⟩ := Nat.exists_eq_add_of_le (show m.length + p.fixedLen ≤ j by omega)
    rw [Nat.add_assoc, hg _ (by omega), getD_signBytes_storage _ _ (by omega)]
    exact h4 c (by omega) (by omega)
  · intro i hi
    rw [g_blitV _ _ _ _ (by omega), if_neg (by omega), g_blitV _ _ _ _ (by omega), if_pos (by omega)]
    rfl
  · intro i hi hik
    rw [g_blitV _ _ _ _ hik, if_neg (by rw [signBytes_length]; omega), g_blitV _ _ _ _ hik, if_neg (by omega)]

/-- `crypto_sign_open`, on any signed message long enough for what its last byte announces. -/
theorem cryptoSignOpen_wp (hp : p.WF) {smlen : Nat} (fuel : Nat) (sl : Nat → Stale p) (mcap : Nat) (sm : Vector UInt8 smlen)
    (pk : Vector UInt8 p.pkLen) (hlen : smlen < 2 ^ 64) (hgood : ∀ j < p.numKeypairs - 1, GoodCode p ((readPub pk).spec.codes j))
    (num : Nat) (hnum : num = (g sm (smlen - 1)).toNat) (hpos : 0 < smlen)
    (hsz : num < p.maxPublishedSeeds → p.cryptoBytes num ≤ smlen ∧ smlen - p.cryptoBytes num ≤ mcap)
    (sig : Sig p) (hsig : sig = (viewSign (p := p) sm (smlen - p.cryptoBytes num) (num * p.seedLen + 1)).spec)
    (hn : num < p.maxPublishedSeeds → ∀ v, IsChallenge p fuel (xof p sig.digest) v → pubCount p (hides v) ≤ num) :
    Wp (¬ VerifierFits p fuel (readPub pk).spec sig) (cryptoSignOpen fuel sl mcap sm pk) (fun r =>
      (num < p.maxPublishedSeeds ∧ r = (0, some (seg sm 0 (smlen - p.cryptoBytes num))) ∧
        Accepts p fuel (readPub pk).spec (seg sm 0 (smlen - p.cryptoBytes num)) sig) ∨
      (num < p.maxPublishedSeeds ∧ r = (-1, some (seg sm 0 (smlen - p.cryptoBytes num))) ∧
        ∀ B, ¬ Accepts p B (readPub pk).spec (seg sm 0 (smlen - p.cryptoBytes num)) sig) ∨
      (p.maxPublishedSeeds ≤ num ∧ r = (-1, none))) := by
  unfold cryptoSignOpen
  rw [Wp.bind_iff, Wp.rdB_iff]
  have e1 : (smlen + 2 ^ 64 - 1) % 2 ^ 64 = smlen - 1 := by omega
  rw [e1, ← hnum]
  refine ⟨by omega, ?_⟩
  by_cases hmax : p.maxPublishedSeeds ≤ num
  · rw [if_pos hmax, Wp.pure_iff]
    exact Or.inr (Or.inr ⟨hmax, rfl⟩)
  · rw [if_neg hmax]
    have hlt : num < p.maxPublishedSeeds := by omega
    obtain ⟨hs1, hs2⟩ := hsz hlt
    have e2 : (smlen + 2 ^ 64 - p.cryptoBytes num) % 2 ^ 64 = smlen - p.cryptoBytes num := by omega
    have hcb := fixedLen_cryptoBytes (p := p) num
    dsimp only
    generalize (smlen + 2 ^ 64 - p.cryptoBytes num) % 2 ^ 64 = mlen at e2 ⊢
    subst e2
    rw [Wp.bind_iff, Wp.slice_iff]
    refine ⟨by omega, ?_⟩
    rw [if_neg (by omega), Wp.bind_iff]
    have e3 : smlen - (smlen - p.cryptoBytes num) - p.fixedLen = num * p.seedLen + 1 := by omega
    generalize smlen - (smlen - p.cryptoBytes num) - p.fixedLen = n at e3 ⊢
    subst e3
    refine (readSign_wp _ _ _ (by omega)).mono ?_
    rintro sg rfl
    rw [Wp.bind_iff]
    subst hsig
    refine (lessVerify_wp hp fuel sl (readPub pk) _ _ hgood (fun v hv => ?_)).mono ?_
    · have := Nat.mul_le_mul_right p.seedLen (hn hlt v hv)
      omega
    · rintro r (⟨rfl, h⟩ | ⟨rfl, h⟩)
      · exact Or.inl ⟨hlt, rfl, h⟩
      · exact Or.inr (Or.inl ⟨hlt, rfl, h⟩)

/-- A signed message opens under the matching public key, unless its number of seeds is refused. -/
theorem open_signed (hp : p.WF) {B fuel k smlen : Nat} (hB : B ≤ fuel) (sl : Nat → Stale p) (mcap : Nat) {sk : SK p} {root salt m : Bytes}
    {sm0 sm : Vector UInt8 k} (h : SignedMessage p B sk root salt m sm0 sm smlen) (pk : Vector UInt8 p.pkLen)
    (hpk : KeyPair p B sk (readPub pk).spec) (hk : m.length + p.sigLen ≤ k)
    (sm' : Vector UInt8 smlen) (hsm : ∀ i < smlen, g sm' i = g sm i) (hlen : smlen < 2 ^ 64) (hcap : m.length ≤ mcap) :
    cryptoSignOpen fuel sl mcap sm' pk =
      .ok (if (g sm (smlen - 1)).toNat < p.maxPublishedSeeds then (0, some m) else (-1, none)) := by
  obtain ⟨⟨count, hc1, hc2, hlen2, hcb, hsig, _, _⟩, hmsg, _⟩ := h
  have hfix := fixedLen_cryptoBytes (p := p) count
  have hsl : p.sigLen = p.fixedLen + p.storageLen := rfl
  have hst : p.storageLen = p.maxPublishedBytes + 1 := rfl
  have hnum : count = (g sm' (smlen - 1)).toNat := by rw [hsm _ (by omega), hcb]
  have hoff : smlen - p.cryptoBytes count = m.length := by omega
  have hview : ∀ j < p.fixedLen + (count * p.seedLen + 1), g sm' (m.length + j) = g sm (m.length + j) := by
    intro j hj; exact hsm _ (by omega)
  have hS : Signed p B sk root m (viewSign (p := p) sm' (smlen - p.cryptoBytes count) (count * p.seedLen + 1)).spec count := by
    rw [hoff]
    have hf : p.fixedLen = p.hashLen + p.W * p.monoBytes + p.hashLen := rfl
    have hv : ∀ n off, off + n ≤ p.fixedLen + (count * p.seedLen + 1) → seg sm' (m.length + off) n = seg sm (m.length + off) n := by
      intro n off ho
      apply seg_ext
      intro i hi
      rw [Nat.add_assoc, hview _ (by omega)]
    refine hsig.congr ?_ ?_ ?_ ?_
    · show (toVec p.hashLen (seg sm' (m.length + 0) p.hashLen)).toList = (toVec p.hashLen (seg sm (m.length + 0) p.hashLen)).toList
      rw [hv _ _ (by omega)]
    · show (fun i => g (Vector.ofFn fun i : Fin p.W => toVec p.monoBytes _) i) = fun i => g (Vector.ofFn fun i : Fin p.W => toVec p.monoBytes _) i
      congr 1
      funext i
      congr 2
      funext i
      have := Nat.mul_le_mul_right p.monoBytes (show i.val + 1 ≤ p.W from i.2)
      rw [Nat.succ_mul] at this
      congr 1
      rw [Nat.add_assoc]
      exact hv _ _ (by omega)
    · show (toVec p.hashLen (seg sm' _ p.hashLen)).toList = (toVec p.hashLen (seg sm _ p.hashLen)).toList
      rw [Nat.add_assoc, hv _ _ (by omega)]
    · intro c hc
      have := mul_bound (c := p.seedLen) hc
      apply seg_ext
      intro i hi
      rw [Nat.mul_comm p.seedLen]
      rw [viewSign, viewSign]
      dsimp only
      rw [g_toVec _ _ _ (by omega), g_toVec _ _ _ (by omega), getD_seg _ _ _ _ (by omega), getD_seg _ _ _ _ (by omega),
        Nat.add_assoc, hview _ (by omega)]
  have hcomp := complete hp hpk hS
  have hgood : ∀ j < p.numKeypairs - 1, GoodCode p ((readPub pk).spec.codes j) := fun j hj => (hpk.2 j hj).good
  have hmseg : seg sm' 0 m.length = m := by
    apply List.ext_getElem
    · simp
    · intro i h1 h2
      rw [getElem_seg, Nat.zero_add, hsm _ (by omega), hmsg i h2, getD_of_lt _ _ h2]
  have hb := cryptoSignOpen_below hB sl mcap sm' pk
  have := cryptoSignOpen_wp hp B sl mcap sm' pk hlen hgood count hnum (by omega) (fun _ => ⟨by omega, by omega⟩) _ rfl
    (fun _ v hv => Nat.le_of_eq (hS.count_eq hv).symm)
  obtain ⟨r, hr, h⟩ := (this.monoF (F' := False) (fun hno => hno hcomp.2)).exists_ok
  rw [hb.ok hr]
  rw [hoff, hmseg] at h
  rw [hcb]
  rcases h with ⟨h1, rfl, _⟩ | ⟨h1, _, h2⟩ | ⟨h1, rfl⟩
  · rw [if_pos h1]
  · exact absurd hcomp.1 (by rw [hoff]; exact h2 B)
  · rw [if_neg (by omega)]

end LESS
