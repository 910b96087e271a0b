import Verif.Proofs.Open
import Verif.Props.Scheme
import Verif.Props.Toy
/-!
# Properties of the NIST API: `crypto_sign_keypair`, `crypto_sign`, `crypto_sign_open`

`firstBytes sm n` are the first `n` bytes of a buffer: what a caller passes on after `crypto_sign` reported
`smlen = n`.  Buffers are shorter than 2^64 bytes, as `unsigned long long` lengths require.
-/
namespace LESS

open Spec

variable {p : Params}

/-- The first `n` bytes of a buffer, as a buffer of its own. -/
def firstBytes {k : Nat} (sm : Vector UInt8 k) (n : Nat) : Vector UInt8 n := toVec n (seg sm 0 n)

theorem g_firstBytes {k : Nat} (sm : Vector UInt8 k) (n i : Nat) (h : i < n) : g (firstBytes sm n) i = g sm i := by
  unfold firstBytes
  rw [g_toVec _ _ _ h, getD_seg _ _ _ _ h, Nat.zero_add]

theorem api_keygen_pair (hp : p.WF) {fuel : Nat} {sl : Nat → Stale p} {rng : Inc} (hr : RngOk p rng) {pk : Vector UInt8 p.pkLen}
    {sk : Vector UInt8 p.skLen} {rng' : Inc} (h : cryptoSignKeypair fuel sl rng = .ok (pk, sk, rng')) :
    KeyPair p fuel (readPri sk).spec (readPub pk).spec := by
  obtain ⟨s, hs⟩ := exists_stream p rng hr
  have := (cryptoSignKeypair_wp hp fuel sl rng s hs).of_ok h
  dsimp only at this
  rw [this.1]
  exact this.2.1

theorem api_keygen_good (hp : p.WF) {fuel : Nat} {sl : Nat → Stale p} {rng : Inc} (hr : RngOk p rng) {pk : Vector UInt8 p.pkLen}
    {sk : Vector UInt8 p.skLen} {rng' : Inc} (h : cryptoSignKeypair fuel sl rng = .ok (pk, sk, rng')) :
    ∀ j < p.numKeypairs - 1, GoodCode p ((readPub pk).spec.codes j) := fun j hj => ((api_keygen_pair hp hr h).2 j hj).good

theorem sign_signedMessage (hp : p.WF) {k : Nat} {fuel : Nat} {sl : Nat → Stale p} {rng : Inc} (hr : RngOk p rng)
    {sm sm' : Vector UInt8 k} {m : Bytes} {sk : Vector UInt8 p.skLen} {smlen : Nat} {rng' : Inc} (hk : m.length + p.sigLen ≤ k)
    (h : cryptoSign fuel sl rng sm m sk = .ok (sm', smlen, rng')) :
    ∃ root salt, SignedMessage p fuel (readPri sk).spec root salt m sm sm' smlen := by
  obtain ⟨s, hs⟩ := exists_stream p rng hr
  exact ⟨_, _, ((cryptoSign_wp hp fuel sl rng sm m sk s hs hk).of_ok h).1⟩

theorem SignedMessage.smlen_le {B : Nat} {sk : SK p} {root salt m : Bytes} {k : Nat} {sm0 sm : Vector UInt8 k}
    {smlen : Nat} (h : SignedMessage p B sk root salt m sm0 sm smlen) : m.length < smlen ∧ smlen ≤ m.length + p.sigLen := by
  obtain ⟨⟨count, hc1, hc2, hlen, -⟩, -, -⟩ := h
  have := fixedLen_cryptoBytes (p := p) count
  have : p.sigLen = p.fixedLen + (p.maxPublishedBytes + 1) := rfl
  omega

/-! ## C02 -/

/-- The round trip through the byte-level interface: opening what `crypto_sign` produced returns 0 and the message,
provided the count byte is below the bound from which on `crypto_sign_open` refuses; otherwise it returns -1.
Missing: the claim without the proviso is false for two parameter sets, see `C02_open_refuses`. -/
theorem C02_round_trip_partial (hp : p.WF) {k : Nat} {fuel₁ fuel₂ fuel₃ : Nat} (h₁ : fuel₁ ≤ fuel₃) (h₂ : fuel₂ ≤ fuel₃)
    {sl₁ sl₂ : Nat → Stale p} {rng₁ rng₂ rng₁' rng₂' : Inc} (hr₁ : RngOk p rng₁) (hr₂ : RngOk p rng₂)
    {pk : Vector UInt8 p.pkLen} {sk : Vector UInt8 p.skLen} (hkeygen : cryptoSignKeypair fuel₁ sl₁ rng₁ = .ok (pk, sk, rng₁'))
    {m : Bytes} {sm sm' : Vector UInt8 k} {smlen : Nat} (hk : m.length + p.sigLen ≤ k) (hk64 : m.length + p.sigLen < 2 ^ 64)
    (hsign : cryptoSign fuel₂ sl₂ rng₂ sm m sk = .ok (sm', smlen, rng₂')) (sl₃ : Nat → Stale p) {mcap : Nat} (hm : m.length ≤ mcap) :
    cryptoSignOpen fuel₃ sl₃ mcap (firstBytes sm' smlen) pk =
      .ok (if (g sm' (smlen - 1)).toNat < p.maxPublishedSeeds then (0, some m) else (-1, none)) := by
  have hkg := (cryptoSignKeypair_below h₁ sl₁ rng₁).ok hkeygen
  have hsg := (cryptoSign_below h₂ sl₂ rng₂ sm m sk).ok hsign
  obtain ⟨root, salt, hS⟩ := sign_signedMessage hp hr₂ hk hsg
  have := hS.smlen_le
  exact open_signed hp (Nat.le_refl _) sl₃ mcap hS pk (api_keygen_pair hp hr₁ hkg) hk _
    (fun i hi => g_firstBytes _ _ _ hi) (by omega) hm

/-- For the five parameter sets whose worst case is below the bound, opening always returns 0 and the message. -/
theorem C02_round_trip (hp : p.WF) (hstrict : p.worstSeeds < p.maxPublishedSeeds) {k : Nat} {fuel₁ fuel₂ fuel₃ : Nat}
    (h₁ : fuel₁ ≤ fuel₃) (h₂ : fuel₂ ≤ fuel₃) {sl₁ sl₂ : Nat → Stale p} {rng₁ rng₂ rng₁' rng₂' : Inc} (hr₁ : RngOk p rng₁)
    (hr₂ : RngOk p rng₂) {pk : Vector UInt8 p.pkLen} {sk : Vector UInt8 p.skLen}
    (hkeygen : cryptoSignKeypair fuel₁ sl₁ rng₁ = .ok (pk, sk, rng₁'))
    {m : Bytes} {sm sm' : Vector UInt8 k} {smlen : Nat} (hk : m.length + p.sigLen ≤ k) (hk64 : m.length + p.sigLen < 2 ^ 64)
    (hsign : cryptoSign fuel₂ sl₂ rng₂ sm m sk = .ok (sm', smlen, rng₂')) (sl₃ : Nat → Stale p) {mcap : Nat} (hm : m.length ≤ mcap) :
    cryptoSignOpen fuel₃ sl₃ mcap (firstBytes sm' smlen) pk = .ok (0, some m) := by
  rw [C02_round_trip_partial hp h₁ h₂ hr₁ hr₂ hkeygen hk hk64 hsign sl₃ hm, if_pos]
  obtain ⟨root, salt, ⟨count, hc1, hc2, hlen, hcb, hS, -⟩, -, -⟩ := sign_signedMessage hp hr₂ hk hsign
  rw [hcb]
  obtain ⟨-, v, coms, G0, -, hv, -, -, hcount, -⟩ := hS
  have := pubCount_le_worst hp (hides v) (by rw [hiddenSet_card, hv.weight])
  unfold pubCount at this
  omega

/-- `C02_round_trip` applies to these sets. -/
theorem C02_strict_sets : ∀ p ∈ Params.all, p ≠ .cat1Balanced → p ≠ .cat1Intermediate →
    p.WF ∧ p.worstSeeds < p.maxPublishedSeeds := by
  intro p hp h1 h2
  refine ⟨Params.all_WF p hp, ?_⟩
  revert p
  decide

/-- A signature that publishes `MAX_PUBLISHED_SEEDS` seeds is refused by `crypto_sign_open`, although it is honest.
(Whether a challenge of that kind comes up depends on the hash; see `C03_fails_cat1Balanced` for its existence.) -/
theorem C02_open_refuses (hp : p.WF) {k : Nat} {fuel₁ fuel₂ fuel₃ : Nat} (h₁ : fuel₁ ≤ fuel₃) (h₂ : fuel₂ ≤ fuel₃)
    {sl₁ sl₂ : Nat → Stale p} {rng₁ rng₂ rng₁' rng₂' : Inc} (hr₁ : RngOk p rng₁) (hr₂ : RngOk p rng₂)
    {pk : Vector UInt8 p.pkLen} {sk : Vector UInt8 p.skLen} (hkeygen : cryptoSignKeypair fuel₁ sl₁ rng₁ = .ok (pk, sk, rng₁'))
    {m : Bytes} {sm sm' : Vector UInt8 k} {smlen : Nat} (hk : m.length + p.sigLen ≤ k) (hk64 : m.length + p.sigLen < 2 ^ 64)
    (hsign : cryptoSign fuel₂ sl₂ rng₂ sm m sk = .ok (sm', smlen, rng₂')) (sl₃ : Nat → Stale p) {mcap : Nat} (hm : m.length ≤ mcap)
    {v : Nat → Nat} {fuel : Nat} (hv : IsChallenge p fuel (xof p (viewSign (p := p) sm' m.length p.storageLen).digest.toList) v)
    (hmax : (publishedNodes p.numLeaves p.T (hides v)).length = p.maxPublishedSeeds) :
    cryptoSignOpen fuel₃ sl₃ mcap (firstBytes sm' smlen) pk = .ok (-1, none) := by
  rw [C02_round_trip_partial hp h₁ h₂ hr₁ hr₂ hkeygen hk hk64 hsign sl₃ hm, if_neg]
  obtain ⟨root, salt, ⟨count, hc1, hc2, hlen, hcb, hS, -⟩, -, -⟩ := sign_signedMessage hp hr₂ hk hsign
  rw [hcb, hS.count_eq (v := v) (B' := fuel) hv]
  unfold pubCount
  omega

/-! ## C04 -/

/-- Layout of a signed message: the message, the signature, the count byte last.  A buffer of
`mlen + sizeof(sign_t)` bytes suffices, and nothing beyond is written. -/
theorem C04_layout (hp : p.WF) {k : Nat} {fuel : Nat} {sl : Nat → Stale p} {rng rng' : Inc} (hr : RngOk p rng) {m : Bytes}
    {sm sm' : Vector UInt8 k} {sk : Vector UInt8 p.skLen} {smlen : Nat} (hk : m.length + p.sigLen ≤ k)
    (hsign : cryptoSign fuel sl rng sm m sk = .ok (sm', smlen, rng')) :
    seg sm' 0 m.length = m ∧ (∃ v n, IsChallenge p fuel (xof p (seg sm' (m.length + p.hashLen + p.W * p.monoBytes) p.hashLen)) v ∧
      n = (publishedNodes p.numLeaves p.T (hides v)).length ∧ smlen = m.length + p.cryptoBytes n ∧
      (g sm' (smlen - 1)).toNat = n) ∧ smlen ≤ m.length + p.sigLen ∧
      ∀ i, m.length + p.sigLen ≤ i → i < k → g sm' i = g sm i := by
  obtain ⟨root, salt, hS⟩ := sign_signedMessage hp hr hk hsign
  have hle := (hS.smlen_le).2
  obtain ⟨⟨count, hc1, hc2, hlen, hcb, hS, -⟩, hmsg, hrest⟩ := hS
  refine ⟨?_, ?_, hle, hrest⟩
  · apply List.ext_getElem
    · simp
    · intro i h1 h2
      rw [getElem_seg, Nat.zero_add, hmsg i h2, getD_of_lt _ _ h2]
  · obtain ⟨-, v, coms, G0, -, hv, -, -, hcount, -⟩ := hS
    refine ⟨v, count, ?_, hcount, hlen, hcb⟩
    have e : (viewSign (p := p) sm' m.length p.storageLen).spec.digest =
        seg sm' (m.length + p.hashLen + p.W * p.monoBytes) p.hashLen := by
      show (toVec p.hashLen _).toList = _
      exact toVec_toList (by simp)
    rw [e] at hv
    exact hv

/-- `crypto_sign` never accesses memory out of bounds if `sm` has `mlen + sizeof(sign_t)` bytes. -/
theorem C04_sign_fits (hp : p.WF) {k : Nat} (fuel : Nat) (sl : Nat → Stale p) {rng : Inc} (hr : RngOk p rng) {m : Bytes}
    (sm : Vector UInt8 k) (sk : Vector UInt8 p.skLen) (hk : m.length + p.sigLen ≤ k) :
    cryptoSign fuel sl rng sm m sk ≠ .error .oob := by
  obtain ⟨s, hs⟩ := exists_stream p rng hr
  intro h
  have := cryptoSign_wp hp fuel sl rng sm m sk s hs hk
  rw [h] at this
  exact this

/-- The same for `crypto_sign_keypair`. -/
theorem C05_keypair_memory_safe (hp : p.WF) (fuel : Nat) (sl : Nat → Stale p) {rng : Inc} (hr : RngOk p rng) :
    cryptoSignKeypair fuel sl rng ≠ .error .oob := by
  obtain ⟨s, hs⟩ := exists_stream p rng hr
  intro h
  have := cryptoSignKeypair_wp hp fuel sl rng s hs
  rw [h] at this
  exact this

/-! ## C07 -/

/-- A signed message of one byte 0 makes `crypto_sign_open` read out of bounds: the length of the message wraps
around.  This refutes the claim for every parameter set, key and output buffer. -/
theorem C07_fails_one_byte (hp : p.WF) (hmax : 0 < p.maxPublishedSeeds) (fuel : Nat) (sl : Nat → Stale p) (mcap : Nat)
    (pk : Vector UInt8 p.pkLen) : cryptoSignOpen fuel sl mcap (#v[0] : Vector UInt8 1) pk = .error .oob := by
  rw [cryptoSignOpen_eq hp fuel sl mcap _ pk (by decide) (by decide)]
  have h0 : countByte (#v[0] : Vector UInt8 1) = 0 := rfl
  rw [h0, if_neg (by omega), if_neg]
  have := fixedLen_cryptoBytes (p := p) 0
  have hf : p.fixedLen = p.hashLen + p.W * p.monoBytes + p.hashLen := rfl
  have : p.hashLen = 2 * p.seedLen := rfl
  have := p.seedLen_bounds
  omega

/-- The hypotheses of `C07_fails_one_byte` hold for the seven sets. -/
theorem C07_sets : ∀ p ∈ Params.all, p.WF ∧ 0 < p.maxPublishedSeeds :=
  fun p hp => ⟨Params.all_WF p hp, by revert p; decide⟩

/-- A signed message that is shorter than its count byte announces is always read out of bounds. -/
theorem C07_fails_short (hp : p.WF) {smlen : Nat} (fuel : Nat) (sl : Nat → Stale p) (mcap : Nat) (sm : Vector UInt8 smlen)
    (pk : Vector UInt8 p.pkLen) (hpos : 0 < smlen) (hlen : smlen < 2 ^ 64)
    (hnum : (g sm (smlen - 1)).toNat < p.maxPublishedSeeds) (hshort : smlen < p.cryptoBytes (g sm (smlen - 1)).toNat) :
    cryptoSignOpen fuel sl mcap sm pk = .error .oob := by
  rw [cryptoSignOpen_eq hp fuel sl mcap sm pk hlen hpos, if_neg (by unfold countByte; omega), if_neg (by unfold countByte; omega)]

/-- Even a signed message of the announced length is read out of bounds if the challenge requires more seeds than
the count byte announces: the count is not compared with the challenge. -/
theorem C07_fails_count (hp : p.WF) {smlen : Nat} (fuel : Nat) (sl : Nat → Stale p) (mcap : Nat) (sm : Vector UInt8 smlen)
    (pk : Vector UInt8 p.pkLen) (hlen : smlen < 2 ^ 64) (num : Nat) (hnum : (g sm (smlen - 1)).toNat = num)
    (hmax : num < p.maxPublishedSeeds) (hsz : p.cryptoBytes num ≤ smlen) (hcap : smlen - p.cryptoBytes num ≤ mcap) {v : Nat → Nat}
    (hv : IsChallenge p fuel (xof p (seg sm (smlen - p.cryptoBytes num + p.hashLen + p.W * p.monoBytes) p.hashLen)) v)
    (hlt : num < (publishedNodes p.numLeaves p.T (hides v)).length) :
    cryptoSignOpen fuel sl mcap sm pk = .error .oob := by
  have hfix := fixedLen_cryptoBytes (p := p) num
  have hc : countByte sm = num := hnum
  rw [cryptoSignOpen_eq hp fuel sl mcap sm pk hlen (by omega), hc, if_neg (by omega), if_pos ⟨hsz, hcap⟩,
    lessVerify_overread hp fuel sl _ _ _ (v := v)]
  · rfl
  · have e : (viewSign (p := p) sm (smlen - p.cryptoBytes num) (num * p.seedLen + 1)).spec.digest =
        seg sm (smlen - p.cryptoBytes num + p.hashLen + p.W * p.monoBytes) p.hashLen := by
      show (toVec p.hashLen _).toList = _
      exact toVec_toList (by simp)
    rw [e]
    exact hv
  · have : num + 1 ≤ pubCount p (hides v) := hlt
    have := Nat.mul_le_mul_right p.seedLen this
    have hb := p.seedLen_bounds
    rw [Nat.add_mul] at this
    omega

/-- In particular, a count byte 0 never leads to a regular outcome: at least one seed is always needed. -/
theorem C07_fails_count_zero (hp : p.WF) {smlen : Nat} (fuel : Nat) (sl : Nat → Stale p) (mcap : Nat) (sm : Vector UInt8 smlen)
    (pk : Vector UInt8 p.pkLen) (hlen : smlen < 2 ^ 64) (hnum : g sm (smlen - 1) = 0)
    (hmax : 0 < p.maxPublishedSeeds) (hsz : p.cryptoBytes 0 ≤ smlen) (hcap : smlen - p.cryptoBytes 0 ≤ mcap) {v : Nat → Nat}
    (hv : IsChallenge p fuel (xof p (seg sm (smlen - p.cryptoBytes 0 + p.hashLen + p.W * p.monoBytes) p.hashLen)) v) :
    cryptoSignOpen fuel sl mcap sm pk = .error .oob :=
  C07_fails_count hp fuel sl mcap sm pk hlen 0 (by rw [hnum]; rfl) hmax hsz hcap hv (pubCount_pos hp (hidden_exists hp hv.weight))

/-- Under an honest key nothing is read beyond `sm` if `sm` has the announced length and announces as many seeds as
the challenge requires.  Missing: neither condition is checked by `crypto_sign_open` (`C07_fails_short`,
`C07_fails_count`). -/
theorem C07_reads_within_partial (hp : p.WF) {smlen : Nat} {fuel₁ : Nat} {sl₁ : Nat → Stale p} {rng rng' : Inc}
    (hr : RngOk p rng) {pk : Vector UInt8 p.pkLen} {sk : Vector UInt8 p.skLen}
    (hkeygen : cryptoSignKeypair fuel₁ sl₁ rng = .ok (pk, sk, rng')) (fuel : Nat) (sl : Nat → Stale p) (mcap : Nat)
    (sm : Vector UInt8 smlen) (hlen : smlen < 2 ^ 64) (num : Nat) (hnum : (g sm (smlen - 1)).toNat = num) (hpos : 0 < smlen)
    (hsz : num < p.maxPublishedSeeds → p.cryptoBytes num ≤ smlen ∧ smlen - p.cryptoBytes num ≤ mcap)
    (hcount : num < p.maxPublishedSeeds → ∀ v,
      IsChallenge p fuel (xof p (seg sm (smlen - p.cryptoBytes num + p.hashLen + p.W * p.monoBytes) p.hashLen)) v →
        (publishedNodes p.numLeaves p.T (hides v)).length ≤ num) :
    cryptoSignOpen fuel sl mcap sm pk ≠ .error .oob := by
  intro h
  have e : (viewSign (p := p) sm (smlen - p.cryptoBytes num) (num * p.seedLen + 1)).spec.digest =
      seg sm (smlen - p.cryptoBytes num + p.hashLen + p.W * p.monoBytes) p.hashLen := by
    show (toVec p.hashLen _).toList = _
    exact toVec_toList (by simp)
  have := cryptoSignOpen_wp hp fuel sl mcap sm pk hlen (api_keygen_good hp hr hkeygen) num hnum.symm hpos hsz _ rfl
    (fun h v hv => hcount h v (by rw [e] at hv; exact hv))
  rw [h] at this
  exact this

/-! ## C11 -/

/-- A signed message with one more seed: the count byte is replaced by the seed and the incremented count. -/
def appendSeed {smlen : Nat} (sm : Vector UInt8 smlen) (seed : Bytes) : Vector UInt8 (smlen + seed.length) :=
  toVec _ (seg sm 0 (smlen - 1) ++ seed ++ [UInt8.ofNat ((g sm (smlen - 1)).toNat + 1)])

/-- Signed messages are malleable: any accepted signed message remains accepted, for the same message, after
appending an arbitrary seed and incrementing the count byte.  This refutes the claim. -/
theorem C11_fails_appended_seed (hp : p.WF) {smlen : Nat} {fuel₁ : Nat} {sl₁ : Nat → Stale p} {rng rng' : Inc}
    (hr : RngOk p rng) {pk : Vector UInt8 p.pkLen} {sk : Vector UInt8 p.skLen}
    (hkeygen : cryptoSignKeypair fuel₁ sl₁ rng = .ok (pk, sk, rng')) {fuel : Nat} {sl : Nat → Stale p} {mcap : Nat}
    {sm : Vector UInt8 smlen} {seed : Bytes} (hseed : seed.length = p.seedLen) (hlen : smlen + seed.length < 2 ^ 64) {m : Bytes}
    (hopen : cryptoSignOpen fuel sl mcap sm pk = .ok (0, some m)) (hcnt : (g sm (smlen - 1)).toNat + 1 < p.maxPublishedSeeds)
    (sl' : Nat → Stale p) :
    cryptoSignOpen fuel sl' mcap (appendSeed sm seed) pk = .ok (0, some m) := by
  obtain ⟨hpos, hnum, hcb, hcap, hm, ok, hok, hver⟩ := open_ok_inv hp (by omega) hopen
  have hgood := api_keygen_good hp hr hkeygen
  obtain rfl : ok = 1 := by omega
  have hle := hp.storage_le
  have hcbe : countByte sm = (g sm (smlen - 1)).toNat := rfl
  generalize hnumdef : countByte sm = num at *
  -- bytes of the new message
  have hlenl : (seg sm 0 (smlen - 1) ++ seed ++ [UInt8.ofNat ((g sm (smlen - 1)).toNat + 1)]).length = smlen + seed.length := by
    simp; omega
  have hbyte : ∀ i < smlen - 1, g (appendSeed sm seed) i = g sm i := by
    intro i hi
    unfold appendSeed
    rw [g_toVec _ _ _ (by omega), List.append_assoc, List.getD_append _ _ _ _ (by simpa using hi), getD_seg _ _ _ _ hi, Nat.zero_add]
  have hlast : (g (appendSeed sm seed) (smlen + seed.length - 1)).toNat = num + 1 := by
    unfold appendSeed
    rw [g_toVec _ _ _ (by omega), List.getD_append_right _ _ _ _ (by simp; omega)]
    have : smlen + seed.length - 1 - (seg sm 0 (smlen - 1) ++ seed).length = 0 := by simp; omega
    rw [this, ← hcbe]
    show (UInt8.ofNat (num + 1)).toNat = _
    rw [UInt8.toNat_ofNat']
    omega
  have hf0 := fixedLen_cryptoBytes (p := p) num
  have hf1 := fixedLen_cryptoBytes (p := p) (num + 1)
  rw [Nat.add_mul] at hf1
  have hoff : smlen + seed.length - p.cryptoBytes (num + 1) = smlen - p.cryptoBytes num := by omega
  have hoffle : smlen - p.cryptoBytes num + p.fixedLen + num * p.seedLen ≤ smlen - 1 := by omega
  generalize hoffd : smlen - p.cryptoBytes num = off at *
  -- the specification's view
  have hacc : Accepts p fuel (readPub pk).spec m (viewSign (p := p) sm off (num * p.seedLen + 1)).spec := by
    have := lessVerify_wp hp fuel sl (readPub pk) m (viewSign (p := p) sm off (num * p.seedLen + 1)) hgood
      (fun v hv => lessVerify_needs hp hver hv)
    rcases this.of_ok hver with ⟨-, h⟩ | ⟨h, -⟩
    · exact h
    · omega
  have hneeds : ∀ v, IsChallenge p fuel (xof p (viewSign (p := p) sm off (num * p.seedLen + 1)).spec.digest) v →
      pubCount p (hides v) ≤ num := by
    intro v hv
    have h1 := lessVerify_needs hp hver hv
    have := p.seedLen_bounds
    by_contra hc
    have := Nat.mul_le_mul_right p.seedLen (show num + 1 ≤ pubCount p (hides v) by omega)
    rw [Nat.add_mul] at this
    omega
  have hseg : ∀ a n, a + n ≤ smlen - 1 → seg (appendSeed sm seed) a n = seg sm a n := by
    intro a n h
    exact seg_ext fun i hi => hbyte _ (by omega)
  have hfx : p.fixedLen = p.hashLen + p.W * p.monoBytes + p.hashLen := rfl
  set sig := (viewSign (p := p) sm off (num * p.seedLen + 1)).spec with hsig
  set sig' := (viewSign (p := p) (appendSeed sm seed) off ((num + 1) * p.seedLen + 1)).spec with hsig'
  have e1 : sig'.salt = sig.salt := by
    show (toVec p.hashLen (seg (appendSeed sm seed) off p.hashLen)).toList = (toVec p.hashLen (seg sm off p.hashLen)).toList
    rw [hseg _ _ (by omega)]
  have e2 : sig'.digest = sig.digest := by
    show (toVec p.hashLen (seg (appendSeed sm seed) _ p.hashLen)).toList = (toVec p.hashLen (seg sm _ p.hashLen)).toList
    rw [hseg _ _ (by omega)]
  have e3 : sig'.responses = sig.responses := by
    show (fun i => g (Vector.ofFn fun i : Fin p.W => toVec p.monoBytes _) i) = fun i => g (Vector.ofFn fun i : Fin p.W => toVec p.monoBytes _) i
    funext i
    congr 2
    funext i
    have := Nat.mul_le_mul_right p.monoBytes (show i.val + 1 ≤ p.W from i.2)
    rw [Nat.succ_mul] at this
    rw [hseg _ _ (by omega)]
  have e4 : ∀ k < num, sig'.stored k = sig.stored k := by
    intro c hc
    have := mul_bound (c := p.seedLen) hc
    have h2 := Nat.add_mul num 1 p.seedLen
    apply seg_ext
    intro i hi
    rw [Nat.mul_comm p.seedLen]
    show g (toVec _ _) _ = g (toVec _ _) _
    rw [g_toVec _ _ _ (by omega), g_toVec _ _ _ (by omega), getD_seg _ _ _ _ (by omega), getD_seg _ _ _ _ (by omega),
      hbyte _ (by omega)]
  have hacc' : Accepts p fuel (readPub pk).spec m sig' :=
    hacc.congr e1 e2 (fun v i _ _ _ => by rw [e3]; exact Action.Same.refl _) (fun v hv k hk => e4 k (by have := hneeds v hv; omega))
  have hfits := hacc'.fits (lessVerify_G0 hp hver)
  have hseg0 : seg (appendSeed sm seed) 0 off = m := by rw [hseg _ _ (by omega)]; exact hm.symm
  have := cryptoSignOpen_wp hp fuel sl' mcap (appendSeed sm seed) pk hlen hgood (num + 1) hlast.symm (by omega)
    (fun _ => ⟨by omega, by omega⟩) sig' (by rw [hoff]) (fun _ v hv => by
      rw [e2] at hv
      have := hneeds v hv
      omega)
  obtain ⟨r, hr', h⟩ := (this.monoF (F' := False) (fun hno => hno hfits)).exists_ok
  rw [hr']
  rw [hoff, hseg0] at h
  rcases h with ⟨-, rfl, -⟩ | ⟨-, -, h⟩ | ⟨h, -⟩
  · rfl
  · exact absurd hacc' (h fuel)
  · omega

/-- The new signed message is a different byte string. -/
theorem C11_appended_differs {smlen : Nat} (sm : Vector UInt8 smlen) {seed : Bytes} (h : seed ≠ []) :
    (appendSeed sm seed).toList ≠ sm.toList := by
  intro e
  have := congrArg List.length e
  simp at this
  exact h this

/-- Unused bits of the responses are not looked at either: a signature remains accepted if bits from
`(bits per index + 7) * K` on are changed in any responses. -/
theorem C11_fails_padding_bits (hp : p.WF) {n : Nat} (hn : p.maxPublishedBytes ≤ n) {fuel₁ : Nat} {sl₁ : Nat → Stale p}
    {rng rng' : Inc} (hr : RngOk p rng) {sk : PriKey p} {pk : PubKey p}
    (hkeygen : lessKeygen fuel₁ sl₁ rng = .ok (sk, pk, rng')) {fuel : Nat} {sl sl' : Nat → Stale p} {m : Bytes}
    {sig : SignT p n} (h : lessVerify fuel sl pk m sig = .ok 1) (actions : Vector (Vector UInt8 p.monoBytes) p.W)
    (hsame : ∀ j < p.W, ∀ b < (indexBits p + 7) * p.K, Spec.bitAt (g actions j) b = Spec.bitAt (g sig.monomActions j) b) :
    lessVerify fuel sl' pk m { sig with monomActions := actions } = .ok 1 := by
  have hgood := keygen_good hp hr hkeygen
  have hacc : Accepts p fuel pk.spec m sig.spec := by
    rcases (lessVerify_wp hp fuel sl pk m sig hgood (storage_fits hp hn)).of_ok h with ⟨-, h⟩ | ⟨h, -⟩
    · exact h
    · omega
  have hacc' : Accepts p fuel pk.spec m ({ sig with monomActions := actions } : SignT p n).spec := by
    refine hacc.congr rfl rfl (fun v i hi hv hvi => ?_) (fun _ _ _ _ => rfl)
    have hlt : responsesBefore v i < p.W := by rw [← hv.weight]; exact weight_lt hi v hvi
    have hs := hsame _ hlt
    intro t ht
    have h1 : indexBits p * t + indexBits p ≤ indexBits p * p.K := by
      rw [← Nat.mul_succ]; exact Nat.mul_le_mul_left _ ht
    rw [Nat.add_mul] at hs
    exact ⟨fieldAt_congr fun b hb => hs _ (by omega), fieldAt_congr fun b hb => hs _ (by omega)⟩
  have hfits := hacc'.fits (lessVerify_G0 hp h)
  have := lessVerify_wp hp fuel sl' pk m { sig with monomActions := actions } hgood (storage_fits hp hn)
  obtain ⟨r, hr', h⟩ := (this.monoF (F' := False) (fun hno => hno hfits)).exists_ok
  rcases h with ⟨rfl, -⟩ | ⟨-, h⟩
  · exact hr'
  · exact absurd hacc' (h fuel)

/-- Categories 1 and 5 have six unused bits per response, category 3 has none. -/
theorem C11_padding_sets : ∀ p ∈ Params.all, 8 * p.monoBytes = (indexBits p + 7) * p.K + if p.cat = .three then 0 else 6 := by
  decide

/-- Two signatures meeting the acceptance condition with the same digest. -/
theorem accepts_same_digest {fuel fuel' : Nat} {pk pk' : PK p} {m m' : Bytes} {sig sig' : Sig p}
    (hs : sig.salt.length = sig'.salt.length) (h : Accepts p fuel pk m sig) (h' : Accepts p fuel' pk' m' sig') (hd : sig.digest = sig'.digest) :
    ∃ v coms coms', IsChallenge p fuel (xof p sig.digest) v ∧ (∀ i < p.T, RoundCommit p fuel pk sig v i (coms i)) ∧
      (∀ i < p.T, RoundCommit p fuel' pk' sig' v i (coms' i)) ∧
      ((∀ i < p.T, coms i = coms' i) ∧ m = m' ∧ sig.salt = sig'.salt ∨
        transcript p coms m sig.salt ≠ transcript p coms' m' sig'.salt ∧
        hash p (transcript p coms m sig.salt) = hash p (transcript p coms' m' sig'.salt)) := by
  obtain ⟨v, coms, a1, a2, a3⟩ := h
  obtain ⟨v', coms', b1, b2, b3⟩ := h'
  rw [← hd] at b1
  obtain rfl := a1.unique b1
  refine ⟨v, coms, coms', a1, a2, b2, ?_⟩
  by_cases he : transcript p coms m sig.salt = transcript p coms' m' sig'.salt
  · left
    have hshape : ∀ {B pk} {sig : Sig p} {coms : Nat → List (List Nat)}, (∀ i < p.T, RoundCommit p B pk sig v i (coms i)) →
        ∀ i < p.T, ∃ A : Matrix (Fin p.K) (Fin p.N) (ZMod 127), IsCommit A (coms i) := by
      intro B pk sig coms hc i hi
      have := hc i hi
      unfold RoundCommit at this
      by_cases hv : v i = 0
      · rw [if_pos hv] at this
        obtain ⟨_, _, _, _, h⟩ := this
        exact ⟨_, h⟩
      · rw [if_neg hv] at this
        exact ⟨_, this.2⟩
    exact transcript_inj (hshape a2) (hshape b2) hs he
  · right
    exact ⟨he, by rw [← a3, ← b3, hd]⟩

/-- What is unique: two accepted signatures with the same digest, for any messages and under any two honest keys,
have the same commitments, message and salt, unless the two hashed strings are a SHA-3 collision.  Missing: the
encoding is not unique (`C11_fails_appended_seed`). -/
theorem C11_single_encoding_partial (hp : p.WF) {n n' : Nat} (hn : p.maxPublishedBytes ≤ n) (hn' : p.maxPublishedBytes ≤ n') {f f' : Nat}
    {s₁ s₁' : Nat → Stale p} {rng rng' r r' : Inc} (hr : RngOk p rng) (hr' : RngOk p rng') {sk sk' : PriKey p} {pk pk' : PubKey p}
    (hkeygen : lessKeygen f s₁ rng = .ok (sk, pk, r)) (hkeygen' : lessKeygen f' s₁' rng' = .ok (sk', pk', r')) {fuel fuel' : Nat}
    {sl sl' : Nat → Stale p} {m m' : Bytes} {sig : SignT p n} {sig' : SignT p n'}
    (h : lessVerify fuel sl pk m sig = .ok 1) (h' : lessVerify fuel' sl' pk' m' sig' = .ok 1) (hd : sig.digest = sig'.digest) :
    ∃ v coms coms', IsChallenge p fuel (xof p sig.digest.toList) v ∧ (∀ i < p.T, RoundCommit p fuel pk.spec sig.spec v i (coms i)) ∧
      (∀ i < p.T, RoundCommit p fuel' pk'.spec sig'.spec v i (coms' i)) ∧
      ((∀ i < p.T, coms i = coms' i) ∧ m = m' ∧ sig.treeSalt = sig'.treeSalt ∨
        transcript p coms m sig.treeSalt.toList ≠ transcript p coms' m' sig'.treeSalt.toList ∧
        hash p (transcript p coms m sig.treeSalt.toList) = hash p (transcript p coms' m' sig'.treeSalt.toList)) := by
  have a := ((C09_accept_iff_digest_matches hp hn hr hkeygen fuel sl m sig).1 1 h).2.1 rfl
  have b := ((C09_accept_iff_digest_matches hp hn' hr' hkeygen' fuel' sl' m' sig').1 1 h').2.1 rfl
  obtain ⟨v, coms, coms', h1, h2, h3, h4⟩ := accepts_same_digest (by simp [SignT.spec]) a b
    (by simpa [SignT.spec] using congrArg Vector.toList hd)
  refine ⟨v, coms, coms', h1, h2, h3, h4.imp (fun ⟨x, y, z⟩ => ⟨x, y, Vector.toList_inj.1 z⟩) id⟩

/-! ## C44 -/

/-- The encoding of a code all of whose pivot flags are 0. -/
def zeroCode (p : Params) : Vector UInt8 p.rrefBytes := Vector.replicate _ 0

theorem denseBelow_zeroCode (p : Params) : denseBelow (zeroCode p) p.N = List.range p.N := by
  unfold denseBelow
  rw [List.filter_eq_self]
  intro j _
  have hz : ∀ i, g (zeroCode p) i = 0 := by
    intro i
    unfold zeroCode
    by_cases h : i < p.rrefBytes
    · exact g_replicate _ _ h
    · unfold g; rw [dif_neg h]; rfl
  simp [Spec.bitAt, hz]

/-- A public key all of whose pivot flags are 0 makes verification read out of bounds, whatever the message and the
signature, as soon as the samplers terminate.  This refutes the claim. -/
theorem C44_fails_zero_key (hp : p.WF) (hK : 2 ≤ p.K) (fuel : Nat) (sl : Nat → Stale p) (pk : PubKey p)
    (hpk : ∀ j < p.numKeypairs - 1, g pk.SFG j = zeroCode p) (m : Bytes) (sig : SignT p p.storageLen)
    (hfits : VerifierFits p fuel pk.spec sig.spec) : lessVerify fuel sl pk m sig = .error .oob := by
  refine lessVerify_badKey hp hK (by unfold Params.storageLen; omega) fuel sl pk (fun j hj => ?_) m sig hfits
  rw [show pk.spec.codes j = g pk.SFG j from rfl, hpk j hj, denseBelow_zeroCode, List.length_range]
  have := hp.K_pos
  have := hp.K_lt_N
  omega

/-- Verification is safe for every key whose codes have at most N-K dense columns (and, only if N > 2K, reduced
entries), honest or not.  Missing: keys with oversized codes (`C44_fails_zero_key`; the exact condition is in
`C44_oob_iff`). -/
theorem C44_verify_safe_partial (hp : p.WF) (fuel : Nat) (sl : Nat → Stale p) (pk : PubKey p)
    (hpk : ∀ j < p.numKeypairs - 1, GoodCode p (g pk.SFG j)) (m : Bytes) (sig : SignT p p.storageLen) :
    lessVerify fuel sl pk m sig ≠ .error .oob := by
  intro h
  have := lessVerify_wp hp fuel sl pk m sig hpk (storage_fits hp (by unfold Params.storageLen; omega))
  rw [h] at this
  exact this

/-! ## C47 -/

/-- Signing depends only on the output stream of the generator, the message and the secret key. -/
theorem sign_same_stream (hp : p.WF) {k k' : Nat} {fuel fuel' : Nat} {sl sl' : Nat → Stale p} {rng rng' r1 r2 : Inc} {s : Stream}
    (hs : StreamAt p rng s) (hs' : StreamAt p rng' s) {m : Bytes} {sm sm₁ : Vector UInt8 k} {sm' sm₁' : Vector UInt8 k'}
    {sk : Vector UInt8 p.skLen} {smlen smlen' : Nat} (hk : m.length + p.sigLen ≤ k) (hk' : m.length + p.sigLen ≤ k')
    (h : cryptoSign fuel sl rng sm m sk = .ok (sm₁, smlen, r1)) (h' : cryptoSign fuel' sl' rng' sm' m sk = .ok (sm₁', smlen', r2)) :
    smlen = smlen' ∧ ∀ i < smlen, g sm₁ i = g sm₁' i := by
  obtain ⟨⟨c, c1, c2, c3, c4, c5, c6, c7⟩, m1, -⟩ := ((cryptoSign_wp hp fuel sl rng sm m sk s hs hk).of_ok h).1
  obtain ⟨⟨d, d1, d2, d3, d4, d5, d6, d7⟩, m2, -⟩ := ((cryptoSign_wp hp fuel' sl' rng' sm' m sk s hs' hk').of_ok h').1
  dsimp only at c3 c4 c5 c6 m1 d3 d4 d5 d6 m2
  obtain ⟨u1, rfl, u3, u4⟩ := c5.unique hp d5 (c6.trans d6.symm)
  have hlen : smlen = smlen' := by omega
  refine ⟨hlen, ?_⟩
  have hfix := fixedLen_cryptoBytes (p := p) c
  have hfx : p.fixedLen = p.hashLen + p.W * p.monoBytes + p.hashLen := rfl
  have hsegeq : ∀ {n : Nat} {a b : Nat}, seg sm₁ a n = seg sm₁' b n → ∀ i < n, g sm₁ (a + i) = g sm₁' (b + i) := by
    intro n a b e i hi
    have := congrArg (fun l => l.getD i 0) e
    rwa [getD_seg _ _ _ _ hi, getD_seg _ _ _ _ hi] at this
  have e1 : seg sm₁ m.length p.hashLen = seg sm₁' m.length p.hashLen := by
    have := c6.trans d6.symm
    have t : ∀ {k} (x : Vector UInt8 k), (viewSign (p := p) x m.length p.storageLen).spec.salt = seg x m.length p.hashLen :=
      fun x => toVec_toList (by simp)
    rwa [t, t] at this
  have e2 : seg sm₁ (m.length + p.hashLen + p.W * p.monoBytes) p.hashLen = seg sm₁' (m.length + p.hashLen + p.W * p.monoBytes) p.hashLen := by
    have t : ∀ {k} (x : Vector UInt8 k), (viewSign (p := p) x m.length p.storageLen).spec.digest =
      seg x (m.length + p.hashLen + p.W * p.monoBytes) p.hashLen := fun x => toVec_toList (by simp)
    rwa [t, t] at u1
  intro i hi
  by_cases h1 : i < m.length
  · rw [m1 i h1, m2 i h1]
  obtain ⟨j, rfl⟩ : ∃ j, i = m.length + j := ⟨i - m.length, by omega⟩
  by_cases h2 : j < p.hashLen
  · exact hsegeq e1 j h2
  obtain ⟨j, rfl⟩ : ∃ j', j = p.hashLen + j' := ⟨j - p.hashLen, by omega⟩
  by_cases h3 : j < p.W * p.monoBytes
  · have hmb : 0 < p.monoBytes := by
      rcases Nat.eq_zero_or_pos p.monoBytes with h0 | h0
      · rw [h0] at h3; omega
      · exact h0
    have hw : j / p.monoBytes < p.W := Nat.div_lt_of_lt_mul (by rw [Nat.mul_comm]; exact h3)
    have hres := u3 _ hw
    have t : ∀ {k} (x : Vector UInt8 k), (viewSign (p := p) x m.length p.storageLen).spec.responses (j / p.monoBytes) =
        toVec p.monoBytes (seg x (m.length + p.hashLen + j / p.monoBytes * p.monoBytes) p.monoBytes) := by
      intro k x
      show g (Vector.ofFn _) _ = _
      rw [g_ofFn _ _ hw]
    rw [t, t] at hres
    have hmod := Nat.mod_lt j hmb
    have := congrArg (fun v => g v (j % p.monoBytes)) hres
    rw [g_toVec _ _ _ hmod, g_toVec _ _ _ hmod, getD_seg _ _ _ _ hmod, getD_seg _ _ _ _ hmod] at this
    have hdm := Nat.div_add_mod j p.monoBytes
    rw [Nat.mul_comm] at hdm
    rw [show m.length + (p.hashLen + j) = m.length + p.hashLen + j / p.monoBytes * p.monoBytes + j % p.monoBytes by omega]
    exact this
  obtain ⟨j, rfl⟩ : ∃ j', j = p.W * p.monoBytes + j' := ⟨j - p.W * p.monoBytes, by omega⟩
  by_cases h4 : j < p.hashLen
  · have := hsegeq e2 j h4
    rw [show m.length + (p.hashLen + (p.W * p.monoBytes + j)) = m.length + p.hashLen + p.W * p.monoBytes + j by omega]
    exact this
  obtain ⟨j, rfl⟩ : ∃ j', j = p.hashLen + j' := ⟨j - p.hashLen, by omega⟩
  by_cases h5 : j < c * p.seedLen
  · have hsp := p.seedLen_bounds
    have hw : j / p.seedLen < c := Nat.div_lt_of_lt_mul (by rw [Nat.mul_comm]; exact h5)
    have hres := u4 _ hw
    have hmod := Nat.mod_lt j (show 0 < p.seedLen by omega)
    have hdm := Nat.div_add_mod j p.seedLen
    have hst : p.storageLen = p.maxPublishedBytes + 1 := rfl
    have t : ∀ {k} (x : Vector UInt8 k), ((viewSign (p := p) x m.length p.storageLen).spec.stored (j / p.seedLen)).getD (j % p.seedLen) 0 =
        g x (m.length + p.fixedLen + j) := by
      intro k x
      show (seg (toVec _ _) _ _).getD _ _ = _
      rw [getD_seg _ _ _ _ hmod, g_toVec _ _ _ (by omega), getD_seg _ _ _ _ (by omega)]
      congr 1
      omega
    have := congrArg (fun l => l.getD (j % p.seedLen) 0) hres
    rw [t, t] at this
    rw [show m.length + (p.hashLen + (p.W * p.monoBytes + (p.hashLen + j))) = m.length + p.fixedLen + j by omega]
    exact this
  · have : m.length + (p.hashLen + (p.W * p.monoBytes + (p.hashLen + j))) = smlen - 1 := by omega
    rw [this]
    have e3 : (g sm₁ (smlen - 1)).toNat = (g sm₁' (smlen - 1)).toNat := by rw [c4, hlen, d4]
    exact UInt8.toNat_inj.1 e3

/-- Two calls of `crypto_sign` from the same generator state, with the same key and message, but with any other
contents of the output buffer, of uninitialised memory, and any other buffer sizes, produce the same `smlen` bytes
and leave the same generator stream. -/
theorem C47_no_stale_dependence (hp : p.WF) {k k' : Nat} {fuel fuel' : Nat} {sl sl' : Nat → Stale p} {rng r1 r2 : Inc}
    (hr : RngOk p rng) {m : Bytes} {sm sm₁ : Vector UInt8 k} {sm' sm₁' : Vector UInt8 k'} {sk : Vector UInt8 p.skLen}
    {smlen smlen' : Nat} (hk : m.length + p.sigLen ≤ k) (hk' : m.length + p.sigLen ≤ k')
    (h : cryptoSign fuel sl rng sm m sk = .ok (sm₁, smlen, r1)) (h' : cryptoSign fuel' sl' rng sm' m sk = .ok (sm₁', smlen', r2)) :
    (smlen = smlen' ∧ ∀ i < smlen, g sm₁ i = g sm₁' i) ∧ ∀ n, (csprngBytes p n r1).1 = (csprngBytes p n r2).1 := by
  obtain ⟨s, hs⟩ := exists_stream p rng hr
  refine ⟨sign_same_stream hp hs hs hk hk' h h', fun n => ?_⟩
  exact (((cryptoSign_wp hp fuel sl rng sm m sk s hs hk).of_ok h).2.2 n).trans
    (((cryptoSign_wp hp fuel' sl' rng sm' m sk s hs hk').of_ok h').2.2 n).symm

/-- The same for key generation. -/
theorem C47_keygen_no_stale_dependence (hp : p.WF) {fuel fuel' : Nat} {sl sl' : Nat → Stale p} {rng : Inc}
    (hr : RngOk p rng) {sk sk' : PriKey p} {pk pk' : PubKey p} {r1 r2 : Inc}
    (h : lessKeygen fuel sl rng = .ok (sk, pk, r1)) (h' : lessKeygen fuel' sl' rng = .ok (sk', pk', r2)) : sk = sk' ∧ pk = pk' := by
  obtain ⟨s, hs⟩ := exists_stream p rng hr
  have a := (lessKeygen_wp hp fuel sl rng s hs).of_ok h
  have b := (lessKeygen_wp hp fuel' sl' rng s hs).of_ok h'
  dsimp only at a b
  have hsk : sk.spec = sk'.spec := a.1.trans b.1.symm
  obtain ⟨sk1, sk2⟩ := sk
  obtain ⟨sk1', sk2'⟩ := sk'
  have h1 := congrArg SK.secret hsk
  have h2 := congrArg SK.seed hsk
  obtain rfl : sk1 = sk1' := Vector.toList_inj.1 h1
  obtain rfl : sk2 = sk2' := Vector.toList_inj.1 h2
  obtain ⟨u1, u2⟩ := Spec.KeyPair.unique hp a.2.1 b.2.1
  refine ⟨rfl, ?_⟩
  obtain ⟨pk1, pk2⟩ := pk
  obtain ⟨pk1', pk2'⟩ := pk'
  obtain rfl : pk1 = pk1' := Vector.toList_inj.1 u1
  congr 1
  exact vec_ext fun i hi => u2 i hi

/-- If key generation returns with some content of uninitialised memory, it returns the same keys with every content. -/
theorem C47_keygen_total (hp : p.WF) {fuel fuel' : Nat} (hf : fuel ≤ fuel') {sl : Nat → Stale p} {rng : Inc} (hr : RngOk p rng)
    {sk : PriKey p} {pk : PubKey p} {r : Inc} (h : lessKeygen fuel sl rng = .ok (sk, pk, r)) (sl' : Nat → Stale p) :
    ∃ r', lessKeygen fuel' sl' rng = .ok (sk, pk, r') := by
  obtain ⟨s, hs⟩ := exists_stream p rng hr
  have hfit := ((lessKeygen_wp hp fuel' sl rng s hs).of_ok (keygen_ok_mono hf h)).2.1.fits hp
  have h2 := lessKeygen_wp hp fuel' sl' rng s hs
  obtain ⟨⟨sk', pk', r'⟩, e, -⟩ := (h2.monoF (fun hF => hF hfit)).exists_ok
  obtain ⟨rfl, rfl⟩ := C47_keygen_no_stale_dependence hp hr h e
  exact ⟨r', e⟩

/-- If signing with a generated key returns with some contents of uninitialised memory and of the output buffer, it
returns with all contents. -/
theorem C47_sign_total (hp : p.WF) {k k' fuel₁ fuel fuel' : Nat} (hf₁ : fuel₁ ≤ fuel') (hf : fuel ≤ fuel') {sl₁ sl : Nat → Stale p}
    {rng₁ rng₁' rng r : Inc} (hr₁ : RngOk p rng₁) (hr : RngOk p rng) {pk : Vector UInt8 p.pkLen} {sk : Vector UInt8 p.skLen}
    (hkeygen : cryptoSignKeypair fuel₁ sl₁ rng₁ = .ok (pk, sk, rng₁')) {m : Bytes} {sm sm₁ : Vector UInt8 k} {smlen : Nat}
    (hk : m.length + p.sigLen ≤ k) (hk' : m.length + p.sigLen ≤ k') (h : cryptoSign fuel sl rng sm m sk = .ok (sm₁, smlen, r))
    (sl' : Nat → Stale p) (sm' : Vector UInt8 k') :
    ∃ sm₁' r', cryptoSign fuel' sl' rng sm' m sk = .ok (sm₁', smlen, r') ∧ ∀ i < smlen, g sm₁' i = g sm₁ i := by
  obtain ⟨s, hs⟩ := exists_stream p rng hr
  have hkey := (api_keygen_pair hp hr₁ hkeygen).fits hp
  obtain ⟨⟨c, c1, c2, c3, c4, c5, c6, c7⟩, m1, -⟩ := ((cryptoSign_wp hp fuel sl rng sm m sk s hs hk).of_ok h).1
  have hfit := (c5.mono hf).fits (hkey.mono hf₁)
  rw [c6] at hfit
  have h2 := cryptoSign_wp hp fuel' sl' rng sm' m sk s hs hk'
  obtain ⟨⟨sm₁', smlen', r'⟩, e, -⟩ := (h2.monoF (fun hF => hF hfit)).exists_ok
  obtain ⟨rfl, hb⟩ := sign_same_stream hp hs hs hk hk' h e
  exact ⟨sm₁', r', e, fun i hi => (hb i hi).symm⟩

/-- Two verifications under a generated key that return, return the same verdict. -/
theorem C47_verify_no_stale_dependence (hp : p.WF) {n : Nat} (hn : p.maxPublishedBytes ≤ n) {fuel₁ : Nat} {sl₁ : Nat → Stale p}
    {rng rng' : Inc} (hr : RngOk p rng) {sk : PriKey p} {pk : PubKey p}
    (hkeygen : lessKeygen fuel₁ sl₁ rng = .ok (sk, pk, rng')) {fuel fuel' : Nat} {sl sl' : Nat → Stale p} {m : Bytes} {sig : SignT p n}
    {r r' : Nat} (h : lessVerify fuel sl pk m sig = .ok r) (h' : lessVerify fuel' sl' pk m sig = .ok r') : r = r' := by
  have a := (lessVerify_wp hp fuel sl pk m sig (keygen_good hp hr hkeygen) (storage_fits hp hn)).of_ok h
  have b := (lessVerify_wp hp fuel' sl' pk m sig (keygen_good hp hr hkeygen) (storage_fits hp hn)).of_ok h'
  rcases a with ⟨rfl, a⟩ | ⟨rfl, a⟩ <;> rcases b with ⟨rfl, b⟩ | ⟨rfl, b⟩
  · rfl
  · exact absurd a (b _)
  · exact absurd b (a _)
  · rfl

/-! ## C48 -/

/-- The hashed string determines the commitments, the message and the salt (salts have a fixed length). -/
theorem C48_transcript_injective {coms coms' : Nat → List (List Nat)} {m m' salt salt' : Bytes}
    (h : ∀ i < p.T, ∃ A : Matrix (Fin p.K) (Fin p.N) (ZMod 127), IsCommit A (coms i))
    (h' : ∀ i < p.T, ∃ A : Matrix (Fin p.K) (Fin p.N) (ZMod 127), IsCommit A (coms' i))
    (hs : salt.length = salt'.length) (e : transcript p coms m salt = transcript p coms' m' salt') :
    (∀ i < p.T, coms i = coms' i) ∧ m = m' ∧ salt = salt' := transcript_inj h h' hs e

/-- The string hashed by a signer: what its digest is the hash of determines the message, the salt and the commitments.
`sk`, `sk'` are any private keys. -/
theorem C48_signer (hp : p.WF) {n n' fuel fuel' : Nat} (hn : p.storageLen ≤ n) (hn' : p.storageLen ≤ n') {sl sl' : Nat → Stale p}
    {rng rng' r r' : Inc} (hr : RngOk p rng) (hr' : RngOk p rng') {sk sk' : PriKey p} {m m' : Bytes} {out sig : SignT p n}
    {out' sig' : SignT p n'} {num num' : Nat} (h : lessSign fuel sl rng sk m out = .ok (sig, num, r))
    (h' : lessSign fuel' sl' rng' sk' m' out' = .ok (sig', num', r')) :
    ∃ root root' coms coms', (∃ G0, IsG0 p fuel (xof p sk.spec.seed) G0 ∧ ∀ i < p.T, ∃ M,
        IsMonomial p fuel (roundStream p sig.treeSalt.toList (signerLeaf p root sig.treeSalt.toList i) i) M ∧ IsCommit (G0 * M) (coms i)) ∧
      (∃ G0, IsG0 p fuel' (xof p sk'.spec.seed) G0 ∧ ∀ i < p.T, ∃ M,
        IsMonomial p fuel' (roundStream p sig'.treeSalt.toList (signerLeaf p root' sig'.treeSalt.toList i) i) M ∧ IsCommit (G0 * M) (coms' i)) ∧
      sig.digest.toList = hash p (transcript p coms m sig.treeSalt.toList) ∧
      sig'.digest.toList = hash p (transcript p coms' m' sig'.treeSalt.toList) ∧
      (transcript p coms m sig.treeSalt.toList = transcript p coms' m' sig'.treeSalt.toList →
        m = m' ∧ sig.treeSalt = sig'.treeSalt ∧ ∀ i < p.T, coms i = coms' i) := by
  obtain ⟨⟨root, -, v, coms, G0, a1, a2, a3, a4, -⟩, -⟩ := sign_signed hp hr hn h
  obtain ⟨⟨root', -, v', coms', G0', b1, b2, b3, b4, -⟩, -⟩ := sign_signed hp hr' hn' h'
  have c : ∀ i < p.T, ∃ M, IsMonomial p fuel (roundStream p sig.treeSalt.toList (signerLeaf p root sig.treeSalt.toList i) i) M ∧
      IsCommit (G0 * M) (coms i) := fun i hi => by
    obtain ⟨M, R, piv, x1, x2, x3, x4, -⟩ := a4 i hi
    exact ⟨M, x1, R, piv, x2, x3, x4⟩
  have c' : ∀ i < p.T, ∃ M, IsMonomial p fuel' (roundStream p sig'.treeSalt.toList (signerLeaf p root' sig'.treeSalt.toList i) i) M ∧
      IsCommit (G0' * M) (coms' i) := fun i hi => by
    obtain ⟨M, R, piv, x1, x2, x3, x4, -⟩ := b4 i hi
    exact ⟨M, x1, R, piv, x2, x3, x4⟩
  refine ⟨root, root', coms, coms', ⟨G0, a1, c⟩, ⟨G0', b1, c'⟩, a3, b3, fun e => ?_⟩
  obtain ⟨e1, e2, e3⟩ := transcript_inj (fun i hi => let ⟨M, _, h⟩ := c i hi; ⟨_, h⟩) (fun i hi => let ⟨M, _, h⟩ := c' i hi; ⟨_, h⟩)
    (by simp) e
  exact ⟨e2, Vector.toList_inj.1 e3, e1⟩

/-- The same for a verifier: two accepted signatures, under any generated public keys.  The verifier hashes the commitments
it recomputed, the message and the salt; if the hashed strings agree, all of these agree. -/
theorem C48_verifier (hp : p.WF) {n n' : Nat} (hn : p.maxPublishedBytes ≤ n) (hn' : p.maxPublishedBytes ≤ n') {f f' : Nat}
    {s₁ s₁' : Nat → Stale p} {rng rng' r r' : Inc} (hr : RngOk p rng) (hr' : RngOk p rng') {sk sk' : PriKey p} {pk pk' : PubKey p}
    (hkeygen : lessKeygen f s₁ rng = .ok (sk, pk, r)) (hkeygen' : lessKeygen f' s₁' rng' = .ok (sk', pk', r')) {fuel fuel' : Nat}
    {sl sl' : Nat → Stale p} {m m' : Bytes} {sig : SignT p n} {sig' : SignT p n'}
    (h : lessVerify fuel sl pk m sig = .ok 1) (h' : lessVerify fuel' sl' pk' m' sig' = .ok 1) :
    ∃ v v' coms coms', IsChallenge p fuel (xof p sig.digest.toList) v ∧ IsChallenge p fuel' (xof p sig'.digest.toList) v' ∧
      (∀ i < p.T, RoundCommit p fuel pk.spec sig.spec v i (coms i)) ∧ (∀ i < p.T, RoundCommit p fuel' pk'.spec sig'.spec v' i (coms' i)) ∧
      sig.digest.toList = hash p (transcript p coms m sig.treeSalt.toList) ∧
      sig'.digest.toList = hash p (transcript p coms' m' sig'.treeSalt.toList) ∧
      (transcript p coms m sig.treeSalt.toList = transcript p coms' m' sig'.treeSalt.toList →
        m = m' ∧ sig.treeSalt = sig'.treeSalt ∧ ∀ i < p.T, coms i = coms' i) := by
  obtain ⟨v, coms, a1, a2, a3⟩ := ((C09_accept_iff_digest_matches hp hn hr hkeygen fuel sl m sig).1 1 h).2.1 rfl
  obtain ⟨v', coms', b1, b2, b3⟩ := ((C09_accept_iff_digest_matches hp hn' hr' hkeygen' fuel' sl' m' sig').1 1 h').2.1 rfl
  have shape : ∀ {B : Nat} {pk : PK p} {sig : Sig p} {v : Nat → Nat} {i : Nat} {c : List (List Nat)}, RoundCommit p B pk sig v i c →
      ∃ A : Matrix (Fin p.K) (Fin p.N) (ZMod 127), IsCommit A c := by
    intro B pk sig v i c hc
    unfold RoundCommit at hc
    split at hc
    · obtain ⟨G0, M, -, -, h⟩ := hc; exact ⟨_, h⟩
    · exact ⟨_, hc.2⟩
  refine ⟨v, v', coms, coms', a1, b1, a2, b2, a3, b3, fun e => ?_⟩
  obtain ⟨e1, e2, e3⟩ := transcript_inj (fun i hi => shape (a2 i hi)) (fun i hi => shape (b2 i hi)) (by simp) e
  exact ⟨e2, Vector.toList_inj.1 e3, e1⟩

end LESS
