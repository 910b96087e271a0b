import Verif.Props.Testbench
/-!
# C69: the keys of different processes

The generator of a process starts as `platformInitial` (all bytes zero); nothing checks that `initialize_csprng`
was called before the first key is generated.
-/
namespace LESS
open Spec

variable {p : Params}

theorem platformInitial_ok (p : Params) : RngOk p platformInitial := Nat.zero_le _

/-- The secret key is made of the first bytes of the generator. -/
theorem keypair_secret (hp : p.WF) {fuel : Nat} {sl : Nat → Stale p} {rng rng' : Inc} {s : Stream} (hs : StreamAt p rng s)
    {pk : Vector UInt8 p.pkLen} {sk : Vector UInt8 p.skLen} (h : cryptoSignKeypair fuel sl rng = .ok (pk, sk, rng')) :
    sk.toList = s.take p.skLen ∧ (readPub pk).G0seed.toList = (s.drop p.skSeedLen).take p.seedLen := by
  unfold cryptoSignKeypair at h
  rcases hk : lessKeygen fuel sl rng with e | ⟨sk', pk', r'⟩
  · rw [hk] at h; cases h
  · rw [hk] at h
    have h : (.ok (toVec _ (pubBytes pk'), toVec _ (priBytes sk'), r') : C _) = .ok (pk, sk, rng') := h
    injection h with h
    injection h with h1 h2
    injection h2 with h2 h3
    have hw := (lessKeygen_wp hp fuel sl rng s hs).of_ok hk
    dsimp only at hw
    have e1 := congrArg SK.secret hw.1
    have e2 := congrArg SK.seed hw.1
    have e3 := (C46_public_key_bound_to_secret hp hs.1 hk).1
    subst h1 h2
    rw [toVec_toList (priBytes_length sk'), readPub_pubBytes, e3]
    refine ⟨?_, e2⟩
    unfold priBytes Params.skLen
    rw [take_add]
    exact congrArg₂ (· ++ ·) e1 e2

/-- In a process that does not seed the generator, `crypto_sign_keypair` returns a key pair that is the same in
every process, and the secret key is a constant string anybody can compute: what the generator squeezes out of the
all-zero state. -/
theorem C69_fails_unseeded (hp : p.WF) {fuel fuel' : Nat} {sl sl' : Nat → Stale p} {pk pk' : Vector UInt8 p.pkLen}
    {sk sk' : Vector UInt8 p.skLen} {r r' : Inc} (h : cryptoSignKeypair fuel sl platformInitial = .ok (pk, sk, r))
    (h' : cryptoSignKeypair fuel' sl' platformInitial = .ok (pk', sk', r')) :
    pk = pk' ∧ sk = sk' ∧ sk.toList = (csprngBytes p p.skLen platformInitial).1 := by
  have hr := platformInitial_ok p
  obtain ⟨s, hs⟩ := exists_stream p _ hr
  have hsk := (keypair_secret hp hs h).1
  refine ⟨?_, ?_, by rw [hsk, hs.2]⟩
  · unfold cryptoSignKeypair at h h'
    rcases hk : lessKeygen fuel sl platformInitial with e | ⟨sk1, pk1, r1⟩
    · rw [hk] at h; cases h
    rcases hk' : lessKeygen fuel' sl' platformInitial with e | ⟨sk2, pk2, r2⟩
    · rw [hk'] at h'; cases h'
    obtain ⟨-, e⟩ := C47_keygen_no_stale_dependence hp hr hk hk'
    rw [hk] at h
    rw [hk'] at h'
    have h : (.ok (toVec _ (pubBytes pk1), toVec _ (priBytes sk1), r1) : C _) = .ok (pk, sk, r) := h
    have h' : (.ok (toVec _ (pubBytes pk2), toVec _ (priBytes sk2), r2) : C _) = .ok (pk', sk', r') := h'
    injection h with h
    injection h with h1
    injection h' with h'
    injection h' with h1'
    rw [← h1, ← h1', e]
  · exact Vector.toList_inj.mp (hsk.trans (keypair_secret hp hs h').1.symm)

/-- The string is the start of Keccak-f[1600] (as in FIPS 202) of the all-zero state. -/
theorem C69_unseeded_bytes (n : Nat) (hn : n ≤ p.xofRate) :
    bits (csprngBytes p n platformInitial).1 = Spec.truncate (8 * n) (Spec.keccakFStr fun _ => false) := by
  have h0 : strOf (Vector.replicate 25 0) = fun _ => false := by
    funext i
    unfold strOf wbit
    rw [g_replicate _ _ (by omega)]
    simp
  have hle := xofRate_le p
  unfold csprngBytes
  rw [incSqueeze_eq _ (xofRate_pos p) _ _ (platformInitial_ok p)]
  rcases Nat.eq_zero_or_pos n with rfl | hpos
  · simp [squeezeN, bits, Spec.truncate]
  · rw [squeezeN_fresh _ _ _ rfl hpos hn, extract_bits _ _ (by omega), strOf_permute]
    exact congrArg (fun x => Spec.truncate (8 * n) (Spec.keccakFStr x)) h0

/-- What holds: if the processes seed the generator and get the same secret key (or public keys over the same
starting code), then their seeds have the same SHAKE output in that place.  Missing: nothing forces the process to
seed the generator (`C69_fails_unseeded`). -/
theorem C69_seeded_partial (hp : p.WF) {seed seed' : Bytes} {fuel fuel' : Nat} {sl sl' : Nat → Stale p} {pk pk' : Vector UInt8 p.pkLen}
    {sk sk' : Vector UInt8 p.skLen} {r r' : Inc} (h : cryptoSignKeypair fuel sl (initCsprng p seed) = .ok (pk, sk, r))
    (h' : cryptoSignKeypair fuel' sl' (initCsprng p seed') = .ok (pk', sk', r')) :
    (sk = sk' ↔ (xof p seed).take p.skLen = (xof p seed').take p.skLen) ∧
    (pk = pk' → ∀ i < p.seedLen, xof p seed (p.skSeedLen + i) = xof p seed' (p.skSeedLen + i)) := by
  obtain ⟨a1, a2⟩ := keypair_secret hp (xof_at p seed) h
  obtain ⟨b1, b2⟩ := keypair_secret hp (xof_at p seed') h'
  refine ⟨⟨fun e => by rw [← a1, ← b1, e], fun e => Vector.toList_inj.mp (by rw [a1, b1, e])⟩, fun e i hi => ?_⟩
  rw [e, b2] at a2
  have := congrArg (fun l => l.getD i 0) a2
  unfold Stream.take Stream.drop at this
  simpa [hi] using this.symm

/-! ## The program the project runs as its test -/

end LESS
