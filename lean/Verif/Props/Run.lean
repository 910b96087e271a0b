import Verif.Proofs.ToyRun
import Verif.Props.Opt
import Verif.Props.Soundness
import Verif.Props.History
import Verif.Props.KatFile
import Verif.Props.Open
import Verif.Props.AnyKey
import Verif.Props.Simulator
import Verif.Props.Termination
import Verif.Props.Randomness
import Verif.Props.Threads
import Verif.Props.Binding
import Verif.Props.Forger
import Verif.Props.Chosen
import Verif.Props.Domain
import Verif.Props.SecretTrace
/-!
# Concrete cases for the theorems about the whole scheme

One complete run with the small parameter set, evaluated by the kernel (`Proofs/ToyRun`), meets the hypotheses of the theorems
about key generation, signing, verification and the test-vector program.
-/
namespace LESS
open Spec

namespace ToyRun

theorem rng0_ok : RngOk toy rng0 := by rw [← rng0_eq]; exact initCsprng_ok _ _

theorem rng2_ok : RngOk toy rng2 := (keygen_pair toy_WF rng0_ok keygen_eq).2

/-- C01. -/
theorem verifies (fuel : Nat) (h : 100 ≤ fuel) (sl : Nat → Stale toy) : lessVerify fuel sl pubKey msg signature = .ok 1 :=
  C01_honest_signature_verifies toy_WF (Nat.le_refl _) rng0_ok rng2_ok keygen_eq sign_eq h h sl

/-! ## The buffers of the NIST interface -/

def pkBuf : Vector UInt8 toy.pkLen := toVec _ (pubBytes pubKey)
def skBuf : Vector UInt8 toy.skLen := toVec _ (priBytes priKey)

theorem keypair_eq : cryptoSignKeypair 100 (fun _ => stale) rng0 = .ok (pkBuf, skBuf, rng2) := by
  unfold cryptoSignKeypair
  rw [keygen_eq]
  rfl

/-- A signing buffer that is just large enough. -/
def smBuf : Vector UInt8 (msg.length + toy.sigLen) := Vector.replicate _ 0

theorem readPri_eq : readPri skBuf = priKey := readPri_priBytes _

theorem readPub_eq : readPub pkBuf = pubKey := readPub_pubBytes _

deriving instance DecidableEq for SignT

theorem blitMsg_eq : blit smBuf 0 msg = .ok (blitV smBuf 0 msg) := by
  unfold blit
  rw [if_pos (by decide)]
  rfl

theorem readSign_eq : readSign (p := toy) (blitV smBuf 0 msg) msg.length toy.storageLen = .ok blank := of_returns (by decide +kernel)

/-- The signed message. -/
def signed : Vector UInt8 (msg.length + toy.sigLen) := blitV (blitV smBuf 0 msg) msg.length (signBytes signature)

/-- `smlen` of the signed message. -/
def signedLen : Nat := msg.length + toy.cryptoBytes num

theorem cryptoSign_eq : cryptoSign 100 (fun _ => stale) rng2 smBuf msg skBuf = .ok (signed, signedLen, rng4) := by
  unfold cryptoSign
  rw [blitMsg_eq, Kat.ok_bind, readSign_eq, Kat.ok_bind, readPri_eq, sign_eq, Kat.ok_bind]
  dsimp only
  unfold blit
  rw [if_pos (by decide +kernel), Kat.ok_bind]
  rfl

/-- What a receiver gets. -/
def received : Vector UInt8 signedLen := firstBytes signed signedLen

theorem opens (fuel : Nat) (h : 100 ≤ fuel) (sl : Nat → Stale toy) (mcap : Nat) (hm : 33 ≤ mcap) :
    cryptoSignOpen fuel sl mcap received pkBuf = .ok (0, some msg) :=
  C02_round_trip toy_WF (by decide) h h rng0_ok rng2_ok keypair_eq (Nat.le_refl _) (by decide) cryptoSign_eq sl hm

/-! ## Signing and opening (C02, C04, C05, C06, C09, C46, C47) -/

example : cryptoSignOpen 100 (fun _ => stale) 33 received pkBuf = .ok (0, some msg) := opens 100 (Nat.le_refl _) _ 33 (Nat.le_refl _)

example : seg signed 0 33 = msg ∧ (g signed (signedLen - 1)).toNat = 2 := by
  refine ⟨(C04_layout toy_WF rng2_ok (Nat.le_refl _) cryptoSign_eq).1, ?_⟩
  decide +kernel

theorem accepted : Accepts toy 100 pubKey.spec msg signature.spec :=
  ((C09_accept_iff_digest_matches toy_WF (by decide) rng0_ok keygen_eq 100 (fun _ => stale) msg signature).1 1
    (verifies 100 (Nat.le_refl _) _)).2.1 rfl

theorem fitsVerifier : VerifierFits toy 100 pubKey.spec signature.spec :=
  accepted.fits (((keygen_pair toy_WF rng0_ok keygen_eq).1.fits toy_WF).1)

/-- Any other message is refused, unless its transcript has the same hash (C09, C10). -/
example (m' : Bytes) (sl : Nat → Stale toy) : ∃ r, lessVerify 100 sl pubKey m' signature = .ok r :=
  (C09_accept_iff_digest_matches toy_WF (by decide) rng0_ok keygen_eq 100 sl m' signature).2 fitsVerifier

example : priKey.G0seed = pubKey.G0seed := (C46_public_key_bound_to_secret toy_WF rng0_ok keygen_eq).1.symm

example (sl : Nat → Stale toy) (sm : Vector UInt8 5000) : ∃ sm₁ r, cryptoSign 100 sl rng2 sm msg skBuf = .ok (sm₁, signedLen, r) ∧
    ∀ i < signedLen, g sm₁ i = g signed i :=
  C47_sign_total toy_WF (Nat.le_refl _) (Nat.le_refl _) rng0_ok rng2_ok keypair_eq (Nat.le_refl _) (by decide) cryptoSign_eq sl sm

example (sl : Nat → Stale toy) : ∃ r, lessKeygen 100 sl rng0 = .ok (priKey, pubKey, r) :=
  C47_keygen_total toy_WF (Nat.le_refl _) rng0_ok keygen_eq sl

/-- The message comes out of the genuine signed message because the specification accepts the signature in it (C55). -/
example : ∃ sig : Sig toy, SigIn received 2 sig ∧ Accepts toy 100 (readPub pkBuf).spec msg sig := by
  obtain ⟨-, -, h⟩ := C55_open_result toy_WF rng0_ok keypair_eq (by decide) (opens 100 (Nat.le_refl _) (fun _ => stale) 33 (Nat.le_refl _))
  obtain ⟨-, h1, h2⟩ := h 2 (by decide +kernel) (by decide)
  injection h1 with h1
  rw [← h1] at h2
  exact ⟨_, sigIn_view received 2, (h2 _ (sigIn_view received 2)).1 rfl⟩

/-- Any message is handed out under a refused signature (C56). -/
example (m' : Bytes) (h : m'.length < 1000) (sl : Nat → Stale toy) :
    cryptoSignOpen 100 sl 1000 (zeroResponses toy received 2 m') pkBuf = .ok (-1, some m') :=
  C56_fails_unverified_message toy_WF rng0_ok keypair_eq (by decide) (opens 100 (Nat.le_refl _) (fun _ => stale) 33 (Nat.le_refl _))
    (by decide +kernel) m' (by have : toy.cryptoBytes 2 < 1000 := by decide
                               omega) h.le sl

example : ∃ num sig, (g received (signedLen - 1)).toNat = num ∧ SigIn received num sig ∧ msg.length + toy.cryptoBytes num = signedLen ∧
    msg.length ≤ 33 ∧ seg received 0 msg.length = msg ∧ Accepts toy 100 (readPub pkBuf).spec msg sig :=
  C56_verdict_partial toy_WF rng0_ok keypair_eq (by decide) (opens 100 (Nat.le_refl _) (fun _ => stale) 33 (Nat.le_refl _))

/-! ## Responses can be simulated (C57) -/

theorem G0_good : Reduced G0 ∧ FullRank (matOf G0) := by
  obtain ⟨h1, h2⟩ := (expandG0_wp toy_WF 100 stale g0).of_ok G0_eq
  exact ⟨h1, (h2.rref (by decide)).fullRank⟩

/-- The key of the run: signer and simulator publish every pair equally often. -/
example (V : NormIS toy) (resp : Vector UInt8 toy.monoBytes) :
    Nat.card {M : VMono toy // signerRound stale (.replicate _ 99) G0 Qinv M = .ok (V, resp)} =
      Nat.card {M : VMono toy // simulatedRound stale (.replicate _ 7) code M = .ok (V, resp)} :=
  C57_equal_counts toy_WF Qinv_eq keygenOne_eq G0_good.1 G0_good.2 stale stale _ _ V resp

/-- The count is not zero for the pair that the first round of the run leads to. -/
example : ∃ V resp, 0 < Nat.card {M : VMono toy // simulatedRound stale (.replicate _ 7) code M = .ok (V, resp)} := by
  obtain ⟨e, h⟩ := C57_simulation toy_WF Qinv_eq keygenOne_eq G0_good.1 G0_good.2
  have hv : Q0.Valid := by
    have h1 : ∀ i < toy.N, ∀ j < toy.N, g Q0.permutation i = g Q0.permutation j → i = j := by decide +kernel
    exact ⟨⟨by decide +kernel, fun i j hi hj e => h1 i hi j hj e⟩, by decide +kernel⟩
  obtain ⟨V, resp, -, h2⟩ := h ⟨Q0, hv⟩ stale stale (.replicate _ 99) (.replicate _ 7)
  exact ⟨V, resp, Nat.card_pos_iff.mpr ⟨⟨⟨_, h2⟩⟩, inferInstance⟩⟩

/-- The same for all three rounds together, with the challenge of the run. -/
example (views : Fin toy.T → RoundView toy) :
    Nat.card {M : Fin toy.T → VMono toy // ∀ i : Fin toy.T,
        signerView stale (.replicate _ 99) G0 (fun _ => Qinv) (g fws i) (M i) = .ok (views i)} =
      Nat.card {M : Fin toy.T → VMono toy // ∀ i : Fin toy.T,
        simulatedView stale (.replicate _ 7) G0 (fun _ => code) (g fws i) (M i) = .ok (views i)} :=
  C57_transcript_counts toy_WF (sl := fun _ => stale) (fun _ _ => Qinv_eq) (fun _ _ => keygenOne_eq) G0_good.1 G0_good.2 fws
    (by decide +kernel) (fun _ => stale) (fun _ => stale) (fun _ => .replicate _ 99) (fun _ => .replicate _ 7) views

/-- The one response of the run, in the round with non-zero challenge. -/
example : ∃ (s : Stale toy) (buf : Vector UInt8 toy.monoBytes) (S M : Monomial toy) (V : NormIS toy),
    signerRound s buf G0 S M = .ok (V, g signature.monomActions 0) := by
  obtain ⟨G, sd, tr, f, M, V, h1, -, -, -, -, h5, h6⟩ := C57_signature sign_eq
  have e1 : G = G0 := by
    have : priKey.G0seed.toList = g0 := by decide +kernel
    rw [this, G0_eq] at h1; cases h1; rfl
  have e2 : f = fws := by
    have : signature.digest.toList = digest := by decide +kernel
    rw [this, fws_eq] at h5; cases h5; rfl
  subst e1 e2
  obtain ⟨s, buf, S, -, -, -, h⟩ := h6 1 (by decide) (by decide +kernel)
  exact ⟨s, buf, S, M 1, V 1, h⟩

/-! ## The strings expanded in the run (C72) -/

example : ∃ (s : Stream) (coms : Nat → List (List Nat)) (G0 : Matrix (Fin toy.K) (Fin toy.N) (ZMod 127)), ∀ i < toy.T,
    ∃ M, IsMonomial toy 100 (xof toy ((roundInputs toy (rootOf toy s) signature.treeSalt.toList).getD i [])) M ∧
      IsCommit (G0 * M) (coms i) := by
  obtain ⟨s, hs⟩ := exists_stream toy rng2 rng2_ok
  obtain ⟨salt, coms, G0, h1, -, -, h2, -⟩ := C72_expanded toy_WF hs (Nat.le_refl _) sign_eq
  exact ⟨s, coms, G0, by rw [h1]; exact h2⟩

/-! ## Malformed and altered signatures (C07, C08, C11, C12) -/

theorem challenge : ∃ v, IsChallenge toy 100 (xof toy signature.digest.toList) v := by
  obtain ⟨v, coms, h, -⟩ := accepted
  exact ⟨v, h⟩

/-- The response is replaced by zeros: its factors are 0. -/
def zeroResponse : SignT toy toy.storageLen := { signature with monomActions := .replicate _ (.replicate _ 0) }

example (sl : Nat → Stale toy) : ∀ r, lessVerify 100 sl pubKey msg zeroResponse = .ok r → r = 0 := by
  obtain ⟨v, hv⟩ := challenge
  obtain ⟨i, hi, hvi, hrb⟩ := exists_response (v := v) (n := toy.T) (k := 0) (by rw [hv.weight]; decide)
  refine C08_malformed_action_rejected toy_WF (by decide) rng0_ok keygen_eq 100 sl msg zeroResponse hv hi hvi _ rfl (.inl ⟨0, by decide, .inl ?_⟩)
  rw [show responsesBefore v i = 0 from hrb]
  decide +kernel

/-- A seed is appended: the longer string opens to the same message. -/
example (seed : Bytes) (hs : seed.length = 16) (sl : Nat → Stale toy) :
    cryptoSignOpen 100 sl 33 (appendSeed received seed) pkBuf = .ok (0, some msg) :=
  C11_fails_appended_seed toy_WF rng0_ok keypair_eq hs (by rw [hs]; decide) (opens 100 (Nat.le_refl _) (fun _ => stale) 33 (Nat.le_refl _))
    (by decide +kernel) sl

/-- Two verifications of one signature. -/
example : ∃ v coms coms', IsChallenge toy 100 (xof toy signature.digest.toList) v ∧
    (∀ i < toy.T, RoundCommit toy 100 pubKey.spec signature.spec v i (coms i)) ∧
    (∀ i < toy.T, RoundCommit toy 100 pubKey.spec signature.spec v i (coms' i)) ∧
    ((∀ i < toy.T, coms i = coms' i) ∧ msg = msg ∧ signature.treeSalt = signature.treeSalt ∨
      transcript toy coms msg signature.treeSalt.toList ≠ transcript toy coms' msg signature.treeSalt.toList ∧
      hash toy (transcript toy coms msg signature.treeSalt.toList) = hash toy (transcript toy coms' msg signature.treeSalt.toList)) :=
  C11_single_encoding_partial toy_WF (by decide) (by decide) rng0_ok rng0_ok keygen_eq keygen_eq
    (verifies 100 (Nat.le_refl _) (fun _ => stale)) (verifies 100 (Nat.le_refl _) (fun _ => stale)) rfl

/-- C48: the hashed strings of the run. -/
example : ∃ coms, signature.digest.toList = hash toy (transcript toy coms msg signature.treeSalt.toList) := by
  obtain ⟨_, _, coms, _, _, _, h, -⟩ := C48_signer toy_WF (Nat.le_refl _) (Nat.le_refl _) rng2_ok rng2_ok sign_eq sign_eq
  exact ⟨coms, h⟩

example : ∃ coms, signature.digest.toList = hash toy (transcript toy coms msg signature.treeSalt.toList) := by
  obtain ⟨_, _, coms, _, _, _, _, _, h, -⟩ := C48_verifier toy_WF (by decide) (by decide) rng0_ok rng0_ok keygen_eq keygen_eq
    (verifies 100 (Nat.le_refl _) (fun _ => stale)) (verifies 100 (Nat.le_refl _) (fun _ => stale))
  exact ⟨coms, h⟩

/-- The last seed is cut off and the count adjusted. -/
def cut1 : Vector UInt8 (signedLen - 16) := toVec _ (seg received 0 (signedLen - 17) ++ [1])

example (sl : Nat → Stale toy) (pk : Vector UInt8 toy.pkLen) : cryptoSignOpen 100 sl 33 cut1 pk = .error .oob := by
  obtain ⟨v, hv⟩ := challenge
  refine C07_fails_count toy_WF 100 sl 33 cut1 pk (by decide) 1 (by decide +kernel) (by decide) (by decide) (by decide) (v := v) ?_ ?_
  · have : seg cut1 (signedLen - 16 - toy.cryptoBytes 1 + toy.hashLen + toy.W * toy.monoBytes) toy.hashLen = signature.digest.toList := by
      decide +kernel
    rw [this]; exact hv
  · obtain ⟨v', n, h1, h2, -, h4⟩ := (C04_layout toy_WF rng2_ok (Nat.le_refl _) cryptoSign_eq).2.1
    rw [show seg signed (msg.length + toy.hashLen + toy.W * toy.monoBytes) toy.hashLen = signature.digest.toList by decide +kernel] at h1
    obtain rfl := hv.unique h1
    rw [← h2, ← h4]
    decide +kernel

example : ∃ G0 v, ∃ coms : Nat → List (List Nat), ∃ v', ∃ coms' : Nat → List (List Nat), IsG0 toy 100 (xof toy pubKey.spec.seed) G0 ∧
    IsChallenge toy 100 (xof toy signature.digest.toList) v ∧ (∀ i < toy.T, RoundCommit toy 100 pubKey.spec signature.spec v i (coms i)) ∧
    IsChallenge toy 100 (xof toy signature.digest.toList) v' ∧
    (∀ i < toy.T, RoundCommit toy 100 pubKey.spec signature.spec v' i (coms' i)) := by
  obtain ⟨G0, v, coms, v', coms', h1, h2, h3, h4, h5, -⟩ := C12_accepted_signatures toy_WF (by decide) (by decide)
    (keygen_good toy_WF rng0_ok keygen_eq) (verifies 100 (Nat.le_refl _) (fun _ => stale)) (verifies 100 (Nat.le_refl _) (fun _ => stale))
  exact ⟨G0, v, coms, v', coms', h1, h2, h3, h4, h5⟩

/-! ## Bad public keys (C44, C51) -/

/-- The samplers a verifier runs depend neither on the public codes nor on the responses. -/
theorem _root_.LESS.Spec.VerifierFits.congr {p : Params} {B : Nat} {pk pk' : PK p} {sig sig' : Sig p} (h : VerifierFits p B pk sig)
    (h1 : pk'.seed = pk.seed) (h2 : sig'.salt = sig.salt) (h3 : sig'.digest = sig.digest) (h4 : sig'.stored = sig.stored) :
    VerifierFits p B pk' sig' := by
  unfold VerifierFits rebuiltLeaf at h ⊢
  rw [h1, h2, h3, h4]
  exact h

theorem fits_other {p : Params} {B n : Nat} {pk : PubKey p} {sig : SignT p n} (h : VerifierFits p B pk.spec sig.spec)
    (codes : Vector (Vector UInt8 p.rrefBytes) (p.numKeypairs - 1)) (a : Vector (Vector UInt8 p.monoBytes) p.W) :
    VerifierFits p B (⟨pk.G0seed, codes⟩ : PubKey p).spec ({ sig with monomActions := a } : SignT p n).spec :=
  h.congr rfl rfl rfl rfl

/-- The public key with all code bytes 0. -/
def zeroKey : PubKey toy := ⟨pubKey.G0seed, .replicate _ (zeroCode toy)⟩

example (sl : Nat → Stale toy) (m : Bytes) : lessVerify 100 sl zeroKey m signature = .error .oob := by
  refine C44_fails_zero_key toy_WF (by decide) 100 sl zeroKey (fun j hj => ?_) m signature ?_
  · exact g_replicate _ _ hj
  · exact fitsVerifier.congr rfl rfl rfl rfl

theorem zeroKey_sorted : SortedKey zeroKey := by
  intro j hj
  refine .inr ?_
  rw [show zeroKey.spec.codes j = zeroCode toy from g_replicate _ _ hj]
  unfold Oversized
  rw [denseBelow_zeroCode, List.length_range]
  decide

theorem pubKey_sorted : SortedKey pubKey := fun j hj => .inl (keygen_good toy_WF rng0_ok keygen_eq j hj)

/-- Both sides of `C44_oob_iff` occur. -/
example : MeetsOversized toy 100 zeroKey.spec signature.spec ∧ ¬ MeetsOversized toy 100 pubKey.spec signature.spec := by
  refine ⟨(C44_oob_iff toy_WF (by decide) 100 (fun _ => stale) zeroKey zeroKey_sorted msg signature (fitsVerifier.congr rfl rfl rfl rfl)).1
    (C44_fails_zero_key toy_WF (by decide) 100 _ zeroKey (fun j hj => g_replicate _ _ hj) msg signature (fitsVerifier.congr rfl rfl rfl rfl)), ?_⟩
  intro h
  have := (C44_oob_iff toy_WF (by decide) 100 (fun _ => stale) pubKey pubKey_sorted msg signature fitsVerifier).2 h
  rw [verifies 100 (Nat.le_refl _)] at this
  cases this

example (sl : Nat → Stale toy) (h : lessVerify 100 sl zeroKey msg signature = .error .oob) : MeetsOversized toy 100 zeroKey.spec signature.spec :=
  C44_oob_only_if toy_WF (by decide) 100 sl zeroKey zeroKey_sorted msg signature h

example (m : Bytes) (sl sl' : Nat → Stale toy) : lessVerify 100 sl zeroKey m signature = lessVerify 100 sl' zeroKey m signature :=
  C47_any_key toy_WF (by decide) (by decide) zeroKey_sorted sl sl' m signature (fitsVerifier.congr rfl rfl rfl rfl)

example (m : Bytes) (sl : Nat → Stale toy) : ∃ r, lessVerify 100 sl pubKey m signature = .ok r :=
  (C09_any_key toy_WF (by decide) (by decide) 100 sl pubKey pubKey_sorted m signature).2 fitsVerifier fun h => by
    have := (C44_oob_iff toy_WF (by decide) 100 (fun _ => stale) pubKey pubKey_sorted msg signature fitsVerifier).2 h
    rw [verifies 100 (Nat.le_refl _)] at this
    cases this

example (sl : Nat → Stale toy) (codes : Vector (Vector UInt8 toy.rrefBytes) (toy.numKeypairs - 1)) (h : SortedKey (⟨pubKey.G0seed, codes⟩ : PubKey toy)) :
    ∀ r, lessVerify 100 sl ⟨pubKey.G0seed, codes⟩ msg zeroResponse = .ok r → r = 0 := by
  obtain ⟨v, hv⟩ := challenge
  obtain ⟨i, hi, hvi, hrb⟩ := exists_response (v := v) (n := toy.T) (k := 0) (by rw [hv.weight]; decide)
  refine C08_any_key toy_WF (by decide) (by decide) 100 sl _ h msg zeroResponse hv hi hvi _ rfl (.inl ⟨0, by decide, .inl ?_⟩)
  rw [show responsesBefore v i = 0 from hrb]
  decide +kernel

/-- The buffer for the message decides whether the genuine signed message can be opened (C07, C55). -/
example (sl : Nat → Stale toy) (mcap : Nat) : cryptoSignOpen 100 sl mcap received pkBuf = .error .oob ↔ mcap < 33 := by
  constructor
  · intro h
    by_contra hm
    rw [opens 100 (Nat.le_refl _) sl mcap (by omega)] at h
    cases h
  · intro hm
    have hnum : (g received (signedLen - 1)).toNat = 2 := by decide +kernel
    refine (C07_oob_iff toy_WF (by decide) (by decide) 100 sl mcap received pkBuf (by rw [readPub_eq]; exact pubKey_sorted) ?_).2
      (.inr ⟨2, hnum, by decide, .inr (.inl ?_)⟩)
    · obtain ⟨-, -, h⟩ := C55_any_key toy_WF (by decide) (by rw [readPub_eq]; exact pubKey_sorted) (by decide)
        (opens 100 (Nat.le_refl _) (fun _ => stale) 33 (Nat.le_refl _))
      obtain ⟨-, h1, h2⟩ := h 2 hnum (by decide)
      rw [hnum]
      refine ⟨_, sigIn_view received 2, ((h2 _ (sigIn_view received 2)).1 rfl).fits ?_⟩
      rw [readPub_eq]
      exact fitsVerifier.1
    · have : signedLen = 33 + toy.cryptoBytes 2 := by decide
      omega

/-- C61: all three outcomes of verification. -/
example (sl : Nat → Stale toy) (m : Bytes) : lessVerify 100 sl zeroKey m signature = .error .oob ∧
    (lessVerify 100 sl pubKey m signature = .ok 1 ∨ lessVerify 100 sl pubKey m signature = .ok 0) ∧
    (Accepts toy 100 pubKey.spec m signature.spec → lessVerify 100 sl pubKey m signature = .ok 1) := by
  have h0 := C44_fails_zero_key toy_WF (by decide) 100 sl zeroKey (fun j hj => g_replicate _ _ hj) m signature (fitsVerifier.congr rfl rfl rfl rfl)
  refine ⟨h0, ?_⟩
  rcases C61_verify_outcome toy_WF (by decide) 100 sl pubKey pubKey_sorted m signature fitsVerifier with ⟨h, -⟩ | ⟨-, ⟨h, e⟩ | ⟨h, e⟩⟩
  · have := (C44_oob_iff toy_WF (by decide) 100 (fun _ => stale) pubKey pubKey_sorted msg signature fitsVerifier).2 h
    rw [verifies 100 (Nat.le_refl _)] at this
    cases this
  · exact ⟨.inl e, fun _ => e⟩
  · exact ⟨.inr e, fun h' => absurd h' h⟩

/-- C61: whatever the size of the message buffer, the genuine signed message is opened or the buffer is too small. -/
example (sl : Nat → Stale toy) (mcap : Nat) : ∃ sig : Sig toy, SigIn received 2 sig ∧
    ((OpenLeaves 100 mcap received pkBuf ∧ cryptoSignOpen 100 sl mcap received pkBuf = .error .oob) ∨
      ¬ OpenLeaves 100 mcap received pkBuf ∧ ∃ r m, cryptoSignOpen 100 sl mcap received pkBuf = .ok (r, some m)) := by
  have hnum : (g received (signedLen - 1)).toNat = 2 := by decide +kernel
  obtain ⟨-, -, h⟩ := C55_any_key toy_WF (by decide) (by rw [readPub_eq]; exact pubKey_sorted) (by decide)
    (opens 100 (Nat.le_refl _) (fun _ => stale) 33 (Nat.le_refl _))
  obtain ⟨-, h1, h2⟩ := h 2 hnum (by decide)
  refine ⟨_, sigIn_view received 2, ?_⟩
  rcases C61_open_outcome toy_WF (by decide) (by decide) 100 sl mcap received pkBuf (by rw [readPub_eq]; exact pubKey_sorted) 2 _ hnum
    (sigIn_view received 2) (((h2 _ (sigIn_view received 2)).1 rfl).fits (by rw [readPub_eq]; exact fitsVerifier.1)) with
    h | ⟨h, ⟨h', e⟩ | ⟨h', m', -, -, ⟨-, e⟩ | ⟨-, e⟩⟩⟩
  · exact .inl h
  · exact absurd h' (by decide)
  · exact .inr ⟨h, _, _, e⟩
  · exact .inr ⟨h, _, _, e⟩

def key127 : PubKey toy := ⟨pubKey.G0seed, .replicate _ (code127 toy)⟩
def sig127 : SignT toy toy.storageLen := { signature with monomActions := .replicate _ (resp127 toy) }

example (isa : Isa) (sl : Nat → OStale toy) (m : Bytes) : lessVerifyO isa 100 sl key127 m sig127 = .error .oob := by
  obtain ⟨h1, h2, h3⟩ := C51_witness toy_WF
  refine C51_fails_unreduced_key isa toy_WF (by decide) 100 sl key127 m sig127 h1 (fun j hj => ?_)
    (fits_other fitsVerifier _ _)
  rw [show g key127.SFG j = code127 toy from g_replicate _ _ hj]
  exact ⟨h2, h3⟩

/-! ## Answering all challenges (C63) -/

theorem honest_answers : ∃ (coms : Nat → List (List Nat)) (prover : Vector Nat toy.T → Sig toy), ∀ v, Challenge toy v →
    Answers toy 100 pubKey.spec coms prover v := by
  obtain ⟨hk, -⟩ := keygen_pair toy_WF rng0_ok keygen_eq
  obtain ⟨s, hs⟩ := exists_stream toy rng2 rng2_ok
  obtain ⟨-, hs, -⟩ := (lessSign_wp toy_WF 100 (fun _ => stale) rng2 priKey msg blank s hs (by decide)).of_ok sign_eq
  obtain ⟨-, v, coms, G0, -, -, -, hround, -⟩ := hs
  exact C63_honest_prover toy_WF hk (hk.fits toy_WF) _ _ fun i hi => by
    obtain ⟨M, -, -, h, -⟩ := hround i hi
    exact ⟨M, h⟩

/-- The owner of the key answers on at least three quarters of the sequences of ten numbers, more than one in three, and so
the hypotheses of C63 are met. -/
example : ∃ (coms : Nat → List (List Nat)) (prover : Vector Nat toy.T → Sig toy),
    (2 ^ 16) ^ 10 < toy.T.choose toy.W * (toy.numKeypairs - 1) ^ toy.W * Nat.card {ws : Words 16 10 //
      ∃ v, digestWords toy ws.1 0 (noChallenge toy) = .ok v ∧ Answers toy 100 pubKey.spec coms prover v} := by
  classical
  obtain ⟨coms, prover, h⟩ := honest_answers
  refine ⟨coms, prover, ?_⟩
  have h1 := C64_challenges toy_WF (by decide) 10
  have h2 : Nat.card (Words 16 10) ≤ Nat.card {ws : Words 16 10 // ¬ ∃ v, digestWords toy ws.1 0 (noChallenge toy) = .ok v} +
      Nat.card {ws : Words 16 10 // ∃ v, digestWords toy ws.1 0 (noChallenge toy) = .ok v ∧ Answers toy 100 pubKey.spec coms prover v} := by
    rw [← Nat.card_congr (Equiv.sumCompl fun ws : Words 16 10 => ∃ v, digestWords toy ws.1 0 (noChallenge toy) = .ok v), Nat.card_sum,
      Nat.add_comm]
    exact Nat.add_le_add_left (Nat.card_le_card_of_injective (fun x => ⟨x.1, x.2.elim fun v hv =>
      ⟨v, hv, h v (noChallenge_challenge toy_WF hv)⟩⟩) fun x y e => Subtype.ext (congrArg (fun z => z.1) e)) _
  rw [card_words] at h2
  have h3 : placingNumbers toy = 24576 := by decide +kernel
  have h4 : toy.T.choose toy.W * (toy.numKeypairs - 1) ^ toy.W = 3 := by decide
  have h5 : toy.W = 1 := rfl
  rw [h3, h5] at h1
  rw [h4]
  norm_num at h1 h2 ⊢
  omega

/-! ## Forgers (C68) -/

/-- The owner of the key of the run fails on at most two in a hundred tables. -/
theorem toy_owner : ∃ F : Forger toy 32, F.AtMost 2 ∧ (∀ O, (attack 100 pubKey.spec F).questions O ≤ 2) ∧ ∀ X, (attack 100 pubKey.spec F).Within X → ∀ base,
    100 * Nat.card {t : Tables toy 32 X // ¬ ∃ o, (attack 100 pubKey.spec F).run (table base t) = some o ∧ o.msg = msg} ≤
      2 * Nat.card (Tables toy 32 X) := by
  obtain ⟨hk, -⟩ := keygen_pair toy_WF rng0_ok keygen_eq
  obtain ⟨s, hs⟩ := exists_stream toy rng2 rng2_ok
  obtain ⟨-, hs, -⟩ := (lessSign_wp toy_WF 100 (fun _ => stale) rng2 priKey msg blank s hs (by decide)).of_ok sign_eq
  obtain ⟨-, v, coms, G0, -, -, -, hround, -⟩ := hs
  refine C68_owner_wins toy_WF hk (hk.fits toy_WF) msg (rootOf toy s) signature.spec.salt (by simp [SignT.spec]) (fun i hi => ?_) ?_
  · obtain ⟨M, -, -, h, -⟩ := hround i hi
    exact ⟨M, h⟩
  · have h1 := C64_challenges toy_WF (by decide) 32
    have h3 : placingNumbers toy = 24576 := by decide +kernel
    have h5 : toy.W = 1 := rfl
    rw [h3, h5] at h1
    rw [card_words]
    norm_num at h1 ⊢
    omega

/-- It meets the hypotheses of C68. -/
example : ∃ (F : Forger toy 32) (X : Finset (Question toy)) (base : ∀ x, AnswerTo toy 32 x), (attack 100 pubKey.spec F).Within X ∧
    (∀ t : Tables toy 32 X, (attack 100 pubKey.spec F).questions (table base t) ≤ 2) ∧
    2 * Nat.card (Tables toy 32 X) <
      3 * Nat.card {t : Tables toy 32 X // ((attack 100 pubKey.spec F).run (table base t)).isSome} := by
  classical
  obtain ⟨F, -, h1, h2⟩ := toy_owner
  obtain ⟨X, hX⟩ := within_exists (attack 100 pubKey.spec F)
  have h := h2 X hX (keccakTable toy 32)
  refine ⟨F, X, keccakTable toy 32, hX, fun t => h1 _, ?_⟩
  have hpos : 0 < Nat.card (Tables toy 32 X) := Nat.card_pos_iff.2 ⟨⟨fun x => keccakTable toy 32 x.1⟩, inferInstance⟩
  have hsum : Nat.card (Tables toy 32 X) ≤
      Nat.card {t : Tables toy 32 X // ((attack 100 pubKey.spec F).run (table (keccakTable toy 32) t)).isSome} +
      Nat.card {t : Tables toy 32 X // ¬ ∃ o, (attack 100 pubKey.spec F).run (table (keccakTable toy 32) t) = some o ∧ o.msg = msg} := by
    rw [← Nat.card_congr (Equiv.sumCompl fun t : Tables toy 32 X => ((attack 100 pubKey.spec F).run (table (keccakTable toy 32) t)).isSome), Nat.card_sum]
    refine Nat.add_le_add_left (Nat.card_le_card_of_injective (fun t => ⟨t.1, fun ⟨o, h, _⟩ => t.2 (by rw [h]; rfl)⟩) ?_) _
    intro a b h
    exact Subtype.ext (congrArg (fun z => z.1) h)
  omega

example : 3 ≤ toy.T.choose toy.W * (toy.numKeypairs - 1) ^ toy.W ∧ 3 * 3 ≤ 2 ^ (8 * toy.hashLen) := by decide +kernel

theorem accepted_forger (fuel : Nat) (pk : PubKey toy) (h : SortedKey pk) (sl : Nat → Stale toy) (m : Bytes) (sig : SignT toy toy.storageLen)
    (hv : lessVerify fuel sl pk m sig = .ok 1) :
    ∃ F : Forger toy fuel, F.run (keccakTable toy fuel) = (m, sig.spec) ∧ ((attack fuel pk.spec F).run (keccakTable toy fuel)).isSome :=
  ⟨.done (m, sig.spec), rfl, (C68_game_is_verification (n := toy.storageLen) toy_WF (by decide) (by decide) fuel sl h (.done (m, sig.spec)) rfl hv).2 rfl⟩

/-- The forger that outputs the signature of the run. -/
example : ∃ F : Forger toy 100, F.run (keccakTable toy 100) = (msg, signature.spec) ∧ ((attack 100 pubKey.spec F).run (keccakTable toy 100)).isSome :=
  accepted_forger 100 pubKey pubKey_sorted _ msg signature (verifies 100 (Nat.le_refl _) fun _ => stale)

/-! ## Attackers who see signatures (C81) -/

/-- The key of the run has the parts, and its signature is one of the signer of C81. -/
example : ∃ (seeds : Vector (Vector UInt8 toy.skSeedLen) (toy.numKeypairs - 1)) (S : Nat → Monomial toy),
    privateSeeds toy priKey.compressedSk.toList = .ok seeds ∧
    ∀ i < toy.numKeypairs - 1, monomialSeedExpandPrikey 100 stale.mono (g seeds i).toList = .ok (S i) := by
  obtain ⟨_, seeds, S, -, h1, h2⟩ := C81_keys rng0_ok keygen_eq
  exact ⟨seeds, S, h1, h2⟩

example : ∃ (G0 : GenMat toy) (S : Nat → Monomial toy) (M : Fin toy.T → VMono toy) (sl : Nat → Stale toy) (rbuf : Nat → Vector UInt8 toy.monoBytes),
    signature.digest.toList = Spec.hash toy ((codeSigner sl rbuf G0 S).com M ++ msg ++ signature.treeSalt.toList) := by
  obtain ⟨G0, _, _, S, _, M, sl, rbuf, -, -, -, -, h, -⟩ := C81_signer toy_WF sign_eq
  exact ⟨G0, S, M, sl, rbuf, h⟩

/-- An attacker that returns the signature it was shown: the message was signed, so it does not count. -/
example (S : Signer toy (Fin toy.T → VMono toy) (SigView toy)) (toSig : Shown toy (SigView toy) → Sig toy) (m : Bytes)
    (O : ∀ x, GameAnswer toy 32 (Digest toy × (Fin toy.T → VMono toy)) x) :
    (realGame S 0 [] (chosen 100 pubKey.spec (.ask (.inr m) fun (s : Shown toy (SigView toy)) => .done (m, toSig s) : Attacker toy 32 (SigView toy)))).run O = none := by
  have hrun : ∀ (O : ∀ x, GameAnswer toy 32 (Digest toy × (Fin toy.T → VMono toy)) x) (c : Asks (Question toy) (AnswerTo toy 32) (Option (Forged toy))),
      (realGame S 1 [m] (withoutSigner c)).run O = (c.run fun x => O (.inl x)).filter fun o => decide (o.msg ∉ [m]) := by
    intro O c
    induction c with
    | done o => rfl
    | ask x next ih => exact ih _
  refine (hrun O _).trans (Option.filter_eq_none_iff.2 fun o h => ?_)
  have := (judge_some [] h).1
  simp [this]

/-! ## The optimized implementation (C41) -/

example (isa : Isa) (sl : Nat → OStale toy) : ∃ r, cryptoSignKeypairO isa 100 sl rng0 = .ok (pkBuf, skBuf, r) := by
  obtain ⟨sl', h⟩ := C41_keygen_is_reference_run isa toy_WF (by decide) 100 sl
  obtain ⟨r, e⟩ := C47_keygen_total toy_WF (Nat.le_refl _) rng0_ok keygen_eq sl'
  refine ⟨r, ?_⟩
  rw [h]
  unfold cryptoSignKeypair
  rw [e]
  rfl

example (isa : Isa) (sl : Nat → OStale toy) : lessVerifyO isa 100 sl pubKey msg signature = .ok 1 :=
  C41_optimized_accepts_reference isa toy_WF (by decide) (Nat.le_refl _) rng0_ok rng2_ok keygen_eq sign_eq (Nat.le_refl _) (Nat.le_refl _) sl

/-! ## A history (C45) -/

theorem history (env : Nat → (Nat → Stale toy) × SignT toy toy.storageLen) (h1 : ∀ i, (env i).2 = blank) (h2 : ∀ i, (env i).1 = fun _ => stale) :
    ∃ w, (World.start (initCsprng toy seed) : World toy).run 100 env [.keygen, .sign 0 msg, .verify 0] = .ok w ∧ w.results = [1] := by
  refine ⟨⟨rng4, [(priKey, pubKey)], [⟨0, msg, signature⟩], [1]⟩, ?_, rfl⟩
  simp only [World.run, World.step, World.start, h1, h2, rng0_eq, keygen_eq, Kat.ok_bind, pure_bind, List.nil_append,
    List.getElem?_cons_zero, sign_eq, verifies 100 (Nat.le_refl _)]
  rfl

/-- The key of the run is made from the first 48 bytes of the generator, the signature from the next 48 (C65). -/
example : ∃ w : World toy, w.results = [1] ∧ List.Forall₂ (KeyFrom toy (xof toy seed)) w.keys [0] ∧
    List.Forall₂ (SignedFrom toy 100 (xof toy seed) w.keys) w.made [48] := by
  obtain ⟨w, h, hr⟩ := history (fun _ => (fun _ => stale, blank)) (fun _ => rfl) (fun _ => rfl)
  obtain ⟨h1, h2, -⟩ := C65_stretches toy_WF 100 _ seed _ h
  have e : Ledger.after toy [.keygen, .sign 0 msg, .verify 0] = ⟨96, [0], [48]⟩ := rfl
  rw [e] at h1 h2
  exact ⟨w, hr, h1, h2⟩

/-! ## Calls in several threads (C66) -/

/-- The key generation of the run, in steps. -/
theorem keygen_steps (locked : Bool) : ∃ k, Flight.run (p := toy) locked ⟨rng0, []⟩
    (.begin ((Request.keygen fun _ => stale).prog 100) :: List.replicate k (.step 0)) = ⟨rng2, [.outside (.done (.ok (.key priKey pubKey)))]⟩ := by
  obtain ⟨k, r, rng', h1, h2⟩ := C66_alone_keygen locked 100 (fun _ => stale) rng0_ok
  rw [keygen_eq] at h2
  cases r with
  | error e => cases h2
  | ok a => cases h2; exact ⟨k, h1⟩

/-- A finished call of a locked run: the key is made from bytes of the generator that no other call uses. -/
example : ∃ o o', priKey.spec.secret = ((xof toy seed).drop o).take toy.skSeedLen ∧
    priKey.spec.seed = ((xof toy seed).drop o').take toy.seedLen ∧ Apart (o, toy.skSeedLen) (o', toy.seedLen) := by
  obtain ⟨k, h⟩ := keygen_steps true
  obtain ⟨-, D, hD, hap, hall⟩ := C66_locked_partial toy_WF 100 seed
    (.begin ((Request.keygen fun _ => stale).prog 100) :: List.replicate k (.step 0)) [.keygen fun _ => stale] (by
      have : begun (List.replicate k (.step 0) : List (Event (Reply toy))) = [] := by
        clear h
        induction k with
        | zero => rfl
        | succ k ih => rw [List.replicate_succ]; exact ih
      show (Request.keygen fun _ => stale).prog 100 :: begun (List.replicate k (.step 0)) = _
      rw [this]
      rfl)
  obtain ⟨d, rfl⟩ : ∃ d, D = [d] := List.length_eq_one_iff.mp hD
  rw [rng0_eq, h] at hall
  obtain ⟨o, o', rfl, -, hr⟩ := hall 0 _ _ _ rfl rfl rfl
  obtain ⟨sk, pk, e, h1, h2, -⟩ := hr _ rfl
  cases e
  exact ⟨o, o', h1, h2, by simpa using hap⟩

/-- Two signatures by the signer of the run, made in turn. -/
example (m m' : Bytes) := C66_fails_reveals toy_WF 100 seed priKey pubKey (keygen_pair toy_WF rng0_ok keygen_eq).1 m m'
  (fun _ => stale) (fun _ => stale) blank blank

/-! ## The test-vector program (C52) -/

theorem seed_request : Spec.Kat.requestSeed toyAes 0 = seed := by decide +kernel
theorem msg_request : Spec.Kat.requestMsg toyAes 0 = msg := by decide +kernel

theorem runs : Kat.Runs toy 100 (Spec.Kat.requestSeed toyAes 0) (Spec.Kat.requestMsg toyAes 0) := by
  rw [seed_request, msg_request]
  refine ⟨0, _, true, ⟨⟨_, _, fun _ => stale, pkBuf, skBuf, rng2, rng4, _, smBuf, signed, signedLen, 33, Nat.le_refl _, by decide,
    by rw [rng0_eq]; exact keypair_eq, cryptoSign_eq, opens 100 (Nat.le_refl _) _ 33 (Nat.le_refl _), ?_, rfl⟩⟩⟩
  decide +kernel

example (tmp : Nat → Vector UInt8 48) (tmp0 : Vector UInt8 48) (st : Kat.Drbg) (entropy : Vector UInt8 48) (m : Vector UInt8 3300)
    (v : Kat.KatVars) (sl : Nat → Kat.KatStale toy) :
    ∃ req rsp, Kat.katMain toyAes tmp tmp0 st entropy m v 100 sl 1 = .ok (0, req, rsp) := by
  obtain ⟨⟨ret, req, rsp⟩, h⟩ := Kat.C52_returns toy_WF toyAes tmp tmp0 st entropy m v 100 sl 1 (by decide)
    (fun i hi => by obtain rfl : i = 0 := by omega
                    exact runs)
  obtain rfl := Kat.C52_returns_zero toy_WF (by decide) toyAes tmp tmp0 st entropy m v 100 sl 1 (by decide) h
  exact ⟨req, rsp, h⟩

/-! ## Other public keys (C67) -/

/-- The signed message opens under a second public key. -/
example : ∃ pk' ≠ pkBuf, cryptoSignOpen 100 (fun _ => stale) 33 received pk' = .ok (0, some msg) := by
  obtain ⟨pk', hne, h⟩ := C67_fails_padding toy_WF (by decide) (by decide) pkBuf
  exact ⟨pk', hne, by rw [h]; exact opens 100 (Nat.le_refl _) _ 33 (Nat.le_refl _)⟩

/-- The key and any other key that accepts the signature. -/
example (pk' : PubKey toy) (hpk' : SortedKey pk') (h' : lessVerify 100 (fun _ => stale) pk' msg signature = .ok 1) :
    ∃ (v : Nat → Nat) (coms coms' : Nat → List (List Nat)), IsChallenge toy 100 (xof toy signature.digest.toList) v ∧
      (∀ i < toy.T, RoundCommit toy 100 pubKey.spec signature.spec v i (coms i)) ∧
      (∀ i < toy.T, RoundCommit toy 100 pk'.spec signature.spec v i (coms' i)) := by
  obtain ⟨v, coms, coms', h1, h2, h3, -⟩ := C67_equivalent_codes_partial toy_WF (by decide) (by decide) pubKey_sorted hpk'
    (verifies 100 (Nat.le_refl _) (fun _ => stale)) h'
  exact ⟨v, coms, coms', h1, h2, h3⟩

/-- The small parameter set with two public codes. -/
def toy3 : Params := ⟨.one, 132, 2, 3, 3, 1, 64⟩

theorem toy3_WF : toy3.WF := by constructor <;> decide

/-- The challenge of the all-zero digest uses the second code only. -/
theorem toy3_challenge : expandDigest (p := toy3) 100 (Vector.replicate toy3.T 0) (Vector.replicate toy3.hashLen 0).toList = .ok #v[0, 0, 2] :=
  of_returns (by decide +kernel)

example (pk : PubKey toy3) (sl : Nat → Stale toy3) (m : Bytes) (sig : SignT toy3 toy3.storageLen) (hd : sig.digest = Vector.replicate _ 0)
    (code : Vector UInt8 toy3.rrefBytes) : lessVerify 100 sl (pk.withCode 0 code) m sig = lessVerify 100 sl pk m sig := by
  refine C67_fails_unused_code toy3_WF pk 100 sl m sig (v := g (#v[0, 0, 2] : Vector Nat 3)) (j := 0) ?_ (by decide) code
  have := (expandDigest_spec toy3_WF 100 sig.digest.toList).of_ok (by rw [hd]; exact toy3_challenge)
  exact this

/-- C73: the record of this run of key generation gives the positions of the entries of the private monomial. -/
example : ∃ log, lessKeygenT 100 (fun _ => stale) rng0 [] = .ok ((priKey, pubKey, rng2), log) ∧
    ∀ i < toy.numKeypairs - 1, ∃ σ d, Function.Injective σ ∧ (∀ r, d r ≠ 0) ∧ IsSecret toy 100 priKey.spec.secret i (placed σ d) ∧
      ∀ r : Fin toy.N, (writtenTo 10 log).getD (i * toy.N + r) toy.N = (σ r).val := by
  obtain ⟨log, h⟩ := C73_record_exists keygen_eq
  exact ⟨log, h, (C73_fails_keygen toy_WF rng0_ok h).2⟩

end ToyRun
end LESS
