import Verif.Props.Debug
import Verif.Props.VerifyCost
import Verif.Props.SigLength
import Verif.Props.SignCost
import Verif.Props.Copies
import Verif.Props.Backtrack
import Verif.Props.Interrupt
import Verif.Props.InterruptKey
import Verif.Props.FaultChallenge
import Verif.Props.Run
import Verif.Props.Rewind
import Verif.Props.SeedGame
import Verif.Props.Testbench
import Verif.Props.MemBench
import Verif.Props.Unseeded
import Verif.Proofs.TightRun
/-!
# More concrete cases

A second run, whose parameter set has room for exactly the seeds that run publishes: its signed message is refused (C02). Then
further theorems about the whole scheme, applied to the run of `Proofs/ToyRun`.
-/
namespace LESS
open Spec

namespace TightRun
open ToyRun (of_returns msg rng0 rng2 rng4 num)

theorem rng0_ok : RngOk tight rng0 := ToyRun.rng0_ok
theorem rng2_ok : RngOk tight rng2 := (keygen_pair tight_WF rng0_ok keygen_eq).2

/-- LESS_verify accepts the signature. -/
theorem verifies (fuel : Nat) (h : 100 ≤ fuel) (sl : Nat → Stale tight) : lessVerify fuel sl pubKey msg signature = .ok 1 :=
  C01_honest_signature_verifies tight_WF (Nat.le_refl _) rng0_ok rng2_ok keygen_eq sign_eq h h sl

def pkBuf : Vector UInt8 tight.pkLen := toVec _ (pubBytes pubKey)
def skBuf : Vector UInt8 tight.skLen := toVec _ (priBytes priKey)

theorem keypair_eq : cryptoSignKeypair 100 (fun _ => stale) rng0 = .ok (pkBuf, skBuf, rng2) := by
  unfold cryptoSignKeypair
  rw [keygen_eq]
  rfl

def smBuf : Vector UInt8 (msg.length + tight.sigLen) := Vector.replicate _ 0

theorem blitMsg_eq : blit smBuf 0 msg = .ok (blitV smBuf 0 msg) := by
  unfold blit
  rw [if_pos (by decide)]
  rfl

theorem readSign_eq : readSign (p := tight) (blitV smBuf 0 msg) msg.length tight.storageLen = .ok blank :=
  of_returns (by decide +kernel)

theorem readPri_eq : readPri skBuf = priKey := readPri_priBytes _

/-- The signed message. -/
def signed : Vector UInt8 (msg.length + tight.sigLen) := blitV (blitV smBuf 0 msg) msg.length (signBytes signature)

def signedLen : Nat := msg.length + tight.cryptoBytes num

theorem cryptoSign_eq : cryptoSign 100 (fun _ => stale) rng2 smBuf msg skBuf = .ok (signed, signedLen, rng4) := by
  unfold cryptoSign
  rw [blitMsg_eq, Kat.ok_bind, readSign_eq, Kat.ok_bind, readPri_eq, sign_eq, Kat.ok_bind]
  dsimp only
  unfold blit
  rw [if_pos (by decide +kernel), Kat.ok_bind]
  rfl

theorem digest_eq' : (viewSign (p := tight) signed msg.length tight.storageLen).digest.toList = ToyRun.digest := by decide +kernel

/-- The signed message of an honest signer is refused by crypto_sign_open, for every receive buffer. -/
theorem refused (fuel : Nat) (h : 100 ≤ fuel) (sl : Nat → Stale tight) (mcap : Nat) (hm : 33 ≤ mcap) :
    cryptoSignOpen fuel sl mcap (firstBytes signed signedLen) pkBuf = .ok (-1, none) := by
  have hv : IsChallenge tight 100 (xof tight (viewSign (p := tight) signed msg.length tight.storageLen).digest.toList) (g fws) := by
    rw [digest_eq']
    have h := expandDigest_spec tight_WF 100 ToyRun.digest
    rw [fws_eq] at h
    exact h
  exact C02_open_refuses tight_WF h h rng0_ok rng2_ok keypair_eq (Nat.le_refl _) (by decide) cryptoSign_eq sl hm hv (by decide +kernel)

/-- `C91_refused_iff`: so the challenge of that signature is one of those counted. -/
example : Draws tight tight.maxPublishedSeeds (drawn tight 2 100 (initCsprng tight
    (seg signed (33 + tight.hashLen + tight.W * tight.monoBytes) tight.hashLen))) :=
  (C91_refused_iff tight_WF (by decide) (Nat.le_refl 100) (Nat.le_refl 100) rng0_ok rng2_ok keypair_eq (Nat.le_refl _) (by decide)
    cryptoSign_eq (fun _ => stale) (Nat.le_refl 33)).1.mp (refused 100 (Nat.le_refl _) _ 33 (Nat.le_refl _))

end TightRun

namespace ToyRun

/-- C02: both readings of the round trip. -/
example (sl : Nat → Stale toy) : cryptoSignOpen 100 sl 33 (firstBytes signed signedLen) pkBuf = .ok (0, some msg) := by
  rw [C02_round_trip_partial toy_WF (Nat.le_refl _) (Nat.le_refl _) rng0_ok rng2_ok keypair_eq (Nat.le_refl _) (by decide) cryptoSign_eq sl
    (Nat.le_refl 33), if_pos (by decide +kernel)]

example (sl : Nat → Stale toy) : cryptoSignOpen 100 sl 33 (firstBytes signed signedLen) pkBuf = .ok (0, some msg) :=
  C02_round_trip toy_WF (by decide) (Nat.le_refl _) (Nat.le_refl _) rng0_ok rng2_ok keypair_eq (Nat.le_refl _) (by decide) cryptoSign_eq sl
    (Nat.le_refl 33)

/-- C04, C05, C06: no access outside the buffers, for every message, every stale content and every step bound. -/
example (fuel : Nat) (sl : Nat → Stale toy) (m : Bytes) (sm : Vector UInt8 (m.length + toy.sigLen)) :
    cryptoSign fuel sl rng2 sm m skBuf ≠ .error .oob := C04_sign_fits toy_WF fuel sl rng2_ok sm skBuf (Nat.le_refl _)

example (fuel : Nat) (sl : Nat → Stale toy) : cryptoSignKeypair fuel sl rng0 ≠ .error .oob := C05_keypair_memory_safe toy_WF fuel sl rng0_ok
example (fuel : Nat) (sl : Nat → Stale toy) : lessKeygen fuel sl rng0 ≠ .error .oob := C05_keygen_memory_safe toy_WF fuel sl rng0_ok
example (fuel : Nat) (sl : Nat → Stale toy) (m : Bytes) : lessSign fuel sl rng2 priKey m blank ≠ .error .oob :=
  C05_sign_memory_safe toy_WF (Nat.le_refl _) fuel sl rng2_ok priKey m blank
example (fuel : Nat) (sl : Nat → Stale toy) (m : Bytes) (sig : SignT toy toy.storageLen) : lessVerify fuel sl pubKey m sig ≠ .error .oob :=
  C06_verify_memory_safe toy_WF (by decide) rng0_ok keygen_eq fuel sl m sig

/-- C07: a one-byte input, a short input, an input announcing no seeds. -/
example (sl : Nat → Stale toy) : cryptoSignOpen 100 sl 33 (#v[0] : Vector UInt8 1) pkBuf = .error .oob :=
  C07_fails_one_byte toy_WF (by decide) 100 sl 33 pkBuf

example (sl : Nat → Stale toy) : cryptoSignOpen 100 sl 33 (#v[9, 9, 2] : Vector UInt8 3) pkBuf = .error .oob :=
  C07_fails_short toy_WF 100 sl 33 _ pkBuf (by decide) (by decide) (by decide) (by decide)

/-- Both seeds are cut off and the count is 0. -/
def cut0 : Vector UInt8 (signedLen - 32) := toVec _ (seg received 0 (signedLen - 33) ++ [0])

example (sl : Nat → Stale toy) : cryptoSignOpen 100 sl 33 cut0 pkBuf = .error .oob := by
  obtain ⟨v, hv⟩ := challenge
  refine C07_fails_count_zero toy_WF 100 sl 33 cut0 pkBuf (by decide) (by decide +kernel) (by decide) (by decide) (by decide) (v := v) ?_
  rw [show seg cut0 (signedLen - 32 - toy.cryptoBytes 0 + toy.hashLen + toy.W * toy.monoBytes) toy.hashLen = signature.digest.toList by
    decide +kernel]
  exact hv

/-- The honest signed message is read within its bounds, whatever buffer contents are stale. -/
example (sl : Nat → Stale toy) : cryptoSignOpen 100 sl 33 received pkBuf ≠ .error .oob := by
  refine C07_reads_within_partial toy_WF rng0_ok keypair_eq 100 sl 33 received (by decide) 2 (by decide +kernel) (by decide)
    (fun _ => by decide) (fun _ v h1 => ?_)
  obtain ⟨v', n, h1', h2, -, h4⟩ := (C04_layout toy_WF rng2_ok (Nat.le_refl _) cryptoSign_eq).2.1
  rw [show seg signed (msg.length + toy.hashLen + toy.W * toy.monoBytes) toy.hashLen = signature.digest.toList by decide +kernel] at h1'
  rw [show seg received (signedLen - toy.cryptoBytes 2 + toy.hashLen + toy.W * toy.monoBytes) toy.hashLen = signature.digest.toList by
    decide +kernel] at h1
  obtain rfl := h1.unique h1'
  rw [← h2, ← h4]
  decide +kernel

/-- C11: another encoding of the same response. -/
example (seed : Bytes) (h : seed ≠ []) : (appendSeed received seed).toList ≠ received.toList := C11_appended_differs received h

/-- The two bits behind the response are set: LESS_verify accepts this signature too. -/
def padded : Vector (Vector UInt8 toy.monoBytes) toy.W := signature.monomActions.map fun a => upd a 3 (g a 3 ^^^ 192)

example : padded ≠ signature.monomActions := by decide +kernel

example (sl : Nat → Stale toy) : lessVerify 100 sl pubKey msg { signature with monomActions := padded } = .ok 1 :=
  C11_fails_padding_bits toy_WF (by decide) rng0_ok keygen_eq (verifies 100 (Nat.le_refl _) (fun _ => stale)) padded (by decide +kernel)

/-- C12: two recomputations of one commitment connect the codes they started from. -/
example {sl sl' : Stale toy} {resp resp' : Vector UInt8 toy.monoBytes} {V : NormIS toy} (h : verifyResponse sl code resp = .ok (some V))
    (h' : verifyResponse sl' code resp' = .ok (some V)) :
    (extract toy (decodeCode toy code) (.response (Spec.decodeAction toy resp)) (decodeCode toy code) (.response (Spec.decodeAction toy resp'))).IsMonomial :=
  (C12_equal_recomputation toy_WF (keygen_good toy_WF rng0_ok keygen_eq 0 (by decide)) (keygen_good toy_WF rng0_ok keygen_eq 0 (by decide)) h h').1

/-- C63: the owner of the key of the run answers every challenge to the commitments of its signature. -/
example : ∃ (coms : Nat → List (List Nat)) (prover : Vector Nat toy.T → Sig toy), ∀ v, Challenge toy v → Answers toy 100 pubKey.spec coms prover v := by
  obtain ⟨hk, -⟩ := keygen_pair toy_WF rng0_ok keygen_eq
  obtain ⟨s, hs⟩ := exists_stream toy rng2 rng2_ok
  obtain ⟨-, hs, -⟩ := (lessSign_wp toy_WF 100 (fun _ => stale) rng2 priKey msg blank s hs (by decide)).of_ok sign_eq
  obtain ⟨-, v, coms, G0, -, -, -, hround, -⟩ := hs
  refine C63_honest_prover toy_WF hk (hk.fits toy_WF) (rootOf toy s) signature.spec.salt (fun i hi => ?_)
  obtain ⟨M, -, -, h, -⟩ := hround i hi
  exact ⟨M, h⟩

/-- C83: the seeds the signature of the run publishes are the ones the game reveals, and its rounds come from the streams of the game. -/
example : ∃ (s : Stream) (v : Nat → Nat) (coms : Nat → List (List Nat)) (G0 : Matrix (Fin toy.K) (Fin toy.N) (ZMod 127)) (seeds : List (Vector UInt8 toy.seedLen))
      (streams : Fin toy.T → Vector UInt8 64) (full : Nat → Stream),
      IsChallenge toy 100 (xof toy signature.digest.toList) v ∧ IsG0 toy 100 (xof toy priKey.G0seed.toList) G0 ∧
      signature.digest.toList = hash toy (transcript toy coms msg signature.treeSalt.toList) ∧
      treeAnswer toy.numLeaves (codeExpansions toy 64 fun _ : Fin 1 => signature.treeSalt.toList) (fun _ => toVec _ (rootOf toy s)) (fun _ => none)
        (.reveal 0 (hides v)) = seeds ∧
      seeds.map Vector.toList = (List.range num).map (fun i => seg signature.seedStorage (toy.seedLen * i) toy.seedLen) ∧
      treeAnswer toy.numLeaves (codeExpansions toy 64 fun _ : Fin 1 => signature.treeSalt.toList) (fun _ => toVec _ (rootOf toy s)) (fun _ => none)
        (.streams 0) = streams ∧
      ∀ i : Fin toy.T, (streams i).toList = (full i).take 64 ∧ ∃ M, IsMonomial toy 100 (full i) M ∧ IsCommit (G0 * M) (coms i) := by
  obtain ⟨s, hs⟩ := exists_stream toy rng2 rng2_ok
  exact ⟨s, C83_signature toy_WF hs (Nat.le_refl _) sign_eq (fun _ => _) (fun _ => _) (fun _ => none) 0 rfl rfl rfl⟩

/-- C17. -/
example : ((List.range toy.T).filter fun k => g fws k ≠ 0).length = 1 ∧ ∀ k < toy.T, g fws k < 2 :=
  ⟨(C17_challenge_weight_and_range toy_WF fws_eq).1, (C17_challenge_weight_and_range toy_WF fws_eq).2.1⟩

example : ∃ fws', expandDigest (p := toy) 100 (Vector.replicate toy.T 0) signature.digest.toList = .ok fws' :=
  (C17_challenge_returns toy_WF 100 signature.digest.toList).2 challenge

/-- C47: other stale contents and another signing buffer give the same signed message. -/
example (sl : Nat → Stale toy) {k : Nat} (sm sm₁ : Vector UInt8 k) (hk : msg.length + toy.sigLen ≤ k) (len : Nat) (r : Inc)
    (h : cryptoSign 100 sl rng2 sm msg skBuf = .ok (sm₁, len, r)) : signedLen = len ∧ ∀ i < signedLen, g signed i = g sm₁ i :=
  (C47_no_stale_dependence toy_WF rng2_ok (Nat.le_refl _) hk cryptoSign_eq h).1

example (fuel : Nat) (sl : Nat → Stale toy) (sk' : PriKey toy) (pk' : PubKey toy) (r : Inc)
    (h : lessKeygen fuel sl rng0 = .ok (sk', pk', r)) : priKey = sk' ∧ pubKey = pk' :=
  C47_keygen_no_stale_dependence toy_WF rng0_ok keygen_eq h

example (fuel : Nat) (sl : Nat → Stale toy) (r : Nat) (h : lessVerify fuel sl pubKey msg signature = .ok r) : 1 = r :=
  C47_verify_no_stale_dependence toy_WF (by decide) rng0_ok keygen_eq (verifies 100 (Nat.le_refl _) (fun _ => stale)) h

/-- C41, C51: the optimized implementations. -/
example (isa : Isa) (fuel : Nat) (sl : Nat → OStale toy) (sk' : PriKey toy) (pk' : PubKey toy) (r : Inc)
    (h : lessKeygenO isa fuel sl rng0 = .ok (sk', pk', r)) : sk' = priKey ∧ pk' = pubKey :=
  C41_same_keys isa toy_WF (by decide) rng0_ok h keygen_eq

example (isa : Isa) (fuel : Nat) (sl : Nat → OStale toy) {k : Nat} (sm sm₁ : Vector UInt8 k) (hk : msg.length + toy.sigLen ≤ k) (len : Nat)
    (r : Inc) (h : cryptoSignO isa fuel sl rng2 sm msg skBuf = .ok (sm₁, len, r)) : len = signedLen ∧ ∀ i < len, g sm₁ i = g signed i :=
  C41_same_signatures isa toy_WF (by decide) rng2_ok hk (Nat.le_refl _) h cryptoSign_eq

example (isa : Isa) (fuel : Nat) (hf : 100 ≤ fuel) (sl : Nat → OStale toy) (r : Nat) (h : lessVerifyO isa fuel sl pubKey msg signature = .ok r) :
    r = 1 :=
  C41_same_verdict isa toy_WF (by decide) (by decide) rng0_ok keygen_eq fuel sl (fun _ => stale) msg signature h
    (verifies fuel hf _)

/-- An optimized implementation returns where the reference implementation returns: it is a reference run with other stale contents. -/
example (isa : Isa) (fuel : Nat) (sl : Nat → OStale toy) : ∃ sl', cryptoSignO isa fuel sl rng2 smBuf msg skBuf = cryptoSign fuel sl' rng2 smBuf msg skBuf := by
  obtain ⟨sl', h⟩ := C41_sign_is_reference_run isa toy_WF (by decide) fuel sl
  exact ⟨sl', h rng2 smBuf msg skBuf⟩

example (isa : Isa) (fuel : Nat) (hf : 100 ≤ fuel) (sl : Nat → OStale toy) :
    cryptoSignOpenO isa fuel sl 33 received pkBuf = .ok (0, some msg) := by
  obtain ⟨sl', h⟩ := C41_open_is_reference_run isa toy_WF (by decide) fuel sl
  rw [h 33 received pkBuf (by rw [readPub_eq]; exact keygen_canon toy_WF rng0_ok keygen_eq)]
  exact opens fuel hf sl' 33 (Nat.le_refl _)

example (isa : Isa) (fuel : Nat) (sl : Nat → OStale toy) (m : Bytes) :
    lessKeygenO isa fuel sl rng2 ≠ .error .oob ∧ lessSignO isa fuel sl rng2 priKey m blank ≠ .error .oob :=
  C51_keygen_sign_safe isa toy_WF (by decide) (Nat.le_refl _) fuel sl rng2_ok priKey m blank

example (isa : Isa) (fuel : Nat) (sl : Nat → OStale toy) (m : Bytes) (sig : SignT toy toy.storageLen) :
    lessVerifyO isa fuel sl pubKey m sig ≠ .error .oob :=
  C51_verify_safe_partial isa toy_WF (by decide) fuel sl pubKey (keygen_canon toy_WF rng0_ok keygen_eq) m sig

example (fuel : Nat) (sl : Nat → Stale toy) (m : Bytes) (sig : SignT toy toy.storageLen) : lessVerify fuel sl pubKey m sig ≠ .error .oob :=
  C44_verify_safe_partial toy_WF fuel sl pubKey (keygen_good toy_WF rng0_ok keygen_eq) m sig

/-- C66: alone, a call in a thread is the call. -/
example (locked : Bool) : ∃ k rng', Flight.run (p := toy) locked ⟨rng0, []⟩
    (.begin ((Request.keygen fun _ => stale).prog 100) :: List.replicate k (.step 0)) = ⟨rng', [.outside (.done (.ok (.key priKey pubKey)))]⟩ := by
  obtain ⟨k, r, rng', h, he⟩ := C66_alone_keygen locked 100 (fun _ => stale) rng0_ok
  rw [keygen_eq] at he
  rcases r with e | a
  · cases he
  · cases he
    exact ⟨k, _, h⟩

example (locked : Bool) : ∃ k rng', Flight.run (p := toy) locked ⟨rng2, []⟩
    (.begin ((Request.sign priKey msg (fun _ => stale) blank).prog 100) :: List.replicate k (.step 0)) =
      ⟨rng', [.outside (.done (.ok (.signature signature num)))]⟩ := by
  obtain ⟨k, r, rng', h, he⟩ := C66_alone_sign locked 100 (fun _ => stale) priKey msg blank rng2_ok
  rw [sign_eq] at he
  rcases r with e | a
  · cases he
  · cases he
    exact ⟨k, _, h⟩

/-- C69: the first bytes of a generator nobody seeded. -/
example : bits (csprngBytes toy 16 platformInitial).1 = Spec.truncate 128 (Spec.keccakFStr fun _ => false) := C69_unseeded_bytes 16 (by decide)

/-- C77: a benchmark that verifies a signature whose first response is zero measures a refusal. -/
example (sl : Nat → Stale toy) (m m' : Bytes) : lessVerify 100 sl pubKey m zeroResponse = lessVerify 100 sl pubKey m' zeroResponse :=
  (C77_fails_verify toy_WF 100 sl pubKey zeroResponse (by decide +kernel) m m').1

/-- `C89_sign`, `C89_sign_optimized`: a debug build signs the message like the release build. -/
example : cryptoSignD 100 (fun _ => stale) rng2 smBuf msg skBuf = .ok (some (signed, signedLen, rng4)) :=
  ((C89_sign toy_WF 100 (fun _ => stale) rng2 smBuf msg skBuf).results _).mpr cryptoSign_eq

/-- `C90_same`, `C90_bounds`, `C90_accepted`: opening the signed message returns, so the counting version does, and the work is
bounded (130 columns, 3 rounds). -/
example : ∃ cost, cryptoSignOpenN 100 (fun _ => stale) 33 received pkBuf = .ok ((0, some msg), cost) ∧
    cost.compares ≤ 3 * 8772 ∧ cost.calls = 3 * 259 ∧ cost.depth ≤ 130 := by
  have e := C90_same 100 (fun _ => stale) 33 received pkBuf
  rw [opens 100 (Nat.le_refl _) (fun _ => stale) 33 (Nat.le_refl _)] at e
  obtain ⟨⟨r, cost⟩, h, e'⟩ := run_of_bind e
  cases e'
  have hs : ∀ (t : Nat) (i j : Nat), i < toy.K → j < toy.N - toy.K → g2 ((fun _ => stale) t).norm i j < 256 := fun _ i j hi hj => by
    show g2 (Vector.replicate toy.K (Vector.replicate (toy.N - toy.K) 99)) i j < 256
    rw [g2, dif_pos hi, Vector.getElem_replicate, g_replicate _ _ hj]
    decide
  have hb := C90_bounds toy_WF hs h
  exact ⟨cost, h, hb.1, (C90_accepted toy_WF hs h).1, hb.2.2.2⟩

/-- `C91_distribution`: two seeds are published for each of the three sets of one round. -/
example : (roundSets toy 2).card = 3 ∧ (roundSets toy 1).card = 0 := by
  rw [C91_distribution toy_WF 2 (by decide), C91_distribution toy_WF 1 (by decide)]
  decide +kernel

/-- `C92_lengths` on the run: the numbers agree here, and the signed message has the length they say. -/
example : 33 + toy.cryptoBytes 2 ≤ signedLen ∧ signedLen ≤ 33 + toy.cryptoBytes 2 :=
  C92_lengths toy_WF rng2_ok (Nat.le_refl _) cryptoSign_eq

/-- In category 1, balanced, they are 4 and 92. -/
example : Finset.range 30 ∈ roundSets .cat1Balanced 4 ∧ (roundSets .cat1Balanced 92).Nonempty :=
  ⟨(C92_least cat1Balanced_WF).2, (C92_largest cat1Balanced_WF).2⟩

/-- `C94_same`, `C94_bounds`, `C94_independent`: the work of signing, with any uninitialised memory, another message or another
secret. -/
example : ∃ cost, cryptoSignN 100 (fun _ => stale) rng2 smBuf msg skBuf = .ok ((signed, signedLen, rng4), cost) ∧
    cost.calls = 3 * 259 ∧ 3 * 258 ≤ cost.compares ∧ cost.compares ≤ 3 * 8772 ∧
    ∀ (fuel : Nat) (sl : Nat → Stale toy) (m : Bytes) (k : Nat) (sm : Vector UInt8 k) (sk : Vector UInt8 toy.skLen) r cost',
      seg skBuf toy.skSeedLen toy.seedLen = seg sk toy.skSeedLen toy.seedLen →
      cryptoSignN fuel sl rng2 sm m sk = .ok (r, cost') → cost = cost' := by
  have e := C94_same 100 (fun _ => stale) rng2 smBuf msg skBuf
  rw [cryptoSign_eq] at e
  obtain ⟨⟨r, cost⟩, h, e'⟩ := run_of_bind e
  have e' : r = (signed, signedLen, rng4) := Except.ok.inj e'
  subst e'
  have hs : ∀ (t : Nat) (i j : Nat), i < toy.K → j < toy.N - toy.K → g2 ((fun _ => stale) t).norm i j < 256 := fun _ i j hi hj => by
    show g2 (Vector.replicate toy.K (Vector.replicate (toy.N - toy.K) 99)) i j < 256
    rw [g2, dif_pos hi, Vector.getElem_replicate, g_replicate _ _ hj]
    decide
  obtain ⟨h1, -, h2, h3⟩ := C94_bounds toy_WF hs h
  have h4 : 2 * (3 * 129) ≤ 2 * (cost.swaps + toy.T * (toy.N - toy.K - 1)) := by show _ ≤ 2 * (cost.swaps + 3 * 129); omega
  exact ⟨cost, h, h1, h4.trans h2, h3, fun fuel sl m k sm sk r cost' hseed h' => C94_independent toy_WF hseed h h'⟩

/-! ## Two copies of the process of the run (C95) -/

/-- The process makes a key and is copied; one copy signs, the other verifies nothing and signs. -/
example : ∃ d d' k k' root count count', Signed toy 100 (k : PriKey toy).spec root msg (d : Made toy).sig.spec count ∧
    Signed toy 100 (k' : PriKey toy).spec root msg (d' : Made toy).sig.spec count' ∧ d'.sig.spec.salt = d.sig.spec.salt := by
  have h0 : (World.start (initCsprng toy seed) : World toy).run 100 (fun _ => (fun _ => stale, blank)) [.keygen] =
      .ok ⟨rng2, [(priKey, pubKey)], [], []⟩ := by
    simp only [World.run, World.step, World.start, rng0_eq, keygen_eq, Kat.ok_bind, pure_bind, List.nil_append]
    rfl
  have h1 : World.copy 100 (fun _ => (fun _ => stale, blank)) ⟨rng2, [(priKey, pubKey)], [], []⟩ ⟨none, [] ++ [.sign 0 msg]⟩ =
      .ok ⟨rng4, [(priKey, pubKey)], [⟨0, msg, signature⟩], []⟩ := by
    simp only [World.copy, World.run, World.step, List.nil_append, List.getElem?_cons_zero, sign_eq, Kat.ok_bind, pure_bind]
    rfl
  have h2 : World.copy 100 (fun _ => (fun _ => stale, blank)) ⟨rng2, [(priKey, pubKey)], [], []⟩ ⟨none, [.verify 3] ++ [.sign 0 msg]⟩ =
      .ok ⟨rng4, [(priKey, pubKey)], [⟨0, msg, signature⟩], []⟩ := by
    simp only [World.copy, World.run, World.step, List.cons_append, List.nil_append, List.getElem?_cons_zero, List.getElem?_nil, sign_eq,
      Kat.ok_bind, pure_bind]
    rfl
  obtain ⟨d, d', k, k', root, c, c', -, -, -, -, -, -, h, h', hs⟩ := C95_fails_same_randomness
    (before := []) (before' := [.verify 3]) toy_WF h0 (by simp only [taken]) h1 h2 Nat.one_pos Nat.one_pos
  exact ⟨d, d', k.1, k'.1, root, c, c', h, h', hs⟩

/-! ## What the generator of the run shows at the end (C96) -/

/-- The 96 bytes the run has taken, computed from the state at the end; the private key is among them, and the seed of the run comes
out too. -/
example : ∃ w : World toy, w.keys = [(priKey, pubKey)] ∧ (unsqueeze toy.xofRate 96 w.rng).1 = (xof toy seed).take 96 ∧
    priKey.spec.secret = ((unsqueeze toy.xofRate 96 w.rng).1.drop 0).take toy.skSeedLen ∧
    extractBytes (unsqueeze toy.xofRate 96 w.rng).2.s 0 seed.length = seed := by
  have h : (World.start (initCsprng toy seed) : World toy).run 100 (fun _ => (fun _ => stale, blank)) [.keygen, .sign 0 msg, .verify 0] =
      .ok ⟨rng4, [(priKey, pubKey)], [⟨0, msg, signature⟩], [1]⟩ := by
    simp only [World.run, World.step, World.start, rng0_eq, keygen_eq, Kat.ok_bind, pure_bind, List.nil_append,
      List.getElem?_cons_zero, sign_eq, verifies 100 (Nat.le_refl _)]
    rfl
  have e : taken toy 0 [.keygen, .sign 0 msg, .verify 0] = 96 := by
    simp only [taken]
    decide
  have e' : Ledger.after toy [.keygen, .sign 0 msg, .verify 0] = ⟨96, [0], [48]⟩ := rfl
  have h1 := C96_fails_history h
  obtain ⟨h2, -⟩ := C96_fails_keys toy_WF h
  have h3 := C96_fails_seed h (by decide)
  rw [e'] at h2
  rw [e] at h1 h2 h3
  cases h2 with
  | cons h2 _ => exact ⟨_, rfl, by rw [h1], h2, h3⟩

/-- The state after the signing call and the signature give the secret maps. -/
example := C96_fails_sign toy_WF (rng := rng2) (by decide +kernel) (keygen_pair toy_WF rng0_ok keygen_eq).1 (Nat.le_refl _) sign_eq

/-- The context left by the expansion of the private key of the run. -/
example : ∃ seeds st, privateSeedsCtx toy priKey.compressedSk.toList = .ok (seeds, st) ∧
    extractBytes (unsqueeze toy.xofRate ((toy.numKeypairs - 1) * toy.skSeedLen) st).2.s 0 toy.skSeedLen = priKey.compressedSk.toList := by
  have h := privateSeedsCtx_fst toy priKey.compressedSk.toList
  rw [sk_list, seeds_eq, ← sk_list] at h
  cases hc : privateSeedsCtx toy priKey.compressedSk.toList with
  | error x => rw [hc] at h; cases h
  | ok r => exact ⟨r.1, r.2, rfl, (C96_fails_context (by simp) hc).2⟩

/-! ## The signing call of the run, interrupted (C98) -/

/-- The moments of the call: the two seeds and the response come one by one. -/
example : ∃ log w, lessSignI 100 (fun _ => stale) rng2 priKey msg blank = .ok ((signature, num, rng4), log) ∧ w ≤ 1 ∧
    log.map Prod.fst = (moments num w).map (Progress.view blank signature num) := by
  have h := sign_eq
  rw [← C98_same] at h
  obtain ⟨⟨r, log⟩, h1, h2⟩ := run_of_bind h
  cases h2
  obtain ⟨w, hw, h3⟩ := C98_moments h1
  exact ⟨log, w, h1, hw, h3⟩

/-- The bytes of the buffer at all moments, and a second signature after the call was left when the buffer was complete. -/
example : ∃ log, cryptoSignI 100 (fun _ => stale) rng2 smBuf msg skBuf = .ok ((signed, signedLen, rng4), log) ∧
    (∀ b st, (b, st) ∈ log → ∀ i < msg.length + toy.sigLen, g b i = g smBuf i ∨ g b i = g signed i ∨ g b i = 0) ∧
    ∀ s, StreamAt toy rng2 s → ∀ fuel sl sm' smlen r, cryptoSign fuel sl rng4 smBuf msg skBuf = .ok (sm', smlen, r) →
      SignedMessage toy fuel (readPri skBuf).spec ((s.drop (toy.seedLen + toy.hashLen)).take toy.seedLen)
        ((s.drop (toy.seedLen + toy.hashLen + toy.seedLen)).take toy.hashLen) msg smBuf sm' smlen := by
  obtain ⟨log, h, -, hlast⟩ := C98_record (Nat.le_refl _) cryptoSign_eq
  refine ⟨log, h, fun b st hb i hi => C98_buffer (Nat.le_refl _) h hb i hi, fun s hs fuel sl sm' smlen r h2 => ?_⟩
  exact (C98_retry toy_WF (Nat.le_refl _) h (List.mem_of_getLast? hlast) (i := msg.length) (Nat.le_refl _) (by decide)
    (by decide +kernel) hs (Nat.le_refl _) h2).2

/-! ## The key generation of the run, interrupted (C99) -/

/-- The public key that the buffer held before. -/
def oldPub : Vector UInt8 toy.pkLen := toVec _ (pubBytes ⟨Vector.replicate _ 0, stale.sfg⟩)

theorem oldPub_eq : readPub (p := toy) oldPub = ⟨Vector.replicate _ 0, stale.sfg⟩ := readPub_pubBytes _

/-- The moments of the call, and the one at which the new private key stands beside the old public key. -/
example : ∃ log, cryptoSignKeypairI 100 (fun _ => stale) rng0 oldPub skBuf = .ok ((pkBuf, skBuf, rng2), log) ∧
    (log.map fun e => keysIn e.1) = keyMoments (readPri skBuf) (readPri skBuf) (readPub oldPub) (readPub pkBuf) ∧
    ∃ e ∈ log, readPub e.1.1 = readPub oldPub ∧ ∀ B, ¬ KeyPair toy B (readPri e.1.2).spec (readPub e.1.1).spec := by
  have h₀ : stale.sfg = (readPub (p := toy) oldPub).SFG := by rw [oldPub_eq]
  obtain ⟨log, h⟩ := C99_record skBuf (pk := oldPub) h₀ keypair_eq
  obtain ⟨s, hs⟩ := exists_stream toy rng0 rng0_ok
  have hsk := ((cryptoSignKeypair_wp toy_WF 100 (fun _ => stale) rng0 s hs).of_ok keypair_eq).1
  obtain ⟨e, he, h1, -, h3⟩ := C99_fails_pair toy_WF h₀ h hs (by
    rw [← hsk, oldPub_eq]
    dsimp only
    rw [readPri_eq]
    decide +kernel)
  exact ⟨log, h, (C99_moments_partial toy_WF h).1, e, he, h1, h3⟩

/-- The call is left at its last moment and made again. -/
example (s : Stream) (hs : StreamAt toy rng0 s) (fuel : Nat) (sl : Nat → Stale toy) (pk : Vector UInt8 toy.pkLen) (sk : Vector UInt8 toy.skLen)
    (r : Inc) (h₂ : cryptoSignKeypair fuel sl rng2 = .ok (pk, sk, r)) :
    (readPri skBuf).spec = skOf toy s ∧ ((readPri sk).spec = skOf toy (s.drop toy.skSeedLen) ∨
      (readPri sk).spec = skOf toy (s.drop (toy.skSeedLen + toy.seedLen))) := by
  have h₀ : stale.sfg = (readPub (p := toy) oldPub).SFG := by rw [oldPub_eq]
  obtain ⟨log, h⟩ := C99_record skBuf (pk := oldPub) h₀ keypair_eq
  have hlast := List.mem_of_getLast? (C99_moments_partial toy_WF h).2
  have := C99_retry toy_WF h₀ h hs hlast (by
    intro e
    have e := congrArg (fun k => k.2.G0seed) e
    unfold keysIn at e
    dsimp only at e
    rw [oldPub_eq, readPub_eq] at e
    revert e
    decide +kernel) h₂
  exact ⟨this.1, this.2.2⟩

/-! ## The signing call of the run, disturbed (C100) -/

theorem toy_room : ∀ a b c : Bool, published toy #v[b2n a, b2n b, b2n c] * toy.seedLen < toy.storageLen := by decide +kernel

theorem toy_flags (f : Nat → Bool → Bool) (v : Nat → Nat) :
    flagsOf toy f v = #v[b2n (f 0 (v 0 ≠ 0)), b2n (f 1 (v 1 ≠ 0)), b2n (f 2 (v 2 ≠ 0))] := rfl

/-- All flags are turned round: the one round with a response loses its flag, the two others are withheld. -/
example : ∃ sig num, lessSignF (fun _ b => !b) 100 (fun _ => stale) rng2 priKey msg blank = .ok (sig, num, rng4) ∧
    Revealed toy 100 pubKey.spec (fun _ b => !b) sig := by
  refine C100_fails_flags toy_WF (by unfold RngOk; decide +kernel) (keygen_pair toy_WF rng0_ok keygen_eq).1 (Nat.le_refl _) sign_eq (fun v hv => ?_)
    (fun v _ => by rw [toy_flags]; exact toy_room _ _ _)
  by_contra hno
  have hall : ∀ k < toy.T, v k ≠ 0 := by
    intro k hk h0
    exact hno ⟨k, hk, by simp [h0]⟩
  have hw := hv.weight
  unfold weight at hw
  rw [List.filter_eq_self.mpr (fun k hk => by simpa using hall k (List.mem_range.mp hk))] at hw
  revert hw
  decide

/-- All rounds are withheld: nothing of use is shown. -/
example (s : Stream) (hs : StreamAt toy rng2 s) :=
  C100_withheld_partial toy_WF (f := fun _ _ => true) (fun _ => rfl) sign_eq hs (fun v _ => by rw [toy_flags]; exact toy_room _ _ _)

/-- A round of the run without a response. -/
theorem unanswered {v : Nat → Nat} (hv : IsChallenge toy 100 (xof toy signature.spec.digest) v) : ∃ j < toy.T, v j = 0 := by
  by_contra hno
  have hw := hv.weight
  unfold weight at hw
  rw [List.filter_eq_self.mpr (fun k hk => by simpa using fun h0 => hno ⟨k, List.mem_range.mp hk, h0⟩)] at hw
  revert hw
  decide

/-- One more round gets a response: there is no room for it. -/
example : ∃ j < toy.T, (∀ r, lessSignR (fun k x => if k = j then 1 else x) 100 (fun _ => stale) rng2 priKey msg blank ≠ .ok r) ∧
    lessSignR (fun k x => if k = j then 1 else x) 100 (fun _ => stale) rng2 priKey msg blank = .error .oob := by
  obtain ⟨v, hv⟩ := challenge
  obtain ⟨j, hj, h0⟩ := unanswered hv
  exact ⟨j, hj, C100_fails_bounds toy_WF sign_eq hv hj h0 (by simp) (fun k hk => if_neg hk),
    C100_fails_oob toy_WF (keygen_pair toy_WF rng0_ok keygen_eq).1 sign_eq hv hj h0 (by simp) (fun k hk => if_neg hk)⟩

/-- The one response moves to a round of which the seed is published: the secret is shown. -/
example : ∃ j < toy.T, ∃ v sig' G0 M, lessSignR (fun k _ => if k = j then 1 else 0) 100 (fun _ => stale) rng2 priKey msg blank = .ok (sig', num, rng4) ∧
    Spec.IsMonomial toy 100 (roundStream toy sig'.spec.salt (rebuiltLeaf toy sig'.spec v j) j) M ∧
    let x := Answer.response (Spec.decodeAction toy (sig'.spec.responses (responsesBefore (fun k => if k = j then 1 else 0) j)))
    RowEq (ColOp.on (publicCode pubKey.spec G0 1) (extract toy (publicCode pubKey.spec G0 1) x G0 (.seed M))) G0 := by
  obtain ⟨v, hv⟩ := challenge
  obtain ⟨j, hj, h0⟩ := unanswered hv
  have hcard : ((Finset.range toy.T).filter fun k => (if k = j then 1 else 0) ≠ 0).card ≤ toy.W := by
    have : ((Finset.range toy.T).filter fun k => (if k = j then 1 else 0) ≠ 0) ⊆ {j} := by
      intro k hk
      rw [Finset.mem_filter] at hk
      rw [Finset.mem_singleton]
      by_contra hne
      exact hk.2 (if_neg hne)
    exact (Finset.card_le_card this).trans (by rw [Finset.card_singleton]; decide)
  obtain ⟨sig', G0, M, h1, -, -, h4, h5⟩ := C100_fails_moved toy_WF (f := fun k _ => if k = j then 1 else 0) (by unfold RngOk; decide +kernel)
    (keygen_pair toy_WF rng0_ok keygen_eq).1 (Nat.le_refl _) sign_eq hv (fun k _ => by split <;> decide) hcard hj h0 (by simp)
  refine ⟨j, hj, v, sig', G0, M, h1, h4, ?_⟩
  have := h5.2
  simp only [if_true] at this
  exact this

/-- The one response is dropped: the call returns and shows the same seeds. -/
example : ∃ sig', lessSignR (fun _ _ => 0) 100 (fun _ => stale) rng2 priKey msg blank = .ok (sig', num, rng4) ∧
    sig'.seedStorage = signature.seedStorage := by
  obtain ⟨v, hv⟩ := challenge
  obtain ⟨sig', h1, -, -, h4⟩ := C100_challenge_partial toy_WF (f := fun _ _ => 0) (by unfold RngOk; decide +kernel)
    (keygen_pair toy_WF rng0_ok keygen_eq).1 sign_eq hv (fun _ _ _ => rfl) (fun _ _ => by decide)
  exact ⟨sig', h1, h4⟩

/-- A response in every round: the call does not return. -/
example : ¬ ∃ r, lessSignR (fun _ _ => 1) 100 (fun _ => stale) rng2 priKey msg blank = .ok r := by
  obtain ⟨v, hv⟩ := challenge
  rw [C100_returns_iff toy_WF (f := fun _ _ => 1) (by unfold RngOk; decide +kernel) (keygen_pair toy_WF rng0_ok keygen_eq).1 sign_eq hv
    (fun _ _ => by decide)]
  decide

end ToyRun
end LESS
