import Verif.Model.MemBench
import Verif.Props.Bench
import Verif.Props.AnyKey
/-!
# C77: the memory benchmarks measure complete operations

True for key generation and signing.  False for verification: the program never makes a signature and verifies a
variable that contains only zeros.  Every measured call is a rejection at the first round with a response, before the response is
applied to any code and before the message is read.
-/
namespace LESS
open Spec

variable {p : Params}

/-! ## A zero response -/

theorem bitAt_zero {n : Nat} (j : Nat) : bitAt (Vector.replicate n (0 : UInt8)) j = false := by
  unfold bitAt
  by_cases h : j / 8 < n
  · rw [g_replicate _ _ h]; simp
  · rw [g, dif_neg h, show (default : UInt8) = 0 from rfl]; simp

theorem zero_response_invalid (hp : p.WF) : ¬ (Spec.decodeAction p (Vector.replicate p.monoBytes 0)).Valid := by
  intro h
  have := (h.1 0 hp.K_pos).1
  revert this
  show ¬ 1 ≤ fieldAt 7 _ _
  unfold fieldAt
  simp [bitAt_zero]

/-- The round loop of the verifier on a signature whose first response is zero: it never reaches the end. -/
theorem verifyRounds_zero (hp : p.WF) (fuel : Nat) (sl : Nat → Stale p) (pk : PubKey p) {n : Nat} (sig : SignT p n)
    (hsig : g sig.monomActions 0 = Vector.replicate _ 0) (fws : Vector Nat p.T) (hf : 0 < (support fws).card)
    (tree : TreeBuf p) (G0 : RrefMat p) :
    Wq True True (forRet p.T (fun i => verifyRound fuel (sl (i + 1)) pk sig fws tree G0 i) (hashInit, 0)) (fun o => o = .inl 0) := by
  refine Wq.forRet (fun i s => s.2 = 0 ∧ ∀ j < i, g fws j = 0) (fun r => r = 0) ⟨rfl, by simp⟩ ?_ (fun r h => by rw [h]) ?_
  · rintro i ⟨h, employed⟩ hi ⟨rfl, hz⟩
    unfold verifyRound
    dsimp only
    rw [Wq.bind_iff]
    refine Wq.rd trivial fun _ => ?_
    by_cases hx : g fws i = 0
    · rw [if_pos hx]
      have key : ∀ {α : Type} (x : C α) (P : α → Prop), (∀ a, P a) → Wq True True x P := by
        intro α x P h
        cases x with
        | ok a => exact h a
        | error e => cases e <;> trivial
      rw [Wq.bind_iff]
      refine key _ _ fun G => ?_
      rw [Wq.bind_iff]
      refine key _ _ fun seed => ?_
      rw [Wq.bind_iff]
      refine key _ _ fun Qm => ?_
      rw [Wq.bind_iff]
      refine key _ _ fun out => ?_
      refine ⟨rfl, fun j hj => ?_⟩
      rcases Nat.lt_succ_iff_lt_or_eq.1 hj with h | rfl
      · exact hz j h
      · exact hx
    · rw [if_neg hx, Wq.bind_iff]
      refine Wq.rd trivial fun _ => ?_
      rw [Wq.bind_iff]
      refine Wq.rd trivial fun _ => ?_
      rw [Wq.bind_iff, hsig]
      refine Wq.mono (P := fun o => o = none) ?_ (by rintro o rfl; exact rfl)
      unfold verifyResponse
      rw [Wq.bind_iff]
      cases expandToRref (sl (i + 1)).gen (g pk.SFG (g fws i - 1)) with
      | error e => cases e <;> trivial
      | ok G =>
        show Wq True True (expandToMonomAction _ _ >>= _) _
        rw [expandToMonomAction_eq hp]
        show Wq True True (isMonomActionValid _ >>= _) _
        rw [Wq.bind_iff]
        refine Wq.mono (Wq.of_wp ((isMonomActionValid_wp _).monoF False.elim)) ?_
        rintro r (⟨-, hv⟩ | ⟨rfl, -⟩)
        · exact absurd ((decodeAction_valid _).mp hv) (zero_response_invalid hp)
        · exact rfl
  · rintro s ⟨-, hz⟩
    exfalso
    obtain ⟨k, hk⟩ := Finset.card_pos.1 hf
    rw [support, Finset.mem_filter, Finset.mem_range] at hk
    exact hk.2 (hz k hk.1)

theorem bind_same {α : Type} (x : C α) (f f' : α → C Nat)
    (h : ∀ a, x = .ok a → f a = f' a ∧ ∀ r, f a = .ok r → r = 0) : (x >>= f) = (x >>= f') ∧ ∀ r, (x >>= f) = .ok r → r = 0 := by
  cases x with
  | error e => exact ⟨rfl, fun r h => by cases h⟩
  | ok a => exact h a rfl

/-- A signature whose first response is zero is rejected under every key, and verification does not read the message:
all its outcomes are the same for all messages. -/
theorem C77_fails_verify (hp : p.WF) (fuel : Nat) (sl : Nat → Stale p) (pk : PubKey p) {n : Nat} (sig : SignT p n)
    (hsig : g sig.monomActions 0 = Vector.replicate _ 0) (m m' : Bytes) :
    lessVerify fuel sl pk m sig = lessVerify fuel sl pk m' sig ∧ ∀ r, lessVerify fuel sl pk m sig = .ok r → r = 0 := by
  unfold lessVerify
  refine bind_same _ _ _ fun fws e1 => ?_
  have hf : 0 < (support fws).card := by rw [((expandDigest_wp hp fuel sig.digest.toList).of_ok e1).1]; exact hp.W_pos
  refine bind_same _ _ _ fun ind _ => ?_
  refine bind_same _ _ _ fun t _ => ?_
  refine bind_same _ _ _ fun G0 _ => ?_
  refine bind_same _ _ _ fun o e2 => ?_
  obtain rfl : o = .inl 0 := (verifyRounds_zero hp fuel sl pk sig hsig fws hf t.1 G0).of_ok e2
  exact ⟨rfl, fun r h => by cases h; rfl⟩

/-! ## The programs -/

/-- The program for verification: it never accesses memory out of bounds, and no measured call accepts. -/
theorem C77_fails_program (hp : p.WF) (fuel tests : Nat) (clk : Nat → UInt64 × UInt64) (sl₀ : Nat → Stale p)
    (sl : Nat → Nat → Stale p) :
    Wp True (memVerify fuel tests clk sl₀ sl) (fun r =>
      r.1 = (average (samples tests clk), sampleVariance (samples tests clk)) ∧ r.2 = List.replicate tests 0) := by
  unfold memVerify
  rw [Wp.bind_iff]
  rcases hk : lessKeygen fuel sl₀ (initCsprng p benchSeed) with e | ⟨sk, pk, st⟩
  · cases e with
    | oob => exact absurd hk (C05_keygen_memory_safe hp fuel _ (initCsprng_ok p benchSeed))
    | fuel => trivial
  show Wp True (forUp tests _ _ >>= _) _
  rw [Wp.bind_iff]
  refine Wp.forUp (fun i s => s.2 = timer i clk ∧ s.1 = List.replicate i 0) ⟨rfl, rfl⟩ ?_ ?_
  · rintro i ⟨out, t⟩ hi ⟨h1, h2⟩
    dsimp only at h1 h2 ⊢
    have hv := (C77_fails_verify hp fuel (sl i) pk (zeroSig p) (g_replicate _ _ hp.W_pos) signme signme).2
    rcases hx : lessVerify fuel (sl i) pk signme (zeroSig p) with e | r
    · cases e with
      | oob =>
        exact absurd hx (C06_verify_memory_safe hp (Nat.le_succ _) (initCsprng_ok p benchSeed) hk fuel (sl i) signme (zeroSig p))
      | fuel => trivial
    rw [hv r hx, h1, h2]
    exact ⟨(timer_succ _ _).symm, List.replicate_succ'.symm⟩
  rintro ⟨out, t⟩ ⟨h1, h2⟩
  dsimp only at h1 h2
  subst h1 h2
  exact ⟨timer_print _ _, rfl⟩

/-- The program for signing: every measured call makes a signature of the message that the public key accepts. -/
theorem C77_sign (hp : p.WF) (fuel tests : Nat) (clk : Nat → UInt64 × UInt64) (sl₀ : Nat → Stale p)
    (sl : Nat → Nat → Stale p) :
    Wp True (memSign fuel tests clk sl₀ sl) (fun r =>
      r.1 = (average (samples tests clk), sampleVariance (samples tests clk)) ∧ r.2.2.length = tests ∧
      ∀ sig ∈ r.2.2, ∀ sl', lessVerify fuel sl' r.2.1 signme sig = .ok 1) := by
  unfold memSign
  rw [Wp.bind_iff]
  rcases hk : lessKeygen fuel sl₀ (initCsprng p benchSeed) with e | ⟨sk, pk, st⟩
  · cases e with
    | oob => exact absurd hk (C05_keygen_memory_safe hp fuel _ (initCsprng_ok p benchSeed))
    | fuel => trivial
  show Wp True (forUp tests _ _ >>= _) _
  rw [Wp.bind_iff]
  refine Wp.forUp (fun i s => RngOk p s.2.2.1 ∧ s.2.2.2 = timer i clk ∧ s.2.1.length = i ∧
    ∀ sig ∈ s.2.1, ∀ sl', lessVerify fuel sl' pk signme sig = .ok 1)
    ⟨(keygen_pair hp (initCsprng_ok p benchSeed) hk).2, rfl, rfl, by simp⟩ ?_ ?_
  · rintro i ⟨sig, out, rng, t⟩ hi ⟨h1, h2, h3, h4⟩
    dsimp only at h1 h2 h3 h4 ⊢
    rcases hs : lessSign fuel (sl i) rng sk signme sig with e | ⟨sig', num, rng'⟩
    · cases e with
      | oob => exact absurd hs (C05_sign_memory_safe hp (Nat.le_refl _) fuel _ h1 sk signme sig)
      | fuel => trivial
    refine ⟨?_, ?_, ?_, ?_⟩
    · obtain ⟨s, hst⟩ := exists_stream p rng h1
      exact ((lessSign_wp hp fuel (sl i) rng sk signme sig s hst (Nat.le_refl _)).of_ok hs).2.2.2.2.1
    · show welfordUpdate t _ = _
      rw [h2, ← timer_succ]
    · simp [h3]
    · intro x hx sl'
      rcases List.mem_append.1 hx with hx | hx
      · exact h4 x hx sl'
      · rw [List.mem_singleton.1 hx]
        exact C01_honest_signature_verifies hp (Nat.le_refl _) (initCsprng_ok p benchSeed) h1 hk hs (Nat.le_refl _) (Nat.le_refl _) sl'
  rintro ⟨sig, out, rng, t⟩ ⟨-, h2, h3, h4⟩
  dsimp only at h2 h3 h4
  subst h2
  exact ⟨timer_print _ _, h3, h4⟩

/-- The program for key generation: every measured call makes a pair of matching keys. -/
theorem C77_keygen (hp : p.WF) (fuel tests : Nat) (clk : Nat → UInt64 × UInt64) (sl : Nat → Nat → Stale p) :
    Wp True (memKeygen fuel tests clk sl) (fun r =>
      r.1 = (average (samples tests clk), sampleVariance (samples tests clk)) ∧ r.2.length = tests ∧
      ∀ k ∈ r.2, ∀ (rng : Inc), RngOk p rng → ∀ sl₁ m sig₀ sig num rng',
        lessSign fuel sl₁ rng k.1 m sig₀ = .ok (sig, num, rng') → ∀ sl₂, lessVerify (n := p.storageLen) fuel sl₂ k.2 m sig = .ok 1) := by
  unfold memKeygen
  rw [Wp.bind_iff]
  refine Wp.forUp (fun i s => RngOk p s.2.1 ∧ s.2.2 = timer i clk ∧ s.1.length = i ∧
    ∀ k ∈ s.1, ∀ (rng : Inc), RngOk p rng → ∀ sl₁ m sig₀ sig num rng',
        lessSign fuel sl₁ rng k.1 m sig₀ = .ok (sig, num, rng') → ∀ sl₂, lessVerify (n := p.storageLen) fuel sl₂ k.2 m sig = .ok 1)
    ⟨initCsprng_ok p benchSeed, rfl, rfl, by simp⟩ ?_ ?_
  · rintro i ⟨out, rng, t⟩ hi ⟨h1, h2, h3, h4⟩
    dsimp only at h1 h2 h3 h4 ⊢
    rcases hk : lessKeygen fuel (sl i) rng with e | ⟨sk, pk, rng'⟩
    · cases e with
      | oob => exact absurd hk (C05_keygen_memory_safe hp fuel _ h1)
      | fuel => trivial
    refine ⟨(keygen_pair hp h1 hk).2, ?_, ?_, ?_⟩
    · show welfordUpdate t _ = _
      rw [h2, ← timer_succ]
    · simp [h3]
    · intro k hmem st hst sl₁ m sig₀ sig num st' hs sl₂
      rcases List.mem_append.1 hmem with hmem | hmem
      · exact h4 k hmem st hst sl₁ m sig₀ sig num st' hs sl₂
      · rw [List.mem_singleton.1 hmem] at hs ⊢
        exact C01_honest_signature_verifies hp (Nat.le_refl _) h1 hst hk hs (Nat.le_refl _) (Nat.le_refl _) sl₂
  rintro ⟨out, rng, t⟩ ⟨-, h2, h3, h4⟩
  dsimp only at h2 h3 h4
  subst h2
  exact ⟨timer_print _ _, h3, h4⟩

/-! ## A case -/

/-- The hypothesis does not ask for a signature that is zero everywhere: the other responses and the digest are arbitrary. -/
example : g ({ zeroSig Params.cat1Balanced with
    monomActions := Vector.ofFn fun i => Vector.replicate _ (UInt8.ofNat i.val)
    digest := Vector.replicate _ 77 } : SignT Params.cat1Balanced _).monomActions 0 = Vector.replicate _ 0 := by decide +kernel

end LESS
