import Verif.Proofs.BigRun
import Verif.Props.Run
/-!
# C84: the byte order of the machine

On any one kind of machine the scheme works (`C84_same_order_partial`); machines of different kinds disagree about keys and
signatures (`C84_fails_verify`, `C84_fails_keys`).
-/
namespace LESS
open Spec

variable {p : Params}

/-- Keys made on one machine, a signature made with them on a second and checked on a third: it is accepted. -/
def Spec.SignaturesPortable (p : Params) : Prop :=
  ∀ (o₁ o₂ o₃ : ByteOrder) (n fuel : Nat) (sl₁ sl₂ sl₃ : Nat → Stale p) (rng₁ rng₁' rng₂ rng₂' : Inc) (sk : PriKey p)
    (pk : PubKey p) (m : Bytes) (out sig : SignT p n) (num r : Nat), RngOk p rng₁ → RngOk p rng₂ → p.storageLen ≤ n →
    Machine.lessKeygen o₁ fuel sl₁ rng₁ = .ok (sk, pk, rng₁') → Machine.lessSign o₂ fuel sl₂ rng₂ sk m out = .ok (sig, num, rng₂') →
    Machine.lessVerify o₃ fuel sl₃ pk m sig = .ok r → r = 1

/-- The same random bytes lead to the same key pair on every machine. -/
def Spec.KeysPortable (p : Params) : Prop :=
  ∀ (o₁ o₂ : ByteOrder) (fuel : Nat) (sl₁ sl₂ : Nat → Stale p) (rng rng₁' rng₂' : Inc) (sk₁ sk₂ : PriKey p) (pk₁ pk₂ : PubKey p),
    RngOk p rng → Machine.lessKeygen o₁ fuel sl₁ rng = .ok (sk₁, pk₁, rng₁') →
    Machine.lessKeygen o₂ fuel sl₂ rng = .ok (sk₂, pk₂, rng₂') → sk₁ = sk₂ ∧ pk₁ = pk₂

/-- On a little-endian machine the functions of this file are the ones all other theorems speak about. -/
theorem C84_little_endian (p : Params) {n : Nat} (fuel : Nat) (sl : Nat → Stale p) (rng : Inc) (sk : PriKey p) (pk : PubKey p)
    (m : Bytes) (sig : SignT p n) :
    Machine.lessKeygen .little fuel sl rng = lessKeygen fuel sl rng ∧
    Machine.lessSign .little fuel sl rng sk m sig = lessSign fuel sl rng sk m sig ∧
    Machine.lessVerify .little fuel sl pk m sig = lessVerify fuel sl pk m sig :=
  ⟨Machine.lessKeygen_little .., Machine.lessSign_little .., Machine.lessVerify_little ..⟩

/-- On machines of one byte order, whichever it is, every honest signature is accepted.  Missing from the full claim
(`Spec.SignaturesPortable`): machines of different byte orders. -/
theorem C84_same_order_partial (hp : p.WF) (o : ByteOrder) {n : Nat} (hn : p.storageLen ≤ n) {fuel₁ fuel₂ : Nat}
    {sl₁ sl₂ : Nat → Stale p} {rng₁ rng₂ rng₁' rng₂' : Inc} (hr₁ : RngOk p rng₁) (hr₂ : RngOk p rng₂)
    {sk : PriKey p} {pk : PubKey p} (hkeygen : Machine.lessKeygen o fuel₁ sl₁ rng₁ = .ok (sk, pk, rng₁'))
    {m : Bytes} {out sig : SignT p n} {num : Nat} (hsign : Machine.lessSign o fuel₂ sl₂ rng₂ sk m out = .ok (sig, num, rng₂'))
    {fuel₃ : Nat} (h₁ : fuel₁ ≤ fuel₃) (h₂ : fuel₂ ≤ fuel₃) (sl₃ : Nat → Stale p) :
    Machine.lessVerify o fuel₃ sl₃ pk m sig = .ok 1 := by
  have hk := (Machine.lessKeygen_wp hp o fuel₃ sl₁ rng₁ hr₁).of_ok ((Machine.lessKeygen_below o h₁ sl₁ rng₁).ok hkeygen)
  have hs := (Machine.lessSign_wp hp o fuel₃ sl₂ rng₂ sk m out hr₂ hn).of_ok
    ((Machine.lessSign_below o h₂ sl₂ rng₂ sk m out).ok hsign)
  have hst : p.storageLen = p.maxPublishedBytes + 1 := rfl
  obtain ⟨r, hr, rfl⟩ := (Machine.lessVerify_wp hp (by omega) hk hs sl₃).exists_ok
  exact hr

/-- On every machine what is derived from pseudorandom bytes has the required shape: matrices that permute the coordinates and
multiply each by a nonzero number below 127, and challenges with exactly `W` nonzero entries, all below the number of keys. -/
theorem C84_expansions (hp : p.WF) (o : ByteOrder) (fuel : Nat) (stale : Monomial p) (seed salt : Bytes) (i : Nat) :
    (∀ {m : Monomial p}, Machine.monomialSeedExpandSaltRnd o fuel stale seed salt i = .ok m → m.Valid) ∧
    (∀ {m : Monomial p}, Machine.monomialSeedExpandPrikey o fuel stale seed = .ok m → m.Valid) ∧
    ∀ {c : Vector Nat p.T}, Machine.expandDigest o fuel (Vector.replicate p.T 0) seed = .ok c →
      weight p.T (g c) = p.W ∧ ∀ j, g c j < p.numKeypairs :=
  ⟨fun h => ((Machine.saltRnd_wp hp o fuel stale seed salt i).of_ok h).1,
    fun h => ((Machine.prikey_wp hp o fuel stale seed).of_ok h).1,
    fun h => (Machine.expandDigest_wp hp o fuel seed).of_ok h⟩

/-- A signature made on a little-endian machine is refused by a big-endian one. -/
theorem C84_fails_verify : ∃ p : Params, p.WF ∧ ¬ Spec.SignaturesPortable p := by
  refine ⟨toy, toy_WF, fun h => ?_⟩
  have := h .little .little .big _ 100 _ _ _ ToyRun.rng0 _ ToyRun.rng2 _ _ _ _ _ _ _ _ ToyRun.rng0_ok ToyRun.rng2_ok (Nat.le_refl _)
    (by rw [Machine.lessKeygen_little]; exact ToyRun.keygen_eq) (by rw [Machine.lessSign_little]; exact ToyRun.sign_eq)
    BigRun.verify_eq
  exact absurd this (by decide)

/-- The same random bytes lead to different public keys on machines of different byte orders. -/
theorem C84_fails_keys : ∃ p : Params, p.WF ∧ ¬ Spec.KeysPortable p := by
  refine ⟨toy, toy_WF, fun h => ?_⟩
  have := h .big .little 100 _ _ ToyRun.rng0 _ _ _ _ _ _ ToyRun.rng0_ok BigRun.keygen_eq
    (by rw [Machine.lessKeygen_little]; exact ToyRun.keygen_eq)
  exact BigRun.key_ne this.2

/-! ## Concrete cases -/

/-- `C84_same_order_partial` on the little-endian run: accepted there, and refused elsewhere. -/
example (sl : Nat → Stale toy) : Machine.lessVerify .little 100 sl ToyRun.pubKey ToyRun.msg ToyRun.signature = .ok 1 ∧
    Machine.lessVerify .big 100 (fun _ => ToyRun.stale) ToyRun.pubKey ToyRun.msg ToyRun.signature = .ok 0 :=
  ⟨C84_same_order_partial toy_WF .little (Nat.le_refl _) ToyRun.rng0_ok ToyRun.rng2_ok
      (by rw [Machine.lessKeygen_little]; exact ToyRun.keygen_eq) (by rw [Machine.lessSign_little]; exact ToyRun.sign_eq)
      (Nat.le_refl 100) (Nat.le_refl 100) sl, BigRun.verify_eq⟩

/-- `C84_little_endian`: the two kinds of machine publish different keys. -/
example : Machine.lessKeygen .little 100 (fun _ => ToyRun.stale) ToyRun.rng0 ≠ Machine.lessKeygen .big 100 (fun _ => ToyRun.stale) ToyRun.rng0 := by
  rw [(C84_little_endian toy 100 (fun _ => ToyRun.stale) ToyRun.rng0 ToyRun.priKey ToyRun.pubKey [] ToyRun.signature).1,
    ToyRun.keygen_eq, BigRun.keygen_eq]
  intro h
  exact BigRun.key_ne (congrArg (fun r : PriKey toy × PubKey toy × Inc => r.2.1) (Except.ok.inj h)).symm

/-- `C84_expansions`: a private matrix and a challenge of the big-endian machine. -/
example : BigRun.Qinv.Valid ∧ weight toy.T (g BigRun.fws) = 1 :=
  ⟨(C84_expansions toy_WF .big 100 ToyRun.stale.mono _ [] 0).2.1 BigRun.Qinv_eq,
    ((C84_expansions toy_WF .big 100 ToyRun.stale.mono ToyRun.digest [] 0).2.2 BigRun.fws_eq).1⟩

/-- The two orders of four bytes. -/
example : ByteOrder.word .little [1, 2, 3, 4] = 0x04030201 ∧ ByteOrder.word .big [1, 2, 3, 4] = 0x01020304 ∧
    ByteOrder.bytes16 .big 0x1234 = [0x12, 0x34] := by decide

end LESS
