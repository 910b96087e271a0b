import Verif.Props.Scheme
import Verif.Props.Toy
/-!
# Any sequence of calls (C45)

The calls of a program that uses the library: key generations, signatures under any of the keys generated so far,
verifications of any of the signatures made so far.  All of them share the generator state.
-/
namespace LESS

open Spec

variable {p : Params}

/-- A call. -/
inductive Op where
  /-- `LESS_keygen` -/
  | keygen
  /-- `LESS_sign` with key number `key` -/
  | sign (key : Nat) (m : Bytes)
  /-- `LESS_verify` of signature number `s` under the key it was made with -/
  | verify (s : Nat)

/-- A signature on record: the number of the key, the message, the signature. -/
structure Made (p : Params) where
  key : Nat
  m : Bytes
  sig : SignT p p.storageLen

/-- What the program holds: the generator, the keys, the signatures and the results of the verifications. -/
structure World (p : Params) where
  rng : Inc
  keys : List (PriKey p × PubKey p)
  made : List (Made p)
  results : List Nat

/-- One call.  `sl` and `out` are the contents of uninitialised memory and of the output buffer at the call; a call
that refers to a key or a signature that does not exist is not made. -/
def World.step (fuel : Nat) (sl : Nat → Stale p) (out : SignT p p.storageLen) (w : World p) : Op → C (World p)
  | .keygen => do
    let (sk, pk, rng) ← lessKeygen fuel sl w.rng
    pure { w with rng := rng, keys := w.keys ++ [(sk, pk)] }
  | .sign key m => match w.keys[key]? with
    | none => pure w
    | some (sk, _) => do
      let (sig, _, rng) ← lessSign fuel sl w.rng sk m out
      pure { w with rng := rng, made := w.made ++ [⟨key, m, sig⟩] }
  | .verify s => match w.made[s]? with
    | none => pure w
    | some d => match w.keys[d.key]? with
      | none => pure w
      | some (_, pk) => do
        let r ← lessVerify fuel sl pk d.m d.sig
        pure { w with results := w.results ++ [r] }

/-- A sequence of calls; `env i` gives the memory contents at call number `i`. -/
def World.run (fuel : Nat) (env : Nat → (Nat → Stale p) × SignT p p.storageLen) (w : World p) : List Op → C (World p)
  | [] => pure w
  | op :: ops => do
    let w ← w.step fuel (env ops.length).1 (env ops.length).2 op
    w.run fuel env ops

/-- The program at its start, with the generator just initialised. -/
def World.start (rng : Inc) : World p := ⟨rng, [], [], []⟩

/-- The invariant: every signature verifies under its key, and every verification has returned 1. -/
structure World.Good (fuel : Nat) (w : World p) : Prop where
  rng : RngOk p w.rng
  keys : ∀ k ∈ w.keys, KeyPair p fuel k.1.spec k.2.spec
  made : ∀ d ∈ w.made, ∃ k, w.keys[d.key]? = some k ∧ ∀ fuel' sl, fuel ≤ fuel' → lessVerify fuel' sl k.2 d.m d.sig = .ok 1
  results : ∀ r ∈ w.results, r = 1

theorem verify_of_signed (hp : p.WF) {fuel : Nat} {sk : PriKey p} {pk : PubKey p} (hk : KeyPair p fuel sk.spec pk.spec) {m : Bytes}
    {sig : SignT p p.storageLen} {root : Bytes} {num : Nat} (hS : Signed p fuel sk.spec root m sig.spec num) (fuel' : Nat)
    (sl : Nat → Stale p) (hf : fuel ≤ fuel') : lessVerify fuel' sl pk m sig = .ok 1 := by
  obtain ⟨hacc, hfits⟩ := complete hp hk hS
  have hgood : ∀ j < p.numKeypairs - 1, GoodCode p (pk.spec.codes j) := fun j hj => (hk.2 j hj).good
  have h := lessVerify_wp hp fuel sl pk m sig hgood (storage_fits hp (by unfold Params.storageLen; omega))
  obtain ⟨r, hr, h⟩ := (h.monoF (fun hF => hF hfits)).exists_ok
  rcases h with ⟨rfl, _⟩ | ⟨_, h⟩
  · exact (lessVerify_below hf sl pk m sig).ok hr
  · exact absurd hacc (h _)

theorem World.Good.step (hp : p.WF) {fuel : Nat} {w : World p} (h : w.Good fuel) (sl : Nat → Stale p)
    (out : SignT p p.storageLen) (op : Op) : Wp True (w.step fuel sl out op) (World.Good fuel) := by
  obtain ⟨s, hs⟩ := exists_stream p w.rng h.rng
  cases op with
  | keygen =>
    unfold World.step
    rw [Wp.bind_iff]
    refine ((lessKeygen_wp hp fuel sl w.rng s hs).monoF fun _ => trivial).mono ?_
    rintro ⟨sk, pk, rng⟩ ⟨h1, h2, h3⟩
    refine ⟨h3.1, ?_, ?_, h.results⟩
    · intro k hk
      rcases List.mem_append.1 hk with hk | hk
      · exact h.keys k hk
      · obtain rfl := List.mem_singleton.1 hk
        dsimp only at h1 h2 ⊢
        rw [h1]; exact h2
    · intro d hd
      obtain ⟨k, h4, h5⟩ := h.made d hd
      refine ⟨k, ?_, h5⟩
      rw [List.getElem?_append_left (by
        rw [List.getElem?_eq_some_iff] at h4
        exact h4.1)]
      exact h4
  | sign key m =>
    unfold World.step
    cases hkey : w.keys[key]? with
    | none => dsimp only; rw [hkey]; exact h
    | some k =>
      dsimp only
      rw [hkey]
      dsimp only
      rw [Wp.bind_iff]
      refine ((lessSign_wp hp fuel sl w.rng k.1 m out s hs (Nat.le_refl _)).monoF fun _ => trivial).mono ?_
      rintro ⟨sig, num, rng⟩ ⟨_, h2, _, _, h3, _⟩
      refine ⟨h3, h.keys, ?_, h.results⟩
      intro d hd
      rcases List.mem_append.1 hd with hd | hd
      · exact h.made d hd
      · obtain rfl := List.mem_singleton.1 hd
        refine ⟨k, hkey, fun fuel' sl' hf => ?_⟩
        exact verify_of_signed hp (h.keys k (List.mem_of_getElem? hkey)) h2 fuel' sl' hf
  | verify i =>
    unfold World.step
    cases hd : w.made[i]? with
    | none => dsimp only; rw [hd]; exact h
    | some d =>
      obtain ⟨k, h4, h5⟩ := h.made d (List.mem_of_getElem? hd)
      dsimp only
      rw [hd]
      dsimp only
      rw [h4]
      dsimp only
      rw [h5 fuel sl (Nat.le_refl _)]
      refine ⟨h.rng, h.keys, h.made, ?_⟩
      intro r hr
      rcases List.mem_append.1 hr with hr | hr
      · exact h.results r hr
      · exact List.mem_singleton.1 hr

theorem World.Good.run (hp : p.WF) {fuel : Nat} (env : Nat → (Nat → Stale p) × SignT p p.storageLen) (ops : List Op) {w : World p}
    (h : w.Good fuel) : Wp True (w.run fuel env ops) (World.Good fuel) := by
  induction ops generalizing w with
  | nil => exact h
  | cons op ops ih =>
    unfold World.run
    rw [Wp.bind_iff]
    exact (h.step hp _ _ op).mono fun w hw => ih hw

/-- After any sequence of calls from an initialised generator: no call has accessed memory out of bounds, every
verification made has returned 1, and every signature made verifies under its key, now and with any memory
contents. -/
theorem C45_history (hp : p.WF) (fuel : Nat) (env : Nat → (Nat → Stale p) × SignT p p.storageLen) (seed : Bytes) (ops : List Op) :
    (World.start (initCsprng p seed) : World p).run fuel env ops ≠ .error .oob ∧
    ∀ w, (World.start (initCsprng p seed) : World p).run fuel env ops = .ok w →
      (∀ r ∈ w.results, r = 1) ∧
      ∀ d ∈ w.made, ∃ k, w.keys[d.key]? = some k ∧ ∀ fuel' sl, fuel ≤ fuel' → lessVerify fuel' sl k.2 d.m d.sig = .ok 1 := by
  have h0 : (World.start (initCsprng p seed) : World p).Good fuel :=
    ⟨initCsprng_ok p seed, by simp [World.start], by simp [World.start], by simp [World.start]⟩
  have h := h0.run hp env ops
  constructor
  · intro e; rw [e] at h; exact h
  · intro w e
    have := h.of_ok e
    exact ⟨this.results, this.made⟩

/-- Two keys, signatures under both, verified in the other order. -/
example (fuel : Nat) (env) (seed : Bytes) := C45_history cat1Balanced_WF fuel env seed
  [.keygen, .keygen, .sign 0 [1, 2, 3], .sign 1 [], .verify 1, .sign 0 [4], .verify 0, .verify 2, .verify 0]

end LESS
