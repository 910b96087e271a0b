import Verif.Proofs.Race
import Verif.Props.Randomness
/-!
# Calls in several threads (C66)

Any number of calls are in flight at once and share the generator.
-/
namespace LESS

open Spec

variable {p : Params}

/-! ## A call alone -/

/-- C66: a key generation that is not disturbed by other calls is `LESS_keygen` of the sequential model. -/
theorem C66_alone_keygen (locked : Bool) (fuel : Nat) (sl : Nat → Stale p) {rng : Inc} (hr : RngOk p rng) :
    ∃ k r rng', Flight.run (p := p) locked ⟨rng, []⟩ (.begin ((Request.keygen sl).prog fuel) :: List.replicate k (.step 0)) =
        ⟨rng', [.outside (.done r)]⟩ ∧
      (r >>= fun a => pure (a, rng')) = (lessKeygen fuel sl rng).map fun x => (Reply.key x.1 x.2.1, x.2.2) := by
  obtain ⟨k, r, rng', h1, -, h3, -⟩ := finish_call (p := p) locked (i := 0) ((Request.keygen sl).prog fuel)
    ⟨rng, [.outside ((Request.keygen sl).prog fuel)]⟩ hr (by simp [Phase.isInside]) rfl
  refine ⟨k, r, rng', h1, ?_⟩
  rw [← h3]
  have hmap : ∀ {α β : Type} (f : α → β) (c : Prog α) (rng : Inc), (c.map f).run p rng = (c.run p rng).map fun x => (f x.1, x.2) := by
    intro α β f c
    induction c with
    | done r => intro rng; cases r <;> rfl
    | draw n next ih => intro rng; exact ih _ _
  unfold Request.prog
  rw [hmap, keygenProg_run]
  cases lessKeygen fuel sl rng <;> rfl

/-- C66: likewise for a signature. -/
theorem C66_alone_sign (locked : Bool) (fuel : Nat) (sl : Nat → Stale p) (sk : PriKey p) (m : Bytes) (out : SignT p p.storageLen)
    {rng : Inc} (hr : RngOk p rng) :
    ∃ k r rng', Flight.run (p := p) locked ⟨rng, []⟩ (.begin ((Request.sign sk m sl out).prog fuel) :: List.replicate k (.step 0)) =
        ⟨rng', [.outside (.done r)]⟩ ∧
      (r >>= fun a => pure (a, rng')) = (lessSign fuel sl rng sk m out).map fun x => (Reply.signature x.1 x.2.1, x.2.2) := by
  obtain ⟨k, r, rng', h1, -, h3, -⟩ := finish_call (p := p) locked (i := 0) ((Request.sign sk m sl out).prog fuel)
    ⟨rng, [.outside ((Request.sign sk m sl out).prog fuel)]⟩ hr (by simp [Phase.isInside]) rfl
  refine ⟨k, r, rng', h1, ?_⟩
  rw [← h3]
  have hmap : ∀ {α β : Type} (f : α → β) (c : Prog α) (rng : Inc), (c.map f).run p rng = (c.run p rng).map fun x => (f x.1, x.2) := by
    intro α β f c
    induction c with
    | done r => intro rng; cases r <;> rfl
    | draw n next ih => intro rng; exact ih _ _
  unfold Request.prog
  rw [hmap, signProg_run]
  cases lessSign fuel sl rng sk m out <;> rfl

/-! ## With a lock -/

theorem privateSeeds_ok (a : Bytes) : ∃ seeds, privateSeeds p a = .ok seeds := by
  obtain ⟨x, hx, -⟩ := (privateSeeds_wp (F := False) a).exists_ok
  exact ⟨x, hx⟩

theorem keygen_twice (fuel : Nat) (sl : Nat → Stale p) : (Request.keygen sl).prog fuel =
    twice p.skSeedLen p.seedLen fun a b => (keygenWith fuel sl a b).map fun r => Reply.key r.1 r.2 := by
  unfold Request.prog keygenProg twice
  simp only [Prog.map]
  congr 1
  funext a
  obtain ⟨seeds, e⟩ := privateSeeds_ok (p := p) a
  unfold keygenWith
  rw [e]
  rfl

theorem sign_twice (fuel : Nat) (sk : PriKey p) (m : Bytes) (sl : Nat → Stale p) (out : SignT p p.storageLen) :
    (Request.sign sk m sl out).prog fuel =
      twice p.seedLen p.hashLen fun a b => (signWith fuel sl sk m out a b).map fun r => Reply.signature r.1 r.2 := by
  obtain ⟨seeds, e⟩ := privateSeeds_ok (p := p) sk.compressedSk.toList
  simp only [Request.prog, signProg, signWith, twice, e]
  rfl

theorem map_ok {α β : Type} {x : C α} {f : α → β} {b : β} (h : x.map f = .ok b) : ∃ a, x = .ok a ∧ f a = b := by
  cases x with
  | error e => cases h
  | ok a => cases h; exact ⟨a, rfl, rfl⟩

theorem map_oob {α β : Type} {x : C α} {f : α → β} (h : x.map f = .error .oob) : x = .error .oob := by
  cases x with
  | error e => cases h; rfl
  | ok a => cases h

/-- What holds of a finished call: `s` is the generator's stream, `d` the stretches of it that the call has used. -/
def Answered (p : Params) (fuel : Nat) (s : Stream) (d : List (Nat × Nat)) (r : C (Reply p)) : Request p → Prop
  | .keygen _ => ∃ o o', d = [(o, p.skSeedLen), (o', p.seedLen)] ∧ r ≠ .error .oob ∧
      ∀ reply, r = .ok reply → ∃ sk pk, reply = .key sk pk ∧
        sk.spec.secret = (s.drop o).take p.skSeedLen ∧ sk.spec.seed = (s.drop o').take p.seedLen ∧ KeyPair p fuel sk.spec pk.spec
  | .sign sk m _ _ => ∃ o o', d = [(o, p.seedLen), (o', p.hashLen)] ∧ r ≠ .error .oob ∧
      ∀ reply, r = .ok reply → ∃ sig num, reply = .signature sig num ∧
        sig.spec.salt = (s.drop o').take p.hashLen ∧ Signed p fuel sk.spec ((s.drop o).take p.seedLen) m sig.spec num ∧
        ∀ pk : PubKey p, KeyPair p fuel sk.spec pk.spec → ∀ fuel' sl, fuel ≤ fuel' → lessVerify fuel' sl pk m sig = .ok 1

/-- C66: if a lock keeps calls from being inside `randombytes` at the same time, then for every order of the steps of any number
of calls each finished call has used its own two stretches of the generator's output, no two stretches overlap, no call leaves
the bounds of an array, keys are key pairs and signatures verify. -/
theorem C66_locked_partial (hp : p.WF) (fuel : Nat) (seed : Bytes) (evs : List (Event (Reply p))) (reqs : List (Request p))
    (hreqs : begun evs = reqs.map (Request.prog fuel)) :
    ((⟨initCsprng p seed, []⟩ : Flight p (Reply p)).run true evs).calls.length = reqs.length ∧
    ∃ D : List (List (Nat × Nat)), D.length = reqs.length ∧ D.flatten.Pairwise Apart ∧
      ∀ (i : Nat) req r d, reqs[i]? = some req → D[i]? = some d →
        ((⟨initCsprng p seed, []⟩ : Flight p (Reply p)).run true evs).calls[i]? = some (.outside (.done r)) →
        Answered p fuel (xof p seed) d r req := by
  obtain ⟨D, pos, h⟩ := (Flight.Ok.init (α := Reply p) (xof_at p seed)).run evs
  rw [List.nil_append, hreqs] at h
  have hlen := h.lenC
  rw [List.length_map] at hlen
  refine ⟨hlen.symm, D, by rw [h.lenD, hlen], h.apart, ?_⟩
  intro i req r d hreq hd hcall
  have hfed := h.each i _ (req.prog fuel) d hcall (by rw [List.getElem?_map, hreq]; rfl) hd
  change Prog.Fed _ _ _ at hfed
  cases req with
  | keygen sl =>
    rw [keygen_twice] at hfed
    rcases fed_twice hfed with ⟨_, e⟩ | ⟨_, _, _, e⟩ | ⟨a, b, hbs, ha, hb, e⟩
    · cases e
    · cases e
    · obtain ⟨x, d', rfl, rfl, hd'⟩ := List.map_eq_cons_iff.mp hbs
      obtain ⟨y, d'', rfl, rfl, hd''⟩ := List.map_eq_cons_iff.mp hd'
      rw [List.map_eq_nil_iff] at hd''
      subst hd''
      rw [stretch_length] at ha hb
      obtain ⟨o, n⟩ := x
      obtain ⟨o', n'⟩ := y
      dsimp only at ha hb
      subst ha hb
      cases e
      have hw := keygenWith_wp hp fuel sl (sk := stretch (xof p seed) (o, p.skSeedLen)) (g0 := stretch (xof p seed) (o', p.seedLen))
        (stretch_length _ _) (stretch_length _ _)
      refine ⟨o, o', rfl, ?_, ?_⟩
      · intro hoob
        rw [map_oob hoob] at hw
        exact hw
      · intro reply hr
        obtain ⟨⟨sk, pk⟩, hx, rfl⟩ := map_ok hr
        obtain ⟨h1, h2⟩ := hw.of_ok hx
        dsimp only at h1 h2
        refine ⟨sk, pk, rfl, by rw [h1]; rfl, by rw [h1]; rfl, by rw [h1]; exact h2⟩
  | sign sk m sl out =>
    rw [sign_twice] at hfed
    rcases fed_twice hfed with ⟨_, e⟩ | ⟨_, _, _, e⟩ | ⟨a, b, hbs, ha, hb, e⟩
    · cases e
    · cases e
    · obtain ⟨x, d', rfl, rfl, hd'⟩ := List.map_eq_cons_iff.mp hbs
      obtain ⟨y, d'', rfl, rfl, hd''⟩ := List.map_eq_cons_iff.mp hd'
      rw [List.map_eq_nil_iff] at hd''
      subst hd''
      rw [stretch_length] at ha hb
      obtain ⟨o, n⟩ := x
      obtain ⟨o', n'⟩ := y
      dsimp only at ha hb
      subst ha hb
      cases e
      have hw := signWith_wp hp fuel sl sk m out (root := stretch (xof p seed) (o, p.seedLen))
        (salt := stretch (xof p seed) (o', p.hashLen)) (stretch_length _ _) (stretch_length _ _) (Nat.le_refl _)
      refine ⟨o, o', rfl, ?_, ?_⟩
      · intro hoob
        rw [map_oob hoob] at hw
        exact hw
      · intro reply hr
        obtain ⟨⟨sig, num⟩, hx, rfl⟩ := map_ok hr
        obtain ⟨h1, h2, -⟩ := hw.of_ok hx
        exact ⟨sig, num, rfl, h1, h2, fun pk hk fuel' sl' hf => verify_of_signed hp hk h2 fuel' sl' hf⟩

/-- C66: with the lock no call waits for ever: whatever has happened, all calls begun so far can still be brought to an end. -/
theorem C66_locked_no_deadlock (seed : Bytes) (evs : List (Event (Reply p))) :
    ∃ more : List (Event (Reply p)), begun more = [] ∧
      ∀ ph ∈ ((⟨initCsprng p seed, []⟩ : Flight p (Reply p)).run true (evs ++ more)).calls, ∃ r, ph = .outside (.done r) := by
  obtain ⟨D, pos, h⟩ := (Flight.Ok.init (α := Reply p) (xof_at p seed)).run evs
  obtain ⟨more, h1, h2⟩ := finish_all h
  exact ⟨more, h1, by rw [Flight.run_append]; exact h2⟩

/-! ## Without a lock -/

/-- C66 is false for the library as it is: two key generations that run in turn give the same key pair. -/
theorem C66_fails_same_key (fuel : Nat) (sl : Nat → Stale p) (seed : Bytes) :
    ∃ (evs : List (Event (Reply p))) (rng : Inc) (r : C (Reply p)), begun evs = [] ∧
      Flight.run (p := p) false ⟨initCsprng p seed, [.outside ((Request.keygen sl).prog fuel), .outside ((Request.keygen sl).prog fuel)]⟩ evs =
        ⟨rng, [.outside (.done r), .outside (.done r)]⟩ := by
  have h0 : initCsprng p seed = ⟨(initCsprng p seed).s, 0⟩ := by
    show (⟨(initCsprng p seed).s, (initCsprng p seed).pos⟩ : Inc) = _
    unfold initCsprng; rw [incFinalize_pos]
  rw [h0, keygen_twice]
  obtain ⟨a, b, c, -, -, h⟩ := race_twice (p := p) (initCsprng p seed).s (n := p.skSeedLen) (k := p.seedLen) (by
    unfold Params.skSeedLen Params.seedLen; cases p.cat <;> decide) (by
    unfold Params.skSeedLen Params.seedLen Params.xofRate; cases p.cat <;> decide)
    (fun a b => (keygenWith fuel sl a b).map fun r => Reply.key r.1 r.2) (fun a b => (keygenWith fuel sl a b).map fun r => Reply.key r.1 r.2)
  exact ⟨_, _, _, begun_inTurn 13, h⟩

/-- C66 is false for the library as it is: two signatures that are made in turn, whatever the messages and keys, come from the
same ephemeral seed and the same salt. -/
theorem C66_fails_shared_randomness (hp : p.WF) (fuel : Nat) (seed : Bytes) (sk sk' : PriKey p) (m m' : Bytes) (sl sl' : Nat → Stale p)
    (out out' : SignT p p.storageLen) :
    ∃ (evs : List (Event (Reply p))) (rng : Inc) (root : Bytes) (r r' : C (Reply p)), begun evs = [] ∧
      Flight.run (p := p) false ⟨initCsprng p seed, [.outside ((Request.sign sk m sl out).prog fuel),
        .outside ((Request.sign sk' m' sl' out').prog fuel)]⟩ evs = ⟨rng, [.outside (.done r), .outside (.done r')]⟩ ∧
      ∀ sig num sig' num', r = .ok (.signature sig num) → r' = .ok (.signature sig' num') →
        Signed p fuel sk.spec root m sig.spec num ∧ Signed p fuel sk'.spec root m' sig'.spec num' ∧ sig'.spec.salt = sig.spec.salt := by
  have h0 : initCsprng p seed = ⟨(initCsprng p seed).s, 0⟩ := by
    show (⟨(initCsprng p seed).s, (initCsprng p seed).pos⟩ : Inc) = _
    unfold initCsprng; rw [incFinalize_pos]
  rw [h0, sign_twice, sign_twice]
  obtain ⟨a, b, c, ha, hb, h⟩ := race_twice (p := p) (initCsprng p seed).s (n := p.seedLen) (k := p.hashLen) (seedLen_pos p) (by
    unfold Params.hashLen Params.seedLen Params.xofRate; cases p.cat <;> decide)
    (fun a b => (signWith fuel sl sk m out a b).map fun r => Reply.signature r.1 r.2)
    (fun a b => (signWith fuel sl' sk' m' out' a b).map fun r => Reply.signature r.1 r.2)
  refine ⟨_, _, a, _, _, begun_inTurn 13, h, ?_⟩
  intro sig num sig' num' e e'
  obtain ⟨⟨_, _⟩, hx, hx'⟩ := map_ok e
  cases hx'
  obtain ⟨⟨_, _⟩, hy, hy'⟩ := map_ok e'
  cases hy'
  obtain ⟨h1, h2, -⟩ := (signWith_wp hp fuel sl sk m out ha hb (Nat.le_refl _)).of_ok hx
  obtain ⟨h1', h2', -⟩ := (signWith_wp hp fuel sl' sk' m' out' ha hb (Nat.le_refl _)).of_ok hy
  exact ⟨h2, h2', h1'.trans h1.symm⟩

/-- C66: what two signatures of one signer made in that way give away. -/
theorem C66_fails_reveals (hp : p.WF) (fuel : Nat) (seed : Bytes) (sk : PriKey p) (pk : PubKey p)
    (hk : KeyPair p fuel sk.spec pk.spec) (m m' : Bytes) (sl sl' : Nat → Stale p) (out out' : SignT p p.storageLen) :
    ∃ (evs : List (Event (Reply p))) (rng : Inc) (r r' : C (Reply p)), begun evs = [] ∧
      Flight.run (p := p) false ⟨initCsprng p seed, [.outside ((Request.sign sk m sl out).prog fuel),
        .outside ((Request.sign sk m' sl' out').prog fuel)]⟩ evs = ⟨rng, [.outside (.done r), .outside (.done r')]⟩ ∧
      ∀ sig num sig' num', r = .ok (.signature sig num) → r' = .ok (.signature sig' num') →
        ∃ (G0 : Matrix (Fin p.K) (Fin p.N) (ZMod 127)) (v v' : Nat → Nat), IsG0 p fuel (xof p pk.spec.seed) G0 ∧
          IsChallenge p fuel (xof p sig.spec.digest) v ∧ IsChallenge p fuel (xof p sig'.spec.digest) v' ∧
          ∀ i < p.T, ∃ x y, AnswerOf p fuel sig.spec v i x ∧ AnswerOf p fuel sig'.spec v' i y ∧
            (extract p (publicCode pk.spec G0 (v i)) x (publicCode pk.spec G0 (v' i)) y).IsMonomial ∧
            RowEq (ColOp.on (publicCode pk.spec G0 (v i)) (extract p (publicCode pk.spec G0 (v i)) x (publicCode pk.spec G0 (v' i)) y))
              (publicCode pk.spec G0 (v' i)) := by
  obtain ⟨evs, rng, root, r, r', h1, h2, h3⟩ := C66_fails_shared_randomness hp fuel seed sk sk m m' sl sl' out out'
  refine ⟨evs, rng, r, r', h1, h2, fun sig num sig' num' e e' => ?_⟩
  obtain ⟨g1, g2, g3⟩ := h3 sig num sig' num' e e'
  exact C65_reuse_reveals hp hk g1 g2 g3

/-- C66 is false for the library as it is: with a few signatures made one after the other and two at the same time, a call
reads behind the end of the generator's state. -/
theorem C66_fails_bounds (fuel : Nat) (seed : Bytes) (req : Request p) (hreq : ∃ sk m sl out, req = .sign sk m sl out) :
    ∃ (evs : List (Event (Reply p))) (j i : Nat), begun evs = List.replicate j (req.prog fuel) ∧
      (Flight.run (p := p) false ⟨initCsprng p seed, []⟩ evs).calls[i]? = some (.outside (.done (.error .oob))) := by
  obtain ⟨sk, m, sl, out, rfl⟩ := hreq
  rw [sign_twice]
  generalize (fun a b => (signWith fuel sl sk m out a b).map fun r => Reply.signature r.1 r.2) = f
  obtain ⟨j, h1, h2, h3⟩ : ∃ j, p.seedLen ≤ backPos p.xofRate (j * (p.seedLen + p.hashLen)) 0 ∧
      backPos p.xofRate (j * (p.seedLen + p.hashLen)) 0 < 2 * p.seedLen ∧
      208 < p.xofRate - backPos p.xofRate (j * (p.seedLen + p.hashLen)) 0 + 2 * p.seedLen + 2 * p.hashLen := by
    unfold Params.hashLen Params.seedLen Params.xofRate
    cases p.cat
    · exact ⟨3, by decide +kernel⟩
    · exact ⟨7, by decide +kernel⟩
    · exact ⟨1, by decide +kernel⟩
  obtain ⟨evs, st, rest, g1, g2, g3, g4⟩ := warm (p := p) (n := p.seedLen) (k := p.hashLen) f (A := twice p.seedLen p.hashLen f)
    (B := twice p.seedLen p.hashLen f) j (initCsprng p seed) [] (initCsprng_ok p seed) (by simp)
  have hpos : (initCsprng p seed).pos = 0 := by unfold initCsprng; rw [incFinalize_pos]
  rw [hpos] at g2
  obtain ⟨evs', i, k1, k2⟩ := race_wrap (p := p) st.s (c := st.pos) (n := p.seedLen) (k := p.hashLen) (by omega) (by omega) g3
    (by unfold Params.seedLen; cases p.cat <;> decide) (by unfold Params.hashLen Params.seedLen; cases p.cat <;> decide) (by rw [g2]; exact h3) f f rest
  refine ⟨.begin (twice p.seedLen p.hashLen f) :: .begin (twice p.seedLen p.hashLen f) :: (evs ++ evs'), j + 2, i, ?_, ?_⟩
  · have happ : ∀ a b : List (Event (Reply p)), begun (a ++ b) = begun a ++ begun b := by
      intro a b; unfold begun; rw [List.filterMap_append]
    show twice p.seedLen p.hashLen f :: twice p.seedLen p.hashLen f :: begun (evs ++ evs') = _
    rw [happ, g1, k1, List.append_nil]
    rfl
  · show (Flight.run (p := p) false ⟨initCsprng p seed, .outside _ :: .outside _ :: []⟩ (evs ++ evs')).calls[i]? = _
    rw [Flight.run_append, g4]
    exact k2

/-! ## Concrete cases -/

/-- Two calls whose steps alternate meet the hypothesis of `C66_locked_partial`. -/
example (fuel : Nat) (sl : Nat → Stale p) (sk : PriKey p) (out : SignT p p.storageLen) (k : Nat) :
    begun (.begin ((Request.keygen sl).prog fuel) :: .step 0 :: .begin ((Request.sign sk [1, 2] sl out).prog fuel) :: inTurn k) =
      [Request.keygen sl, .sign sk [1, 2] sl out].map (Request.prog fuel) := by
  show (Request.keygen sl).prog fuel :: (Request.sign sk [1, 2] sl out).prog fuel :: begun (inTurn k) = _
  rw [begun_inTurn]
  rfl

/-- With the lock, the second call waits while the first is inside `randombytes`. -/
example {α : Type} (rng : Inc) (a b : Bytes → Prog α) :
    Flight.run (p := p) true ⟨rng, [.outside (.draw 16 a), .outside (.draw 16 b)]⟩ [.step 0, .step 1, .step 1] =
      ⟨rng, [.inside ⟨.enter, 16, []⟩ a, .outside (.draw 16 b)]⟩ := rfl

/-- Without it, it does not. -/
example {α : Type} (rng : Inc) (a b : Bytes → Prog α) :
    Flight.run (p := p) false ⟨rng, [.outside (.draw 16 a), .outside (.draw 16 b)]⟩ [.step 0, .step 1] =
      ⟨rng, [.inside ⟨.enter, 16, []⟩ a, .inside ⟨.enter, 16, []⟩ b]⟩ := rfl

end LESS
