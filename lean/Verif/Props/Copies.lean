import Verif.Props.Api
import Verif.Props.Randomness
/-!
# C95: two copies of one process

The generator of a process is a static variable (`platform_csprng_state`, lib/rng.c 38), and no function of the library looks at
which process it runs in.  A process that is forked, or that goes on twice from one saved state after a crash, therefore goes on
with the same generator.  Here a process makes any calls, is copied, and both copies make any calls; a copy may first call
`initialize_csprng` (lib/rng.c 42-46).
-/
namespace LESS

open Spec

variable {p : Params}

/-- What a copy of a process does: it may seed the generator, and then makes calls. -/
structure Copy where
  reseed : Option Bytes
  ops : List Op

/-- A copy goes on from the state of the process that was copied: `fork`, or a saved state that is loaded. -/
def World.copy (fuel : Nat) (env : Nat → (Nat → Stale p) × SignT p p.storageLen) (w : World p) (c : Copy) : C (World p) :=
  ({ w with rng := match c.reseed with
    | none => w.rng
    | some seed => initCsprng p seed } : World p).run fuel env c.ops

/-- The bytes calls take from the generator when there are `n` keys at the start. -/
def taken (p : Params) : Nat → List Op → Nat
  | _, [] => 0
  | n, .keygen :: ops => (p.skSeedLen + p.seedLen) + taken p (n + 1) ops
  | n, .sign key _ :: ops => (if key < n then p.seedLen + p.hashLen else 0) + taken p n ops
  | n, .verify _ :: ops => taken p n ops

/-- The output of the generator from the time of the copy on, when it had been seeded with `seed` and `o` bytes had been taken:
the rest of the output of the process that was copied, or a new one. -/
def Copy.stream (p : Params) (seed : Bytes) (o : Nat) (c : Copy) : Stream :=
  match c.reseed with
  | none => (xof p seed).drop o
  | some seed' => xof p seed'

/-- The keys of the world stay where they are, and further calls use the bytes `taken` says. -/
theorem World.run_stream (hp : p.WF) {fuel : Nat} (env : Nat → (Nat → Stale p) × SignT p p.storageLen) (ops : List Op) {w w' : World p}
    {s : Stream} (hs : StreamAt p w.rng s) (e : w.run fuel env ops = .ok w') :
    StreamAt p w'.rng (s.drop (taken p w.keys.length ops)) ∧ ∃ new, w'.keys = w.keys ++ new := by
  induction ops generalizing w s with
  | nil => cases e; exact ⟨by rw [taken, drop_zero]; exact hs, [], (List.append_nil _).symm⟩
  | cons op ops ih =>
    unfold World.run at e
    cases h : w.step fuel (env ops.length).1 (env ops.length).2 op with
    | error x => rw [h] at e; cases e
    | ok w₁ =>
      rw [h] at e
      replace e : w₁.run fuel env ops = .ok w' := e
      cases op with
      | keygen =>
        unfold World.step at h
        cases hk : lessKeygen fuel (env ops.length).1 w.rng with
        | error x => dsimp only at h; rw [hk] at h; cases h
        | ok r =>
          obtain ⟨sk, pk, rng⟩ := r
          dsimp only at h
          rw [hk] at h
          cases h
          obtain ⟨-, -, h3⟩ := (lessKeygen_wp hp fuel _ w.rng s hs).of_ok hk
          obtain ⟨h4, new, h5⟩ := ih h3 e
          refine ⟨?_, (sk, pk) :: new, by rw [h5]; simp⟩
          rw [drop_drop, List.length_append] at h4
          exact h4
      | sign key m =>
        unfold World.step at h
        cases hkey : w.keys[key]? with
        | none =>
          dsimp only at h
          rw [hkey] at h
          cases h
          rw [List.getElem?_eq_none_iff] at hkey
          unfold taken
          rw [if_neg (by omega), Nat.zero_add]
          exact ih hs e
        | some k =>
          have hlt : key < w.keys.length := by rw [List.getElem?_eq_some_iff] at hkey; exact hkey.1
          dsimp only at h
          rw [hkey] at h
          dsimp only at h
          cases hk : lessSign fuel (env ops.length).1 w.rng k.1 m (env ops.length).2 with
          | error x => rw [hk] at h; cases h
          | ok r =>
            obtain ⟨sig, num, rng⟩ := r
            rw [hk] at h
            cases h
            obtain ⟨-, -, -, -, h3⟩ := (lessSign_wp hp fuel _ w.rng k.1 m _ _ hs (Nat.le_refl _)).of_ok hk
            obtain ⟨h4, new, h5⟩ := ih h3 e
            refine ⟨?_, new, h5⟩
            rw [drop_drop] at h4
            unfold taken
            rw [if_pos hlt]
            exact h4
      | verify i =>
        have hw : w₁.rng = w.rng ∧ w₁.keys = w.keys := by
          unfold World.step at h
          cases hd : w.made[i]? with
          | none => dsimp only at h; rw [hd] at h; cases h; exact ⟨rfl, rfl⟩
          | some d =>
            dsimp only at h
            rw [hd] at h
            dsimp only at h
            cases hk : w.keys[d.key]? with
            | none => rw [hk] at h; cases h; exact ⟨rfl, rfl⟩
            | some k =>
              rw [hk] at h
              dsimp only at h
              cases hv : lessVerify fuel (env ops.length).1 k.2 d.m d.sig with
              | error x => rw [hv] at h; cases h
              | ok r => rw [hv] at h; cases h; exact ⟨rfl, rfl⟩
        rw [← hw.1] at hs
        have := ih hs e
        rw [hw.2] at this
        exact this

theorem World.run_append (fuel : Nat) (env : Nat → (Nat → Stale p) × SignT p p.storageLen) (ops : List Op) (op : Op) {w w' : World p}
    (e : w.run fuel env (ops ++ [op]) = .ok w') :
    ∃ env' w₁, w.run fuel env' ops = .ok w₁ ∧ w₁.step fuel (env 0).1 (env 0).2 op = .ok w' := by
  refine ⟨fun i => env (i + 1), ?_⟩
  induction ops generalizing w with
  | nil =>
    refine ⟨w, rfl, ?_⟩
    rw [List.nil_append, World.run] at e
    cases h : w.step fuel (env 0).1 (env 0).2 op with
    | error x => simp only [List.length_nil, h] at e; cases e
    | ok w₁ =>
      simp only [List.length_nil, h] at e
      exact e
  | cons o ops ih =>
    rw [List.cons_append, World.run, List.length_append] at e
    rw [World.run]
    cases h : w.step fuel (env (ops.length + 1)).1 (env (ops.length + 1)).2 o with
    | error x => simp only [List.length_singleton, h] at e; cases e
    | ok w₁ =>
      simp only [List.length_singleton, h] at e
      obtain ⟨w₂, h1, h2⟩ := ih (w := w₁) e
      exact ⟨w₂, h1, h2⟩

variable {fuel : Nat} {seed : Bytes} {ops : List Op} {env env₁ env₂ : Nat → (Nat → Stale p) × SignT p p.storageLen} {w w₁ w₂ : World p}

theorem copy_stream (hp : p.WF) (e : (World.start (initCsprng p seed) : World p).run fuel env ops = .ok w) (c : Copy) :
    StreamAt p (match c.reseed with | none => w.rng | some seed => initCsprng p seed) (c.stream p seed (taken p 0 ops)) := by
  unfold Copy.stream
  cases c.reseed with
  | none => exact (World.run_stream hp env ops (xof_at p seed) e).1
  | some seed' => exact xof_at p seed'

/-- C95, what holds: whatever the process did before it was copied and whatever the copy does, the copy does not access memory out
of bounds, and every signature, made before or after, verifies under its key. -/
theorem C95_copies_work (hp : p.WF) (e : (World.start (initCsprng p seed) : World p).run fuel env ops = .ok w) (c : Copy) :
    w.copy fuel env₁ c ≠ .error .oob ∧ ∀ w₁, w.copy fuel env₁ c = .ok w₁ → (∀ r ∈ w₁.results, r = 1) ∧
      ∀ d ∈ w₁.made, ∃ k, w₁.keys[d.key]? = some k ∧ ∀ fuel' sl, fuel ≤ fuel' → lessVerify fuel' sl k.2 d.m d.sig = .ok 1 := by
  have h0 : (World.start (initCsprng p seed) : World p).Good fuel :=
    ⟨initCsprng_ok p seed, by simp [World.start], by simp [World.start], by simp [World.start]⟩
  have h1 := (h0.run hp env ops).of_ok e
  have h2 : World.Good fuel ({ w with rng := match c.reseed with | none => w.rng | some seed => initCsprng p seed } : World p) :=
    ⟨(copy_stream hp e c).1, h1.keys, h1.made, h1.results⟩
  have h := h2.run hp env₁ c.ops
  constructor
  · intro x; unfold World.copy at x; rw [x] at h; exact h
  · intro w₁ x
    have := h.of_ok x
    exact ⟨this.results, this.made⟩

/-- C95: where a signature of a copy takes its ephemeral seed and its salt. -/
theorem C95_copy_signs (hp : p.WF) (e : (World.start (initCsprng p seed) : World p).run fuel env ops = .ok w) {r : Option Bytes}
    {before : List Op} {key : Nat} {m : Bytes} (h : w.copy fuel env₁ ⟨r, before ++ [.sign key m]⟩ = .ok w₁) (hkey : key < w.keys.length) :
    ∃ d, w₁.made.getLast? = some d ∧ d.key = key ∧ d.m = m ∧
      SignedFrom p fuel (Copy.stream p seed (taken p 0 ops) ⟨r, []⟩) w.keys d (taken p w.keys.length before) := by
  have hs := copy_stream hp e ⟨r, before ++ [.sign key m]⟩
  unfold World.copy at h
  obtain ⟨env', v, hv, hst⟩ := World.run_append fuel env₁ before _ h
  obtain ⟨hrng, new, hnew⟩ := World.run_stream hp env' before hs hv
  dsimp only at hrng hnew
  obtain ⟨k, hk⟩ : ∃ k, w.keys[key]? = some k := ⟨_, List.getElem?_eq_getElem hkey⟩
  have hk' : v.keys[key]? = some k := by rw [hnew, List.getElem?_append_left hkey, hk]
  unfold World.step at hst
  dsimp only at hst
  rw [hk'] at hst
  dsimp only at hst
  cases hsig : lessSign fuel (env₁ 0).1 v.rng k.1 m (env₁ 0).2 with
  | error x => rw [hsig] at hst; cases hst
  | ok x =>
    obtain ⟨sig, num, rng⟩ := x
    rw [hsig] at hst
    cases hst
    obtain ⟨h1, h2, -⟩ := (lessSign_wp hp fuel _ v.rng k.1 m _ _ hrng (Nat.le_refl _)).of_ok hsig
    refine ⟨⟨key, m, sig⟩, by simp, rfl, rfl, ?_, k, num, hk, h2⟩
    dsimp only at h1 ⊢
    rw [h1, ← drop_drop]
    rfl

/-- C95, the part that holds: the salts of two signatures made in two copies are equal only if the outputs of their generators
agree there.  So copies that seed their generators with seeds of their own do not share randomness unless SHAKE gives the same
bytes for different seeds.  Missing: copies that do not seed their generators, for which the claim is false. -/
theorem C95_reseeded_partial (hp : p.WF) (e : (World.start (initCsprng p seed) : World p).run fuel env ops = .ok w) {r r' : Option Bytes}
    {before before' : List Op} {key key' : Nat} {m m' : Bytes} (h : w.copy fuel env₁ ⟨r, before ++ [.sign key m]⟩ = .ok w₁)
    (h' : w.copy fuel env₂ ⟨r', before' ++ [.sign key' m']⟩ = .ok w₂) (hkey : key < w.keys.length) (hkey' : key' < w.keys.length) :
    ∃ d d', w₁.made.getLast? = some d ∧ w₂.made.getLast? = some d' ∧ (d.sig.spec.salt = d'.sig.spec.salt ↔
      ∀ i < p.hashLen, Copy.stream p seed (taken p 0 ops) ⟨r, []⟩ (taken p w.keys.length before + p.seedLen + i) =
        Copy.stream p seed (taken p 0 ops) ⟨r', []⟩ (taken p w.keys.length before' + p.seedLen + i)) := by
  obtain ⟨d, hd, -, -, hs, -⟩ := C95_copy_signs hp e h hkey
  obtain ⟨d', hd', -, -, hs', -⟩ := C95_copy_signs hp e h' hkey'
  refine ⟨d, d', hd, hd', ?_⟩
  rw [hs, hs']
  unfold Stream.take Stream.drop
  constructor
  · intro x i hi
    have := congrArg (fun l => l.getD i 0) x
    simpa [hi] using this
  · intro x
    refine List.map_congr_left fun i hi => ?_
    exact x i (List.mem_range.mp hi)

/-- C95 is false for copies that do not seed their generators: whatever happened before, if the copies have taken equally many bytes
(say none), their next signatures have the same ephemeral seed and the same salt, whatever the messages. -/
theorem C95_fails_same_randomness (hp : p.WF) (e : (World.start (initCsprng p seed) : World p).run fuel env ops = .ok w)
    {before before' : List Op} (heq : taken p w.keys.length before = taken p w.keys.length before') {key key' : Nat} {m m' : Bytes}
    (h : w.copy fuel env₁ ⟨none, before ++ [.sign key m]⟩ = .ok w₁) (h' : w.copy fuel env₂ ⟨none, before' ++ [.sign key' m']⟩ = .ok w₂)
    (hkey : key < w.keys.length) (hkey' : key' < w.keys.length) :
    ∃ d d' k k' root count count', w₁.made.getLast? = some d ∧ w₂.made.getLast? = some d' ∧ d.m = m ∧ d'.m = m' ∧
      w.keys[key]? = some k ∧ w.keys[key']? = some k' ∧ Signed p fuel k.1.spec root m d.sig.spec count ∧
      Signed p fuel k'.1.spec root m' d'.sig.spec count' ∧ d'.sig.spec.salt = d.sig.spec.salt := by
  obtain ⟨d, hd, hdk, hdm, hs, k, c, hk, hS⟩ := C95_copy_signs hp e h hkey
  obtain ⟨d', hd', hdk', hdm', hs', k', c', hk', hS'⟩ := C95_copy_signs hp e h' hkey'
  rw [hdk] at hk
  rw [hdk'] at hk'
  rw [hdm] at hS
  rw [hdm'] at hS'
  rw [← heq] at hs' hS'
  exact ⟨d, d', k, k', _, c, c', hd, hd', hdm, hdm', hk, hk', hS, hS', hs'.trans hs.symm⟩

/-- C95: two such signatures under one key give away, in every round in which their challenges differ, a monomial that carries one
code of the public key to another: the secret. -/
theorem C95_fails_reveals (hp : p.WF) (e : (World.start (initCsprng p seed) : World p).run fuel env ops = .ok w)
    {before before' : List Op} (heq : taken p w.keys.length before = taken p w.keys.length before') {key : Nat} {m m' : Bytes}
    (h : w.copy fuel env₁ ⟨none, before ++ [.sign key m]⟩ = .ok w₁) (h' : w.copy fuel env₂ ⟨none, before' ++ [.sign key m']⟩ = .ok w₂)
    (hkey : key < w.keys.length) :
    ∃ d d' k, w₁.made.getLast? = some d ∧ w₂.made.getLast? = some d' ∧ w.keys[key]? = some k ∧
      ∃ (G0 : Matrix (Fin p.K) (Fin p.N) (ZMod 127)) (v v' : Nat → Nat), IsG0 p fuel (xof p k.2.spec.seed) G0 ∧
        IsChallenge p fuel (xof p d.sig.spec.digest) v ∧ IsChallenge p fuel (xof p d'.sig.spec.digest) v' ∧
        ∀ i < p.T, ∃ x y, AnswerOf p fuel d.sig.spec v i x ∧ AnswerOf p fuel d'.sig.spec v' i y ∧
          (extract p (publicCode k.2.spec G0 (v i)) x (publicCode k.2.spec G0 (v' i)) y).IsMonomial ∧
          RowEq (ColOp.on (publicCode k.2.spec G0 (v i)) (extract p (publicCode k.2.spec G0 (v i)) x (publicCode k.2.spec G0 (v' i)) y))
            (publicCode k.2.spec G0 (v' i)) := by
  obtain ⟨d, d', k, k', root, c, c', hd, hd', -, -, hk, hk', hS, hS', hsalt⟩ := C95_fails_same_randomness hp e heq h h' hkey hkey
  obtain rfl : k = k' := Option.some.inj (hk.symm.trans hk')
  have h0 : (World.start (initCsprng p seed) : World p).Good fuel :=
    ⟨initCsprng_ok p seed, by simp [World.start], by simp [World.start], by simp [World.start]⟩
  have hpair := ((h0.run hp env ops).of_ok e).keys k (List.mem_of_getElem? hk)
  exact ⟨d, d', k, hd, hd', hk, C65_reuse_reveals hp hpair hS hS' hsalt⟩

/-- C95: the next key pairs of two copies that do not seed their generators are the same key pair. -/
theorem C95_fails_same_key (hp : p.WF) (e : (World.start (initCsprng p seed) : World p).run fuel env ops = .ok w)
    (h : w.copy fuel env₁ ⟨none, [.keygen]⟩ = .ok w₁) (h' : w.copy fuel env₂ ⟨none, [.keygen]⟩ = .ok w₂) :
    w₁.keys = w₂.keys ∧ w₁.keys.length = w.keys.length + 1 := by
  have hr : RngOk p w.rng := (copy_stream hp e ⟨none, []⟩).1
  unfold World.copy World.run World.step at h h'
  dsimp only [List.length_nil] at h h'
  cases hk : lessKeygen fuel (env₁ 0).1 w.rng with
  | error x => rw [hk] at h; cases h
  | ok a =>
    cases hk' : lessKeygen fuel (env₂ 0).1 w.rng with
    | error x => rw [hk'] at h'; cases h'
    | ok b =>
      obtain ⟨sk, pk, r⟩ := a
      obtain ⟨sk', pk', r'⟩ := b
      obtain ⟨e1, e2⟩ := C47_keygen_no_stale_dependence hp hr hk hk'
      rw [hk] at h
      rw [hk'] at h'
      cases h
      cases h'
      dsimp only
      rw [e1, e2]
      exact ⟨rfl, by simp⟩

/-- Before the copy a key and a signature in category 1, 96 bytes; a copy that verifies first has taken as many as one that does not,
one that makes a key first has taken 48 more. -/
example : taken .cat1Balanced 0 [.keygen, .sign 0 [1]] = 96 ∧ taken .cat1Balanced 1 [.verify 0, .sign 7 []] = taken .cat1Balanced 1 [] ∧
    taken .cat1Balanced 1 [.keygen, .sign 1 []] = 96 := by decide

end LESS
