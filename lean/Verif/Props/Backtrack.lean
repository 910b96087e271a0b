import Verif.Props.Copies
import Verif.Props.SignCost
import Verif.Model.KeyContext
import Verif.Proofs.KeccakInv
/-!
# C96: the generator's past

The generator is a Keccak sponge that is only squeezed, and Keccak-f can be run backwards.  So whoever reads its state (the static
variable `platform_csprng_state`, lib/rng.c 38) computes what it has put out: the private keys made, and the ephemeral seeds of the
signatures made, with which the signatures give away the private maps.
-/
namespace LESS

open Spec

variable {p : Params}

/-- The last byte a sponge with rate `r` has put out, and its state before. -/
def unsqueeze1 (r : Nat) (st : Inc) : Bytes × Inc :=
  if st.pos + 1 = r then (extractBytes st.s 0 1, ⟨unpermute st.s, 0⟩)
  else (extractBytes st.s (r - (st.pos + 1)) 1, ⟨st.s, st.pos + 1⟩)

/-- The last `n` bytes a sponge has put out, and its state before. -/
def unsqueeze (r : Nat) : Nat → Inc → Bytes × Inc
  | 0, st => ([], st)
  | n + 1, st => ((unsqueeze r n (unsqueeze1 r st).2).1 ++ (unsqueeze1 r st).1, (unsqueeze r n (unsqueeze1 r st).2).2)

theorem unsqueeze1_eq (r : Nat) (st : Inc) (h : st.pos < r) : unsqueeze1 r (squeeze1 r st).2 = ((squeeze1 r st).1, st) := by
  obtain ⟨s, k⟩ := st
  dsimp only at h
  unfold squeeze1 unsqueeze1
  dsimp only
  by_cases h0 : k = 0
  · subst h0
    rw [if_pos rfl]
    dsimp only
    rw [if_pos (by omega), unpermute_permute]
  · rw [if_neg h0]
    dsimp only
    rw [if_neg (by omega), Nat.sub_add_cancel (by omega)]

theorem squeeze1_pos_lt (r : Nat) (st : Inc) (h : st.pos < r) : (squeeze1 r st).2.pos < r := by
  unfold squeeze1
  split <;> dsimp only <;> omega

theorem squeezeN_pos_lt (r n : Nat) (st : Inc) (h : st.pos < r) : (squeezeN r n st).2.pos < r := by
  induction n generalizing st with
  | zero => exact h
  | succ n ih => exact ih _ (squeeze1_pos_lt r st h)

theorem unsqueeze_eq (r n : Nat) (st : Inc) (h : st.pos < r) : unsqueeze r n (squeezeN r n st).2 = ((squeezeN r n st).1, st) := by
  induction n generalizing st with
  | zero => rfl
  | succ n ih =>
    have e1 := squeezeN_add r n 1 st
    have hn := squeezeN_pos_lt r n st h
    rw [e1]
    unfold unsqueeze
    dsimp only
    have e2 : squeezeN r 1 (squeezeN r n st).2 = squeeze1 r (squeezeN r n st).2 := by simp [squeezeN]
    rw [e2, unsqueeze1_eq r _ hn]
    dsimp only
    rw [ih st h]

/-- C96 is false: from the state of the generator after any number of bytes these bytes, and the state before, can be computed. -/
theorem C96_fails_backtrack (n : Nat) {rng : Inc} (h : rng.pos < p.xofRate) :
    unsqueeze p.xofRate n (csprngBytes p n rng).2 = ((csprngBytes p n rng).1, rng) := by
  unfold csprngBytes
  rw [incSqueeze_eq _ (xofRate_pos p) _ _ (Nat.le_of_lt h)]
  exact unsqueeze_eq _ n rng h

theorem lessKeygen_rng {fuel : Nat} {sl : Nat → Stale p} {rng r : Inc} (hr : RngOk p rng) {sk : PriKey p} {pk : PubKey p}
    (h : lessKeygen fuel sl rng = .ok (sk, pk, r)) : r = (csprngBytes p (p.skSeedLen + p.seedLen) rng).2 := by
  rw [csprngBytes_add p _ _ _ hr]
  unfold lessKeygen at h
  dsimp only at h
  obtain ⟨_, -, h⟩ := run_of_bind h
  obtain ⟨_, -, h⟩ := run_of_bind h
  obtain ⟨_, -, h⟩ := run_of_bind h
  cases h
  rfl

theorem lessSign_rng {n fuel : Nat} {sl : Nat → Stale p} {rng r : Inc} (hr : RngOk p rng) {sk : PriKey p} {m : Bytes} {out sig : SignT p n}
    {num : Nat} (h : lessSign fuel sl rng sk m out = .ok (sig, num, r)) : r = (csprngBytes p (p.seedLen + p.hashLen) rng).2 := by
  rw [csprngBytes_add p _ _ _ hr]
  unfold lessSign at h
  dsimp only at h
  obtain ⟨_, -, h⟩ := run_of_bind h
  obtain ⟨_, -, h⟩ := run_of_bind h
  obtain ⟨_, -, h⟩ := run_of_bind h
  obtain ⟨_, -, h⟩ := run_of_bind h
  obtain ⟨_, -, h⟩ := run_of_bind h
  obtain ⟨_, -, h⟩ := run_of_bind h
  obtain ⟨_, -, h⟩ := run_of_bind h
  obtain ⟨_, -, h⟩ := run_of_bind h
  obtain ⟨_, -, h⟩ := run_of_bind h
  obtain ⟨_, -, h⟩ := run_of_bind h
  cases h
  rfl

theorem csprngBytes_zero (hr : RngOk p rng) : csprngBytes p 0 rng = ([], rng) := by
  unfold csprngBytes
  rw [incSqueeze_eq _ (xofRate_pos p) _ _ hr]
  rfl

/-- The state of the generator after calls is that after drawing `taken` bytes at once. -/
theorem World.run_rng {fuel : Nat} (env : Nat → (Nat → Stale p) × SignT p p.storageLen) (ops : List Op) {w w' : World p}
    (hr : RngOk p w.rng) (e : w.run fuel env ops = .ok w') : w'.rng = (csprngBytes p (taken p w.keys.length ops) w.rng).2 := by
  induction ops generalizing w with
  | nil => cases e; rw [taken, csprngBytes_zero hr]
  | cons op ops ih =>
    unfold World.run at e
    obtain ⟨w₁, h, e'⟩ := run_of_bind e
    cases op with
    | keygen =>
      unfold World.step at h
      obtain ⟨⟨sk, pk, rng⟩, hk, h⟩ := run_of_bind h
      cases h
      have h1 := lessKeygen_rng hr hk
      have h2 := csprngBytes_ok p (p.skSeedLen + p.seedLen) _ hr
      rw [← h1] at h2
      have := ih h2 e'
      rw [this, taken, csprngBytes_add p _ _ _ hr, List.length_append, ← h1]
      rfl
    | sign key m =>
      unfold World.step at h
      unfold taken
      cases hkey : w.keys[key]? with
      | none =>
        dsimp only at h
        rw [hkey] at h
        cases h
        rw [List.getElem?_eq_none_iff] at hkey
        rw [if_neg (by omega), Nat.zero_add]
        exact ih hr e'
      | some k =>
        have hlt : key < w.keys.length := by rw [List.getElem?_eq_some_iff] at hkey; exact hkey.1
        dsimp only at h
        rw [hkey] at h
        obtain ⟨⟨sig, num, rng⟩, hk, h⟩ := run_of_bind h
        cases h
        have h1 := lessSign_rng hr hk
        have h2 := csprngBytes_ok p (p.seedLen + p.hashLen) _ hr
        rw [← h1] at h2
        have := ih h2 e'
        rw [this, if_pos hlt, csprngBytes_add p _ _ _ hr, ← h1]
    | verify i =>
      have hw : w₁.rng = w.rng ∧ w₁.keys = w.keys := by
        unfold World.step at h
        cases hd : w.made[i]? with
        | none => dsimp only at h; rw [hd] at h; cases h; exact ⟨rfl, rfl⟩
        | some d =>
          dsimp only at h
          rw [hd] at h
          dsimp only at h
          cases hk : w.keys[d.key]? with
          | none => rw [hk] at h; cases h; exact ⟨rfl, rfl⟩
          | some k =>
            rw [hk] at h
            obtain ⟨r, -, h⟩ := run_of_bind h
            cases h; exact ⟨rfl, rfl⟩
      have := ih (w := w₁) (by rw [hw.1]; exact hr) e'
      rw [hw.1, hw.2] at this
      exact this

theorem ledger_taken (p : Params) (ops : List Op) (b : Ledger) :
    (ops.foldl (Ledger.step p) b).pos = b.pos + taken p b.keys.length ops := by
  induction ops generalizing b with
  | nil => rfl
  | cons op ops ih =>
    rw [List.foldl_cons, ih]
    cases op with
    | keygen => simp only [Ledger.step, taken, List.length_append, List.length_singleton]; omega
    | sign key m =>
      simp only [Ledger.step, taken]
      split <;> first | omega | (dsimp only; omega)
    | verify i => rfl

variable {fuel : Nat} {seed : Bytes} {ops ops' : List Op} {env env' env₁ env₂ : Nat → (Nat → Stale p) × SignT p p.storageLen}
  {w w' w₁ w₂ : World p}

/-- C96: from the state of the generator at the end of any history of calls the whole output so far is computed, if one knows how
many keys and signatures were made. -/
theorem C96_fails_history (e : (World.start (initCsprng p seed) : World p).run fuel env ops = .ok w) :
    unsqueeze p.xofRate (taken p 0 ops) w.rng = ((xof p seed).take (taken p 0 ops), initCsprng p seed) := by
  have h := World.run_rng env ops (initCsprng_ok p seed) e
  rw [h]
  have h0 : (initCsprng p seed).pos < p.xofRate := by
    unfold initCsprng; rw [incFinalize_pos]; exact xofRate_pos p
  rw [← (xof_at p seed).2]
  exact C96_fails_backtrack _ h0

theorem ledger_end (p : Params) (ops : List Op) :
    (∀ o ∈ (Ledger.after p ops).keys, o + (p.skSeedLen + p.seedLen) ≤ taken p 0 ops) ∧
    ∀ o ∈ (Ledger.after p ops).made, o + (p.seedLen + p.hashLen) ≤ taken p 0 ops := by
  have h : ∀ (ops : List Op) (b : Ledger), ((b.stretches p).Pairwise Apart ∧ ∀ x ∈ b.stretches p, x.1 + x.2 ≤ b.pos) →
      ∀ x ∈ (ops.foldl (Ledger.step p) b).stretches p, x.1 + x.2 ≤ (ops.foldl (Ledger.step p) b).pos := by
    intro ops
    induction ops with
    | nil => exact fun b h => h.2
    | cons op ops ih => exact fun b h => ih _ (apart_step p b op h)
  have h0 := h ops ⟨0, [], []⟩ ⟨by simp [Ledger.stretches], by simp [Ledger.stretches]⟩
  have h1 := ledger_taken p ops ⟨0, [], []⟩
  rw [h1] at h0
  simp only [List.length_nil, Nat.zero_add] at h0
  constructor
  · intro o ho
    exact h0 (o, p.skSeedLen + p.seedLen) (List.mem_append_left _ (List.mem_map_of_mem ho))
  · intro o ho
    exact h0 (o, p.seedLen + p.hashLen) (List.mem_append_right _ (List.mem_map_of_mem ho))

theorem take_drop_take (s : Stream) {n o k : Nat} (h : o + k ≤ n) : ((s.take n).drop o).take k = (s.drop o).take k := by
  obtain ⟨d, rfl⟩ := Nat.exists_eq_add_of_le h
  rw [take_add, take_add, List.append_assoc, List.drop_left' (take_length s o), List.take_left' (take_length _ k)]

/-- Two lists in step, one of them with a further fact about its members. -/
theorem forall₂_mem {α β : Type} {R S : α → β → Prop} {l : List α} {l' : List β} (h : List.Forall₂ R l l')
    (hS : ∀ a, ∀ b ∈ l', R a b → S a b) : List.Forall₂ S l l' := by
  induction h with
  | nil => exact .nil
  | cons h1 h2 ih => exact .cons (hS _ _ (List.mem_cons_self ..) h1) (ih fun a b hb => hS a b (List.mem_cons_of_mem _ hb))

/-- C96: so every private key made, and the ephemeral seed of every signature made, is read off the state of the generator, however
many calls were made since.  The places are those of the ledger of C65, which is kept from the calls alone. -/
theorem C96_fails_keys (hp : p.WF) (e : (World.start (initCsprng p seed) : World p).run fuel env ops = .ok w) :
    List.Forall₂ (fun k o => k.1.spec.secret = ((unsqueeze p.xofRate (taken p 0 ops) w.rng).1.drop o).take p.skSeedLen)
      w.keys (Ledger.after p ops).keys ∧
    List.Forall₂ (fun (d : Made p) o => ∃ k count, w.keys[d.key]? = some k ∧
      Signed p fuel k.1.spec (((unsqueeze p.xofRate (taken p 0 ops) w.rng).1.drop o).take p.seedLen) d.m d.sig.spec count)
      w.made (Ledger.after p ops).made := by
  obtain ⟨h1, h2, -⟩ := C65_stretches hp fuel env seed ops e
  obtain ⟨h3, h4⟩ := ledger_end p ops
  rw [C96_fails_history e]
  dsimp only
  constructor
  · refine forall₂_mem h1 fun k o ho h => ?_
    rw [take_drop_take _ (by have := h3 o ho; omega)]
    exact h.1
  · refine forall₂_mem h2 fun d o ho h => ?_
    rw [take_drop_take _ (by have := h4 o ho; omega)]
    exact h.2

/-- Whoever has a signature and its ephemeral seed has, for every round with a response, a monomial that carries the code used in the
round to the public starting code: the secret. -/
theorem ephemeral_reveals (hp : p.WF) {B : Nat} {sk : SK p} {pk : PK p} (hk : KeyPair p B sk pk) {root m : List UInt8} {sig : Sig p}
    {count : Nat} (h : Signed p B sk root m sig count) :
    ∃ (G0 : Matrix (Fin p.K) (Fin p.N) (ZMod 127)) (v : Nat → Nat), IsG0 p B (xof p pk.seed) G0 ∧ IsChallenge p B (xof p sig.digest) v ∧
      ∀ i < p.T, ∃ x M, AnswerOf p B sig v i x ∧ IsMonomial p B (roundStream p sig.salt (signerLeaf p root sig.salt i) i) M ∧
        (extract p (publicCode pk G0 (v i)) x G0 (.seed M)).IsMonomial ∧
        RowEq (ColOp.on (publicCode pk G0 (v i)) (extract p (publicCode pk G0 (v i)) x G0 (.seed M))) G0 := by
  obtain ⟨v, coms, G0, hG0, hch, -, hr⟩ := signed_rounds hp hk h
  have hG : IsG0 p B (xof p pk.seed) G0 := by rw [hk.1]; exact hG0
  refine ⟨G0, v, hG, hch, fun i hi => ?_⟩
  obtain ⟨a1, M, a2, a3, -⟩ := hr i hi
  obtain ⟨x, hx1, hx2, hx3⟩ := RoundCommit.answer hp a1 hG
  obtain ⟨mm, hm, rfl⟩ := a2.valid hp
  exact ⟨x, mm.mat, hx1, a2, C12_extract hp (y := .seed mm.mat) hx2 hm.perm hx3 a3⟩

/-- C96: the state of the generator after a call of `LESS_sign`, together with the signature, gives the secret maps, also if the
private key itself was made elsewhere. -/
theorem C96_fails_sign (hp : p.WF) {n : Nat} {sl : Nat → Stale p} {rng rng' : Inc} (hr : rng.pos < p.xofRate) {sk : PriKey p} {pk : PubKey p}
    (hk : KeyPair p fuel sk.spec pk.spec) {m : Bytes} {out sig : SignT p n} {num : Nat} (hn : p.storageLen ≤ n)
    (h : lessSign fuel sl rng sk m out = .ok (sig, num, rng')) :
    let root := (unsqueeze p.xofRate (p.seedLen + p.hashLen) rng').1.take p.seedLen
    ∃ (G0 : Matrix (Fin p.K) (Fin p.N) (ZMod 127)) (v : Nat → Nat), IsG0 p fuel (xof p pk.spec.seed) G0 ∧
      IsChallenge p fuel (xof p sig.spec.digest) v ∧
      ∀ i < p.T, ∃ x M, AnswerOf p fuel sig.spec v i x ∧
        IsMonomial p fuel (roundStream p sig.spec.salt (signerLeaf p root sig.spec.salt i) i) M ∧
        (extract p (publicCode pk.spec G0 (v i)) x G0 (.seed M)).IsMonomial ∧
        RowEq (ColOp.on (publicCode pk.spec G0 (v i)) (extract p (publicCode pk.spec G0 (v i)) x G0 (.seed M))) G0 := by
  have hr' : RngOk p rng := Nat.le_of_lt hr
  obtain ⟨s, hs⟩ := exists_stream p rng hr'
  obtain ⟨-, h2, -⟩ := (lessSign_wp hp fuel sl rng sk m out s hs hn).of_ok h
  have h3 := lessSign_rng hr' h
  have h4 : (unsqueeze p.xofRate (p.seedLen + p.hashLen) rng').1.take p.seedLen = s.take p.seedLen := by
    rw [h3, C96_fails_backtrack _ hr, hs.2, take_take _ _ _ (by omega)]
  dsimp only
  rw [h4]
  exact ephemeral_reveals hp hk h2

/-- A context that has absorbed a short seed shows the seed. -/
theorem initCsprng_seed {seed : Bytes} (h : seed.length < p.xofRate) : extractBytes (initCsprng p seed).s 0 seed.length = seed := by
  have hle := xofRate_le p
  apply bits_inj
  rw [extract_bits _ _ (by omega)]
  have hst : ∀ i : Fin 1600, i.val / 8 < seed.length → strOf (initCsprng p seed).s i = (bits seed).getD i false := by
    intro i hi
    have h0 : incAbsorb p.xofRate incInit seed = ⟨xorBytes (Vector.replicate 25 0) seed 0, seed.length⟩ := by
      rw [incAbsorb, dif_neg (by unfold incInit; dsimp only; omega)]
      unfold incInit
      rw [Nat.zero_add]
    have hb : strOf (xorBytes (Vector.replicate 25 0) seed 0) i = (bits seed).getD i false := by
      rw [strOf_xorBlock, Spec.xorBlock, strOf_zero, Bool.false_xor]
    unfold initCsprng incFinalize
    rw [h0]
    dsimp only
    have h1 : ¬ seed.length ≤ i.val / 8 := by omega
    have h2 : ¬ p.xofRate - 1 ≤ i.val / 8 := by omega
    split
    · rw [strOf_xorBytes, hb, decide_eq_false h1, Bool.false_and, Bool.xor_false]
    · rw [strOf_xorBytes, strOf_xorBytes, hb, decide_eq_false h1, decide_eq_false h2, Bool.false_and, Bool.false_and, Bool.xor_false,
        Bool.xor_false]
  apply list_ext_getD
  · rw [bits_length, Spec.truncate, List.length_take, List.length_map, List.length_finRange]; omega
  · intro i hi
    rw [Spec.truncate, List.length_take, List.length_map, List.length_finRange] at hi
    rw [← hst ⟨i, by omega⟩ (by dsimp only; omega), Spec.truncate, List.getD_eq_getElem?_getD, List.getElem?_take, if_pos (by omega),
      List.getElem?_map, List.getElem?_eq_getElem (by simp; omega)]
    simp

/-- C96: if the generator was seeded with fewer bytes than a block (the test programs use 48), the state shows the seed, and with it
everything the generator will put out. -/
theorem C96_fails_seed (e : (World.start (initCsprng p seed) : World p).run fuel env ops = .ok w) (h : seed.length < p.xofRate) :
    extractBytes (unsqueeze p.xofRate (taken p 0 ops) w.rng).2.s 0 seed.length = seed := by
  rw [C96_fails_history e]
  exact initCsprng_seed h

/-- `privateSeedsCtx` is `privateSeeds`, with the context. -/
theorem privateSeedsCtx_fst (p : Params) (sk : Bytes) : (privateSeedsCtx p sk).map Prod.fst = privateSeeds p sk := by
  unfold privateSeeds
  rw [← privateSeedsCtx.eq_1]
  cases privateSeedsCtx p sk <;> rfl

/-- C96: the context that LESS_keygen and LESS_sign leave on the stack after expanding the private key shows the private key. -/
theorem C96_fails_context {sk : Bytes} (hsk : sk.length = p.skSeedLen) {seeds : Vector (Vector UInt8 p.skSeedLen) (p.numKeypairs - 1)} {st : Inc}
    (h : privateSeedsCtx p sk = .ok (seeds, st)) :
    privateSeeds p sk = .ok seeds ∧ extractBytes (unsqueeze p.xofRate ((p.numKeypairs - 1) * p.skSeedLen) st).2.s 0 p.skSeedLen = sk := by
  refine ⟨by rw [← privateSeedsCtx_fst, h]; rfl, ?_⟩
  have hst : st = (csprngBytes p ((p.numKeypairs - 1) * p.skSeedLen) (initCsprng p sk)).2 := by
    refine (forUp_run (fun i (s : Vector (Vector UInt8 p.skSeedLen) (p.numKeypairs - 1) × Inc) =>
      s.2 = (csprngBytes p (i * p.skSeedLen) (initCsprng p sk)).2) ?_ ?_ h :)
    · rw [Nat.zero_mul, csprngBytes_zero (initCsprng_ok p sk)]
    · rintro i ⟨a, b⟩ ⟨a', b'⟩ - hi he
      dsimp only at hi he
      obtain ⟨_, -, he⟩ := run_of_bind he
      cases he
      dsimp only
      rw [Nat.succ_mul, csprngBytes_add p _ _ _ (initCsprng_ok p sk), hi]
  have h0 : (initCsprng p sk).pos < p.xofRate := by
    unfold initCsprng; rw [incFinalize_pos]; exact xofRate_pos p
  rw [hst, C96_fails_backtrack _ h0, ← hsk]
  refine initCsprng_seed ?_
  rw [hsk]
  unfold Params.skSeedLen Params.seedLen Params.xofRate
  cases p.cat <;> decide

/-- C96, the part that holds: a call of `initialize_csprng` cuts the state off from the past.  Whatever two processes did before, with
whatever seeds, if they then seed the generator with the same bytes and make calls, having equally many keys, the states of their
generators are the same.  Missing: the claim without such a call, which is false. -/
theorem C96_reseeded_partial {new : Bytes} (h : w.copy fuel env₁ ⟨some new, ops⟩ = .ok w₁) (h' : w'.copy fuel env₂ ⟨some new, ops⟩ = .ok w₂)
    (hlen : w.keys.length = w'.keys.length) : w₁.rng = w₂.rng := by
  have h1 := World.run_rng env₁ ops (initCsprng_ok p new) h
  have h2 := World.run_rng env₂ ops (initCsprng_ok p new) h'
  rw [h1, h2, hlen]

/-- C69: processes that seed their generators with different seeds of one length, shorter than a block, are never in the same state
when they have drawn equally many bytes, however many these are. -/
theorem C69_states_differ {seed seed' : Bytes} (hlen : seed.length = seed'.length) (hr : seed.length < p.xofRate) (hne : seed ≠ seed') (n : Nat) :
    (csprngBytes p n (initCsprng p seed)).2 ≠ (csprngBytes p n (initCsprng p seed')).2 := by
  intro h
  have h0 : ∀ s : Bytes, (initCsprng p s).pos < p.xofRate := fun s => by
    unfold initCsprng; rw [incFinalize_pos]; exact xofRate_pos p
  have e1 := C96_fails_backtrack (p := p) n (h0 seed)
  have e2 := C96_fails_backtrack (p := p) n (h0 seed')
  rw [h, e2] at e1
  have e3 : initCsprng p seed' = initCsprng p seed := congrArg Prod.snd e1
  have e4 := initCsprng_seed hr
  rw [← e3, hlen, initCsprng_seed (by rw [← hlen]; exact hr)] at e4
  exact hne e4.symm

/-- Two seeds of 48 bytes, as the test programs use. -/
example (n : Nat) : (csprngBytes .cat1Balanced n (initCsprng .cat1Balanced (List.replicate 48 0))).2 ≠
    (csprngBytes .cat1Balanced n (initCsprng .cat1Balanced (1 :: List.replicate 47 0))).2 :=
  C69_states_differ (by simp) (by decide) (by decide) n

end LESS
