import Verif.Model.ByteOrder
import Verif.Proofs.Complete
import Verif.Proofs.KatRng
import Verif.Proofs.Fuel
/-!
# The scheme on a machine of either byte order
-/
namespace LESS
open Spec

variable {p : Params} {F : Prop}

namespace Machine

/-! ## The little-endian machine is the model of the other modules -/

theorem sampleLoop_little {n : Nat} (p : Params) (lo span b fuel : Nat) (st : Inc) (buf : Vector Nat n) (count : Nat) :
    sampleLoop .little p lo span b fuel st buf count = LESS.sampleLoop p lo span b fuel st buf count := by
  induction fuel generalizing st buf count with
  | zero => rfl
  | succ fuel ih =>
    unfold sampleLoop LESS.sampleLoop
    simp only [ih]
    rfl

theorem randState_little {n : Nat} (p : Params) (lo hi fuel : Nat) (st : Inc) (buf : Vector Nat n) :
    randState .little p lo hi fuel st buf = LESS.randState p lo hi fuel st buf := by
  unfold randState LESS.randState
  exact sampleLoop_little ..

theorem monomialFromState_little (fuel : Nat) (stale : Monomial p) (st : Inc) :
    monomialFromState .little fuel stale st = LESS.monomialFromState fuel stale st := by
  unfold monomialFromState LESS.monomialFromState fqStarRndState
  simp only [randState_little]
  rfl

theorem saltRnd_little (fuel : Nat) (stale : Monomial p) (seed salt : Bytes) (i : Nat) :
    monomialSeedExpandSaltRnd .little fuel stale seed salt i = LESS.monomialSeedExpandSaltRnd fuel stale seed salt i := by
  unfold monomialSeedExpandSaltRnd LESS.monomialSeedExpandSaltRnd
  simp only [monomialFromState_little]
  rfl

theorem prikey_little (fuel : Nat) (stale : Monomial p) (seed : Bytes) :
    monomialSeedExpandPrikey .little fuel stale seed = LESS.monomialSeedExpandPrikey fuel stale seed := by
  unfold monomialSeedExpandPrikey LESS.monomialSeedExpandPrikey
  simp only [monomialFromState_little]

theorem generatorSF_little (fuel : Nat) (stale : RrefMat p) (seed : Bytes) :
    generatorSFSeedExpand .little fuel stale seed = LESS.generatorSFSeedExpand fuel stale seed := by
  unfold generatorSFSeedExpand LESS.generatorSFSeedExpand
  simp only [randState_little]
  rfl

theorem expandDigestLoop_little (p : Params) (fuel : Nat) (st : Inc) (placed : Nat) (fws : Vector Nat p.T) :
    expandDigestLoop .little p fuel st placed fws = LESS.expandDigestLoop p fuel st placed fws := by
  induction fuel generalizing st placed fws with
  | zero => rfl
  | succ fuel ih =>
    unfold expandDigestLoop LESS.expandDigestLoop
    simp only [ih]
    rfl

theorem expandDigest_little (fuel : Nat) (fws : Vector Nat p.T) (d : Bytes) :
    expandDigest .little fuel fws d = LESS.expandDigest fuel fws d := expandDigestLoop_little ..

theorem expandG0_little (fuel : Nat) (sl : Stale p) (seed : Bytes) :
    expandG0 .little fuel sl seed = LESS.expandG0 fuel sl seed := by
  unfold expandG0 LESS.expandG0
  rw [generatorSF_little]

theorem keygenOne_little (fuel : Nat) (sl : Stale p) (G0 : GenMat p) (seed : Bytes) (buf : Vector UInt8 p.rrefBytes) :
    keygenOne .little fuel sl G0 seed buf = LESS.keygenOne fuel sl G0 seed buf := by
  unfold keygenOne LESS.keygenOne
  rw [prikey_little]

theorem lessKeygen_little (fuel : Nat) (sl : Nat → Stale p) (rng : Inc) :
    lessKeygen .little fuel sl rng = LESS.lessKeygen fuel sl rng := by
  unfold lessKeygen LESS.lessKeygen
  simp only [expandG0_little, keygenOne_little]

theorem signRound_little (fuel : Nat) (sl : Stale p) (G0 : GenMat p) (tree : TreeBuf p) (salt : Bytes) (i : Nat)
    (s : Vector (MonoAction p) p.T × Inc) :
    signRound .little fuel sl G0 tree salt i s = LESS.signRound fuel sl G0 tree salt i s := by
  unfold signRound LESS.signRound
  simp only [saltRnd_little]

theorem signResponse_little (fuel : Nat) (sl : Stale p) (fws : Vector Nat p.T)
    (seeds : Vector (Vector UInt8 p.skSeedLen) (p.numKeypairs - 1)) (acts : Vector (MonoAction p) p.T)
    (i : Nat) (s : Vector (Vector UInt8 p.monoBytes) p.W × Nat) :
    signResponse .little fuel sl fws seeds acts i s = LESS.signResponse fuel sl fws seeds acts i s := by
  unfold signResponse LESS.signResponse
  simp only [prikey_little]

theorem lessSign_little {n : Nat} (fuel : Nat) (sl : Nat → Stale p) (rng : Inc) (sk : PriKey p) (m : Bytes) (sig : SignT p n) :
    lessSign .little fuel sl rng sk m sig = LESS.lessSign fuel sl rng sk m sig := by
  unfold lessSign LESS.lessSign
  have h1 : ∀ (sl : Nat → Stale p) (G0 : GenMat p) tree salt,
      (fun i => signRound .little fuel (sl (i + 1)) G0 tree salt i) = fun i => LESS.signRound fuel (sl (i + 1)) G0 tree salt i := by
    intros; funext i s; exact signRound_little ..
  have h2 : ∀ (fws : Vector Nat p.T) seeds acts,
      (fun i => signResponse .little fuel (sl (p.T + i + 1)) fws seeds acts i) =
        fun i => LESS.signResponse fuel (sl (p.T + i + 1)) fws seeds acts i := by
    intros; funext i s; exact signResponse_little ..
  simp only [h1, h2, expandG0_little, expandDigest_little]

theorem verifyRound_little {n : Nat} (fuel : Nat) (sl : Stale p) (pk : PubKey p) (sig : SignT p n)
    (fws : Vector Nat p.T) (tree : TreeBuf p) (G0 : RrefMat p) (i : Nat) (s : Inc × Nat) :
    verifyRound .little fuel sl pk sig fws tree G0 i s = LESS.verifyRound fuel sl pk sig fws tree G0 i s := by
  unfold verifyRound LESS.verifyRound
  simp only [saltRnd_little]
  rfl

theorem lessVerify_little {n : Nat} (fuel : Nat) (sl : Nat → Stale p) (pk : PubKey p) (m : Bytes) (sig : SignT p n) :
    lessVerify .little fuel sl pk m sig = LESS.lessVerify fuel sl pk m sig := by
  unfold lessVerify LESS.lessVerify
  have h1 : ∀ (fws : Vector Nat p.T) tree G0, (fun i => verifyRound .little fuel (sl (i + 1)) pk sig fws tree G0 i) =
      fun i => LESS.verifyRound fuel (sl (i + 1)) pk sig fws tree G0 i := by
    intros; funext i s; exact verifyRound_little ..
  simp only [h1, expandDigest_little, generatorSF_little]
  rfl

/-! ## Samplers -/

/-- The sampling loop without its buffer. -/
def sampleRec (o : ByteOrder) (p : Params) (b lo span n : Nat) : Nat → Inc → List Nat → C (Vector Nat n × Inc)
  | 0, _, _ => .error .fuel
  | fuel + 1, st, acc =>
    let l := acc ++ acc1 b lo span (o.word (csprngBytes p 8 st).1) (64 / b)
    if n ≤ l.length then .ok (arr n (l.take n), (csprngBytes p 8 st).2)
    else sampleRec o p b lo span n fuel (csprngBytes p 8 st).2 l

theorem sampleLoop_eq {n : Nat} (o : ByteOrder) (p : Params) (lo span b : Nat) (hlo : lo + span < 256) (hb : b ≤ 8)
    (fuel : Nat) (st : Inc) (buf : Vector Nat n) (acc : List Nat) (hacc : acc.length < n)
    (hbuf : Pre buf acc) :
    sampleLoop o p lo span b fuel st buf acc.length = sampleRec o p b lo span n fuel st acc := by
  induction fuel generalizing st buf acc with
  | zero => rfl
  | succ fuel ih =>
    unfold sampleLoop sampleRec
    obtain ⟨r, ho, hP⟩ := (sampleFields_spec lo span b (o.word (csprngBytes p 8 st).1) buf acc hlo hb hacc
      hbuf).exists_ok
    simp only [ho]
    rcases r with buf' | ⟨w, buf', count'⟩
    · simp only at hP
      rw [if_pos hP.1, hP.2]; rfl
    · simp only at hP
      obtain ⟨h1, h2, h3⟩ := hP
      subst h2
      rw [if_neg (by omega)]
      exact ih _ _ _ h1 h3

theorem randState_eq {n : Nat} (o : ByteOrder) (p : Params) (lo hi fuel : Nat) (st : Inc) (buf : Vector Nat n)
    (hlo : lo ≤ hi) (hhi : hi < 256) (hn : 0 < n) :
    randState o p lo hi fuel st buf =
      sampleRec o p (bitsToRepresent (hi - lo)) lo (hi - lo) n fuel st [] := by
  unfold randState
  have hu : u8 (hi - lo) = hi - lo := by unfold u8; omega
  rw [hu]
  have hb : bitsToRepresent (hi - lo) ≤ 8 := by
    by_cases h0 : hi - lo = 0
    · rw [h0]; decide
    · obtain ⟨d, h1, h2, h3, h4⟩ := exists_bits 8 (hi - lo) (by omega) (by omega)
      rw [bitsToRepresent_of_range h1 (by omega) h3 h4]; exact h2
  exact sampleLoop_eq o p lo (hi - lo) _ (by omega) hb fuel st buf [] hn (by intro k hk; simp at hk)

theorem randState_stale {n : Nat} (o : ByteOrder) (p : Params) (lo hi fuel : Nat) (st : Inc) (buf buf' : Vector Nat n)
    (hlo : lo ≤ hi) (hhi : hi < 256) (hn : 0 < n) :
    randState o p lo hi fuel st buf = randState o p lo hi fuel st buf' := by
  rw [randState_eq o p lo hi fuel st buf hlo hhi hn, randState_eq o p lo hi fuel st buf' hlo hhi hn]

theorem sampleRec_wp (o : ByteOrder) (p : Params) (b lo span n fuel : Nat) (st : Inc) (acc : List Nat)
    (hacc : ∀ x ∈ acc, lo ≤ x ∧ x ≤ lo + span) :
    Wp True (sampleRec o p b lo span n fuel st acc) (fun r => ∀ i, i < n → lo ≤ g r.1 i ∧ g r.1 i ≤ lo + span) := by
  induction fuel generalizing st acc with
  | zero => trivial
  | succ fuel ih =>
    unfold sampleRec
    have hall : ∀ x ∈ acc ++ acc1 b lo span (o.word (csprngBytes p 8 st).1) (64 / b),
        lo ≤ x ∧ x ≤ lo + span := by
      intro x hx
      rcases List.mem_append.mp hx with h | h
      · exact hacc x h
      · exact acc1_mem h
    simp only [Wp.ite_iff, Wp.ok_iff]
    refine ⟨fun hn i hi => ?_, fun hn => ih _ _ hall⟩
    rw [arr, g_ofFn _ _ hi]
    simp only
    have hlen : i < ((acc ++ acc1 b lo span (o.word (csprngBytes p 8 st).1) (64 / b)).take n).length := by
      rw [List.length_take]; omega
    rw [List.getD_eq_getElem?_getD, List.getElem?_eq_getElem hlen]
    exact hall _ (List.mem_of_mem_take (List.getElem_mem hlen))

theorem randState_wp {n : Nat} (o : ByteOrder) (p : Params) (lo hi fuel : Nat) (st : Inc) (buf : Vector Nat n)
    (hlo : lo ≤ hi) (hhi : hi < 256) (hn : 0 < n) :
    Wp True (randState o p lo hi fuel st buf) (fun r => ∀ i, i < n → lo ≤ g r.1 i ∧ g r.1 i ≤ hi) := by
  rw [randState_eq o p lo hi fuel st buf hlo hhi hn]
  refine (sampleRec_wp o p _ lo (hi - lo) n fuel st [] (by simp)).mono ?_
  intro r hr i hi
  have := hr i hi
  omega

theorem shuffleDraws_range (o : ByteOrder) (bytes : Bytes) (hN : p.N < 4294967296) (i : Nat) (hi : i < p.N - 1) :
    i ≤ g (shuffleDraws o p bytes) i ∧ g (shuffleDraws o p bytes) i < p.N := by
  rw [shuffleDraws, g_ofFn _ _ (by omega)]
  simp only [hi, if_true]
  have := Nat.mod_lt (o.word ((bytes.drop (4 * i)).take 4)) (show 0 < p.N - i by omega)
  unfold u32
  omega

theorem monomialFromState_stale (o : ByteOrder) (fuel : Nat) (s s' : Monomial p) (st : Inc) (hN0 : 0 < p.N)
    (hN : p.N ≤ p.posMod) : monomialFromState o fuel s st = monomialFromState o fuel s' st := by
  unfold monomialFromState
  rw [randState_stale o p 1 (Q - 1) fuel st s.coefficients s'.coefficients (by decide) (by decide) hN0,
    identityPerm_eq _ hN, identityPerm_eq _ hN]

theorem monomialFromState_wp (o : ByteOrder) (fuel : Nat) (s : Monomial p) (st : Inc) (hN0 : 0 < p.N)
    (hN : p.N ≤ p.posMod) :
    Wp True (monomialFromState o fuel s st) (fun r => r.1.Valid) := by
  unfold monomialFromState
  rw [Wp.bind_iff]
  refine (randState_wp o p 1 (Q - 1) fuel st s.coefficients (by decide) (by decide) hN0).mono ?_
  rintro ⟨coefs, st'⟩ hc
  simp only [identityPerm_eq _ hN, Wp.bind_iff, Wp.ok_iff, ytShuffleState]
  have hsh := shuffleLoop_wp (p := p) (shuffleDraws o p (csprngBytes p (4 * p.N) st').1) _ (isPerm_id p.N)
    (fun i hi => shuffleDraws_range o _ (by have := posMod_le (p := p); omega) i hi)
  refine (hsh.monoF False.elim).mono ?_
  intro v hv
  refine ⟨hv, fun i hi => ?_⟩
  have := hc i hi
  simp only [Q] at this
  show 1 ≤ g coefs i ∧ g coefs i < 127
  omega

/-- The state `st` expands to the monomial matrix `m`, whatever the buffers held. -/
def Mono (o : ByteOrder) (fuel : Nat) (st : Inc) (m : Monomial p) : Prop :=
  m.Valid ∧ ∀ stale, ∃ st', monomialFromState o fuel stale st = .ok (m, st')

theorem Mono.unique {o : ByteOrder} {fuel : Nat} {st : Inc} {m m' : Monomial p} (h : Mono o fuel st m) (h' : Mono o fuel st m') :
    m = m' := by
  obtain ⟨a, ha⟩ := h.2 m
  obtain ⟨b, hb⟩ := h'.2 m
  rw [ha] at hb
  exact congrArg Prod.fst (Except.ok.inj hb)

theorem Mono.of_ok (hp : p.WF) {o : ByteOrder} {fuel : Nat} {stale : Monomial p} {st : Inc} {r : Monomial p × Inc}
    (h : monomialFromState o fuel stale st = .ok r) : Mono o fuel st r.1 := by
  have hN := hp.N_lt
  have hKN := hp.K_lt_N
  refine ⟨(monomialFromState_wp o fuel stale st (by omega) (by omega)).of_ok h, fun s => ⟨r.2, ?_⟩⟩
  rw [monomialFromState_stale o fuel s stale st (by omega) (by omega), h]

theorem Wp_of_ok {α : Type} {x : C α} {P Q : α → Prop} (h : Wp F x P) (h' : ∀ r, x = .ok r → Q r) : Wp F x Q := by
  cases e : x with
  | error c => rw [e] at h; cases c <;> exact h
  | ok r => exact h' r e

theorem monomialFromState_mono (hp : p.WF) (o : ByteOrder) (fuel : Nat) (stale : Monomial p) (st : Inc) :
    Wp True (monomialFromState o fuel stale st) (fun r => Mono o fuel st r.1) :=
  Wp_of_ok (monomialFromState_wp o fuel stale st (by have := hp.K_lt_N; omega) hp.N_lt.le) fun _ h => Mono.of_ok hp h

theorem prikey_wp (hp : p.WF) (o : ByteOrder) (fuel : Nat) (stale : Monomial p) (seed : Bytes) :
    Wp True (monomialSeedExpandPrikey o fuel stale seed) (Mono o fuel (initCsprng p seed)) := by
  unfold monomialSeedExpandPrikey
  rw [Wp.bind_iff]
  exact monomialFromState_mono hp o fuel stale _

/-- What a round's seed is expanded from. -/
def roundState (o : ByteOrder) (p : Params) (seed salt : Bytes) (i : Nat) : Inc :=
  initCsprng p (seed ++ salt ++ o.bytes16 (u16 i))

theorem saltRnd_wp (hp : p.WF) (o : ByteOrder) (fuel : Nat) (stale : Monomial p) (seed salt : Bytes) (i : Nat) :
    Wp True (monomialSeedExpandSaltRnd o fuel stale seed salt i) (Mono o fuel (roundState o p seed salt i)) := by
  unfold monomialSeedExpandSaltRnd
  dsimp only
  rw [Wp.bind_iff]
  exact monomialFromState_mono hp o fuel stale _

theorem saltRnd_ok {o : ByteOrder} {fuel : Nat} {seed salt : Bytes} {i : Nat} {m : Monomial p}
    (h : Mono o fuel (roundState o p seed salt i) m) (stale : Monomial p) :
    monomialSeedExpandSaltRnd o fuel stale seed salt i = .ok m := by
  obtain ⟨st', h'⟩ := h.2 stale
  unfold monomialSeedExpandSaltRnd
  unfold roundState at h'
  dsimp only
  rw [h']
  rfl

/-! ## The challenge -/

theorem expandDigestLoop_wp (o : ByteOrder) (fuel : Nat) (st : Inc) (placed : Nat) (v : Vector Nat p.T)
    (h1 : (support v).card = placed) (h2 : placed ≤ p.W) (h3 : ∀ k, k < p.T → g v k < p.numKeypairs) :
    Wp True (expandDigestLoop o p fuel st placed v) fun r =>
      (support r).card = p.W ∧ ∀ k, k < p.T → g r k < p.numKeypairs := by
  induction fuel generalizing st placed v with
  | zero =>
    unfold expandDigestLoop
    simp only [Wp.ite_iff, Wp.pure_iff, Wp.fuel_iff]
    exact ⟨fun _ => trivial, fun h => ⟨by omega, h3⟩⟩
  | succ fuel ih =>
    unfold expandDigestLoop
    generalize csprngBytes p 2 st = c
    obtain ⟨bytes, st'⟩ := c
    simp only [Wp.ite_iff, Wp.pure_iff, Wp.bind_iff, Wp.rd_iff, Wp.wr_iff]
    refine ⟨fun hlt => ⟨fun _ => ih _ _ _ h1 h2 h3, fun hv => ⟨fun _ => ih _ _ _ h1 h2 h3, fun hpos => ?_⟩⟩,
      fun h => ⟨by omega, h3⟩⟩
    refine ⟨by omega, fun _ => ih _ _ _ h1 h2 h3, fun h0 => ⟨by omega, ?_⟩⟩
    rw [not_not] at h0
    apply ih
    · rw [support_upd _ _ _ (by omega) h0, h1]
    · unfold b2n; split <;> omega
    · intro k hk
      rw [g_upd _ _ _ _ (by omega)]
      split
      · omega
      · exact h3 k hk

theorem expandDigest_wp (hp : p.WF) (o : ByteOrder) (fuel : Nat) (digest : Bytes) :
    Wp True (expandDigest o fuel (Vector.replicate p.T 0) digest) fun r =>
      weight p.T (g r) = p.W ∧ ∀ k, g r k < p.numKeypairs := by
  have hk0 := hp.numKeypairs_ge
  refine (expandDigestLoop_wp o fuel _ 0 _ ?_ (by omega) ?_).mono ?_
  · rw [Finset.card_eq_zero, support, Finset.filter_eq_empty_iff]
    intro k hk
    rw [Finset.mem_range] at hk
    simp [g_replicate _ _ hk]
  · intro k hk
    rw [g_replicate _ _ hk]
    omega
  · rintro r ⟨h1, h2⟩
    refine ⟨by rw [weight_eq_card]; exact h1, fun k => ?_⟩
    by_cases hk : k < p.T
    · exact h2 k hk
    · have : g r k = 0 := by simp [g, hk]
      omega

/-! ## The starting code -/

/-- The seed expands to the matrix `A`, whatever the buffers held. -/
def G0Ok (o : ByteOrder) (fuel : Nat) (seed : Bytes) (A : Matrix (Fin p.K) (Fin p.N) Fq) : Prop :=
  (∃ piv, IsRREF A piv) ∧ ∀ stale, ∃ c, generatorSFSeedExpand o fuel stale seed = .ok c ∧
    ∀ full, ∃ G, generatorRrefExpand full c = .ok G ∧ Reduced G ∧ matOf G = A

theorem generatorSF_wp (hp : p.WF) (o : ByteOrder) (fuel : Nat) (stale : RrefMat p) (seed : Bytes) :
    Wp True (generatorSFSeedExpand o fuel stale seed) (fun c =>
      (∀ z < p.N - p.K, g c.columnPos z = z + p.K) ∧ ∀ i j, i < p.K → j < p.N - p.K → g2 c.values i j < 127) := by
  have hKN := hp.K_lt_N
  have hpm := hp.N_lt
  unfold generatorSFSeedExpand
  rw [Wp.bind_iff]
  refine Wp.forUp (fun n (s : NormIS p × Inc) => ∀ i j, i < n → j < p.N - p.K → g2 s.1 i j < 127)
    (fun _ _ h => by omega) ?_ ?_
  · rintro n ⟨V, st⟩ hn h
    dsimp only at h ⊢
    simp only [Wp.bind_iff, Wp.rd_iff]
    refine ⟨hn, (randState_wp o p 0 (Q - 1) fuel st (g V n) (by decide) (by decide) (by omega)).mono ?_⟩
    rintro ⟨row, st'⟩ hrow
    rw [Wp.wr_iff]
    refine ⟨hn, fun i j hi hj => ?_⟩
    dsimp only
    rw [g2_upd _ _ _ _ _ hn]
    by_cases e : n = i
    · subst e; rw [if_pos rfl]; have := (hrow j hj).2; simp only [Q] at this; omega
    · rw [if_neg e]; exact h i j (by omega) hj
  · rintro ⟨V, st⟩ h
    dsimp only at h ⊢
    rw [Wp.bind_iff]
    refine Wp.forUp (fun n (v : Vector Nat (p.N - p.K)) => ∀ z < n, g v z = z + p.K) (fun _ h => by omega) ?_ ?_
    · intro n v hn hv
      rw [Wp.wr_iff]
      refine ⟨hn, fun z hz => ?_⟩
      rw [g_upd _ _ _ _ hn]
      by_cases e : n = z
      · subst e; rw [if_pos rfl, Nat.mod_eq_of_lt (by omega)]
      · rw [if_neg e, hv z (by omega)]
    · intro v hv
      rw [Wp.pure_iff]
      exact ⟨hv, h⟩

theorem forUp_rel {σ σ' : Type} {n : Nat} {f : Nat → σ → C σ} {f' : Nat → σ' → C σ'} {s t : σ} {s' : σ'}
    (R : Nat → σ → σ' → Prop) (h0 : R 0 s s')
    (hs : ∀ i a a' b, i < n → R i a a' → f i a = .ok b → ∃ b', f' i a' = .ok b' ∧ R (i + 1) b b')
    (h : forUp n f s = .ok t) : ∃ t', forUp n f' s' = .ok t' ∧ R n t t' := by
  induction n generalizing t with
  | zero => cases h; exact ⟨s', rfl, h0⟩
  | succ m ih =>
    change (forUp m f s >>= f m) = _ at h
    cases e : forUp m f s with
    | error c => rw [e] at h; cases h
    | ok u =>
      rw [e] at h
      obtain ⟨u', h1, h2⟩ := ih (fun i a a' b hi => hs i a a' b (by omega)) e
      obtain ⟨t', h3, h4⟩ := hs m u u' t (by omega) h2 h
      refine ⟨t', ?_, h4⟩
      show forUp m f' s' >>= f' m = _
      rw [h1]
      exact h3

theorem generatorSF_stale (hp : p.WF) (o : ByteOrder) (fuel : Nat) (stale stale' : RrefMat p) (seed : Bytes) {c : RrefMat p}
    (h : generatorSFSeedExpand o fuel stale seed = .ok c) :
    ∃ c', generatorSFSeedExpand o fuel stale' seed = .ok c' ∧ c' = c := by
  have hKN := hp.K_lt_N
  have hpm := hp.N_lt
  unfold generatorSFSeedExpand at h ⊢
  cases e : forUp p.K (fun i (s : NormIS p × Inc) => do
    let (values, st) := s
    let row ← rd values i
    let (row, st) ← randState o p 0 (Q - 1) fuel st row
    let values ← wr values i row
    pure (values, st)) (stale.values, initCsprng p seed) with
  | error c => rw [e] at h; cases h
  | ok t =>
    rw [e] at h
    have hrel : ∃ t', forUp p.K (fun i (s : NormIS p × Inc) => do
        let (values, st) := s
        let row ← rd values i
        let (row, st) ← randState o p 0 (Q - 1) fuel st row
        let values ← wr values i row
        pure (values, st)) (stale'.values, initCsprng p seed) = .ok t' ∧
        (t.2 = t'.2 ∧ ∀ i j, i < p.K → j < p.N - p.K → g2 t.1 i j = g2 t'.1 i j) := by
      refine forUp_rel (s := (stale.values, initCsprng p seed)) (fun n (a a' : NormIS p × Inc) => a.2 = a'.2 ∧ ∀ i j, i < n → j < p.N - p.K → g2 a.1 i j = g2 a'.1 i j)
        ⟨rfl, fun _ _ h => by omega⟩ ?_ e
      rintro i ⟨V, st⟩ ⟨V', st'⟩ ⟨W, st''⟩ hi ⟨h1, h2⟩ hb
      dsimp only at h1 h2 hb ⊢
      subst h1
      rw [Kat.rd_ok _ _ hi, Kat.ok_bind] at hb ⊢
      rw [randState_stale o p 0 (Q - 1) fuel st (g V' i) (g V i) (by decide) (by decide) (by omega)]
      cases e : randState o p 0 (Q - 1) fuel st (g V i) with
      | error c => rw [e] at hb; cases hb
      | ok r =>
        rw [e] at hb
        obtain ⟨row, st2⟩ := r
        rw [Kat.ok_bind] at hb ⊢
        dsimp only at hb ⊢
        rw [Kat.wr_ok _ _ _ hi, Kat.ok_bind] at hb ⊢
        cases hb
        refine ⟨_, rfl, rfl, fun a j ha hj => ?_⟩
        dsimp only
        rw [g2_upd _ _ _ _ _ hi, g2_upd _ _ _ _ _ hi]
        by_cases c : i = a
        · rw [if_pos c, if_pos c]
        · rw [if_neg c, if_neg c]; exact h2 a j (by omega) hj
    obtain ⟨t', h1, h2, h3⟩ := hrel
    rw [h1]
    have hv : t.1 = t'.1 := mat_ext fun i j hi hj => h3 i j hi hj
    rw [Kat.ok_bind] at h ⊢
    dsimp only at h ⊢
    have hpos : ∀ v : Vector Nat (p.N - p.K), forUp (p.N - p.K) (fun i pos => wr pos i ((i + p.K) % p.posMod)) v
        = .ok (Vector.ofFn fun z => z.val + p.K) := by
      intro v
      apply Wp.eq_ok
      refine Wp.forUp (fun n (v : Vector Nat (p.N - p.K)) => ∀ z < n, g v z = z + p.K) (fun _ h => by omega) ?_ ?_
      · intro n v hn hv
        rw [Wp.wr_iff]
        refine ⟨hn, fun z hz => ?_⟩
        rw [g_upd _ _ _ _ hn]
        by_cases e : n = z
        · subst e; rw [if_pos rfl, Nat.mod_eq_of_lt (by omega)]
        · rw [if_neg e, hv z (by omega)]
      · intro v hv
        apply vec_ext
        intro i hi
        rw [hv i hi, g_ofFn _ _ hi]
    rw [hpos] at h ⊢
    cases h
    exact ⟨_, rfl, by rw [hv]⟩

theorem G0Ok.of_ok (hp : p.WF) {o : ByteOrder} {fuel : Nat} {stale : RrefMat p} {seed : Bytes} {c : RrefMat p}
    (h : generatorSFSeedExpand o fuel stale seed = .ok c) : ∃ A : Matrix (Fin p.K) (Fin p.N) Fq, G0Ok o fuel seed A := by
  have hKN := hp.K_lt_N
  obtain ⟨hpos, hval⟩ := (generatorSF_wp hp o fuel stale seed).of_ok h
  have hnp := fun n hn => nonPiv_sys (p := p) n hn
  have e1 : ∀ j, j < p.N → (nonPiv (sysFlags p) j).length = j - p.K := by
    intro j hj; rw [hnp j (by omega)]; simp
  have e2 : ∀ j, j < p.N → g (sysFlags p) j = if j < p.K then 1 else 0 := by
    intro j hj; rw [sysFlags, g_ofFn _ _ hj]
  let A : Matrix (Fin p.K) (Fin p.N) Fq := fun i j =>
    if j.val < p.K then (if i.val = j.val then 1 else 0) else ((g2 c.values i (j.val - p.K) : Nat) : Fq)
  refine ⟨A, ⟨fun t => ⟨t.val, by omega⟩, ?_, ?_, ?_⟩, fun s => ?_⟩
  · exact fun a b hab => hab
  · intro i t
    simp only [A, t.2, if_true, Fin.ext_iff]
  · intro t j hj
    have : j.val < t.val := hj
    simp only [A, show j.val < p.K by omega, if_true]
    rw [if_neg (by omega)]
  · obtain ⟨c', h1, rfl⟩ := generatorSF_stale hp o fuel stale s seed h
    refine ⟨c', h1, fun full => ?_⟩
    obtain ⟨R, hok, hR⟩ := (generatorRrefExpand_wp (F := False) full c' (sysFlags p) (by
        rw [hnp _ (Nat.le_refl _)]; simp) (by
        intro z j hz
        rw [hnp _ (Nat.le_refl _), List.getElem?_map] at hz
        have hzl : z < p.N - p.K := by
          by_contra hc
          rw [List.getElem?_eq_none (by simpa using hc)] at hz
          simp at hz
        rw [List.getElem?_range hzl] at hz
        rw [hpos z hzl]
        simpa using hz)).exists_ok
    refine ⟨R, hok, fun i j hi hj => ?_, ?_⟩
    · rw [hR i j hi hj, e1 j hj, e2 j hj]
      by_cases hjk : j < p.K
      · simp only [hjk, if_true, one_ne_zero, if_false]
        unfold b2n; split <;> decide
      · simp only [hjk, if_false, if_true]
        exact hval i _ hi (by omega)
    · funext i j
      rw [matOf, hR i j i.2 j.2, e1 j j.2, e2 j j.2]
      by_cases hjk : j.val < p.K
      · simp only [A, hjk, if_true, one_ne_zero, if_false]
        rw [show j.val - p.K = 0 by omega]
        by_cases e : i.val = j.val <;> simp [b2n, e]
      · simp only [A, hjk, if_false, if_true]

theorem G0Ok.unique {o : ByteOrder} {fuel : Nat} {seed : Bytes} {A A' : Matrix (Fin p.K) (Fin p.N) Fq}
    (h : G0Ok o fuel seed A) (h' : G0Ok o fuel seed A') : A = A' := by
  let s : RrefMat p := ⟨Vector.replicate _ (Vector.replicate _ 0), Vector.replicate _ 0⟩
  let gm : GenMat p := Vector.replicate _ (Vector.replicate _ 0)
  obtain ⟨c, h1, h2⟩ := h.2 s
  obtain ⟨c', h1', h2'⟩ := h'.2 s
  rw [h1] at h1'
  cases h1'
  obtain ⟨G, a1, -, a2⟩ := h2 gm
  obtain ⟨G', b1, -, b2⟩ := h2' gm
  rw [a1] at b1
  cases b1
  rw [← a2, ← b2]

theorem expandG0_wp (hp : p.WF) (o : ByteOrder) (fuel : Nat) (sl : Stale p) (seed : Bytes) :
    Wp True (expandG0 o fuel sl seed) (fun G => Reduced G ∧ G0Ok o fuel seed (matOf G)) := by
  unfold expandG0
  rw [Wp.bind_iff]
  refine Wp_of_ok (generatorSF_wp hp o fuel sl.rref seed) fun c h => ?_
  obtain ⟨A, hA⟩ := G0Ok.of_ok hp h
  obtain ⟨c', h1, h2⟩ := hA.2 sl.rref
  rw [h] at h1
  cases h1
  obtain ⟨G, h3, h4, h5⟩ := h2 sl.gen
  rw [h3, Wp.ok_iff]
  exact ⟨h4, by rw [h5]; exact hA⟩

/-! ## More fuel never changes a result -/

theorem sampleLoop_below (o : ByteOrder) {n : Nat} (lo span b : Nat) {fuel fuel' : Nat} (h : fuel ≤ fuel') (st : Inc)
    (buf : Vector Nat n) (c : Nat) :
    Below (sampleLoop o p lo span b fuel st buf c) (sampleLoop o p lo span b fuel' st buf c) := by
  induction fuel generalizing fuel' st buf c with
  | zero => exact Below.fuel _
  | succ fuel ih =>
    obtain ⟨f', rfl⟩ : ∃ f', fuel' = f' + 1 := ⟨fuel' - 1, by omega⟩
    unfold sampleLoop
    refine (Below.refl _).bind ?_
    rintro (r | ⟨_, b', c'⟩)
    · exact Below.refl _
    · exact ih (by omega) _ _ _

theorem randState_below (o : ByteOrder) {n : Nat} (lo hi : Nat) {fuel fuel' : Nat} (h : fuel ≤ fuel') (st : Inc) (buf : Vector Nat n) :
    Below (randState o p lo hi fuel st buf) (randState o p lo hi fuel' st buf) := sampleLoop_below o _ _ _ h _ _ _

theorem monomialFromState_below (o : ByteOrder) {fuel fuel' : Nat} (h : fuel ≤ fuel') (s : Monomial p) (st : Inc) :
    Below (monomialFromState o fuel s st) (monomialFromState o fuel' s st) := by
  unfold monomialFromState
  exact (randState_below o _ _ h _ _).bind fun _ => Below.refl _

theorem saltRnd_below (o : ByteOrder) {fuel fuel' : Nat} (h : fuel ≤ fuel') (s : Monomial p) (seed salt : Bytes) (i : Nat) :
    Below (monomialSeedExpandSaltRnd o fuel s seed salt i) (monomialSeedExpandSaltRnd o fuel' s seed salt i) :=
  (monomialFromState_below o h _ _).bind fun _ => Below.refl _

theorem prikey_below (o : ByteOrder) {fuel fuel' : Nat} (h : fuel ≤ fuel') (s : Monomial p) (seed : Bytes) :
    Below (monomialSeedExpandPrikey o fuel s seed) (monomialSeedExpandPrikey o fuel' s seed) :=
  (monomialFromState_below o h _ _).bind fun _ => Below.refl _

theorem sfSeedExpand_below (o : ByteOrder) {fuel fuel' : Nat} (h : fuel ≤ fuel') (s : RrefMat p) (seed : Bytes) :
    Below (generatorSFSeedExpand o fuel s seed) (generatorSFSeedExpand o fuel' s seed) := by
  unfold generatorSFSeedExpand
  refine (Below.forUp _ ?_).bind fun _ => Below.refl _
  rintro i ⟨v, st⟩
  exact (Below.refl _).bind fun _ => (randState_below o _ _ h _ _).bind fun _ => Below.refl _

theorem expandG0_below (o : ByteOrder) {fuel fuel' : Nat} (h : fuel ≤ fuel') (s : Stale p) (seed : Bytes) :
    Below (expandG0 o fuel s seed) (expandG0 o fuel' s seed) :=
  (sfSeedExpand_below o h _ _).bind fun _ => Below.refl _

theorem expandDigestLoop_below (o : ByteOrder) {fuel fuel' : Nat} (h : fuel ≤ fuel') (st : Inc) (placed : Nat) (v : Vector Nat p.T) :
    Below (expandDigestLoop o p fuel st placed v) (expandDigestLoop o p fuel' st placed v) := by
  induction fuel generalizing fuel' st placed v with
  | zero =>
    unfold expandDigestLoop
    by_cases hp : placed < p.W
    · rw [if_pos hp]; exact Below.fuel _
    · rw [if_neg hp]
      cases fuel' with
      | zero => simp only [if_neg hp]; exact Below.refl _
      | succ f => simp only [if_neg hp]; exact Below.refl _
  | succ fuel ih =>
    obtain ⟨f', rfl⟩ : ∃ f', fuel' = f' + 1 := ⟨fuel' - 1, by omega⟩
    unfold expandDigestLoop
    refine Below.ite ?_ (Below.refl _)
    refine Below.ite (ih (by omega) _ _ _) ?_
    refine Below.ite (ih (by omega) _ _ _) ?_
    refine (Below.refl _).bind fun o => ?_
    refine Below.ite (ih (by omega) _ _ _) ?_
    exact (Below.refl _).bind fun v => ih (by omega) _ _ _

theorem expandDigest_below (o : ByteOrder) {fuel fuel' : Nat} (h : fuel ≤ fuel') (v : Vector Nat p.T) (d : Bytes) :
    Below (expandDigest o fuel v d) (expandDigest o fuel' v d) := expandDigestLoop_below o h _ _ _

theorem keygenOne_below (o : ByteOrder) {fuel fuel' : Nat} (h : fuel ≤ fuel') (s : Stale p) (G : GenMat p) (seed : Bytes)
    (b : Vector UInt8 p.rrefBytes) : Below (keygenOne o fuel s G seed b) (keygenOne o fuel' s G seed b) :=
  (prikey_below o h _ _).bind fun _ => Below.refl _

theorem lessKeygen_below (o : ByteOrder) {fuel fuel' : Nat} (h : fuel ≤ fuel') (s : Nat → Stale p) (rng : Inc) :
    Below (lessKeygen o fuel s rng) (lessKeygen o fuel' s rng) := by
  unfold lessKeygen
  refine (Below.refl _).bind fun _ => ?_
  refine (expandG0_below o h _ _).bind fun _ => ?_
  refine (Below.forUp _ ?_).bind fun _ => Below.refl _
  intro i t
  exact (Below.refl _).bind fun _ => (Below.refl _).bind fun _ => (keygenOne_below o h _ _ _ _).bind fun _ => Below.refl _

theorem signRound_below (o : ByteOrder) {fuel fuel' : Nat} (h : fuel ≤ fuel') (s : Stale p) (G : GenMat p) (t : TreeBuf p) (salt : Bytes)
    (i : Nat) (x : Vector (MonoAction p) p.T × Inc) :
    Below (signRound o fuel s G t salt i x) (signRound o fuel' s G t salt i x) := by
  unfold signRound
  exact (Below.refl _).bind fun _ => (saltRnd_below o h _ _ _ _).bind fun _ => Below.refl _

theorem signResponse_below (o : ByteOrder) {fuel fuel' : Nat} (h : fuel ≤ fuel') (s : Stale p) (fws : Vector Nat p.T)
    (seeds : Vector (Vector UInt8 p.skSeedLen) (p.numKeypairs - 1)) (acts : Vector (MonoAction p) p.T) (i : Nat)
    (x : Vector (Vector UInt8 p.monoBytes) p.W × Nat) :
    Below (signResponse o fuel s fws seeds acts i x) (signResponse o fuel' s fws seeds acts i x) := by
  unfold signResponse
  refine (Below.refl _).bind fun _ => ?_
  refine Below.ite ?_ (Below.refl _)
  exact (Below.refl _).bind fun _ => (prikey_below o h _ _).bind fun _ => Below.refl _

theorem lessSign_below (o : ByteOrder) {n : Nat} {fuel fuel' : Nat} (h : fuel ≤ fuel') (s : Nat → Stale p) (rng : Inc) (SK : PriKey p)
    (m : Bytes) (sig : SignT p n) : Below (lessSign o fuel s rng SK m sig) (lessSign o fuel' s rng SK m sig) := by
  unfold lessSign
  refine (Below.refl _).bind fun _ => ?_
  refine (Below.refl _).bind fun _ => ?_
  refine (expandG0_below o h _ _).bind fun _ => ?_
  refine (Below.forUp _ fun i x => signRound_below o h _ _ _ _ _ _).bind fun _ => ?_
  refine (expandDigest_below o h _ _).bind fun _ => ?_
  refine (Below.refl _).bind fun _ => ?_
  refine (Below.refl _).bind fun _ => ?_
  refine (Below.refl _).bind fun _ => ?_
  exact (Below.forUp _ fun i x => signResponse_below o h _ _ _ _ _ _).bind fun _ => Below.refl _

theorem verifyRound_below (o : ByteOrder) {n : Nat} {fuel fuel' : Nat} (h : fuel ≤ fuel') (s : Stale p) (PK : PubKey p) (sig : SignT p n)
    (fws : Vector Nat p.T) (t : TreeBuf p) (G : RrefMat p) (i : Nat) (x : Inc × Nat) :
    Below (verifyRound o fuel s PK sig fws t G i x) (verifyRound o fuel' s PK sig fws t G i x) := by
  unfold verifyRound
  refine (Below.refl _).bind fun _ => ?_
  refine Below.ite ?_ (Below.refl _)
  refine (Below.refl _).bind fun _ => ?_
  refine (Below.refl _).bind fun _ => ?_
  exact (saltRnd_below o h _ _ _ _).bind fun _ => Below.refl _

theorem lessVerify_below (o : ByteOrder) {n : Nat} {fuel fuel' : Nat} (h : fuel ≤ fuel') (s : Nat → Stale p) (PK : PubKey p) (m : Bytes)
    (sig : SignT p n) : Below (lessVerify o fuel s PK m sig) (lessVerify o fuel' s PK m sig) := by
  unfold lessVerify
  refine (expandDigest_below o h _ _).bind fun _ => ?_
  refine (Below.refl _).bind fun _ => ?_
  refine (Below.refl _).bind fun _ => ?_
  refine (sfSeedExpand_below o h _ _).bind fun _ => ?_
  exact (Below.forRet _ fun i x => verifyRound_below o h _ _ _ _ _ _ _ _).bind fun _ => Below.refl _

end Machine
end LESS
