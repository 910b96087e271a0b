import Verif.Proofs.ChosenBound
import Verif.Props.Simulator
/-!
# Seeing signatures does not help to forge (C81)

An attacker chooses messages, sees signatures of them, and returns a signature of another message.  The signatures are those of
the code, with one idealisation: the monomials of the rounds are drawn at random for each signature instead of being
expanded from the seed tree, and a round with challenge 0 shows the monomial instead of the seed it is expanded from.
`C81_signer` says that apart from this the signer is `LESS_sign`.
-/
namespace LESS
open Spec Spec.Asks

variable {p : Params}

/-- What the rounds of a signature show; nothing if no challenge is drawn. -/
abbrev SigView (p : Params) : Type := Option (Fin p.T → C (RoundView p))

noncomputable instance : Fintype (VMono p) := Fintype.ofFinite _

/-- The commitment that goes into the hash. -/
def hashedCommit {α : Type} (r : C (NormIS p × α)) : List UInt8 :=
  match r with
  | .ok (V, _) => normBytes V
  | .error _ => []

/-- LESS.c:128-195, the signer: `G0` is the code of the seed in the key, `S` are the private monomials.  `M` are the monomials of the rounds,
which `LESS_sign` expands from the seed tree. -/
def codeSigner (sl : Nat → Stale p) (rbuf : Nat → Vector UInt8 p.monoBytes) (G0 : GenMat p) (S : Nat → Monomial p) :
    Signer p (Fin p.T → VMono p) (SigView p) where
  com M := (List.finRange p.T).flatMap fun (i : Fin p.T) => hashedCommit (prepareDigestInput (sl i).norm (sl i).act G0 (M i).1)
  view c M := c.map fun v i => signerView (sl i) (rbuf i) G0 S (g v i) (M i)

/-- The simulator: not in the code.  It has the codes of the public key only. -/
def codeSimulator (sl : Nat → Stale p) (rbuf : Nat → Vector UInt8 p.monoBytes) (G0 : GenMat p) (pkCode : Nat → Vector UInt8 p.rrefBytes) :
    Simulator p (Fin p.T → VMono p) (SigView p) where
  com c M := (List.finRange p.T).flatMap fun (i : Fin p.T) =>
    match c with
    | none => hashedCommit (prepareDigestInput (sl i).norm (sl i).act G0 (M i).1)
    | some v => hashedCommit (simulatedView (sl i) (rbuf i) G0 pkCode (g v i) (M i))
  view c M := c.map fun v i => simulatedView (sl i) (rbuf i) G0 pkCode (g v i) (M i)

/-! ## The simulator shows what the signer shows -/

theorem signerView_commit {sl : Stale p} {rbuf : Vector UInt8 p.monoBytes} {G0 : GenMat p} {S : Nat → Monomial p} {c : Nat} {M : VMono p}
    {view : RoundView p} (h : signerView sl rbuf G0 S c M = .ok view) : ∃ r, prepareDigestInput sl.norm sl.act G0 M.1 = .ok (view.1, r) := by
  unfold signerView at h
  split at h
  · obtain ⟨⟨V, r⟩, e1, h⟩ := bind_inv h
    cases h
    exact ⟨r, e1⟩
  · obtain ⟨⟨V, resp⟩, e1, h⟩ := bind_inv h
    cases h
    unfold signerRound at e1
    obtain ⟨⟨V', r⟩, e2, e1⟩ := bind_inv e1
    obtain ⟨act, -, e1⟩ := bind_inv e1
    obtain ⟨resp', -, e1⟩ := bind_inv e1
    cases e1
    exact ⟨r, e2⟩

theorem prepare_stale (hp : p.WF) {G0 : GenMat p} (hG : Reduced G0) (hr : FullRank (matOf G0)) (M : VMono p) (sl sl' : Stale p) :
    hashedCommit (prepareDigestInput sl.norm sl.act G0 M.1) = hashedCommit (prepareDigestInput sl'.norm sl'.act G0 M.1) := by
  have hN := hp.N_lt
  have hKN := hp.K_lt_N
  obtain ⟨⟨V, a, ok⟩, e1, h1, R1, f1, piv, hO, hperm, hs, ht⟩ := (prepareDigestInput_wp sl.norm sl.act G0 M.1 hKN hN M.2 hG
    (fullRank_valid hr M.2 hN.le)).exists_ok
  obtain ⟨⟨V', a', ok'⟩, e3, h1', R2, f2, piv', hO', hperm', hs', ht'⟩ := (prepareDigestInput_wp sl'.norm sl'.act G0 M.1
    hKN hN M.2 hG (fullRank_valid hr M.2 hN.le)).exists_ok
  have hV : V = V' := colsOf_inj ((isCommit_of_out hO hperm hs).unique (isCommit_of_out hO' hperm' hs'))
  rw [e1, e3, hV]
  rfl

theorem prepare_length (hp : p.WF) {G0 : GenMat p} (hG : Reduced G0) (hr : FullRank (matOf G0)) (M : VMono p) (sl : Stale p) :
    (hashedCommit (prepareDigestInput sl.norm sl.act G0 M.1)).length = p.K * (p.N - p.K) := by
  have hN := hp.N_lt
  have hKN := hp.K_lt_N
  obtain ⟨⟨V, a, ok⟩, e1, h1, R1, f1, piv, hO, hperm, hs, ht⟩ := (prepareDigestInput_wp sl.norm sl.act G0 M.1 hKN hN M.2 hG
    (fullRank_valid hr M.2 hN.le)).exists_ok
  rw [e1]
  show (normBytes V).length = _
  rw [normBytes_eq, commitBytes_length (isCommit_of_out hO hperm hs).shape.1]

theorem codeSigner_length (hp : p.WF) {G0 : GenMat p} (hG : Reduced G0) (hr : FullRank (matOf G0)) (sl : Nat → Stale p)
    (rbuf : Nat → Vector UInt8 p.monoBytes) (S : Nat → Monomial p) (M : Fin p.T → VMono p) :
    ((codeSigner sl rbuf G0 S).com M).length = p.T * (p.K * (p.N - p.K)) := by
  unfold codeSigner
  dsimp only
  rw [List.length_flatMap, List.map_congr_left fun (i : Fin p.T) _ => prepare_length hp hG hr (M i) (sl i)]
  simp

theorem code_simulates (hp : p.WF) {fuel : Nat} {sl : Nat → Stale p} {G0 : GenMat p} {seeds : Nat → Bytes}
    {bufs pkCode : Nat → Vector UInt8 p.rrefBytes} {S : Nat → Monomial p}
    (hS : ∀ k < p.numKeypairs - 1, monomialSeedExpandPrikey fuel (sl k).mono (seeds k) = .ok (S k))
    (hk : ∀ k < p.numKeypairs - 1, keygenOne fuel (sl k) G0 (seeds k) (bufs k) = .ok (pkCode k))
    (hG : Reduced G0) (hr : FullRank (matOf G0)) (sl₁ sl₂ : Nat → Stale p) (rbuf₁ rbuf₂ : Nat → Vector UInt8 p.monoBytes) :
    Simulates (codeSigner sl₁ rbuf₁ G0 S) (codeSimulator sl₂ rbuf₂ G0 pkCode) := by
  intro c hc
  cases c with
  | none =>
    refine ⟨Equiv.refl _, fun M => ⟨?_, rfl⟩⟩
    unfold codeSigner codeSimulator
    dsimp only
    exact List.flatMap_congr fun (i : Fin p.T) _ => prepare_stale hp hG hr (M i) (sl₁ i) (sl₂ i)
  | some v =>
    obtain ⟨e, he⟩ := C57_transcript hp hS hk hG hr v (fun i hi => (hc v rfl).2 i hi)
    refine ⟨e, fun M => ⟨?_, ?_⟩⟩
    · unfold codeSigner codeSimulator
      dsimp only
      refine List.flatMap_congr fun (i : Fin p.T) _ => ?_
      obtain ⟨view, h1, h2⟩ := he M i (sl₁ i) (sl₂ i) (rbuf₁ i) (rbuf₂ i)
      obtain ⟨r, h3⟩ := signerView_commit h1
      rw [h2, h3]
      rfl
    · unfold codeSigner codeSimulator
      dsimp only
      rw [Option.map_some, Option.map_some]
      refine congrArg some (funext fun i => ?_)
      obtain ⟨view, h1, h2⟩ := he M i (sl₁ i) (sl₂ i) (rbuf₁ i) (rbuf₂ i)
      rw [h1, h2]

/-! ## Keys -/

/-- What key generation computes on the way. -/
theorem keygen_parts {fuel : Nat} {sl : Nat → Stale p} {rng rng' : Inc} {SK : PriKey p} {PK : PubKey p} (hrng : RngOk p rng)
    (h : lessKeygen fuel sl rng = .ok (SK, PK, rng')) :
    PK.G0seed = SK.G0seed ∧ ∃ (G0 : GenMat p) (seeds : Vector (Vector UInt8 p.skSeedLen) (p.numKeypairs - 1)),
      expandG0 fuel (sl 0) SK.G0seed.toList = .ok G0 ∧ privateSeeds p SK.compressedSk.toList = .ok seeds ∧
      ∀ i < p.numKeypairs - 1, ∃ (S : Monomial p) (buf : Vector UInt8 p.rrefBytes),
        monomialSeedExpandPrikey fuel (sl (i + 1)).mono (g seeds i).toList = .ok S ∧
        keygenOne fuel (sl (i + 1)) G0 (g seeds i).toList buf = .ok (g PK.SFG i) := by
  unfold lessKeygen at h
  rcases hc : csprngBytes p p.skSeedLen rng with ⟨sk, rng1⟩
  rcases hc' : csprngBytes p p.seedLen rng1 with ⟨g0, rng2⟩
  have hl : sk.length = p.skSeedLen := by
    have := csprngBytes_length p p.skSeedLen rng hrng
    rwa [hc] at this
  have hl' : g0.length = p.seedLen := by
    have hok := csprngBytes_ok p p.skSeedLen rng hrng
    rw [hc] at hok
    have := csprngBytes_length p p.seedLen rng1 hok
    rwa [hc'] at this
  rw [hc] at h
  dsimp only at h
  obtain ⟨seeds, e1, h⟩ := bind_inv h
  rw [hc'] at h
  dsimp only at h
  obtain ⟨G0, e2, h⟩ := bind_inv h
  obtain ⟨sfg, e3, h⟩ := bind_inv h
  cases h
  refine ⟨rfl, G0, seeds, by rw [toVec_toList hl']; exact e2, by rw [toVec_toList hl]; exact e1, fun i hi => ?_⟩
  obtain ⟨st, s0, sT, hst⟩ := forUp_states e3
  have hone : ∀ i < p.numKeypairs - 1, ∃ b, keygenOne fuel (sl (i + 1)) G0 (g seeds i).toList (g (st i) i) = .ok b ∧ st (i + 1) = upd (st i) i b := by
    intro i hi
    have h := hst i hi
    rw [Kat.rd_ok _ _ hi, Kat.ok_bind, Kat.rd_ok _ _ hi, Kat.ok_bind] at h
    obtain ⟨b, e4, h⟩ := bind_inv h
    rw [Kat.wr_ok _ _ _ hi] at h
    exact ⟨b, e4, (Except.ok.inj h).symm⟩
  have hkeep : ∀ j, i < j → j ≤ p.numKeypairs - 1 → keygenOne fuel (sl (i + 1)) G0 (g seeds i).toList (g (st i) i) = .ok (g (st j) i) := by
    intro j
    induction j with
    | zero => intro h; omega
    | succ j ih =>
      intro h hj
      obtain ⟨b, hb1, hb2⟩ := hone j hj
      by_cases e : i = j
      · subst e
        rw [hb2, g_upd_self _ _ _ hi, hb1]
      · rw [hb2, g_upd_ne _ _ _ _ (Ne.symm e)]
        exact ih (by omega) (by omega)
  have hko := hkeep _ hi (Nat.le_refl _)
  rw [sT] at hko
  have hko' := hko
  unfold keygenOne at hko'
  obtain ⟨S, e5, -⟩ := bind_inv hko'
  exact ⟨S, _, e5, hko⟩

/-! ## C81 -/

/-- Every key that key generation makes has the parts that the signer of C81 works with. -/
theorem C81_keys {fuel : Nat} {sl : Nat → Stale p} {rng rng' : Inc} {SK : PriKey p} {PK : PubKey p} (hrng : RngOk p rng)
    (h : lessKeygen fuel sl rng = .ok (SK, PK, rng')) :
    ∃ (G0 : GenMat p) (seeds : Vector (Vector UInt8 p.skSeedLen) (p.numKeypairs - 1)) (S : Nat → Monomial p),
      expandG0 fuel (sl 0) SK.G0seed.toList = .ok G0 ∧ privateSeeds p SK.compressedSk.toList = .ok seeds ∧
      ∀ i < p.numKeypairs - 1, monomialSeedExpandPrikey fuel (sl (i + 1)).mono (g seeds i).toList = .ok (S i) := by
  obtain ⟨-, G0, seeds, h1, h2, h3⟩ := keygen_parts hrng h
  refine ⟨G0, seeds, fun i => if hi : i < p.numKeypairs - 1 then (h3 i hi).choose else (sl 0).mono, h1, h2, fun i hi => ?_⟩
  obtain ⟨-, h, -⟩ := (h3 i hi).choose_spec
  dsimp only
  rw [dif_pos hi]
  exact h

/-- Take a key pair made by key generation, and an attacker that asks at most `q` questions: digests of strings, numbers drawn from
digests, signatures of messages of its choice.  If on more than `2 (q + 2)` in two to the power of the security level of the tables
it returns an accepted signature of a message that it saw no signature of, then there are two runs of it that answer different
challenges to the same commitments, so that the extractor computes a monomial that carries one code of the public key to another
one; and in these runs the signatures come from a simulator that has only the public key. -/
theorem C81_chosen_messages (hp : p ∈ Params.all) {fuel : Nat} {sl : Nat → Stale p} {rng rng' : Inc} {SK : PriKey p} {PK : PubKey p}
    (hrng : RngOk p rng) (hkey : lessKeygen fuel sl rng = .ok (SK, PK, rng')) {G0 : GenMat p}
    {seeds : Vector (Vector UInt8 p.skSeedLen) (p.numKeypairs - 1)} {S : Nat → Monomial p}
    (hG0 : expandG0 fuel (sl 0) SK.G0seed.toList = .ok G0) (hseeds : privateSeeds p SK.compressedSk.toList = .ok seeds)
    (hS : ∀ i < p.numKeypairs - 1, monomialSeedExpandPrikey fuel (sl (i + 1)).mono (g seeds i).toList = .ok (S i))
    (sl₁ sl₂ : Nat → Stale p) (rbuf₁ rbuf₂ : Nat → Vector UInt8 p.monoBytes) {k q : Nat} (A : Attacker p k (SigView p)) (hA : A.AtMost q)
    {X : Finset (GameQuestion p)} (hX : (realGame (codeSigner sl₁ rbuf₁ G0 S) 0 [] (chosen fuel PK.spec A)).Within X)
    (base : ∀ x, GameAnswer p k (Digest p × (Fin p.T → VMono p)) x)
    (hwin : 2 * (q + 2) * Nat.card (∀ x : {x // x ∈ X}, GameAnswer p k (Digest p × (Fin p.T → VMono p)) x.1) <
      2 ^ (8 * p.seedLen) * Nat.card {t : ∀ x : {x // x ∈ X}, GameAnswer p k (Digest p × (Fin p.T → VMono p)) x.1 //
        ((realGame (codeSigner sl₁ rbuf₁ G0 S) 0 [] (chosen fuel PK.spec A)).run (table base t)).isSome}) :
    ∃ (O O' : ∀ x, GameAnswer p k (Coins p k (Fin p.T → VMono p)) x) (o o' : Forged p) (f f' : Fixed p k),
      (simGame (codeSimulator sl₂ rbuf₂ G0 fun i => g PK.SFG i) 0 [] ⟨[], []⟩ (chosen fuel PK.spec A)).run O = some (o, f) ∧
      (simGame (codeSimulator sl₂ rbuf₂ G0 fun i => g PK.SFG i) 0 [] ⟨[], []⟩ (chosen fuel PK.spec A)).run O' = some (o', f') ∧
      Forks fuel PK.spec (matOf G0) o o' := by
  have hW := Params.all_WF p hp
  obtain ⟨hseed, G0', seeds', h1, h2, h3⟩ := keygen_parts hrng hkey
  obtain rfl : G0 = G0' := Except.ok.inj (hG0.symm.trans h1)
  obtain rfl : seeds = seeds' := Except.ok.inj (hseeds.symm.trans h2)
  have hG := (expandG0_wp hW fuel (sl 0) SK.G0seed.toList).of_ok hG0
  have hr := IsRREF.fullRank (hG.2.rref hW.K_lt_N.le)
  have hb : ∀ i, ∃ buf : Vector UInt8 p.rrefBytes, i < p.numKeypairs - 1 → keygenOne fuel (sl (i + 1)) G0 (g seeds i).toList buf = .ok (g PK.SFG i) := by
    intro i
    by_cases hi : i < p.numKeypairs - 1
    · obtain ⟨_, buf, -, h⟩ := h3 i hi
      exact ⟨buf, fun _ => h⟩
    · exact ⟨Vector.replicate _ 0, fun h => absurd h hi⟩
  choose bufs hbufs using hb
  have hsim := code_simulates hW (sl := fun i => sl (i + 1)) (seeds := fun i => (g seeds i).toList) (bufs := bufs) (pkCode := fun i => g PK.SFG i)
    hS hbufs hG.1 hr sl₁ sl₂ rbuf₁ rbuf₂
  have hH : 2 ^ (8 * p.seedLen) * 2 ^ (8 * p.seedLen) = 2 ^ (8 * p.hashLen) := by
    rw [← Nat.pow_add]; congr 1; unfold Params.hashLen; omega
  have hc := C62_parameter_sets p hp
  rw [C62_count hW] at hc
  refine chosen_forks hW (challenge_bits p hp) hsim (codeSigner_length hW hG.1 hr sl₁ rbuf₁ S) (Nat.pow_pos (by norm_num)) hc hH.le ?_ A hA hX base hwin
  have e : PK.spec.seed = SK.G0seed.toList := by
    show PK.G0seed.toList = _
    rw [hseed]
  rw [e]
  exact hG.2

/-- The signer of C81 is the code's, but for the origin of the monomials: when `LESS_sign` returns, the digest is the hash of what the signer of C81
commits to with the monomials of the seed tree, the message and the salt; and in the rounds with non-zero challenge the responses in
the signature are what that signer shows. -/
theorem C81_signer (hp : p.WF) {n : Nat} {fuel : Nat} {sl : Nat → Stale p} {rng rng' : Inc} {SK : PriKey p} {m : Bytes}
    {sig sig' : SignT p n} {num : Nat} (h : lessSign fuel sl rng SK m sig = .ok (sig', num, rng')) :
    ∃ (G0 : GenMat p) (seeds : Vector (Vector UInt8 p.skSeedLen) (p.numKeypairs - 1)) (tree : TreeBuf p) (S : Nat → Monomial p)
      (fws : Vector Nat p.T) (M : Fin p.T → VMono p) (sl₁ : Nat → Stale p) (rbuf : Nat → Vector UInt8 p.monoBytes),
      expandG0 fuel (sl 0) SK.G0seed.toList = .ok G0 ∧ privateSeeds p SK.compressedSk.toList = .ok seeds ∧
      generateSeedTree (Vector.replicate _ 0) (csprngBytes p p.seedLen rng).1 sig'.treeSalt.toList = .ok tree ∧
      (∀ i : Fin p.T, ∃ seed, slice tree (p.seedLen * (p.numLeaves - 1) + i * p.seedLen) p.seedLen = .ok seed ∧
        monomialSeedExpandSaltRnd fuel (sl (i + 1)).mono seed sig'.treeSalt.toList i = .ok (M i).1) ∧
      sig'.digest.toList = Spec.hash p ((codeSigner sl₁ rbuf G0 S).com M ++ m ++ sig'.treeSalt.toList) ∧
      expandDigest fuel (Vector.replicate p.T 0) sig'.digest.toList = .ok fws ∧
      ∀ i : Fin p.T, ∃ V x, signerView (sl₁ i) (rbuf i) G0 S (g fws i) (M i) = .ok (V, x) ∧
        (g fws i ≠ 0 → x = .inr (g sig'.monomActions (answersBefore fws i)) ∧ ∃ s : Stale p,
          monomialSeedExpandPrikey fuel s.mono (g seeds (g fws i - 1)).toList = .ok (S (g fws i - 1))) := by
  classical
  obtain ⟨G0, seeds, tree, fws, M, V, h1, h2, h3, h4, h5, h6, h7⟩ := C57_signature h
  have hval : ∀ i < p.T, (M i).Valid := by
    intro i hi
    obtain ⟨seed, -, h, -⟩ := h4 i hi
    obtain ⟨g1, g2, g3, -⟩ := (C18_expand_salt_round hp fuel _ seed _ _).2 _ h
    refine ⟨⟨g2, fun i j hi hj e => ?_⟩, fun i hi => ⟨(g3 i hi).1, by have := (g3 i hi).2; omega⟩⟩
    exact (g1 _ (g2 i hi)).unique ⟨hi, rfl⟩ ⟨hj, e.symm⟩
  -- the private monomials
  let S : Nat → Monomial p := fun b =>
    if hb : ∃ S, ∃ s : Stale p, monomialSeedExpandPrikey fuel s.mono (g seeds b).toList = .ok S then hb.choose else (sl 0).mono
  have hSeq : ∀ (b : Nat) (s : Stale p) (S' : Monomial p), monomialSeedExpandPrikey fuel s.mono (g seeds b).toList = .ok S' → S b = S' := by
    intro b s S' hS'
    have hb : ∃ S, ∃ s : Stale p, monomialSeedExpandPrikey fuel s.mono (g seeds b).toList = .ok S := ⟨S', s, hS'⟩
    have e : S b = hb.choose := dif_pos hb
    rw [e]
    obtain ⟨s'', h''⟩ := hb.choose_spec
    have hv : ∀ {s : Stale p} {S : Monomial p}, monomialSeedExpandPrikey fuel s.mono (g seeds b).toList = .ok S →
        S.Valid ∧ IsMonomial p fuel (xof p (g seeds b).toList) S.mat := by
      intro s S h
      obtain ⟨g1, g2, g3, g4⟩ := (C18_expand_private hp fuel s.mono _).2 _ h
      refine ⟨⟨⟨g2, fun i j hi hj e => ?_⟩, fun i hi => ⟨(g3 i hi).1, by have := (g3 i hi).2; omega⟩⟩, g4⟩
      exact (g1 _ (g2 i hi)).unique ⟨hi, rfl⟩ ⟨hj, e.symm⟩
    exact mat_inj (hv h'').1 (hv hS').1 ((hv h'').2.unique (hv hS').2)
  have hround : ∀ i, ∃ (s : Stale p) (buf : Vector UInt8 p.monoBytes), ∀ hi : i < p.T,
      ∃ x, signerView s buf G0 S (g fws i) ⟨M i, hval i hi⟩ = .ok (V i, x) ∧
        (g fws i ≠ 0 → x = .inr (g sig'.monomActions (answersBefore fws i)) ∧ ∃ s : Stale p,
          monomialSeedExpandPrikey fuel s.mono (g seeds (g fws i - 1)).toList = .ok (S (g fws i - 1))) := by
    intro i
    by_cases hi : i < p.T
    · by_cases h0 : g fws i = 0
      · obtain ⟨seed, -, -, old, a, ok, e⟩ := h4 i hi
        refine ⟨{ sl (i + 1) with act := old }, Vector.replicate _ 0, fun _ => ⟨.inl ⟨M i, hval i hi⟩, ?_, fun h => absurd h0 h⟩⟩
        unfold signerView
        rw [if_pos h0]
        dsimp only
        rw [e]
        rfl
      · obtain ⟨s, buf, S', -, -, e1, e2⟩ := h7 i hi h0
        refine ⟨s, buf, fun _ => ⟨.inr (g sig'.monomActions (answersBefore fws i)), ?_, fun _ => ⟨rfl, sl (p.T + i + 1), ?_⟩⟩⟩
        · unfold signerView
          rw [if_neg h0, hSeq _ _ _ e1, e2]
          rfl
        · rw [e1, hSeq _ _ _ e1]
    · exact ⟨sl 0, Vector.replicate _ 0, fun h => absurd h hi⟩
  choose sl₁ rbuf hround using hround
  refine ⟨G0, seeds, tree, S, fws, fun i => ⟨M i, hval i i.2⟩, sl₁, rbuf, h1, h2, h3, fun i => ?_, ?_, h6, fun i => ?_⟩
  · obtain ⟨seed, e1, e2, -⟩ := h4 i i.2
    exact ⟨seed, e1, e2⟩
  · have hcom : (codeSigner sl₁ rbuf G0 S).com (fun i => ⟨M i, hval i i.2⟩) = (List.range p.T).flatMap fun i => normBytes (V i) := by
      unfold codeSigner
      dsimp only
      rw [← List.map_coe_finRange_eq_range, List.flatMap_map]
      refine List.flatMap_congr fun (i : Fin p.T) _ => ?_
      obtain ⟨x, e1, -⟩ := hround i i.2
      obtain ⟨r, e2⟩ := signerView_commit e1
      dsimp only at e2 ⊢
      rw [e2]
      rfl
    have hfold : ∀ n, (List.range n).foldl (fun h i => hashAbsorb p h (normBytes (V i))) hashInit =
        hashAbsorb p hashInit ((List.range n).flatMap fun i => normBytes (V i)) := by
      intro n
      induction n with
      | zero =>
        show hashInit = hashAbsorb p hashInit []
        unfold hashAbsorb
        rw [incAbsorb_eq_foldl _ _ _ (hashRate_pos p)]
        rfl
      | succ n ih =>
        rw [List.range_succ, List.foldl_append, ih, List.flatMap_append]
        simp only [List.foldl_cons, List.foldl_nil, List.flatMap_cons, List.flatMap_nil, List.append_nil]
        exact hashAbsorb_append _ _
    rw [hcom, h5, hfold, hashAbsorb_append, hashAbsorb_append, hash_eq, toVec_toList (by simp [Spec.hash])]
  · obtain ⟨x, e1, e2⟩ := hround i i.2
    exact ⟨V i, x, e1, e2⟩

/-! ## Attackers that ask for no signatures -/

theorem withoutSigner_bind {k : Nat} {V α β : Type} (c : Asks (Question p) (AnswerTo p k) α) (f : α → Asks (Question p) (AnswerTo p k) β) :
    (withoutSigner (V := V) c).bind (fun a => withoutSigner (f a)) = withoutSigner (c.bind f) := by
  induction c with
  | done a => rfl
  | ask x next ih => exact congrArg (Asks.ask _) (funext fun a => ih a)

theorem run_withoutSigner {k : Nat} {R V : Type} (S : Signer p R V) (O : ∀ x, GameAnswer p k (Digest p × R) x)
    (c : Asks (Question p) (AnswerTo p k) (Option (Forged p))) : (realGame S 0 [] (withoutSigner c)).run O = c.run fun x => O (.inl x) := by
  induction c with
  | done o =>
    show (o.filter fun o => decide (o.msg ∉ [])) = o
    cases o <;> rfl
  | ask x next ih => exact ih _

/-- For a forger that asks for no signatures the game is that of C68. -/
theorem C81_no_signatures {B k : Nat} {pk : PK p} {R V : Type} (S : Signer p R V) (F : Forger p k) (O : ∀ x, GameAnswer p k (Digest p × R) x) :
    (realGame S 0 [] (chosen B pk (withoutSigner F))).run O = (attack B pk F).run fun x => O (.inl x) := by
  unfold chosen attack
  rw [withoutSigner_bind, run_withoutSigner]

/-- The tables for a forger, as tables of the game. -/
def forgerTables {k : Nat} {R : Type} (X : Finset (Question p)) :
    (∀ x : {x // x ∈ X.map ⟨Sum.inl, Sum.inl_injective⟩}, GameAnswer p k (Digest p × R) x.1) ≃ Tables p k X where
  toFun t x := t ⟨.inl x.1, Finset.mem_map_of_mem ⟨Sum.inl, Sum.inl_injective⟩ x.2⟩
  invFun t x := match x with
    | ⟨.inl y, h⟩ => t ⟨y, by simpa using h⟩
    | ⟨.inr n, h⟩ => absurd h (by simp)
  left_inv t := by
    funext ⟨x, h⟩
    cases x with
    | inl y => rfl
    | inr n => exact absurd h (by simp)
  right_inv t := rfl

theorem within_withoutSigner {k : Nat} {R V : Type} (S : Signer p R V) {X : Finset (Question p)} :
    ∀ {c : Asks (Question p) (AnswerTo p k) (Option (Forged p))}, c.Within X →
      (realGame S 0 [] (withoutSigner c)).Within (X.map ⟨Sum.inl, Sum.inl_injective⟩) := by
  intro c
  induction c with
  | done o => exact fun _ => trivial
  | ask x next ih => exact fun h => ⟨Finset.mem_map_of_mem ⟨Sum.inl, Sum.inl_injective⟩ h.1, fun a => ih a (h.2 a)⟩

/-- The hypotheses of C81 are met by the owner of the key: if at most one in four sequences of numbers leads to no challenge, the owner asks two
questions and succeeds on half of the tables. -/
theorem C81_owner (hp : p ∈ Params.all) {B k : Nat} {sk : SK p} {pk : PK p} (hk : KeyPair p B sk pk) (hf : KeyFits p B sk) (m root salt : List UInt8)
    (hsalt : salt.length = p.hashLen) (hr : ∀ i < p.T, ∃ M, IsMonomial p B (roundStream p salt (signerLeaf p root salt i) i) M)
    (hN : 4 * Nat.card {ws : Words 16 k // ¬ ∃ v, digestWords p ws.1 0 (noChallenge p) = .ok v} ≤ Nat.card (Words 16 k))
    (S : Signer p (Fin p.T → VMono p) (SigView p)) (base : ∀ x, GameAnswer p k (Digest p × (Fin p.T → VMono p)) x) :
    ∃ (A : Attacker p k (SigView p)) (X : Finset (GameQuestion p)), A.AtMost 2 ∧ (realGame S 0 [] (chosen B pk A)).Within X ∧
      Nat.card (∀ x : {x // x ∈ X}, GameAnswer p k (Digest p × (Fin p.T → VMono p)) x.1) ≤
        2 * Nat.card {t : ∀ x : {x // x ∈ X}, GameAnswer p k (Digest p × (Fin p.T → VMono p)) x.1 //
          ((realGame S 0 [] (chosen B pk A)).run (table base t)).isSome} ∧
      2 * (2 + 2) * Nat.card (∀ x : {x // x ∈ X}, GameAnswer p k (Digest p × (Fin p.T → VMono p)) x.1) <
        2 ^ (8 * p.seedLen) * Nat.card {t : ∀ x : {x // x ∈ X}, GameAnswer p k (Digest p × (Fin p.T → VMono p)) x.1 //
          ((realGame S 0 [] (chosen B pk A)).run (table base t)).isSome} := by
  classical
  obtain ⟨F, hF, -, h⟩ := C68_owner_wins (Params.all_WF p hp) hk hf m root salt hsalt hr hN
  obtain ⟨X, hX⟩ := within_exists (attack B pk F)
  have hbase : 4 * Nat.card {t : Tables p k X // ¬ ∃ o, (attack B pk F).run (table (fun x => base (.inl x)) t) = some o ∧ o.msg = m} ≤
      2 * Nat.card (Tables p k X) := h X hX fun x => base (.inl x)
  refine ⟨withoutSigner F, X.map ⟨Sum.inl, Sum.inl_injective⟩, atMost_withoutSigner hF, ?_, ?_⟩
  · have := within_withoutSigner S hX
    unfold attack at this
    rw [← withoutSigner_bind] at this
    exact this
  · have hrun : ∀ t : ∀ x : {x // x ∈ X.map ⟨Sum.inl, Sum.inl_injective⟩}, GameAnswer p k (Digest p × (Fin p.T → VMono p)) x.1,
        (realGame S 0 [] (chosen B pk (withoutSigner F))).run (table base t) =
          (attack B pk F).run (table (fun x => base (.inl x)) (forgerTables X t)) := by
      intro t
      rw [C81_no_signatures]
      congr 1
      funext x
      by_cases hx : x ∈ X
      · have hx' : (Sum.inl x : GameQuestion p) ∈ X.map ⟨Sum.inl, Sum.inl_injective⟩ := Finset.mem_map_of_mem ⟨Sum.inl, Sum.inl_injective⟩ hx
        exact (show table base t (.inl x) = t ⟨.inl x, hx'⟩ from dif_pos hx').trans
          (show table (fun x => (base (.inl x) : AnswerTo p k x)) (forgerTables X t) x = forgerTables X t ⟨x, hx⟩ from dif_pos hx).symm
      · have hx' : (Sum.inl x : GameQuestion p) ∉ X.map ⟨Sum.inl, Sum.inl_injective⟩ := by simpa using hx
        exact (show table base t (.inl x) = base (.inl x) from dif_neg hx').trans
          (show table (fun x => (base (.inl x) : AnswerTo p k x)) (forgerTables X t) x = base (.inl x) from dif_neg hx).symm
    have hcard : Nat.card {t : ∀ x : {x // x ∈ X.map ⟨Sum.inl, Sum.inl_injective⟩}, GameAnswer p k (Digest p × (Fin p.T → VMono p)) x.1 //
          ((realGame S 0 [] (chosen B pk (withoutSigner F))).run (table base t)).isSome} =
        Nat.card {t : Tables p k X // ((attack B pk F).run (table (fun x => base (.inl x)) t)).isSome} :=
      Nat.card_congr ((forgerTables X).subtypeEquiv fun t => by rw [hrun t])
    rw [hcard, Nat.card_congr (forgerTables (R := Fin p.T → VMono p) X)]
    have hpos : 0 < Nat.card (Tables p k X) := Nat.card_pos_iff.2 ⟨⟨fun x => (base (.inl x.1) : AnswerTo p k x.1)⟩, inferInstance⟩
    have hsum : Nat.card (Tables p k X) ≤
        Nat.card {t : Tables p k X // ((attack B pk F).run (table (fun x => base (.inl x)) t)).isSome} +
        Nat.card {t : Tables p k X // ¬ ∃ o, (attack B pk F).run (table (fun x => base (.inl x)) t) = some o ∧ o.msg = m} := by
      rw [← Nat.card_congr (Equiv.sumCompl fun t : Tables p k X => ((attack B pk F).run (table (fun x => base (.inl x)) t)).isSome), Nat.card_sum]
      refine Nat.add_le_add_left (Nat.card_le_card_of_injective (fun t => ⟨t.1, fun ⟨o, h, _⟩ => t.2 (by rw [h]; rfl)⟩) ?_) _
      intro a b h
      exact Subtype.ext (congrArg (fun z => z.1) h)
    have hbig : 32 ≤ 2 ^ (8 * p.seedLen) := by
      have : 1 ≤ p.seedLen := by
        have := List.forall_iff_forall_mem.1 (show List.Forall (fun p : Params => 1 ≤ p.seedLen) Params.all by decide +kernel) p hp
        exact this
      calc 32 = 2 ^ 5 := rfl
        _ ≤ 2 ^ (8 * p.seedLen) := Nat.pow_le_pow_right (by norm_num) (by omega)
    have := Nat.mul_le_mul_right (Nat.card {t : Tables p k X // ((attack B pk F).run (table (fun x => base (.inl x)) t)).isSome}) hbig
    constructor <;> omega

end LESS
