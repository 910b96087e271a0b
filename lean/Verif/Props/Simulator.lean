import Mathlib.SetTheory.Cardinal.Finite
import Verif.Props.Codes
import Verif.Proofs.KatRng
/-!
# What a response says about the secret (C57)

In a round with non-zero challenge the signer publishes a commitment and a response.  The theorems compare this pair
with what a simulator publishes that knows the public key only: it decodes the public code, commits to it with a
monomial of its own and publishes the action it gets from the commitment.  Over all monomials, both publish every
pair equally often.
-/
namespace LESS

open Spec Matrix

variable {p : Params}

/-- LESS.c:137-187, what `LESS_sign` does in a round with non-zero challenge: commitment to the generator of the first key
with the round's monomial `M`, then the response computed with the secret `S`.  (In the code the hash of the commitments
lies between the two calls; it touches neither argument of the second.) -/
def signerRound (sl : Stale p) (rbuf : Vector UInt8 p.monoBytes) (G0 : GenMat p) (S M : Monomial p) :
    C (NormIS p × Vector UInt8 p.monoBytes) := do
  let (V, a, _) ← prepareDigestInput sl.norm sl.act G0 M
  let act ← composeAction sl.mono sl.act' S a
  let resp ← compressMonomAction rbuf act
  pure (V, resp)

/-- A round of the simulator: not in the code.  `pkCode` is one of the codes in the public key. -/
def simulatedRound (sl : Stale p) (rbuf : Vector UInt8 p.monoBytes) (pkCode : Vector UInt8 p.rrefBytes)
    (M : Monomial p) : C (NormIS p × Vector UInt8 p.monoBytes) := do
  let G ← expandToRref sl.gen pkCode
  let (V, a, _) ← prepareDigestInput sl.norm sl.act G M
  let resp ← compressMonomAction rbuf a
  pure (V, resp)

/-- What is known about the code that key generation publishes for the secret `S` drawn from `seed`. -/
theorem publicCode_spec (hp : p.WF) {fuel : Nat} {sl : Stale p} {G0 : GenMat p} {seed : Bytes}
    {buf pkCode : Vector UInt8 p.rrefBytes} {S : Monomial p} (hS : monomialSeedExpandPrikey fuel sl.mono seed = .ok S)
    (hk : keygenOne fuel sl G0 seed buf = .ok pkCode) (hG : Reduced G0) (hr : FullRank (matOf G0)) :
    S.Valid ∧ ∃ R, Reduced R ∧ FullRank (matOf R) ∧ RowEq (matOf G0) (matOf R * S.mat) ∧
      ∀ full, expandToRref full pkCode = .ok R := by
  have hN := hp.N_lt
  have hKN := hp.K_lt_N
  have hv : S.Valid := by
    obtain ⟨h1, h2, h3, -⟩ := (C18_expand_private hp fuel sl.mono seed).2 S hS
    refine ⟨⟨h2, fun i j hi hj e => ?_⟩, fun i hi => ⟨(h3 i hi).1, by have := (h3 i hi).2; omega⟩⟩
    exact (h1 _ (h2 i hi)).unique ⟨hi, rfl⟩ ⟨hj, e.symm⟩
  refine ⟨hv, ?_⟩
  unfold keygenOne at hk
  rw [hS, Kat.ok_bind] at hk
  obtain ⟨Si, e1, hSi⟩ := (monomialInv_wp sl.mono' S hv hN.le).exists_ok
  rw [e1, Kat.ok_bind] at hk
  have hinv' : Si.mat * S.mat = 1 := mul_eq_one_comm.mp (mat_inv hv hSi)
  obtain ⟨A, e2, hAr, hAm⟩ := (generatorMonomialMul_mat sl.gen G0 Si (inv_valid hv hSi) hG).exists_ok
  rw [e2, Kat.ok_bind] at hk
  have hfr : FullRank (matOf A) := by rw [hAm]; exact fullRank_mul hr hinv'
  obtain ⟨⟨ok, R, f⟩, e3, h1, piv', hO'⟩ := (generatorRREF_full A hKN.le hAr hfr).exists_ok
  dsimp only at h1 hO'
  rw [e3, Kat.ok_bind] at hk
  dsimp only at hk
  refine ⟨R, hO'.reduced, hO'.rref.fullRank, ?_, ?_⟩
  · obtain ⟨P, hP, e⟩ := hO'.rowEq
    refine ⟨P, hP, ?_⟩
    rw [e, hAm, Matrix.mul_assoc, Matrix.mul_assoc, hinv', Matrix.mul_one]
  · obtain ⟨b, hb, hx, -⟩ := C25_code_round_trip hp ⟨hO'.reduced, hO'.rref, hO'.flags⟩
    rw [hb buf] at hk
    cases hk
    exact hx

/-- One round: the signer with secret `S` and monomial `M` and the simulator with the monomial `S * M` publish the
same commitment and the same response. -/
theorem round_agree (hp : p.WF) {G0 R : GenMat p} {S M M' : Monomial p} {pkCode : Vector UInt8 p.rrefBytes}
    (hS : S.Valid) (hM : M.Valid) (hM' : ∀ i, i < p.N → g M'.permutation i = g M.permutation (g S.permutation i) ∧
        g M'.coefficients i = fqRed (g S.coefficients i * g M.coefficients (g S.permutation i)))
    (hG : Reduced G0) (hr : FullRank (matOf G0)) (hR : Reduced R) (hRr : FullRank (matOf R))
    (hrow : RowEq (matOf G0) (matOf R * S.mat)) (hx : ∀ full, expandToRref full pkCode = .ok R)
    (sl sl' : Stale p) (rbuf rbuf' : Vector UInt8 p.monoBytes) :
    ∃ V resp, signerRound sl rbuf G0 S M = .ok (V, resp) ∧ simulatedRound sl' rbuf' pkCode M' = .ok (V, resp) := by
  have hN := hp.N_lt
  have hKN := hp.K_lt_N
  have hv' := mul_valid hS hM hM'
  have hmat := mat_mul hS hM hM'
  obtain ⟨⟨V, a, ok⟩, e1, h1, R1, f1, piv, hO, hperm, hs, ht⟩ := (prepareDigestInput_wp sl.norm sl.act G0 M hKN hN hM hG
    (fullRank_valid hr hM hN.le)).exists_ok
  dsimp only at h1 hO hperm hs ht
  obtain ⟨act, e2, hact⟩ := (composeAction_wp sl.mono sl.act' S a hN.le hS (fun t ht' => (ht ⟨t, ht'⟩).1)).exists_ok
  obtain ⟨⟨V', a', ok'⟩, e3, h1', R2, f2, piv', hO', hperm', hs', ht'⟩ := (prepareDigestInput_wp sl'.norm sl'.act R M'
    hKN hN hv' hR (fullRank_valid hRr hv' hN.le)).exists_ok
  dsimp only at h1' hO' hperm' hs' ht'
  have hrow' : RowEq (matOf G0 * M.mat) (matOf R * M'.mat) := by
    rw [hmat, ← Matrix.mul_assoc]; exact hrow.mul_right M.mat
  have hV : V = V' := colsOf_inj (((isCommit_of_out hO hperm hs).rowEq hrow').unique (isCommit_of_out hO' hperm' hs'))
  have hpiv := (rref_unique hO.rref hO'.rref ((hO.rowEq.symm.trans hrow').trans hO'.rowEq)).2
  have hp1 : ∀ t, t < p.K → g act.permutation t = g a'.permutation t := by
    intro t hk
    have x := ht ⟨t, hk⟩
    have y := ht' ⟨t, hk⟩
    have z := hact t hk
    dsimp only at x y
    refine hv'.1.2 _ _ z.1 y.1 ?_
    rw [y.2.1, (hM' _ z.1).1, z.2.1, x.2.1, hpiv]
  have haa : act = a' := by
    have e : act.permutation = a'.permutation := vec_ext hp1
    have e' : act.coefficients = a'.coefficients := by
      apply vec_ext
      intro t hk
      have x := ht ⟨t, hk⟩
      have y := ht' ⟨t, hk⟩
      have z := hact t hk
      dsimp only at x y
      rw [z.2.2, y.2.2, ← hp1 t hk, (hM' _ z.1).2, z.2.1, x.2.2, mul_comm]
    cases act; cases a'; simp_all
  have hfit : a'.Fits := by
    refine ⟨fun t hk => ?_, fun t hk => ?_⟩
    · exact lt_of_lt_of_le (ht' ⟨t, hk⟩).1 (N_lt_idxBits hp).le
    · have := (hv'.2 _ (ht' ⟨t, hk⟩).1).2
      rw [← (ht' ⟨t, hk⟩).2.2] at this
      dsimp only at this
      omega
  have e4 := compressMonomAction_eq hp rbuf a' hfit
  have e5 := compressMonomAction_eq hp rbuf' a' hfit
  refine ⟨V, packed p.monoBytes (actionBits a'), ?_, ?_⟩
  · unfold signerRound
    rw [e1, Kat.ok_bind]
    dsimp only
    rw [e2, Kat.ok_bind, haa, e4, Kat.ok_bind]
    rfl
  · unfold simulatedRound
    rw [hx, Kat.ok_bind, e3, Kat.ok_bind]
    dsimp only
    rw [e5, Kat.ok_bind, hV]
    rfl

theorem bind_inv {α β : Type} {x : C α} {f : α → C β} {b : β} (h : (x >>= f) = .ok b) :
    ∃ a, x = .ok a ∧ f a = .ok b := by
  cases x with
  | error e => cases h
  | ok a => exact ⟨a, rfl, h⟩

theorem signRound_inv {fuel : Nat} {sl : Stale p} {G0 : GenMat p} {tree : TreeBuf p} {salt : Bytes} {i : Nat}
    {s s' : Vector (MonoAction p) p.T × Inc} (hi : i < p.T) (h : signRound fuel sl G0 tree salt i s = .ok s') :
    ∃ seed M a V a' ok, slice tree (p.seedLen * (p.numLeaves - 1) + i * p.seedLen) p.seedLen = .ok seed ∧
      monomialSeedExpandSaltRnd fuel sl.mono seed salt i = .ok M ∧
      prepareDigestInput sl.norm a G0 M = .ok (V, a', ok) ∧ s'.1 = upd s.1 i a' ∧
      s'.2 = hashAbsorb p s.2 (normBytes V) := by
  unfold signRound at h
  obtain ⟨seed, e1, h⟩ := bind_inv h
  obtain ⟨M, e2, h⟩ := bind_inv h
  obtain ⟨a, -, h⟩ := bind_inv h
  obtain ⟨⟨V, a', ok⟩, e3, h⟩ := bind_inv h
  obtain ⟨acts', e4, h⟩ := bind_inv h
  cases h
  rw [Kat.wr_ok _ _ _ hi] at e4
  cases e4
  exact ⟨seed, M, a, V, a', ok, e1, e2, e3, rfl, rfl⟩

theorem signResponse_inv {fuel : Nat} {sl : Stale p} {i : Nat} {acts : Vector (MonoAction p) p.T} {fws : Vector Nat p.T}
    {seeds : Vector (Vector UInt8 p.skSeedLen) (p.numKeypairs - 1)} {s s' : Vector (Vector UInt8 p.monoBytes) p.W × Nat}
    (hi : i < p.T) (h : signResponse fuel sl fws seeds acts i s = .ok s') :
    (g fws i = 0 ∧ s' = s) ∨ (g fws i ≠ 0 ∧ g fws i - 1 < p.numKeypairs - 1 ∧ s.2 < p.W ∧ s'.2 = s.2 + 1 ∧
      ∃ S act resp, monomialSeedExpandPrikey fuel sl.mono (g seeds (g fws i - 1)).toList = .ok S ∧
        composeAction sl.mono' sl.act S (g acts i) = .ok act ∧ compressMonomAction (g s.1 s.2) act = .ok resp ∧
        s'.1 = upd s.1 s.2 resp) := by
  obtain ⟨out, n⟩ := s
  unfold signResponse at h
  dsimp only at h ⊢
  rw [Kat.rd_ok _ _ hi, Kat.ok_bind] at h
  by_cases hx : g fws i = 0
  · rw [if_neg (by simpa using hx)] at h
    cases h
    exact Or.inl ⟨hx, rfl⟩
  · rw [if_pos hx] at h
    obtain ⟨sd, e5, h⟩ := bind_inv h
    have hlt : g fws i - 1 < p.numKeypairs - 1 := by
      by_contra hlt
      rw [rd, dif_neg hlt] at e5
      cases e5
    rw [Kat.rd_ok _ _ hlt] at e5
    cases e5
    obtain ⟨S, e6, h⟩ := bind_inv h
    rw [Kat.rd_ok _ _ hi, Kat.ok_bind] at h
    obtain ⟨act, e7, h⟩ := bind_inv h
    obtain ⟨b, e8, h⟩ := bind_inv h
    have hn : n < p.W := by
      by_contra hlt
      rw [rd, dif_neg hlt] at e8
      cases e8
    rw [Kat.rd_ok _ _ hn] at e8
    cases e8
    obtain ⟨resp, e9, h⟩ := bind_inv h
    rw [Kat.wr_ok _ _ _ hn, Kat.ok_bind] at h
    cases h
    exact Or.inr ⟨hx, hlt, hn, rfl, S, act, resp, e6, e7, e9, rfl⟩

theorem forUp_states {σ : Type} {f : Nat → σ → C σ} {s t : σ} : ∀ {n : Nat}, forUp n f s = .ok t →
    ∃ st : Nat → σ, st 0 = s ∧ st n = t ∧ ∀ i < n, f i (st i) = .ok (st (i + 1)) := by
  intro n
  induction n generalizing t with
  | zero => intro h; cases h; exact ⟨fun _ => s, rfl, rfl, fun i hi => absurd hi (Nat.not_lt_zero i)⟩
  | succ n ih =>
    intro h
    obtain ⟨u, h1, h2⟩ := bind_inv (x := forUp n f s) (f := f n) h
    obtain ⟨st, e0, e1, e2⟩ := ih h1
    refine ⟨fun i => if i = n + 1 then t else st i, by simp [e0], by simp, fun i hi => ?_⟩
    dsimp only
    rw [if_neg (by omega)]
    by_cases e : i = n
    · subst e; rw [if_pos rfl, e1, h2]
    · rw [if_neg (by omega)]; exact e2 i (by omega)

/-! ## C57 -/

/-- The number of rounds before `i` with non-zero challenge. -/
def answersBefore (fws : Vector Nat p.T) (i : Nat) : Nat := ((List.range i).filter fun j => g fws j ≠ 0).length

theorem answersBefore_succ (fws : Vector Nat p.T) (i : Nat) :
    answersBefore fws (i + 1) = answersBefore fws i + if g fws i ≠ 0 then 1 else 0 := by
  unfold answersBefore
  rw [List.range_succ, List.filter_append, List.length_append]
  by_cases h : g fws i = 0 <;> simp [h]

/-- The pairs in a signature are those of `signerRound`.  When `LESS_sign` returns, there are monomials `M i`, one for
each round, expanded from the leaves of the seed tree, and commitments `V i` to them that were hashed with message and salt to
the digest; in every round with non-zero challenge, `V i` and the response in the signature are what `signerRound`
publishes for `M i` and the secret that the challenge selects. -/
theorem C57_signature {n : Nat} {fuel : Nat} {sl : Nat → Stale p} {rng rng' : Inc} {SK : PriKey p} {m : Bytes}
    {sig sig' : SignT p n} {num : Nat} (h : lessSign fuel sl rng SK m sig = .ok (sig', num, rng')) :
    ∃ (G0 : GenMat p) (seeds : Vector (Vector UInt8 p.skSeedLen) (p.numKeypairs - 1)) (tree : TreeBuf p)
      (fws : Vector Nat p.T) (M : Nat → Monomial p) (V : Nat → NormIS p),
      expandG0 fuel (sl 0) SK.G0seed.toList = .ok G0 ∧ privateSeeds p SK.compressedSk.toList = .ok seeds ∧
      generateSeedTree (Vector.replicate _ 0) (csprngBytes p p.seedLen rng).1 sig'.treeSalt.toList = .ok tree ∧
      (∀ i < p.T, ∃ seed, slice tree (p.seedLen * (p.numLeaves - 1) + i * p.seedLen) p.seedLen = .ok seed ∧
        monomialSeedExpandSaltRnd fuel (sl (i + 1)).mono seed sig'.treeSalt.toList i = .ok (M i) ∧
        ∃ old a ok, prepareDigestInput (sl (i + 1)).norm old G0 (M i) = .ok (V i, a, ok)) ∧
      sig'.digest = toVec p.hashLen (hashFinalize p (hashAbsorb p (hashAbsorb p
        ((List.range p.T).foldl (fun h i => hashAbsorb p h (normBytes (V i))) hashInit) m) sig'.treeSalt.toList)) ∧
      expandDigest fuel (Vector.replicate p.T 0) sig'.digest.toList = .ok fws ∧
      ∀ i < p.T, g fws i ≠ 0 → ∃ (s : Stale p) (buf : Vector UInt8 p.monoBytes) (S : Monomial p),
        g fws i - 1 < p.numKeypairs - 1 ∧ answersBefore fws i < p.W ∧
        monomialSeedExpandPrikey fuel (sl (p.T + i + 1)).mono (g seeds (g fws i - 1)).toList = .ok S ∧
        signerRound s buf G0 S (M i) = .ok (V i, g sig'.monomActions (answersBefore fws i)) := by
  unfold lessSign at h
  obtain ⟨seeds, e1, h⟩ := bind_inv h
  rcases hc : csprngBytes p p.seedLen rng with ⟨ephem, rng1⟩
  rcases hc' : csprngBytes p p.hashLen rng1 with ⟨salt, rng2⟩
  rw [hc] at h
  dsimp only at h
  rw [hc'] at h
  dsimp only at h
  obtain ⟨tree, e2, h⟩ := bind_inv h
  obtain ⟨G0, e3, h⟩ := bind_inv h
  obtain ⟨⟨acts, hh⟩, e4, h⟩ := bind_inv h
  dsimp only at h
  obtain ⟨fws, e5, h⟩ := bind_inv h
  obtain ⟨ind, -, h⟩ := bind_inv h
  obtain ⟨st1, -, h⟩ := bind_inv h
  obtain ⟨⟨st2, num'⟩, -, h⟩ := bind_inv h
  dsimp only at h
  obtain ⟨⟨monoms, cnt⟩, e6, h⟩ := bind_inv h
  dsimp only at h
  obtain ⟨st3, -, h⟩ := bind_inv h
  cases h
  dsimp only
  obtain ⟨a, a0, aT, ha⟩ := forUp_states e4
  obtain ⟨r, r0, rT, hr⟩ := forUp_states e6
  have hA : ∀ i, ∃ (M : Monomial p) (V : NormIS p), i < p.T → ∃ seed old a' ok,
      slice tree (p.seedLen * (p.numLeaves - 1) + i * p.seedLen) p.seedLen = .ok seed ∧
      monomialSeedExpandSaltRnd fuel (sl (i + 1)).mono seed (toVec p.hashLen salt).toList i = .ok M ∧
      prepareDigestInput (sl (i + 1)).norm old G0 M = .ok (V, a', ok) ∧ (a (i + 1)).1 = upd (a i).1 i a' ∧
      (a (i + 1)).2 = hashAbsorb p (a i).2 (normBytes V) := by
    intro i
    by_cases hi : i < p.T
    · obtain ⟨seed, M, old, V, a', ok, h1, h2, h3, h4, h5⟩ := signRound_inv hi (ha i hi)
      exact ⟨M, V, fun _ => ⟨seed, old, a', ok, h1, h2, h3, h4, h5⟩⟩
    · exact ⟨(sl 0).mono, (sl 0).norm, fun h => absurd h hi⟩
  choose M V hMV using hA
  refine ⟨G0, seeds, tree, fws, M, V, e3, e1, e2, fun i hi => ?_, ?_, e5, fun i hi hx => ?_⟩
  · obtain ⟨seed, old, a', ok, h1, h2, h3, _⟩ := hMV i hi
    exact ⟨seed, h1, h2, old, a', ok, h3⟩
  · have key : ∀ i ≤ p.T, (a i).2 = (List.range i).foldl (fun h i => hashAbsorb p h (normBytes (V i))) hashInit := by
      intro i
      induction i with
      | zero => intro _; rw [a0]; rfl
      | succ i ih =>
        intro hi
        obtain ⟨_, _, _, _, _, _, _, _, h5⟩ := hMV i hi
        rw [h5, ih (by omega), List.range_succ, List.foldl_append]
        rfl
    rw [← key p.T (Nat.le_refl _), aT]
  · obtain ⟨seed, old, a', ok, -, -, h3, h4, -⟩ := hMV i hi
    have hacts : ∀ j, i < j → j ≤ p.T → g (a j).1 i = a' := by
      intro j
      induction j with
      | zero => intro h; omega
      | succ j ih =>
        intro h hj
        by_cases e : i = j
        · subst e; rw [h4, g_upd_self _ _ _ hi]
        · obtain ⟨_, _, _, _, _, _, _, h4', _⟩ := hMV j hj
          rw [h4', g_upd_ne _ _ _ _ (Ne.symm e), ih (by omega) (by omega)]
    have hact : g acts i = a' := by
      have := hacts p.T hi (Nat.le_refl _)
      rwa [aT] at this
    have hcnt : ∀ j ≤ p.T, (r j).2 = answersBefore fws j := by
      intro j
      induction j with
      | zero => intro _; rw [r0]; rfl
      | succ j ih =>
        intro hj
        rw [answersBefore_succ, ← ih (by omega)]
        rcases signResponse_inv hj (hr j hj) with ⟨h1, h2⟩ | ⟨h1, -, -, h2, -⟩
        · rw [h2, h1]; rfl
        · rw [h2, if_pos h1]
    rcases signResponse_inv hi (hr i hi) with ⟨h1, -⟩ | ⟨-, hk, hn, hn', S, act, resp, g1, g2, g3, g4⟩
    · exact absurd h1 hx
    · rw [hcnt i hi.le] at hn g4 hn' g3
      have hout : ∀ j, i < j → j ≤ p.T → answersBefore fws i < (r j).2 ∧ g (r j).1 (answersBefore fws i) = resp := by
        intro j
        induction j with
        | zero => intro h; omega
        | succ j ih =>
          intro h hj
          by_cases e : i = j
          · subst e; rw [hn', g4, g_upd_self _ _ _ hn]; exact ⟨Nat.lt_succ_self _, rfl⟩
          · obtain ⟨i1, i2⟩ := ih (by omega) (by omega)
            rcases signResponse_inv hj (hr j hj) with ⟨-, h2⟩ | ⟨-, -, -, h2, S', act', resp', -, -, -, h3⟩
            · rw [h2]; exact ⟨i1, i2⟩
            · rw [h2, h3, g_upd_ne _ _ _ _ (by omega)]; exact ⟨by omega, i2⟩
      have hres := (hout p.T hi (Nat.le_refl _)).2
      rw [rT] at hres
      dsimp only at hres
      rw [hact] at g2
      let s := sl (i + 1)
      let s' := sl (p.T + i + 1)
      refine ⟨⟨s'.mono', s'.mono', s.gen, s.rref, s.norm, old, s'.act, s.sfg⟩, g (r i).1 (answersBefore fws i), S, hk, hn, g1, ?_⟩
      unfold signerRound
      dsimp only
      rw [h3, Kat.ok_bind]
      dsimp only
      rw [g2, Kat.ok_bind, g3, hres]
      rfl

/-- The valid monomial matrices: a permutation and non-zero coefficients. -/
abbrev VMono (p : Params) := {M : Monomial p // M.Valid}

instance : Finite (VMono p) :=
  Finite.of_injective (fun M : VMono p => M.1.mat) fun A B h => Subtype.ext (mat_inj A.2 B.2 h)

/-- For a secret `S` expanded from a seed and the code that key generation publishes for it, there is a bijection of
the valid monomials under which the signer's round becomes the simulator's: the same commitment and the same response
bytes, whatever was in the memory of either.  The bijection depends on the secret; the simulator does not. -/
theorem C57_simulation (hp : p.WF) {fuel : Nat} {sl : Stale p} {G0 : GenMat p} {seed : Bytes}
    {buf pkCode : Vector UInt8 p.rrefBytes} {S : Monomial p} (hS : monomialSeedExpandPrikey fuel sl.mono seed = .ok S)
    (hk : keygenOne fuel sl G0 seed buf = .ok pkCode) (hG : Reduced G0) (hr : FullRank (matOf G0)) :
    ∃ e : VMono p ≃ VMono p, ∀ (M : VMono p) (sl sl' : Stale p) (rbuf rbuf' : Vector UInt8 p.monoBytes),
      ∃ V resp, signerRound sl rbuf G0 S M = .ok (V, resp) ∧
        simulatedRound sl' rbuf' pkCode (e M) = .ok (V, resp) := by
  obtain ⟨hv, R, hR, hRr, hrow, hx⟩ := publicCode_spec hp hS hk hG hr
  have key : ∀ M : VMono p, ∃ M' : VMono p,
      ∀ i, i < p.N → g M'.1.permutation i = g M.1.permutation (g S.permutation i) ∧
        g M'.1.coefficients i = fqRed (g S.coefficients i * g M.1.coefficients (g S.permutation i)) := fun M => by
    obtain ⟨r, -, h⟩ := (monomialMul_wp S S M.1 hv.1).exists_ok
    exact ⟨⟨r, mul_valid hv M.2 h⟩, h⟩
  choose F hF using key
  obtain ⟨Si, -, vi, mi⟩ := exists_inv hp S S hv
  have mi' : Si.mat * S.mat = 1 := mul_eq_one_comm.mp mi
  have hFm : ∀ M : VMono p, (F M).1.mat = S.mat * M.1.mat := fun M => mat_mul hv M.2 (hF M)
  have hbij : Function.Bijective F := by
    constructor
    · intro A B h
      refine Subtype.ext (mat_inj A.2 B.2 ?_)
      have e : S.mat * A.1.mat = S.mat * B.1.mat := by rw [← hFm, ← hFm, h]
      have := congrArg (Si.mat * ·) e
      rwa [← Matrix.mul_assoc, ← Matrix.mul_assoc, mi', Matrix.one_mul, Matrix.one_mul] at this
    · intro B
      obtain ⟨A, -, va, ma⟩ := exists_mul S Si B.1 vi B.2
      refine ⟨⟨A, va⟩, Subtype.ext (mat_inj (F ⟨A, va⟩).2 B.2 ?_)⟩
      rw [hFm]
      rw [ma, ← Matrix.mul_assoc, mi, Matrix.one_mul]
  refine ⟨Equiv.ofBijective F hbij, fun M sl sl' rbuf rbuf' => ?_⟩
  exact round_agree hp hv M.2 (hF M) hG hr hR hRr hrow hx sl sl' rbuf rbuf'

/-- The signer publishes every pair of commitment and response for exactly as many monomials as the simulator that
knows only the public code.  So with the round's monomial drawn uniformly, the published pair has the same
distribution for both. -/
theorem C57_equal_counts (hp : p.WF) {fuel : Nat} {sl : Stale p} {G0 : GenMat p} {seed : Bytes}
    {buf pkCode : Vector UInt8 p.rrefBytes} {S : Monomial p} (hS : monomialSeedExpandPrikey fuel sl.mono seed = .ok S)
    (hk : keygenOne fuel sl G0 seed buf = .ok pkCode) (hG : Reduced G0) (hr : FullRank (matOf G0))
    (sl₁ sl₂ : Stale p) (rbuf₁ rbuf₂ : Vector UInt8 p.monoBytes) (V : NormIS p) (resp : Vector UInt8 p.monoBytes) :
    Nat.card {M : VMono p // signerRound sl₁ rbuf₁ G0 S M = .ok (V, resp)} =
      Nat.card {M : VMono p // simulatedRound sl₂ rbuf₂ pkCode M = .ok (V, resp)} := by
  obtain ⟨e, h⟩ := C57_simulation hp hS hk hG hr
  refine Nat.card_congr (e.subtypeEquiv fun M => ?_)
  obtain ⟨V', resp', h1, h2⟩ := h M sl₁ sl₂ rbuf₁ rbuf₂
  rw [h1, h2]

/-- Two secrets with the same public code answer alike: which of them the signer holds cannot be told from the
published pairs. -/
theorem C57_secrets_alike (hp : p.WF) {fuel : Nat} {sl : Stale p} {G0 : GenMat p} {seed seed' : Bytes}
    {buf buf' pkCode : Vector UInt8 p.rrefBytes} {S S' : Monomial p}
    (hS : monomialSeedExpandPrikey fuel sl.mono seed = .ok S) (hS' : monomialSeedExpandPrikey fuel sl.mono seed' = .ok S')
    (hk : keygenOne fuel sl G0 seed buf = .ok pkCode) (hk' : keygenOne fuel sl G0 seed' buf' = .ok pkCode)
    (hG : Reduced G0) (hr : FullRank (matOf G0)) (sl₁ : Stale p) (rbuf₁ : Vector UInt8 p.monoBytes) (V : NormIS p)
    (resp : Vector UInt8 p.monoBytes) :
    Nat.card {M : VMono p // signerRound sl₁ rbuf₁ G0 S M = .ok (V, resp)} =
      Nat.card {M : VMono p // signerRound sl₁ rbuf₁ G0 S' M = .ok (V, resp)} :=
  (C57_equal_counts hp hS hk hG hr sl₁ sl₁ rbuf₁ rbuf₁ V resp).trans
    (C57_equal_counts hp hS' hk' hG hr sl₁ sl₁ rbuf₁ rbuf₁ V resp).symm

/-! ### Whole signatures -/

/-- What a round makes public: the commitment, and the monomial itself (challenge 0) or the response. -/
abbrev RoundView (p : Params) := NormIS p × (VMono p ⊕ Vector UInt8 p.monoBytes)

/-- LESS.c:137-187, 190-195: what `LESS_sign` makes public of a round with monomial `M` and challenge `c`; `S k` is the
private monomial with number `k`.  With challenge 0 the seed of the monomial is published. -/
def signerView (sl : Stale p) (rbuf : Vector UInt8 p.monoBytes) (G0 : GenMat p) (S : Nat → Monomial p) (c : Nat)
    (M : VMono p) : C (RoundView p) :=
  if c = 0 then do
    let (V, _, _) ← prepareDigestInput sl.norm sl.act G0 M.1
    pure (V, .inl M)
  else do
    let (V, resp) ← signerRound sl rbuf G0 (S (c - 1)) M.1
    pure (V, .inr resp)

/-- The same for the simulator, which has the codes of the public key: not in the code. -/
def simulatedView (sl : Stale p) (rbuf : Vector UInt8 p.monoBytes) (G0 : GenMat p) (pkCode : Nat → Vector UInt8 p.rrefBytes)
    (c : Nat) (M : VMono p) : C (RoundView p) :=
  if c = 0 then do
    let (V, _, _) ← prepareDigestInput sl.norm sl.act G0 M.1
    pure (V, .inl M)
  else do
    let (V, resp) ← simulatedRound sl rbuf (pkCode (c - 1)) M.1
    pure (V, .inr resp)

/-- For every challenge vector, there is a permutation of the tuples of monomials under which the simulator makes
the same public as the signer, in all rounds. -/
theorem C57_transcript (hp : p.WF) {fuel : Nat} {sl : Nat → Stale p} {G0 : GenMat p} {seeds : Nat → Bytes}
    {bufs pkCode : Nat → Vector UInt8 p.rrefBytes} {S : Nat → Monomial p}
    (hS : ∀ k < p.numKeypairs - 1, monomialSeedExpandPrikey fuel (sl k).mono (seeds k) = .ok (S k))
    (hk : ∀ k < p.numKeypairs - 1, keygenOne fuel (sl k) G0 (seeds k) (bufs k) = .ok (pkCode k))
    (hG : Reduced G0) (hr : FullRank (matOf G0)) (c : Vector Nat p.T) (hc : ∀ i < p.T, g c i < p.numKeypairs) :
    ∃ e : (Fin p.T → VMono p) ≃ (Fin p.T → VMono p), ∀ (M : Fin p.T → VMono p) (i : Fin p.T) (sl sl' : Stale p)
      (rbuf rbuf' : Vector UInt8 p.monoBytes),
      ∃ view, signerView sl rbuf G0 S (g c i) (M i) = .ok view ∧
        simulatedView sl' rbuf' G0 pkCode (g c i) (e M i) = .ok view := by
  have key : ∀ i : Fin p.T, ∃ e : VMono p ≃ VMono p, ∀ (M : VMono p) (sl sl' : Stale p) (rbuf rbuf' : Vector UInt8 p.monoBytes),
      ∃ view, signerView sl rbuf G0 S (g c i) M = .ok view ∧
        simulatedView sl' rbuf' G0 pkCode (g c i) (e M) = .ok view := by
    intro i
    have hi := hc i i.2
    by_cases h0 : g c i = 0
    · refine ⟨Equiv.refl _, fun M sl sl' rbuf rbuf' => ?_⟩
      have hN := hp.N_lt
      have hKN := hp.K_lt_N
      obtain ⟨⟨V, a, ok⟩, e1, h1, R1, f1, piv, hO, hperm, hs, ht⟩ := (prepareDigestInput_wp sl.norm sl.act G0 M.1 hKN hN M.2 hG
        (fullRank_valid hr M.2 hN.le)).exists_ok
      obtain ⟨⟨V', a', ok'⟩, e3, h1', R2, f2, piv', hO', hperm', hs', ht'⟩ := (prepareDigestInput_wp sl'.norm sl'.act G0 M.1
        hKN hN M.2 hG (fullRank_valid hr M.2 hN.le)).exists_ok
      have hV : V = V' := colsOf_inj ((isCommit_of_out hO hperm hs).unique (isCommit_of_out hO' hperm' hs'))
      refine ⟨(V, .inl M), ?_, ?_⟩
      · unfold signerView
        rw [if_pos h0, e1]; rfl
      · unfold simulatedView
        rw [if_pos h0, Equiv.refl_apply, e3, hV]; rfl
    · obtain ⟨e, he⟩ := C57_simulation hp (hS (g c i - 1) (by omega)) (hk (g c i - 1) (by omega)) hG hr
      refine ⟨e, fun M sl sl' rbuf rbuf' => ?_⟩
      obtain ⟨V, resp, h1, h2⟩ := he M sl sl' rbuf rbuf'
      refine ⟨(V, .inr resp), ?_, ?_⟩
      · unfold signerView
        rw [if_neg h0, h1]; rfl
      · unfold simulatedView
        rw [if_neg h0, h2]; rfl
  choose e he using key
  exact ⟨Equiv.piCongrRight e, fun M i sl sl' rbuf rbuf' => he i (M i) sl sl' rbuf rbuf'⟩

/-- For every challenge vector, the signer makes every tuple of views public for exactly as many tuples of monomials
as the simulator: what all rounds of a signature show together does not depend on the private key either. -/
theorem C57_transcript_counts (hp : p.WF) {fuel : Nat} {sl : Nat → Stale p} {G0 : GenMat p} {seeds : Nat → Bytes}
    {bufs pkCode : Nat → Vector UInt8 p.rrefBytes} {S : Nat → Monomial p}
    (hS : ∀ k < p.numKeypairs - 1, monomialSeedExpandPrikey fuel (sl k).mono (seeds k) = .ok (S k))
    (hk : ∀ k < p.numKeypairs - 1, keygenOne fuel (sl k) G0 (seeds k) (bufs k) = .ok (pkCode k))
    (hG : Reduced G0) (hr : FullRank (matOf G0)) (c : Vector Nat p.T) (hc : ∀ i < p.T, g c i < p.numKeypairs)
    (sl₁ sl₂ : Nat → Stale p) (rbuf₁ rbuf₂ : Nat → Vector UInt8 p.monoBytes) (views : Fin p.T → RoundView p) :
    Nat.card {M : Fin p.T → VMono p // ∀ i : Fin p.T, signerView (sl₁ i) (rbuf₁ i) G0 S (g c i) (M i) = .ok (views i)} =
      Nat.card {M : Fin p.T → VMono p // ∀ i : Fin p.T, simulatedView (sl₂ i) (rbuf₂ i) G0 pkCode (g c i) (M i) = .ok (views i)} := by
  obtain ⟨e, h⟩ := C57_transcript hp hS hk hG hr c hc
  refine Nat.card_congr (e.subtypeEquiv fun M => forall_congr' fun i => ?_)
  obtain ⟨view, h1, h2⟩ := h M i (sl₁ i) (sl₂ i) (rbuf₁ i) (rbuf₂ i)
  rw [h1, h2]

end LESS
