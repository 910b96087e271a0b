import Verif.Props.Fault
/-!
# C100: signing with a challenge that is disturbed

When the call returns, what its signature shows then, and which disturbances are harmless.
-/
namespace LESS

open Spec

variable {p : Params}

/-- One turn of the loop of LESS.c:172-187 for a challenge with room for its responses. -/
theorem signResponse_runs (hp : p.WF) {fuel : Nat} (sl : Stale p) {sk : SK p} {w : Vector Nat p.T}
    {seeds : Vector (Vector UInt8 p.skSeedLen) (p.numKeypairs - 1)} {acts : Vector (MonoAction p) p.T} {i : Nat} (hi : i < p.T)
    {A : Matrix (Fin p.K) (Fin p.N) Fq} {salt root : Bytes} {coms : Nat → List (List Nat)}
    (hinfo : ∀ j < p.T, RoundInfo p fuel A salt (signerLeaf p root salt j) j (g acts j) (coms j))
    (hseeds : ∀ i < p.numKeypairs - 1, (g seeds i).toList = ((xof p sk.secret).drop (i * p.skSeedLen)).take p.skSeedLen)
    (hsec : ∀ i < p.numKeypairs - 1, ∃ M, IsSecret p fuel sk.secret i M) (hr : g w i < p.numKeypairs) (hw : weight p.T (g w) ≤ p.W)
    {s : Vector (Vector UInt8 p.monoBytes) p.W × Nat} (hs : s.2 = weight i (g w) ∧ ∀ j < i, g w j ≠ 0 →
      ResponseOk p fuel sk A salt (signerLeaf p root salt j) j (g w j) (coms j) (g s.1 (weight j (g w)))) :
    Wp False (signResponse fuel sl w seeds acts i s) (fun s' => s'.2 = weight (i + 1) (g w) ∧ ∀ j < i + 1, g w j ≠ 0 →
      ResponseOk p fuel sk A salt (signerLeaf p root salt j) j (g w j) (coms j) (g s'.1 (weight j (g w)))) := by
  obtain ⟨out, emitted⟩ := s
  obtain ⟨he, hout⟩ := hs
  dsimp only at he hout
  unfold signResponse
  dsimp only
  rw [Wp.bind_iff, Wp.rd_iff]
  refine ⟨hi, ?_⟩
  by_cases hx : g w i = 0
  · rw [if_neg (by simpa using hx), Wp.pure_iff]
    refine ⟨?_, fun j hj hne => ?_⟩
    · dsimp only; rw [weight_succ, if_neg (by simpa using hx), he]; rfl
    · exact hout j (by rcases Nat.lt_succ_iff_lt_or_eq.mp hj with e | e; exact e; subst e; exact absurd hx hne) hne
  · have hwt := weight_lt hi (g w) hx
    rw [if_pos hx, Wp.bind_iff, Wp.rd_iff]
    refine ⟨by omega, ?_⟩
    have := signResponse_one (F := False) hp fuel sl sk (hinfo i hi) (v := g w i) (g seeds (g w i - 1)).toList
      (hseeds _ (by omega)) (g out emitted) (fun buf => do
        let out ← wr out emitted buf
        pure (out, emitted + 1)) (fun s' => s'.2 = weight (i + 1) (g w) ∧ ∀ j < i + 1, g w j ≠ 0 →
      ResponseOk p fuel sk A salt (signerLeaf p root salt j) j (g w j) (coms j) (g s'.1 (weight j (g w)))) ?_ ?_
    · rw [Wp.bind_iff] at this ⊢
      refine this.mono ?_
      intro Qm hQm
      rw [Wp.bind_iff, Wp.rd_iff]
      refine ⟨hi, ?_⟩
      rw [Wp.bind_iff] at hQm ⊢
      refine hQm.mono ?_
      intro act hact
      rw [Wp.bind_iff, Wp.rd_iff]
      exact ⟨by omega, hact⟩
    · exact fun hno => hno (hsec _ (by omega))
    · intro b hb
      simp only [Wp.bind_iff, Wp.wr_iff, Wp.pure_iff]
      refine ⟨by omega, ?_, fun j hj hne => ?_⟩
      · rw [weight_succ, if_pos hx, he]
      · by_cases e : j = i
        · subst e
          rw [← he, g_upd_self _ _ _ (by omega)]
          exact hb
        · have := weight_lt (show j < i by omega) (g w) hne
          rw [g_upd_ne _ _ _ _ (by omega)]
          exact hout j (by omega) hne

theorem weight_le_of_zero {u v : Nat → Nat} : ∀ {n : Nat}, (∀ k < n, v k = 0 → u k = 0) → weight n u ≤ weight n v
  | 0, _ => Nat.le_refl _
  | n + 1, h => by
    have ih := weight_le_of_zero (n := n) fun k hk => h k (by omega)
    have hn := h n (by omega)
    rw [weight_succ, weight_succ]
    by_cases hv : v n = 0
    · simp [hv, hn hv, ih]
    · simp [hv]
      split <;> omega

theorem weight_eq_of_lt {u v : Nat → Nat} {n : Nat} (h : ∀ k < n, u k = v k) : weight n u = weight n v :=
  Nat.le_antisymm (weight_le_of_zero fun k hk h0 => by rw [h k hk, h0]) (weight_le_of_zero fun k hk h0 => by rw [← h k hk, h0])

/-- The call with a disturbed challenge that has room for its responses, in terms of the call that was not disturbed. -/
theorem disturbed (hp : p.WF) {n : Nat} {f : Nat → Nat → Nat} {fuel : Nat} {sl : Nat → Stale p} {rng rng' : Inc}
    {s : Stream} (hs : StreamAt p rng s) {sk : PriKey p} {pk : PK p} (hK : KeyPair p fuel sk.spec pk)
    {m : Bytes} {out sig : SignT p n} {num : Nat} (h : lessSign fuel sl rng sk m out = .ok (sig, num, rng')) {v : Nat → Nat}
    (hv : IsChallenge p fuel (xof p sig.spec.digest) v) (hf : ∀ k < p.T, f k (v k) < p.numKeypairs)
    (hwt : weight p.T (fun k => f k (v k)) ≤ p.W) :
    ∃ sig', lessSignR f fuel sl rng sk m out = .ok (sig', num, rng') ∧ sig'.treeSalt = sig.treeSalt ∧ sig'.digest = sig.digest ∧
      sig'.seedStorage = sig.seedStorage ∧
      ∃ (G0 : Matrix (Fin p.K) (Fin p.N) (ZMod 127)) (coms : Nat → List (List Nat)), IsG0 p fuel (xof p sk.spec.seed) G0 ∧
        ∀ j < p.T, f j (v j) ≠ 0 → ResponseOk p fuel sk.spec G0 sig.spec.salt (signerLeaf p (s.take p.seedLen) sig.spec.salt j) j (f j (v j))
          (coms j) (g sig'.monomActions (weight j (fun k => f k (v k)))) := by
  have hKN := hp.K_lt_N
  unfold lessSign at h
  unfold lessSignR
  obtain ⟨seeds, e1, h⟩ := run_of_bind h
  rw [e1, bind_ok]
  dsimp only at h ⊢
  obtain ⟨tree, e2, h⟩ := run_of_bind h
  rw [e2, bind_ok]
  obtain ⟨G0, e3, h⟩ := run_of_bind h
  rw [e3, bind_ok]
  obtain ⟨⟨acts, hh⟩, e4, h⟩ := run_of_bind h
  rw [e4, bind_ok]
  dsimp only at h ⊢
  obtain ⟨fws, e5, h⟩ := run_of_bind h
  rw [e5, bind_ok]
  obtain ⟨ind, e6, h⟩ := run_of_bind h
  rw [e6, bind_ok]
  obtain ⟨cleared, e7, h⟩ := run_of_bind h
  rw [e7, bind_ok]
  obtain ⟨⟨storage, num₁⟩, e8, h⟩ := run_of_bind h
  rw [e8, bind_ok]
  dsimp only at h ⊢
  obtain ⟨⟨monoms, w⟩, e9, h⟩ := run_of_bind h
  dsimp only at h
  obtain ⟨full, e10, h⟩ := run_of_bind h
  cases h
  have hch := (expandDigest_spec hp fuel _).of_ok e5
  obtain rfl := hv.unique hch
  have htree := (generateSeedTree_wp (F := False) hp _ _ _ (by rw [hs.2]; exact take_length _ _)).of_ok e2
  rw [expandH_eq, hs.2] at htree
  have hTl := hp.T_lt_leaves
  have hseeds := (privateSeeds_wp (F := False) (p := p) _).of_ok e1
  obtain ⟨hG, hG0⟩ := (expandG0_wp hp fuel (sl 0) _).of_ok e3
  have hrank := IsRREF.fullRank (hG0.rref (Nat.le_of_lt hKN))
  have hrounds := forUp_run (fun i (st : Vector (MonoAction p) p.T × Inc) => ∃ coms : Nat → List (List Nat),
      (∀ j < i, RoundInfo p fuel (matOf G0) _ (signerLeaf p _ _ j) j (g st.1 j) (coms j)) ∧
      st.2 = hashAbsorb p hashInit ((List.range i).flatMap fun j => commitBytes p.K (coms j))) (by
        refine ⟨fun _ => [], by simp, ?_⟩
        unfold hashAbsorb
        rw [incAbsorb_eq_foldl _ _ _ (hashRate_pos p)]; rfl) (by
        rintro i st st' hi ⟨coms, hI1, hI2⟩ hrun
        exact (signRound_wp (F := True) hp fuel (sl (i + 1)) G0 tree _ _ i st hG hrank hi (fun j hj =>
          htree _ (by unfold Params.numNodes; omega)) (fun _ => trivial) hI1 hI2).of_ok hrun) e4
  obtain ⟨coms, hinfo, -⟩ := hrounds
  have hgw : ∀ k, k < p.T → g (Vector.ofFn fun k : Fin p.T => f k (g fws k)) k = f k (g fws k) := fun k hk => by rw [g_ofFn _ _ hk]
  have hwt' : weight p.T (g (Vector.ofFn fun k : Fin p.T => f k (g fws k))) ≤ p.W := by
    rw [weight_eq_of_lt hgw]
    exact hwt
  obtain ⟨⟨monoms', w'⟩, e9', -, hresp⟩ := (Wp.forUp (F := False) (n := p.T)
    (body := fun i => signResponse fuel (sl (p.T + i + 1)) (Vector.ofFn fun k : Fin p.T => f k (g fws k)) seeds acts i)
    (s := (out.monomActions, 0)) _ ⟨rfl, by simp⟩
    (fun i st hi hI => signResponse_runs hp (sl (p.T + i + 1)) (sk := sk.spec) hi hinfo hseeds (fun i hi => by
      obtain ⟨_, M, _, _, _, hM, _⟩ := hK.2 i hi
      exact ⟨M, hM⟩) (by
        rw [hgw i hi]
        exact hf i hi) hwt' hI) (fun _ h => h)).exists_ok
  rw [e9', bind_ok]
  dsimp only
  rw [e10, bind_ok]
  refine ⟨_, rfl, rfl, rfl, rfl, matOf G0, coms, hG0, fun j hj hne => ?_⟩
  have := hresp j hj (by rw [hgw j hj]; exact hne)
  rw [hgw j hj, weight_eq_of_lt (fun k hk => hgw k (by omega))] at this
  exact this

/-- C100 for a disturbed challenge, exactly: with the keys that key generation makes and entries that name keys, the call returns if and
only if no more rounds get a response than usual. -/
theorem C100_returns_iff (hp : p.WF) {n : Nat} {f : Nat → Nat → Nat} {fuel : Nat} {sl : Nat → Stale p} {rng rng' : Inc}
    (hr : RngOk p rng) {sk : PriKey p} {pk : PK p} (hK : KeyPair p fuel sk.spec pk)
    {m : Bytes} {out sig : SignT p n} {num : Nat} (h : lessSign fuel sl rng sk m out = .ok (sig, num, rng')) {v : Nat → Nat}
    (hv : IsChallenge p fuel (xof p sig.spec.digest) v) (hf : ∀ k < p.T, f k (v k) < p.numKeypairs) :
    (∃ r, lessSignR f fuel sl rng sk m out = .ok r) ↔ ((Finset.range p.T).filter fun k => f k (v k) ≠ 0).card ≤ p.W := by
  have hcard : ((Finset.range p.T).filter fun k => f k (v k) ≠ 0).card = weight p.T (fun k => f k (v k)) := (weight_eq_card _ _).symm
  rw [hcard]
  constructor
  · rintro ⟨r, hr⟩
    unfold lessSign at h
    unfold lessSignR at hr
    obtain ⟨seeds, e1, h⟩ := run_of_bind h
    rw [e1, bind_ok] at hr
    dsimp only at h hr
    obtain ⟨tree, e2, h⟩ := run_of_bind h
    rw [e2, bind_ok] at hr
    obtain ⟨G0, e3, h⟩ := run_of_bind h
    rw [e3, bind_ok] at hr
    obtain ⟨⟨acts, hh⟩, e4, h⟩ := run_of_bind h
    rw [e4, bind_ok] at hr
    dsimp only at h hr
    obtain ⟨fws, e5, h⟩ := run_of_bind h
    rw [e5, bind_ok] at hr
    obtain ⟨ind, e6, h⟩ := run_of_bind h
    rw [e6, bind_ok] at hr
    obtain ⟨cleared, e7, h⟩ := run_of_bind h
    rw [e7, bind_ok] at hr
    obtain ⟨⟨storage, num₁⟩, e8, h⟩ := run_of_bind h
    rw [e8, bind_ok] at hr
    dsimp only at h hr
    obtain ⟨⟨monoms, w⟩, e9, h⟩ := run_of_bind h
    dsimp only at h
    obtain ⟨full, e10, h⟩ := run_of_bind h
    cases h
    obtain ⟨⟨monoms', w'⟩, e9', -⟩ := run_of_bind hr
    obtain rfl := hv.unique ((expandDigest_spec hp fuel _).of_ok e5)
    obtain ⟨h1, h2⟩ := responses_fit e9'
    rw [h1, weight_eq_of_lt (v := fun k => f k (g fws k)) fun k hk => by rw [g_ofFn _ _ hk]] at h2
    exact h2
  · intro hwt
    obtain ⟨s, hs⟩ := exists_stream p rng hr
    obtain ⟨sig', h1, -⟩ := disturbed hp hs hK h hv hf hwt
    exact ⟨_, h1⟩

/-- C100, the part that holds for the challenge: if entries that are 0 stay 0 and the others name keys that exist, the disturbed call
returns, and shows the seeds of the call that was not disturbed.  Missing: entries that become other than 0 (`C100_fails_oob`,
`C100_fails_moved`). -/
theorem C100_challenge_partial (hp : p.WF) {n : Nat} {f : Nat → Nat → Nat} {fuel : Nat} {sl : Nat → Stale p} {rng rng' : Inc}
    (hr : RngOk p rng) {sk : PriKey p} {pk : PK p} (hK : KeyPair p fuel sk.spec pk)
    {m : Bytes} {out sig : SignT p n} {num : Nat} (h : lessSign fuel sl rng sk m out = .ok (sig, num, rng')) {v : Nat → Nat}
    (hv : IsChallenge p fuel (xof p sig.spec.digest) v) (hf0 : ∀ k < p.T, v k = 0 → f k 0 = 0)
    (hf : ∀ k < p.T, f k (v k) < p.numKeypairs) :
    ∃ sig', lessSignR f fuel sl rng sk m out = .ok (sig', num, rng') ∧ sig'.treeSalt = sig.treeSalt ∧ sig'.digest = sig.digest ∧
      sig'.seedStorage = sig.seedStorage := by
  obtain ⟨s, hs⟩ := exists_stream p rng hr
  have hwt : weight p.T (fun k => f k (v k)) ≤ p.W := by
    rw [← hv.weight]
    exact weight_le_of_zero fun k hk h0 => by rw [h0]; exact hf0 k hk h0
  obtain ⟨sig', h1, h2, h3, h4, -⟩ := disturbed hp hs hK h hv hf hwt
  exact ⟨sig', h1, h2, h3, h4⟩

/-- C100 is false if a response moves to another round: if one entry that is 0 becomes other than 0 and there is room for all responses,
the call returns, and its signature shows both the ephemeral seed of the round and a response for it, which give the secret map. -/
theorem C100_fails_moved (hp : p.WF) {n : Nat} {f : Nat → Nat → Nat} {fuel : Nat} {sl : Nat → Stale p} {rng rng' : Inc}
    (hr : RngOk p rng) {sk : PriKey p} {pk : PK p} (hK : KeyPair p fuel sk.spec pk)
    {m : Bytes} {out sig : SignT p n} {num : Nat} (hn : p.storageLen ≤ n) (h : lessSign fuel sl rng sk m out = .ok (sig, num, rng'))
    {v : Nat → Nat} (hv : IsChallenge p fuel (xof p sig.spec.digest) v) (hf : ∀ k < p.T, f k (v k) < p.numKeypairs)
    (hwt : ((Finset.range p.T).filter fun k => f k (v k) ≠ 0).card ≤ p.W) {j : Nat} (hj : j < p.T) (hvj : v j = 0) (hfj : f j 0 ≠ 0) :
    ∃ sig' G0 M, lessSignR f fuel sl rng sk m out = .ok (sig', num, rng') ∧ IsG0 p fuel (xof p pk.seed) G0 ∧
      IsChallenge p fuel (xof p sig'.spec.digest) v ∧
      Spec.IsMonomial p fuel (roundStream p sig'.spec.salt (rebuiltLeaf p sig'.spec v j) j) M ∧
      let x := Answer.response (Spec.decodeAction p (sig'.spec.responses (responsesBefore (fun k => f k (v k)) j)))
      (extract p (publicCode pk G0 (f j 0)) x G0 (.seed M)).IsMonomial ∧
      RowEq (ColOp.on (publicCode pk G0 (f j 0)) (extract p (publicCode pk G0 (f j 0)) x G0 (.seed M))) G0 := by
  obtain ⟨s, hs⟩ := exists_stream p rng hr
  have hwt : weight p.T (fun k => f k (v k)) ≤ p.W := by rw [weight_eq_card]; exact hwt
  obtain ⟨sig', h1, h2, h3, h4, G0, coms, hG0, hround⟩ := disturbed hp hs hK h hv hf hwt
  obtain ⟨-, hsigned, -⟩ := (lessSign_wp hp fuel sl rng sk m out s hs hn).of_ok h
  obtain ⟨v', coms', G0', hG0', hv', -, hrs⟩ := signed_rounds hp hK hsigned
  obtain rfl := hv.unique hv'
  obtain ⟨-, M, hM, -, hM'⟩ := hrs j hj
  have hsalt : sig'.spec.salt = sig.spec.salt := by unfold SignT.spec; dsimp only; rw [h2]
  have hdig : sig'.spec.digest = sig.spec.digest := by unfold SignT.spec; dsimp only; rw [h3]
  have hst : sig'.spec.stored = sig.spec.stored := by unfold SignT.spec; dsimp only; rw [h4]
  have hleaf : rebuiltLeaf p sig'.spec v j = rebuiltLeaf p sig.spec v j := by unfold rebuiltLeaf; rw [hsalt, hst]
  have hpk : IsG0 p fuel (xof p pk.seed) G0 := by rw [hK.1]; exact hG0
  obtain ⟨M₁, R, piv, g1, g2, g3, g4, g5⟩ := hround j hj (by rw [hvj]; exact hfj)
  obtain rfl := IsMonomial.unique hM g1
  refine ⟨sig', G0, M, h1, hpk, by rw [hdig]; exact hv, by rw [hsalt, hleaf]; exact hM' hvj, ?_⟩
  have hrc : RoundCommit p fuel pk sig'.spec (fun k => f k (v k)) j (coms j) := by
    unfold RoundCommit
    rw [if_neg (by dsimp only; rw [hvj]; exact hfj)]
    obtain ⟨S, hS, a, ha, hbuf, hent⟩ := g5
    have hrange := hf j hj
    have hne : f j (v j) ≠ 0 := by rw [hvj]; exact hfj
    obtain ⟨G0'', S', Q, piv', hG0'', hS', hQ, hQr, hcode⟩ := hK.2 (f j (v j) - 1) (by omega)
    obtain rfl := hG0.unique hG0''
    obtain rfl := IsMonomial.unique hS hS'
    have hdec := decode_encode hp a ha
    have e1 : sig'.spec.responses (responsesBefore (fun k => f k (v k)) j) = encodeAction p a := hbuf
    rw [e1]
    refine ⟨valid_congr (fun t ht => (hdec.1 t ht).symm) (fun t ht => (hdec.2 t ht).symm) ha, ?_⟩
    dsimp only
    rw [actOn_congr hdec.1 hdec.2, hcode, (canonCode_codeBits p hQr).2, g4]
    exact response_commit hp rfl (exists_perm_mul hp hS g1) hQ hQr g2 g3 a ha hent
  obtain ⟨x, hx1, hx2, hx3⟩ := RoundCommit.answer hp hrc hpk
  obtain ⟨mm, hm, rfl⟩ := hM.valid hp
  have hex := C12_extract hp (y := .seed mm.mat) hx2 hm.perm hx3 ⟨R, piv, g2, g3, g4⟩
  cases x with
  | seed M' => exact absurd hx1.1 (by dsimp only; rw [hvj]; exact hfj)
  | response a =>
    obtain ⟨-, rfl⟩ := hx1
    rw [hvj] at hex
    exact hex

end LESS
