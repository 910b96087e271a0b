import Verif.Proofs.ByteOrder
/-!
# Keys, signatures and verification on a machine of either byte order
-/
namespace LESS
open Spec

variable {p : Params} {F : Prop}

namespace Machine

/-! ## Keys -/

/-- The seed of the `i`-th private monomial matrix. -/
def privSeed (p : Params) (sk : Bytes) (i : Nat) : Bytes := ((xof p sk).drop (i * p.skSeedLen)).take p.skSeedLen

/-- What key generation publishes for one private seed. -/
def PublicOk (o : ByteOrder) (fuel : Nat) (A : Matrix (Fin p.K) (Fin p.N) Fq) (seed : Bytes) (code : Vector UInt8 p.rrefBytes) : Prop :=
  ∃ (S : Monomial p) (R : Matrix (Fin p.K) (Fin p.N) Fq) (piv : Fin p.K → Fin p.N), Mono o fuel (initCsprng p seed) S ∧
    RowEq A (R * S.mat) ∧ IsRREF R piv ∧ code = packed p.rrefBytes (codeBits p R piv)

/-- The pair of keys belongs together. -/
def KeyOk (o : ByteOrder) (fuel : Nat) (sk : PriKey p) (pk : PubKey p) : Prop :=
  pk.G0seed = sk.G0seed ∧ ∃ A, G0Ok o fuel sk.G0seed.toList A ∧
    ∀ i < p.numKeypairs - 1, PublicOk o fuel A (privSeed p sk.compressedSk.toList i) (g pk.SFG i)

theorem keygenOne_wp (hp : p.WF) (o : ByteOrder) (fuel : Nat) (sl : Stale p) (G0 : GenMat p) (hG : Reduced G0)
    (hrank : FullRank (matOf G0)) (seed : Bytes) (buf : Vector UInt8 p.rrefBytes) :
    Wp True (keygenOne o fuel sl G0 seed buf) (PublicOk o fuel (matOf G0) seed) := by
  have hN := hp.N_lt
  have hKN := hp.K_lt_N
  unfold keygenOne
  simp only [Wp.bind_iff]
  refine (prikey_wp hp o fuel sl.mono seed).mono ?_
  intro m hmono
  have hm := hmono.1
  refine ((monomialInv_wp sl.mono' m hm (by omega)).monoF False.elim).mono ?_
  intro r hr
  have hinv := mat_inv hm hr
  have hinv' : r.mat * m.mat = 1 := mul_eq_one_comm.mp hinv
  refine ((generatorMonomialMul_mat sl.gen G0 r (inv_valid hm hr) hG).monoF False.elim).mono ?_
  rintro G ⟨hGr, hGm⟩
  have hfr : FullRank (matOf G) := by rw [hGm]; exact fullRank_mul hrank hinv'
  refine ((generatorRREF_full G (Nat.le_of_lt hKN) hGr hfr).monoF False.elim).mono ?_
  rintro ⟨ok, R, f⟩ ⟨-, piv, hO⟩
  dsimp only at hO ⊢
  rw [compressRref_eq hp _ _ _ hO.fits, Wp.ok_iff]
  refine ⟨m, matOf R, piv, hmono, ?_, hO.rref, ?_⟩
  · obtain ⟨P, hP, e⟩ := hO.rowEq
    refine ⟨P, hP, ?_⟩
    rw [e, hGm, Matrix.mul_assoc, Matrix.mul_assoc, hinv', Matrix.mul_one]
  · rw [codeBits_eq hO]

theorem lessKeygen_wp (hp : p.WF) (o : ByteOrder) (fuel : Nat) (sl : Nat → Stale p) (rng : Inc) (hr : RngOk p rng) :
    Wp True (lessKeygen o fuel sl rng) (fun r => KeyOk o fuel r.1 r.2.1) := by
  unfold lessKeygen
  have h1 := csprngBytes_length p p.skSeedLen rng hr
  dsimp only
  rw [Wp.bind_iff]
  refine (privateSeeds_wp _).mono ?_
  intro seeds hseeds
  rw [Wp.bind_iff]
  refine (expandG0_wp hp o fuel (sl 0) _).mono ?_
  rintro G0 ⟨hG, hG0⟩
  obtain ⟨piv, hpiv⟩ := hG0.1
  have hrank := IsRREF.fullRank hpiv
  rw [Wp.bind_iff]
  refine Wp.forUp (fun n (sfg : Vector (Vector UInt8 p.rrefBytes) (p.numKeypairs - 1)) => ∀ i < n,
    PublicOk o fuel (matOf G0) (privSeed p (csprngBytes p p.skSeedLen rng).1 i) (g sfg i)) (fun _ h => by omega) ?_ ?_
  · intro i sfg hi hI
    simp only [Wp.bind_iff, Wp.rd_iff]
    refine ⟨hi, hi, ?_⟩
    rw [hseeds i hi]
    refine (keygenOne_wp hp o fuel (sl (i + 1)) G0 hG hrank _ _).mono ?_
    intro b hb
    rw [Wp.wr_iff]
    refine ⟨hi, fun j hj => ?_⟩
    rw [g_upd _ _ _ _ hi]
    by_cases e : i = j
    · subst e; rw [if_pos rfl]; exact hb
    · rw [if_neg e]; exact hI j (by omega)
  · intro sfg hsfg
    rw [Wp.pure_iff]
    refine ⟨rfl, matOf G0, ?_, ?_⟩
    · dsimp only
      rw [toVec_toList (csprngBytes_length p p.seedLen _ (csprngBytes_ok p _ _ hr))]
      exact hG0
    · dsimp only
      rw [toVec_toList h1]
      exact hsfg

/-! ## Signing -/

/-- What round `i` of the signer leaves behind: the commitment `c` and the partial monomial `a`. -/
def RoundInfo (o : ByteOrder) (fuel : Nat) (A : Matrix (Fin p.K) (Fin p.N) Fq) (salt leaf : Bytes) (i : Nat) (a : MonoAction p)
    (c : List (List Nat)) : Prop :=
  ∃ (m : Monomial p) (R : GenMat p) (f : Vector Nat p.N) (piv : Fin p.K → Fin p.N),
    Mono o fuel (roundState o p leaf salt i) m ∧ RrefOut (A * m.mat) R f piv ∧ c = commitment (matOf R) piv ∧
    ∀ t : Fin p.K, g a.permutation t < p.N ∧ g m.permutation (g a.permutation t) = piv t ∧
        g a.coefficients t = g m.coefficients (g a.permutation t)

/-- What a response of the signer contains. -/
def ResponseOk (o : ByteOrder) (fuel : Nat) (sk : Bytes) (A : Matrix (Fin p.K) (Fin p.N) Fq) (salt leaf : Bytes) (i v : Nat)
    (c : List (List Nat)) (buf : Vector UInt8 p.monoBytes) : Prop :=
  ∃ (m : Monomial p) (R : Matrix (Fin p.K) (Fin p.N) Fq) (piv : Fin p.K → Fin p.N), Mono o fuel (roundState o p leaf salt i) m ∧
    RowEq (A * m.mat) R ∧ IsRREF R piv ∧ c = commitment R piv ∧
    ∃ S : Monomial p, Mono o fuel (initCsprng p (privSeed p sk (v - 1))) S ∧ ∃ a : Action p, a.Valid ∧ buf = encodeAction p a ∧
      ∀ t : Fin p.K, ∀ h : a.perm t < p.N, (S.mat * m.mat) ⟨a.perm t, h⟩ (piv t) = ((a.coef t : Nat) : Fq)

theorem signResponse_one (hp : p.WF) (o : ByteOrder) (fuel : Nat) (sl : Stale p) (sk : Bytes) {A : Matrix (Fin p.K) (Fin p.N) Fq}
    {salt leaf : Bytes} {i v : Nat} {a : MonoAction p} {c : List (List Nat)} (hinfo : RoundInfo o fuel A salt leaf i a c)
    (seed : Bytes) (hseed : seed = privSeed p sk (v - 1)) (buf : Vector UInt8 p.monoBytes) {α : Type}
    (cont : Vector UInt8 p.monoBytes → C α) (P : α → Prop)
    (h : ∀ b, ResponseOk o fuel sk A salt leaf i v c b → Wp True (cont b) P) :
    Wp True (do
      let Qm ← monomialSeedExpandPrikey o fuel sl.mono seed
      let act ← composeAction sl.mono' sl.act Qm a
      let buf ← compressMonomAction buf act
      cont buf) P := by
  have hN := hp.N_lt
  have hKN := hp.K_lt_N
  obtain ⟨m, R, f, piv, hmono, hO, hc, ht⟩ := hinfo
  have hm := hmono.1
  simp only [Wp.bind_iff]
  refine (prikey_wp hp o fuel sl.mono seed).mono ?_
  intro S hSec
  have hS := hSec.1
  refine ((composeAction_wp sl.mono' sl.act S a (by omega) hS (fun t ht' => (ht ⟨t, ht'⟩).1)).monoF False.elim).mono ?_
  intro act hact
  have hcoef : ∀ t < p.K, 1 ≤ g act.coefficients t ∧ g act.coefficients t < 127 := by
    intro t ht'
    obtain ⟨h1, h2, h3⟩ := hact t ht'
    obtain ⟨g1, g2, g3⟩ := ht ⟨t, ht'⟩
    have c1 := hS.2 _ h1
    have c2 := hm.2 _ g1
    rw [← g3] at c2
    refine ⟨?_, by rw [h3]; exact fqRed_lt _⟩
    apply Nat.one_le_iff_ne_zero.mpr
    rw [h3]
    intro e
    have e2 := fqRed_mul_cast c2.2 c1.2
    dsimp only at e e2
    rw [e] at e2
    rw [Nat.cast_zero] at e2
    rcases mul_eq_zero.mp e2.symm with h | h
    · have := (cast_eq_zero c2.2).mp h; omega
    · have := (cast_eq_zero c1.2).mp h; omega
  have hv : act.Valid := by
    refine ⟨hcoef, fun t ht' => (hact t ht').1, fun s t hs' ht' e => ?_⟩
    have e1 := (ht ⟨s, hs'⟩).2.1
    have e2 := (ht ⟨t, ht'⟩).2.1
    have e3 := (hact s hs').2.1
    have e4 := (hact t ht').2.1
    rw [e, e4] at e3
    dsimp only at e1 e2
    rw [e3] at e2
    have := hO.rref.mono.injective (Fin.ext (e1.symm.trans e2))
    exact congrArg Fin.val this
  rw [compressMonomAction_eq hp _ _ (hv.fits hp), Wp.ok_iff]
  apply h
  refine ⟨m, matOf R, piv, hmono, hO.rowEq, hO.rref, hc, S, ?_, ⟨g act.permutation, g act.coefficients⟩, ?_, ?_, ?_⟩
  · rw [← hseed]; exact hSec
  · exact ⟨hv.1, hv.2.1, fun s hs t ht => hv.2.2 s t hs ht⟩
  · rw [actionBits_eq]; rfl
  · intro t hlt
    obtain ⟨h1, h2, h3⟩ := hact t t.2
    obtain ⟨g1, g2, g3⟩ := ht t
    dsimp only at hlt ⊢
    rw [mul_mat_entry S m hS ⟨g act.permutation t, hlt⟩ (piv t) (by dsimp only; rw [h2, g2])]
    dsimp only
    rw [h3, fqRed_mul_cast (by rw [g3]; exact (hm.2 _ g1).2) (hS.2 _ h1).2, h2, g3, mul_comm]

theorem signRound_wp (hp : p.WF) (o : ByteOrder) (fuel : Nat) (sl : Stale p) (G0 : GenMat p) (tree : TreeBuf p) (salt root : Bytes)
    (i : Nat) (s : Vector (MonoAction p) p.T × Inc) (hG : Reduced G0) (hrank : FullRank (matOf G0)) (hi : i < p.T)
    (htree : ∀ j < p.T, nodeSeg tree (p.numLeaves - 1 + j) = signerLeaf p root salt j) {coms : Nat → List (List Nat)}
    (h : ∀ j < i, RoundInfo o fuel (matOf G0) salt (signerLeaf p root salt j) j (g s.1 j) (coms j))
    (hh : s.2 = hashAbsorb p hashInit ((List.range i).flatMap fun j => commitBytes p.K (coms j))) :
    Wp True (signRound o fuel sl G0 tree salt i s) (fun s' => ∃ coms' : Nat → List (List Nat),
      (∀ j < i + 1, RoundInfo o fuel (matOf G0) salt (signerLeaf p root salt j) j (g s'.1 j) (coms' j)) ∧
      s'.2 = hashAbsorb p hashInit ((List.range (i + 1)).flatMap fun j => commitBytes p.K (coms' j))) := by
  have hN := hp.N_lt
  have hKN := hp.K_lt_N
  obtain ⟨acts, hst⟩ := s
  dsimp only at h hh
  unfold signRound
  dsimp only
  rw [Wp.bind_iff, leaf_slice _ _ hp hi, htree i hi]
  rw [Wp.bind_iff]
  refine (saltRnd_wp hp o fuel sl.mono _ salt i).mono ?_
  intro m hmono
  rw [Wp.bind_iff, Wp.rd_iff]
  refine ⟨hi, ?_⟩
  obtain ⟨r, -, hr⟩ := hmono.1.rightInv (by omega)
  rw [Wp.bind_iff]
  refine ((prepareDigestInput_wp sl.norm (g acts i) G0 m hKN hN hmono.1 hG (fullRank_mul hrank hr)).monoF False.elim).mono ?_
  rintro ⟨V', Qb', ok⟩ ⟨-, R, f, piv, hR, hperm, hs, ht⟩
  have hc := commitment_eq hR.reduced hR.flags hperm hs
  dsimp only at hc ht ⊢
  simp only [Wp.bind_iff, Wp.wr_iff, Wp.pure_iff]
  refine ⟨hi, fun j => if j = i then colsOf V' else coms j, fun j hj => ?_, ?_⟩
  · dsimp only
    by_cases e : j = i
    · subst e
      rw [if_pos rfl, g_upd_self _ _ _ hi]
      exact ⟨m, R, f, piv, hmono, hR, hc, ht⟩
    · rw [if_neg e, g_upd_ne _ _ _ _ (Ne.symm e)]
      exact h j (by omega)
  · rw [hh, hashAbsorb_append, normBytes_eq, commits_succ, if_pos rfl]
    congr 2
    apply commits_congr
    intro j hj
    rw [if_neg (by omega)]

theorem signResponse_wp (hp : p.WF) (o : ByteOrder) (fuel : Nat) (sl : Stale p) (sk : Bytes) (fws : Vector Nat p.T)
    (seeds : Vector (Vector UInt8 p.skSeedLen) (p.numKeypairs - 1)) (acts : Vector (MonoAction p) p.T) (i : Nat)
    (s : Vector (Vector UInt8 p.monoBytes) p.W × Nat) (hi : i < p.T) {A : Matrix (Fin p.K) (Fin p.N) Fq} {salt root : Bytes}
    {coms : Nat → List (List Nat)}
    (hinfo : ∀ j < p.T, RoundInfo o fuel A salt (signerLeaf p root salt j) j (g acts j) (coms j))
    (hseeds : ∀ i < p.numKeypairs - 1, (g seeds i).toList = privSeed p sk i)
    (hr : ∀ k, g fws k < p.numKeypairs) (hw : weight p.T (g fws) = p.W)
    (hI : s.2 = weight i (g fws) ∧ ∀ j < i, g fws j ≠ 0 →
      ResponseOk o fuel sk A salt (signerLeaf p root salt j) j (g fws j) (coms j) (g s.1 (weight j (g fws)))) :
    Wp True (signResponse o fuel sl fws seeds acts i s) (fun s => s.2 = weight (i + 1) (g fws) ∧ ∀ j < i + 1, g fws j ≠ 0 →
      ResponseOk o fuel sk A salt (signerLeaf p root salt j) j (g fws j) (coms j) (g s.1 (weight j (g fws)))) := by
  obtain ⟨out, emitted⟩ := s
  obtain ⟨he, hout⟩ := hI
  dsimp only at he hout
  unfold signResponse
  dsimp only
  rw [Wp.bind_iff, Wp.rd_iff]
  refine ⟨hi, ?_⟩
  by_cases hx : g fws i = 0
  · rw [if_neg (by simpa using hx), Wp.pure_iff]
    refine ⟨?_, fun j hj hne => ?_⟩
    · dsimp only; rw [weight_succ, if_neg (by simpa using hx), he]; rfl
    · exact hout j (by rcases Nat.lt_succ_iff_lt_or_eq.mp hj with e | e; exact e; subst e; exact absurd hx hne) hne
  · have hlt := hr i
    have hwt := weight_lt hi (g fws) hx
    rw [hw] at hwt
    rw [if_pos hx, Wp.bind_iff, Wp.rd_iff]
    refine ⟨by omega, ?_⟩
    have := signResponse_one hp o fuel sl sk (hinfo i hi) (v := g fws i) (g seeds (g fws i - 1)).toList
      (hseeds _ (by omega)) (g out emitted) (fun buf => do
        let out ← wr out emitted buf
        pure (out, emitted + 1)) (fun s => s.2 = weight (i + 1) (g fws) ∧ ∀ j < i + 1, g fws j ≠ 0 →
      ResponseOk o fuel sk A salt (signerLeaf p root salt j) j (g fws j) (coms j) (g s.1 (weight j (g fws)))) ?_
    · rw [Wp.bind_iff] at this ⊢
      refine this.mono ?_
      intro Qm hQm
      rw [Wp.bind_iff, Wp.rd_iff]
      refine ⟨hi, ?_⟩
      rw [Wp.bind_iff] at hQm ⊢
      refine hQm.mono ?_
      intro act hact
      rw [Wp.bind_iff, Wp.rd_iff]
      exact ⟨by omega, hact⟩
    · intro b hb
      simp only [Wp.bind_iff, Wp.wr_iff, Wp.pure_iff]
      refine ⟨by omega, ?_, fun j hj hne => ?_⟩
      · rw [weight_succ, if_pos hx, he]
      · by_cases e : j = i
        · subst e
          rw [← he, g_upd_self _ _ _ (by omega)]
          exact hb
        · have := weight_lt (show j < i by omega) (g fws) hne
          rw [g_upd_ne _ _ _ _ (by omega)]
          exact hout j (by omega) hne

/-- What a signature made on this machine consists of. -/
def SignedOk {n : Nat} (o : ByteOrder) (fuel : Nat) (sk : PriKey p) (m : Bytes) (sig : SignT p n) : Prop :=
  ∃ (root : Bytes) (fws : Vector Nat p.T) (coms : Nat → List (List Nat)) (A : Matrix (Fin p.K) (Fin p.N) Fq),
    G0Ok o fuel sk.G0seed.toList A ∧
    expandDigest o fuel (Vector.replicate p.T 0) sig.digest.toList = .ok fws ∧
    sig.digest.toList = Spec.hash p (transcript p coms m sig.treeSalt.toList) ∧
    (∀ i < p.T, ∃ (m : Monomial p), Mono o fuel (roundState o p (signerLeaf p root sig.treeSalt.toList i) sig.treeSalt.toList i) m ∧
      IsCommit (A * m.mat) (coms i)) ∧
    (∀ i < p.T, g fws i ≠ 0 → ResponseOk o fuel sk.compressedSk.toList A sig.treeSalt.toList
      (signerLeaf p root sig.treeSalt.toList i) i (g fws i) (coms i) (g sig.monomActions (weight i (g fws)))) ∧
    ∀ i, Published p.numLeaves p.T (hides (g fws)) i →
      seg sig.seedStorage (p.seedLen * rank p.numLeaves p.T (hides (g fws)) i) p.seedLen =
        nodeSeed (children p sig.treeSalt.toList) root i

theorem lessSign_wp (hp : p.WF) (o : ByteOrder) {n : Nat} (fuel : Nat) (sl : Nat → Stale p) (rng : Inc) (sk : PriKey p) (m : Bytes)
    (sig : SignT p n) (hr : RngOk p rng) (hn : p.storageLen ≤ n) :
    Wp True (lessSign o fuel sl rng sk m sig) (fun r => SignedOk o fuel sk m r.1) := by
  have hKN := hp.K_lt_N
  unfold lessSign
  dsimp only
  rw [Wp.bind_iff]
  refine (privateSeeds_wp _).mono ?_
  intro seeds hseeds
  have hroot : (csprngBytes p p.seedLen rng).1.length = p.seedLen := csprngBytes_length p p.seedLen rng hr
  generalize (csprngBytes p p.seedLen rng).1 = root at hroot
  generalize csprngBytes p p.seedLen rng = rng1
  generalize csprngBytes p p.hashLen rng1.2 = salt1
  obtain ⟨salt0, rng2⟩ := salt1
  dsimp only
  generalize hsv : toVec p.hashLen salt0 = saltV
  generalize hsl : saltV.toList = salt
  rw [Wp.bind_iff]
  refine (generateSeedTree_wp hp _ root salt hroot).mono ?_
  intro tree htree
  rw [expandH_eq] at htree
  have hTl := hp.T_lt_leaves
  have hleaf : ∀ j < p.T, nodeSeg tree (p.numLeaves - 1 + j) = signerLeaf p root salt j := by
    intro j hj
    exact htree _ (by unfold Params.numNodes; omega)
  rw [Wp.bind_iff]
  refine (expandG0_wp hp o fuel (sl 0) _).mono ?_
  rintro G0 ⟨hG, hG0⟩
  obtain ⟨piv, hpiv⟩ := hG0.1
  have hrank := IsRREF.fullRank hpiv
  rw [Wp.bind_iff]
  refine Wp.forUp (fun i (st : Vector (MonoAction p) p.T × Inc) => ∃ coms : Nat → List (List Nat),
      (∀ j < i, RoundInfo o fuel (matOf G0) salt (signerLeaf p root salt j) j (g st.1 j) (coms j)) ∧
      st.2 = hashAbsorb p hashInit ((List.range i).flatMap fun j => commitBytes p.K (coms j))) ?_ ?_ ?_
  · refine ⟨fun _ => [], by simp, ?_⟩
    unfold hashAbsorb
    rw [incAbsorb_eq_foldl _ _ _ (hashRate_pos p)]; rfl
  · rintro i st hi ⟨coms, hI1, hI2⟩
    exact signRound_wp hp o fuel (sl (i + 1)) G0 tree salt root i st hG hrank hi hleaf hI1 hI2
  rintro ⟨acts, h⟩ ⟨coms, hinfo, hh⟩
  dsimp only at hinfo hh ⊢
  rw [hh, hashAbsorb_append, hashAbsorb_append, hash_eq]
  have ht : ((List.range p.T).flatMap fun j => commitBytes p.K (coms j)) ++ m ++ salt =
      transcript p coms m salt := rfl
  rw [ht]
  have edig : (toVec p.hashLen (Spec.hash p (transcript p coms m salt))).toList =
      Spec.hash p (transcript p coms m salt) := toVec_toList (by simp [Spec.hash])
  rw [Wp.bind_iff]
  refine Wp_of_ok (expandDigest_wp hp o fuel _) ?_
  intro fws hfws
  obtain ⟨hw, hrange⟩ := (expandDigest_wp hp o fuel _).of_ok hfws
  rw [Wp.bind_iff]
  refine (indicesToPublish_hides fws).mono ?_
  rintro ind ⟨hind1, hind2⟩
  have hle := pubCount_le hp hw
  unfold Params.storageLen at hn
  rw [Wp.bind_iff, Wp.blit_iff]
  refine ⟨by rw [List.length_replicate]; omega, ?_⟩
  rw [Wp.bind_iff]
  refine (seedTreePath_wp hp tree ind _ hind1 (by rw [hind2]; exact hidden_exists hp hw)
    (by rw [hind2]; omega)).mono ?_
  rintro ⟨storage, num⟩ ⟨hnum, hstored, -⟩
  rw [hind2] at hnum hstored
  dsimp only at hnum hstored ⊢
  rw [Wp.bind_iff]
  refine Wp.forUp (fun i (st : Vector (Vector UInt8 p.monoBytes) p.W × Nat) => st.2 = weight i (g fws) ∧
    ∀ j < i, g fws j ≠ 0 → ResponseOk o fuel sk.compressedSk.toList (matOf G0) salt (signerLeaf p root salt j) j
      (g fws j) (coms j) (g st.1 (weight j (g fws)))) ⟨rfl, by simp⟩ ?_ ?_
  · intro i st hi hI
    exact signResponse_wp hp o fuel (sl (p.T + i + 1)) sk.compressedSk.toList fws seeds acts i st hi hinfo hseeds hrange hw hI
  rintro ⟨monoms, e⟩ ⟨-, hresp⟩
  dsimp only at hresp ⊢
  have hb : num * p.seedLen < n := by rw [hnum]; omega
  simp only [Wp.bind_iff, Wp.wrB_iff, Wp.pure_iff]
  refine ⟨hb, root, fws, coms, matOf G0, hG0, hfws, ?_, ?_, ?_, ?_⟩
  · dsimp only; rw [edig, hsl]
  · intro i hi
    dsimp only
    rw [hsl]
    obtain ⟨m, R, f, piv, h1, h2, h3, -⟩ := hinfo i hi
    exact ⟨m, h1, matOf R, piv, h2.rowEq, h2.rref, h3⟩
  · intro i hi hv
    dsimp only
    rw [hsl]
    exact hresp i hi hv
  · intro i hP
    have hlt := rank_lt_pubCount hP
    have hb2 := mul_bound (c := p.seedLen) hlt
    dsimp only
    rw [hsl]
    have : seg (upd storage (num * p.seedLen) (UInt8.ofNat num)) (p.seedLen * rank p.numLeaves p.T (hides (g fws)) i) p.seedLen
        = seg storage (rank p.numLeaves p.T (hides (g fws)) i * p.seedLen) p.seedLen := by
      rw [Nat.mul_comm p.seedLen]
      apply seg_ext
      intro k hk
      rw [g_upd_ne _ _ _ _ (by rw [hnum]; omega)]
    rw [this, hstored i hP]
    exact htree i (by have := hP.2.1; exact this)

/-! ## Verification -/

theorem exists_perm {a b : Monomial p} (ha : a.Valid) (hb : b.Valid) :
    ∃ (π : Equiv.Perm (Fin p.N)) (c : Fin p.N → Fq), (∀ i, c i ≠ 0) ∧
      ∀ i j, (a.mat * b.mat) i j = if π i = j then c i else 0 := by
  obtain ⟨r, _, hr⟩ := (monomialMul_wp a a b ha.1).exists_ok
  rw [← mat_mul ha hb hr]
  exact (mul_valid ha hb hr).perm

/-- The response of the signer leads the verifier to the committed code. -/
theorem verifyResponse_ok (hp : p.WF) {o : ByteOrder} {fuel : Nat} {sk : Bytes} {A : Matrix (Fin p.K) (Fin p.N) Fq}
    {salt leaf : Bytes} {i v : Nat} {c : List (List Nat)} {buf : Vector UInt8 p.monoBytes} {code : Vector UInt8 p.rrefBytes}
    (h : ResponseOk o fuel sk A salt leaf i v c buf) (hk : PublicOk o fuel A (privSeed p sk (v - 1)) code) (sl : Stale p) :
    ∃ V, verifyResponse sl code buf = .ok (some V) ∧ colsOf V = c := by
  obtain ⟨m, R, piv, h1, h2, h3, h4, S, h5, a, ha, rfl, hent⟩ := h
  obtain ⟨S', Rq, pivq, k1, k2, k3, rfl⟩ := hk
  obtain rfl := h5.unique k1
  have hdec := decode_encode hp a ha
  have hav := valid_congr (b := Spec.decodeAction p (encodeAction p a)) (fun t ht => (hdec.1 t ht).symm)
    (fun t ht => (hdec.2 t ht).symm) ha
  have hcan := canonCode_codeBits p k3
  obtain ⟨r, hr, hP⟩ := (verifyResponse_spec (F := False) hp sl _ (encodeAction p a) hcan.1.good).exists_ok
  have hcom : IsCommit (actOn (decodeCode p (packed p.rrefBytes (codeBits p Rq pivq))) (Spec.decodeAction p (encodeAction p a))) c := by
    rw [actOn_congr hdec.1 hdec.2, hcan.2, h4]
    exact response_commit hp rfl (exists_perm h5.1 h1.1) k2 k3 h2 h3 a ha hent
  rcases r with _ | V
  · exact absurd hav hP
  · exact ⟨V, hr, hP.2.unique hcom⟩

theorem lessVerify_wp (hp : p.WF) {o : ByteOrder} {n : Nat} (hn : p.maxPublishedBytes ≤ n) {fuel : Nat} {sk : PriKey p}
    {pk : PubKey p} {m : Bytes} {sig : SignT p n} (hk : KeyOk o fuel sk pk) (hs : SignedOk o fuel sk m sig) (sl : Nat → Stale p) :
    Wp False (lessVerify o fuel sl pk m sig) (fun r => r = 1) := by
  have hN := hp.N_lt
  have hKN := hp.K_lt_N
  have hTl := hp.T_lt_leaves
  obtain ⟨hseed, A, hA, hpub⟩ := hk
  obtain ⟨root, fws, coms, A', hA', hfws, hdig, hround, hresp, hstored⟩ := hs
  obtain rfl := hA.unique hA'
  obtain ⟨hw, hrange⟩ := (expandDigest_wp hp o fuel _).of_ok hfws
  obtain ⟨piv, hpiv⟩ := hA.1
  have hrank := IsRREF.fullRank hpiv
  obtain ⟨c, hc, hfull⟩ := hA.2 (sl 0).rref
  unfold lessVerify
  rw [hfws, Kat.ok_bind, Wp.bind_iff]
  refine (indicesToPublish_hides fws).mono ?_
  rintro ind ⟨hind1, hind2⟩
  have hhid := hidden_exists hp hw
  have hle := pubCount_le hp hw
  rw [Wp.bind_iff]
  refine (rebuildSeedTreeLeaves_wp hp _ ind sig.seedStorage sig.treeSalt.toList hind1
    (by rw [hind2]; exact hhid) (by rw [hind2]; omega)).mono ?_
  rintro ⟨tree, used⟩ ⟨-, htree⟩
  rw [hind2, expandH_eq] at htree
  dsimp only at htree ⊢
  have hleaf : ∀ j < p.T, g fws j = 0 → nodeSeg tree (p.numLeaves - 1 + j) = signerLeaf p root sig.treeSalt.toList j := by
    intro j hj h0
    have hcov : ¬ Covers p.numLeaves p.T (hides (g fws)) (p.numLeaves - 1 + j) := by
      rw [covers_leaf_iff (by omega) j (by omega)]
      rintro ⟨-, h⟩
      simp [hides, h0] at h
    rw [htree _ (by unfold Params.numNodes; omega) hcov]
    unfold signerLeaf
    exact rebuilt_eq_nodeSeed _ _ _ hhid hstored _ (by omega) hcov
  rw [hseed, hc, Kat.ok_bind, Wp.bind_iff]
  refine Wp.forRet (fun i (s : Inc × Nat) => s.2 = weight i (g fws) ∧
      s.1 = hashAbsorb p hashInit ((List.range i).flatMap fun j => commitBytes p.K (coms j))) (fun _ => False) ?_ ?_ ?_ ?_
  · refine ⟨rfl, ?_⟩
    unfold hashAbsorb
    rw [incAbsorb_eq_foldl _ _ _ (hashRate_pos p)]; rfl
  · rintro i ⟨h, e⟩ hi ⟨he, hh⟩
    dsimp only at he hh
    unfold verifyRound
    dsimp only
    rw [Wp.bind_iff, Wp.rd_iff]
    refine ⟨hi, ?_⟩
    have step : ∀ V : NormIS p, colsOf V = coms i → hashAbsorb p h (normBytes V) =
        hashAbsorb p hashInit ((List.range (i + 1)).flatMap fun j => commitBytes p.K (coms j)) := by
      intro V hV
      rw [hh, hashAbsorb_append, normBytes_eq, commits_succ, hV]
    by_cases hx : g fws i = 0
    · rw [if_pos hx]
      obtain ⟨G, hG1, hG2, rfl⟩ := hfull (sl (i + 1)).gen
      rw [hG1, Kat.ok_bind, Wp.bind_iff, leaf_slice _ _ hp hi, hleaf i hi hx]
      obtain ⟨mm, hmono, hcom⟩ := hround i hi
      rw [saltRnd_ok hmono, Kat.ok_bind, Wp.bind_iff]
      obtain ⟨r, -, hr⟩ := hmono.1.rightInv (by omega)
      refine (prepareDigestInput_wp _ _ G mm hKN hN hmono.1 hG2 (fullRank_mul hrank hr)).mono ?_
      rintro ⟨V', Qb', ok⟩ ⟨-, R, f, piv, hR, hperm, hs, ht⟩
      have hc := commitment_eq hR.reduced hR.flags hperm hs
      rw [Wp.pure_iff]
      refine ⟨?_, step V' ?_⟩
      · dsimp only; rw [weight_succ, if_neg (by simpa using hx), he]; rfl
      · dsimp only at hc
        rw [hc]
        exact IsCommit.unique ⟨matOf R, piv, hR.rowEq, hR.rref, rfl⟩ hcom
    · have hlt := hrange i
      have hwt := weight_lt hi (g fws) hx
      rw [hw] at hwt
      rw [if_neg hx, Wp.bind_iff, Wp.rd_iff]
      refine ⟨by omega, ?_⟩
      rw [Wp.bind_iff, Wp.rd_iff]
      refine ⟨by omega, ?_⟩
      rw [he]
      obtain ⟨V, hV, hVc⟩ := verifyResponse_ok hp (hresp i hi hx) (hpub (g fws i - 1) (by omega)) (sl (i + 1))
      rw [hV, Kat.ok_bind]
      dsimp only
      rw [Wp.pure_iff]
      exact ⟨by dsimp only; rw [weight_succ, if_pos hx], step V hVc⟩
  · intro r hr; exact hr.elim
  · rintro ⟨h, e⟩ ⟨he, hh⟩
    dsimp only at hh ⊢
    rw [hh, hashAbsorb_append, hashAbsorb_append, hash_eq]
    have ht : ((List.range p.T).flatMap fun j => commitBytes p.K (coms j)) ++ m ++ sig.treeSalt.toList =
        transcript p coms m sig.treeSalt.toList := rfl
    rw [ht, ← hdig, Wp.bind_iff, toVec_of_toList]
    refine (timingSafeMemcmp_wp sig.digest sig.digest p.hashLen (Nat.le_refl _) (Nat.le_refl _)).mono ?_
    rintro d ⟨-, hd⟩
    rw [Wp.pure_iff, hd.mpr (fun _ _ => rfl)]
    rfl

end Machine
end LESS
