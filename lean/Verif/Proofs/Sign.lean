import Verif.Model.Threads
import Verif.Proofs.Keygen
/-!
# Signing against the specification
-/
namespace LESS
open Spec

variable {p : Params} {F : Prop}

instance : Inhabited (MonoAction p) := ⟨⟨Vector.replicate _ 0, Vector.replicate _ 0⟩⟩

/-- What round `i` of the signer leaves behind: the commitment `c` and the partial monomial `a`. -/
def RoundInfo (p : Params) (B : Nat) (A : Matrix (Fin p.K) (Fin p.N) Fq) (salt leaf : Bytes) (i : Nat) (a : MonoAction p)
    (c : List (List Nat)) : Prop :=
  ∃ (m : Monomial p) (R : GenMat p) (f : Vector Nat p.N) (piv : Fin p.K → Fin p.N), m.Valid ∧
    IsMonomial p B (roundStream p salt leaf i) m.mat ∧ RrefOut (A * m.mat) R f piv ∧ c = commitment (matOf R) piv ∧
    ∀ t : Fin p.K, g a.permutation t < p.N ∧ g m.permutation (g a.permutation t) = piv t ∧
        g a.coefficients t = g m.coefficients (g a.permutation t)

/-- What a response of the signer contains. -/
def ResponseOk (p : Params) (B : Nat) (sk : SK p) (A : Matrix (Fin p.K) (Fin p.N) Fq) (salt leaf : Bytes) (i v : Nat)
    (c : List (List Nat)) (buf : Vector UInt8 p.monoBytes) : Prop :=
  ∃ M R piv, IsMonomial p B (roundStream p salt leaf i) M ∧ RowEq (A * M) R ∧ IsRREF R piv ∧ c = commitment R piv ∧
    ∃ S, IsSecret p B sk.secret (v - 1) S ∧ ∃ a : Action p, a.Valid ∧
      buf = packed p.monoBytes
        (bitFields (indexBits p) ((List.range p.K).map a.perm) ++ bitFields 7 ((List.range p.K).map a.coef)) ∧
      ∀ t : Fin p.K, ∀ h : a.perm t < p.N, (S * M) ⟨a.perm t, h⟩ (piv t) = ((a.coef t : Nat) : Fq)

theorem RoundInfo.exists {B : Nat} {A : Matrix (Fin p.K) (Fin p.N) Fq} {salt leaf : Bytes} {i : Nat} {a : MonoAction p}
    {c : List (List Nat)} (h : RoundInfo p B A salt leaf i a c) :
    ∃ M R piv, IsMonomial p B (roundStream p salt leaf i) M ∧ RowEq (A * M) R ∧ IsRREF R piv ∧ c = commitment R piv := by
  obtain ⟨m, R, f, piv, _, h1, h2, h3, _⟩ := h
  exact ⟨m.mat, matOf R, piv, h1, h2.rowEq, h2.rref, h3⟩

theorem actionBits_eq (a : MonoAction p) : actionBits a =
    bitFields (indexBits p) ((List.range p.K).map (g a.permutation)) ++ bitFields 7 ((List.range p.K).map (g a.coefficients)) := by
  unfold actionBits
  rw [toList_eq_map_g, toList_eq_map_g, idxBits_eq]

/-- One entry of a product of monomial matrices. -/
theorem mul_mat_entry (S m : Monomial p) (hS : S.Valid) (x : Fin p.N) (c : Fin p.N)
    (h : g m.permutation (g S.permutation x) = c) :
    (S.mat * m.mat) x c = ((g S.coefficients x : Nat) : Fq) * ((g m.coefficients (g S.permutation x) : Nat) : Fq) := by
  have hlt := hS.1.1 x x.2
  rw [Matrix.mul_apply, Finset.sum_eq_single ⟨g S.permutation x, hlt⟩]
  · simp [Monomial.mat, h]
  · intro b _ hb
    have : g S.permutation x ≠ b := fun e => hb (Fin.ext e.symm)
    simp [Monomial.mat, this]
  · intro h; exact absurd (Finset.mem_univ _) h

theorem signResponse_one (hp : p.WF) (fuel : Nat) (sl : Stale p) (sk : SK p) {A : Matrix (Fin p.K) (Fin p.N) Fq}
    {salt leaf : Bytes} {i v : Nat} {a : MonoAction p} {c : List (List Nat)} (hinfo : RoundInfo p fuel A salt leaf i a c)
    (seed : Bytes) (hseed : seed = ((xof p sk.secret).drop ((v - 1) * p.skSeedLen)).take p.skSeedLen)
    (buf : Vector UInt8 p.monoBytes) {α : Type} (cont : Vector UInt8 p.monoBytes → C α) (P : α → Prop)
    (hF : (¬ ∃ M, IsSecret p fuel sk.secret (v - 1) M) → F)
    (h : ∀ b, ResponseOk p fuel sk A salt leaf i v c b → Wp F (cont b) P) :
    Wp F (do
      let Qm ← monomialSeedExpandPrikey fuel sl.mono seed
      let act ← composeAction sl.mono' sl.act Qm a
      let buf ← compressMonomAction buf act
      cont buf) P := by
  have hN := hp.N_lt
  have hKN := hp.K_lt_N
  obtain ⟨m, R, f, piv, hm, hmono, hO, hc, ht⟩ := hinfo
  unfold monomialSeedExpandPrikey
  simp only [Wp.bind_iff, Wp.pure_iff]
  have hs := xof_at p seed
  refine ((monomialFromState_stream fuel sl.mono _ _ (by omega) (by omega) hs).monoF ?_).mono ?_
  · intro hno; apply hF; unfold IsSecret; rw [← hseed]; exact hno
  rintro ⟨S, st⟩ ⟨hS, hSec, -⟩
  refine ((composeAction_wp sl.mono' sl.act S a (by omega) hS (fun t ht' => (ht ⟨t, ht'⟩).1)).monoF False.elim).mono ?_
  intro act hact
  have hcoef : ∀ t < p.K, 1 ≤ g act.coefficients t ∧ g act.coefficients t < 127 := by
    intro t ht'
    obtain ⟨h1, h2, h3⟩ := hact t ht'
    obtain ⟨g1, g2, g3⟩ := ht ⟨t, ht'⟩
    have c1 := hS.2 _ h1
    have c2 := hm.2 _ g1
    rw [← g3] at c2
    refine ⟨?_, by rw [h3]; exact fqRed_lt _⟩
    apply Nat.one_le_iff_ne_zero.mpr
    rw [h3]
    intro e
    have e2 := fqRed_mul_cast c2.2 c1.2
    dsimp only at e e2
    rw [e] at e2
    rw [Nat.cast_zero] at e2
    rcases mul_eq_zero.mp e2.symm with h | h
    · have := (cast_eq_zero c2.2).mp h; omega
    · have := (cast_eq_zero c1.2).mp h; omega
  have hv : act.Valid := by
    refine ⟨hcoef, fun t ht' => (hact t ht').1, fun s t hs' ht' e => ?_⟩
    have e1 := (ht ⟨s, hs'⟩).2.1
    have e2 := (ht ⟨t, ht'⟩).2.1
    have e3 := (hact s hs').2.1
    have e4 := (hact t ht').2.1
    rw [e, e4] at e3
    dsimp only at e1 e2
    rw [e3] at e2
    have := hO.rref.mono.injective (Fin.ext (e1.symm.trans e2))
    exact congrArg Fin.val this
  rw [compressMonomAction_eq hp _ _ (hv.fits hp), Wp.ok_iff]
  apply h
  refine ⟨m.mat, matOf R, piv, hmono, hO.rowEq, hO.rref, hc, S.mat, ?_, ⟨g act.permutation, g act.coefficients⟩, ?_, ?_, ?_⟩
  · unfold IsSecret; rw [← hseed]; exact hSec
  · exact ⟨hv.1, hv.2.1, fun s hs t ht => hv.2.2 s t hs ht⟩
  · rw [actionBits_eq]
  · intro t hlt
    obtain ⟨h1, h2, h3⟩ := hact t t.2
    obtain ⟨g1, g2, g3⟩ := ht t
    dsimp only at hlt ⊢
    rw [mul_mat_entry S m hS ⟨g act.permutation t, hlt⟩ (piv t) (by dsimp only; rw [h2, g2])]
    dsimp only
    rw [h3, fqRed_mul_cast (by rw [g3]; exact (hm.2 _ g1).2) (hS.2 _ h1).2, h2, g3, mul_comm]

/-! ## The rounds -/

theorem signRound_wp (hp : p.WF) (fuel : Nat) (sl : Stale p) (G0 : GenMat p) (tree : TreeBuf p) (salt root : Bytes) (i : Nat)
    (s : Vector (MonoAction p) p.T × Inc) (hG : Reduced G0) (hrank : FullRank (matOf G0)) (hi : i < p.T)
    (htree : ∀ j < p.T, nodeSeg tree (p.numLeaves - 1 + j) = signerLeaf p root salt j)
    (hF : (¬ ∃ M, IsMonomial p fuel (roundStream p salt (signerLeaf p root salt i) i) M) → F) {coms : Nat → List (List Nat)}
    (h : ∀ j < i, RoundInfo p fuel (matOf G0) salt (signerLeaf p root salt j) j (g s.1 j) (coms j))
    (hh : s.2 = hashAbsorb p hashInit ((List.range i).flatMap fun j => commitBytes p.K (coms j))) :
    Wp F (signRound fuel sl G0 tree salt i s) (fun s' => ∃ coms' : Nat → List (List Nat),
      (∀ j < i + 1, RoundInfo p fuel (matOf G0) salt (signerLeaf p root salt j) j (g s'.1 j) (coms' j)) ∧
      s'.2 = hashAbsorb p hashInit ((List.range (i + 1)).flatMap fun j => commitBytes p.K (coms' j))) := by
  obtain ⟨acts, hst⟩ := s
  dsimp only at h hh
  unfold signRound
  dsimp only
  rw [Wp.bind_iff, leaf_slice _ _ hp hi, htree i hi]
  have key := fun cont P => leafCommit_wp (α := Vector (MonoAction p) p.T × Inc) hp fuel sl.mono sl.norm (g acts i) G0 hG hrank
    (signerLeaf p root salt i) salt i hi cont P hF
  rw [Wp.bind_iff]
  have := key (fun out => do
    let acts ← wr acts i out.2.1
    pure (acts, hashAbsorb p hst (normBytes out.1))) (fun s' => ∃ coms' : Nat → List (List Nat),
      (∀ j < i + 1, RoundInfo p fuel (matOf G0) salt (signerLeaf p root salt j) j (g s'.1 j) (coms' j)) ∧
      s'.2 = hashAbsorb p hashInit ((List.range (i + 1)).flatMap fun j => commitBytes p.K (coms' j))) ?_
  · rw [Wp.bind_iff] at this
    refine this.mono ?_
    intro Qt hQt
    rw [Wp.bind_iff, Wp.rd_iff]
    exact ⟨hi, hQt⟩
  · rintro m out hm hmono ⟨R, f, piv, hR, hc, ht⟩
    simp only [Wp.bind_iff, Wp.wr_iff, Wp.pure_iff]
    refine ⟨hi, fun j => if j = i then colsOf out.1 else coms j, fun j hj => ?_, ?_⟩
    · dsimp only
      by_cases e : j = i
      · subst e
        rw [if_pos rfl, g_upd_self _ _ _ hi]
        exact ⟨m, R, f, piv, hm, hmono, hR, hc, ht⟩
      · rw [if_neg e, g_upd_ne _ _ _ _ (Ne.symm e)]
        exact h j (by omega)
    · rw [hh, hashAbsorb_append, normBytes_eq, commits_succ, if_pos rfl]
      congr 2
      apply commits_congr
      intro j hj
      rw [if_neg (by omega)]

theorem signResponse_wp (hp : p.WF) (fuel : Nat) (sl : Stale p) (sk : SK p) (fws : Vector Nat p.T)
    (seeds : Vector (Vector UInt8 p.skSeedLen) (p.numKeypairs - 1)) (acts : Vector (MonoAction p) p.T) (i : Nat)
    (s : Vector (Vector UInt8 p.monoBytes) p.W × Nat) (hi : i < p.T) {A : Matrix (Fin p.K) (Fin p.N) Fq} {salt root : Bytes}
    {coms : Nat → List (List Nat)}
    (hinfo : ∀ j < p.T, RoundInfo p fuel A salt (signerLeaf p root salt j) j (g acts j) (coms j))
    (hseeds : ∀ i < p.numKeypairs - 1, (g seeds i).toList = ((xof p sk.secret).drop (i * p.skSeedLen)).take p.skSeedLen)
    (hr : ∀ k, g fws k < p.numKeypairs) (hw : weight p.T (g fws) = p.W)
    (hF : (¬ KeyFits p fuel sk) → F)
    (hI : s.2 = weight i (g fws) ∧ ∀ j < i, g fws j ≠ 0 →
      ResponseOk p fuel sk A salt (signerLeaf p root salt j) j (g fws j) (coms j) (g s.1 (weight j (g fws)))) :
    Wp F (signResponse fuel sl fws seeds acts i s) (fun s => s.2 = weight (i + 1) (g fws) ∧ ∀ j < i + 1, g fws j ≠ 0 →
      ResponseOk p fuel sk A salt (signerLeaf p root salt j) j (g fws j) (coms j) (g s.1 (weight j (g fws)))) := by
  obtain ⟨out, emitted⟩ := s
  obtain ⟨he, hout⟩ := hI
  dsimp only at he hout
  unfold signResponse
  dsimp only
  rw [Wp.bind_iff, Wp.rd_iff]
  refine ⟨hi, ?_⟩
  by_cases hx : g fws i = 0
  · rw [if_neg (by simpa using hx), Wp.pure_iff]
    refine ⟨?_, fun j hj hne => ?_⟩
    · dsimp only; rw [weight_succ, if_neg (by simpa using hx), he]; rfl
    · exact hout j (by rcases Nat.lt_succ_iff_lt_or_eq.mp hj with e | e; exact e; subst e; exact absurd hx hne) hne
  · have hlt := hr i
    have hwt := weight_lt hi (g fws) hx
    rw [hw] at hwt
    rw [if_pos hx, Wp.bind_iff, Wp.rd_iff]
    refine ⟨by omega, ?_⟩
    have := signResponse_one (F := F) hp fuel sl sk (hinfo i hi) (v := g fws i) (g seeds (g fws i - 1)).toList
      (hseeds _ (by omega)) (g out emitted) (fun buf => do
        let out ← wr out emitted buf
        pure (out, emitted + 1)) (fun s => s.2 = weight (i + 1) (g fws) ∧ ∀ j < i + 1, g fws j ≠ 0 →
      ResponseOk p fuel sk A salt (signerLeaf p root salt j) j (g fws j) (coms j) (g s.1 (weight j (g fws)))) ?_ ?_
    · rw [Wp.bind_iff] at this ⊢
      refine this.mono ?_
      intro Qm hQm
      rw [Wp.bind_iff, Wp.rd_iff]
      refine ⟨hi, ?_⟩
      rw [Wp.bind_iff] at hQm ⊢
      refine hQm.mono ?_
      intro act hact
      rw [Wp.bind_iff, Wp.rd_iff]
      exact ⟨by omega, hact⟩
    · intro hno
      apply hF
      rintro ⟨-, h⟩
      exact hno (h _ (by omega))
    · intro b hb
      simp only [Wp.bind_iff, Wp.wr_iff, Wp.pure_iff]
      refine ⟨by omega, ?_, fun j hj hne => ?_⟩
      · rw [weight_succ, if_pos hx, he]
      · by_cases e : j = i
        · subst e
          rw [← he, g_upd_self _ _ _ (by omega)]
          exact hb
        · have := weight_lt (show j < i by omega) (g fws) hne
          rw [g_upd_ne _ _ _ _ (by omega)]
          exact hout j (by omega) hne

/-! ## Signing -/

/-- Seeds and salt drawn by the signer. -/
def rootOf (p : Params) (s : Stream) : Bytes := s.take p.seedLen
@[inherit_doc rootOf]
def saltOf (p : Params) (s : Stream) : Bytes := (s.drop p.seedLen).take p.hashLen

/-- Signing with given random bytes. -/
def signWith {n : Nat} (fuel : Nat) (sl : Nat → Stale p) (sk : PriKey p) (m : Bytes) (sig : SignT p n) (root salt : Bytes) :
    C (SignT p n × Nat) := do
  let seeds ← privateSeeds p sk.compressedSk.toList
  signRest fuel sl sk m sig seeds root salt

theorem lessSign_eq {n : Nat} (fuel : Nat) (sl : Nat → Stale p) (rng : Inc) (sk : PriKey p) (m : Bytes) (sig : SignT p n) :
    lessSign fuel sl rng sk m sig = (do
      let r ← signWith fuel sl sk m sig (csprngBytes p p.seedLen rng).1 (csprngBytes p p.hashLen (csprngBytes p p.seedLen rng).2).1
      pure (r.1, r.2, (csprngBytes p p.hashLen (csprngBytes p p.seedLen rng).2).2)) := by
  unfold lessSign signWith signRest
  simp only [bind_assoc, pure_bind]

theorem signWith_wp (hp : p.WF) {n : Nat} (fuel : Nat) (sl : Nat → Stale p) (sk : PriKey p) (m : Bytes)
    (sig : SignT p n) {root salt : Bytes} (hroot : root.length = p.seedLen) (hsalt : salt.length = p.hashLen) (hn : p.storageLen ≤ n) :
    Wp (¬ SignerFits p fuel sk.spec root m salt) (signWith fuel sl sk m sig root salt) (fun r =>
      r.1.spec.salt = salt ∧ Signed p fuel sk.spec root m r.1.spec r.2 ∧
      (g r.1.seedStorage (r.2 * p.seedLen)).toNat = r.2 ∧
      (∀ j, r.2 * p.seedLen < j → j < p.maxPublishedBytes → g r.1.seedStorage j = 0)) := by
  have hKN := hp.K_lt_N
  unfold signWith signRest
  rw [Wp.bind_iff]
  refine (privateSeeds_wp _).mono ?_
  intro seeds hseeds
  dsimp only
  have esalt : (toVec p.hashLen salt).toList = salt := toVec_toList hsalt
  rw [esalt]
  rw [Wp.bind_iff]
  refine (generateSeedTree_wp hp _ root salt hroot).mono ?_
  intro tree htree
  rw [expandH_eq] at htree
  have hTl := hp.T_lt_leaves
  have hleaf : ∀ j < p.T, nodeSeg tree (p.numLeaves - 1 + j) = signerLeaf p root salt j := by
    intro j hj
    exact htree _ (by unfold Params.numNodes; omega)
  rw [Wp.bind_iff]
  refine ((expandG0_wp hp fuel (sl 0) _).monoF ?_).mono ?_
  · rintro hno ⟨⟨h, -⟩, -⟩; exact hno h
  rintro G0 ⟨hG, hG0⟩
  have hrank := IsRREF.fullRank (hG0.rref (Nat.le_of_lt hKN))
  rw [Wp.bind_iff]
  refine Wp.forUp (fun i (st : Vector (MonoAction p) p.T × Inc) => ∃ coms : Nat → List (List Nat),
      (∀ j < i, RoundInfo p fuel (matOf G0) salt (signerLeaf p root salt j) j (g st.1 j) (coms j)) ∧
      st.2 = hashAbsorb p hashInit ((List.range i).flatMap fun j => commitBytes p.K (coms j))) ?_ ?_ ?_
  · refine ⟨fun _ => [], by simp, ?_⟩
    unfold hashAbsorb
    rw [incAbsorb_eq_foldl _ _ _ (hashRate_pos p)]; rfl
  · rintro i st hi ⟨coms, hI1, hI2⟩
    refine signRound_wp hp fuel (sl (i + 1)) G0 tree salt root i st hG hrank hi hleaf ?_ hI1 hI2
    rintro hno ⟨-, h, -⟩
    exact hno (h i hi)
  rintro ⟨acts, h⟩ ⟨coms, hinfo, hh⟩
  dsimp only at hinfo hh ⊢
  rw [hh, hashAbsorb_append, hashAbsorb_append, hash_eq]
  have ht : ((List.range p.T).flatMap fun j => commitBytes p.K (coms j)) ++ m ++ salt =
      transcript p coms m salt := rfl
  rw [ht]
  have edig : (toVec p.hashLen (Spec.hash p (transcript p coms m salt))).toList =
      Spec.hash p (transcript p coms m salt) := toVec_toList (by simp [Spec.hash])
  rw [Wp.bind_iff, edig]
  refine ((expandDigest_spec hp fuel _).monoF ?_).mono ?_
  · rintro hno ⟨-, -, h⟩
    refine hno (h _ ⟨coms, matOf G0, hG0, rfl, fun i hi => ?_⟩)
    obtain ⟨M, R, piv, g1, g2, g3, g4⟩ := (hinfo i hi).exists
    exact ⟨M, g1, R, piv, g2, g3, g4⟩
  intro fws hch
  rw [Wp.bind_iff]
  refine (indicesToPublish_hides fws).mono ?_
  rintro ind ⟨hind1, hind2⟩
  have hle := pubCount_le hp hch.weight
  unfold Params.storageLen at hn
  rw [Wp.bind_iff, Wp.blit_iff]
  refine ⟨by rw [List.length_replicate]; omega, ?_⟩
  rw [Wp.bind_iff]
  refine (seedTreePath_wp hp tree ind _ hind1 (by rw [hind2]; exact hidden_exists hp hch.weight)
    (by rw [hind2]; omega)).mono ?_
  rintro ⟨storage, num⟩ ⟨hnum, hstored, hrest⟩
  rw [hind2] at hnum hstored
  dsimp only at hnum hstored hrest ⊢
  rw [Wp.bind_iff]
  refine Wp.forUp (fun i (st : Vector (Vector UInt8 p.monoBytes) p.W × Nat) => st.2 = weight i (g fws) ∧
    ∀ j < i, g fws j ≠ 0 → ResponseOk p fuel sk.spec (matOf G0) salt (signerLeaf p root salt j) j
      (g fws j) (coms j) (g st.1 (weight j (g fws)))) ⟨rfl, by simp⟩ ?_ ?_
  · intro i st hi hI
    refine signResponse_wp hp fuel (sl (p.T + i + 1)) sk.spec fws seeds acts i st hi hinfo hseeds
      (fun k => (hch.range (by have := hp.numKeypairs_ge; omega) k).1) hch.weight ?_ hI
    rintro hno ⟨h, -⟩; exact hno h
  rintro ⟨monoms, e⟩ ⟨-, hresp⟩
  dsimp only at hresp ⊢
  have hb : num * p.seedLen < n := by rw [hnum]; omega
  simp only [Wp.bind_iff, Wp.wrB_iff, Wp.pure_iff]
  refine ⟨hb, esalt, ⟨hroot, ?_⟩, ?_, ?_⟩
  · refine ⟨g fws, coms, matOf G0, hG0, ?_, ?_, ?_, hnum, ?_⟩
    · show IsChallenge p fuel (xof p (toVec p.hashLen _).toList) _
      rw [edig]; exact hch
    · show (toVec p.hashLen _).toList = Spec.hash p (transcript p coms m (toVec p.hashLen _).toList)
      rw [edig, esalt]
    · intro i hi
      have e1 : (SignT.spec (⟨toVec p.hashLen salt, monoms,
        toVec p.hashLen (Spec.hash p (transcript p coms m salt)),
        upd storage (num * p.seedLen) (UInt8.ofNat num)⟩ : SignT p n)).salt = salt := esalt
      rw [e1]
      by_cases hv : g fws i = 0
      · obtain ⟨M, R, piv, g1, g2, g3, g4⟩ := (hinfo i hi).exists
        exact ⟨M, R, piv, g1, g2, g3, g4, fun h => absurd hv h⟩
      · obtain ⟨M, R, piv, g1, g2, g3, g4, g5⟩ := hresp i hi hv
        exact ⟨M, R, piv, g1, g2, g3, g4, fun _ => g5⟩
    · intro i hP
      have hlt := rank_lt_pubCount hP
      have hb2 := mul_bound (c := p.seedLen) hlt
      show seg (upd storage (num * p.seedLen) (UInt8.ofNat num)) _ p.seedLen = nodeSeed (children p (toVec p.hashLen _).toList) _ i
      rw [esalt]
      have : seg (upd storage (num * p.seedLen) (UInt8.ofNat num)) (p.seedLen * rank p.numLeaves p.T (hides (g fws)) i) p.seedLen
          = seg storage (rank p.numLeaves p.T (hides (g fws)) i * p.seedLen) p.seedLen := by
        rw [Nat.mul_comm p.seedLen]
        apply seg_ext
        intro k hk
        rw [g_upd_ne _ _ _ _ (by rw [hnum]; omega)]
      rw [this, hstored i hP]
      exact htree i (by have := hP.2.1; exact this)
  · have hle2 := pubCount_le_worst hp (hides (g fws)) (by rw [hiddenSet_card, hch.weight])
    have := hp.storage
    have := hp.storage_le
    rw [g_upd_self _ _ _ hb, hnum]
    simp only [UInt8.toNat_ofNat']
    omega
  · intro j hj hj2
    rw [g_upd_ne _ _ _ _ (by omega), hrest j (by omega) (by omega), g_blitV _ _ _ _ (by omega), if_pos (by
      rw [List.length_replicate]; omega)]
    simp [List.getD_replicate, hj2]

theorem lessSign_wp (hp : p.WF) {n : Nat} (fuel : Nat) (sl : Nat → Stale p) (rng : Inc) (sk : PriKey p) (m : Bytes)
    (sig : SignT p n) (s : Stream) (hs : StreamAt p rng s) (hn : p.storageLen ≤ n) :
    Wp (¬ SignerFits p fuel sk.spec (rootOf p s) m (saltOf p s)) (lessSign fuel sl rng sk m sig) (fun r =>
      r.1.spec.salt = saltOf p s ∧ Signed p fuel sk.spec (rootOf p s) m r.1.spec r.2.1 ∧
      (g r.1.seedStorage (r.2.1 * p.seedLen)).toNat = r.2.1 ∧
      (∀ j, r.2.1 * p.seedLen < j → j < p.maxPublishedBytes → g r.1.seedStorage j = 0) ∧
      StreamAt p r.2.2 (s.drop (p.seedLen + p.hashLen))) := by
  rw [lessSign_eq]
  have h1 := hs.next p.seedLen
  have h2 := h1.next p.hashLen
  rw [drop_drop] at h2
  rw [hs.2, h1.2, Wp.bind_iff]
  refine (signWith_wp hp fuel sl sk m sig (take_length _ _) (take_length _ _) hn).mono ?_
  rintro r ⟨g1, g2, g3, g4⟩
  exact ⟨g1, g2, g3, g4, h2⟩

end LESS
