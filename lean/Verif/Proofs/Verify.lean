import Verif.Proofs.CommitSpec
import Verif.Proofs.ChallengeSpec
import Verif.Proofs.SeedTree
/-!
# Verification against the specification
-/
namespace LESS
open Spec

variable {p : Params} {F : Prop}

/-- The public key as the specification sees it. -/
def PubKey.spec (pk : PubKey p) : PK p := ⟨pk.G0seed.toList, fun i => g pk.SFG i⟩

/-- The private key as the specification sees it. -/
def PriKey.spec (sk : PriKey p) : SK p := ⟨sk.compressedSk.toList, sk.G0seed.toList⟩

/-- The signature as the specification sees it. -/
def SignT.spec {n : Nat} (sig : SignT p n) : Sig p :=
  ⟨sig.treeSalt.toList, fun i => g sig.monomActions i, sig.digest.toList,
    fun k => seg sig.seedStorage (p.seedLen * k) p.seedLen⟩

/-! ## Parts -/

theorem indicesToPublish_hides (fws : Vector Nat p.T) :
    Wp F (indicesToPublish fws) (fun ind => (∀ k, k < p.T → g ind k ≤ 1) ∧ hiddenOf ind = hides (g fws)) := by
  unfold indicesToPublish
  refine Wp.forUp (fun n (ind : Vector Nat p.T) => ∀ k, k < p.T → g ind k = if k < n then b2n (g fws k ≠ 0) else 0) ?_ ?_ ?_
  · intro k hk; rw [g_replicate _ _ hk]; simp
  · intro i ind hi hI
    simp only [Wp.bind_iff, Wp.rd_iff, Wp.wr_iff]
    refine ⟨hi, hi, fun k hk => ?_⟩
    rw [g_upd _ _ _ _ hi]
    by_cases e : i = k
    · subst e; simp
    · rw [if_neg e, hI k hk]
      by_cases h : k < i
      · rw [if_pos h, if_pos (by omega)]
      · rw [if_neg h, if_neg (by omega)]
  · intro ind hI
    refine ⟨fun k hk => ?_, ?_⟩
    · rw [hI k hk, if_pos hk]; unfold b2n; split <;> omega
    · funext k
      unfold hiddenOf hides
      by_cases hk : k < p.T
      · rw [hI k hk, if_pos hk]
        by_cases h : g fws k = 0 <;> simp [h, b2n]
      · have h1 : g ind k = 0 := by simp [g, hk]
        have h2 : g fws k = 0 := by simp [g, hk]
        simp [h1, h2]

theorem expandH_eq (p : Params) (salt : Bytes) : expandH p salt = children p salt := by
  funext seed
  have h := (xof_at p (salt ++ seed)).2 (2 * p.seedLen)
  unfold expandH children
  dsimp only
  rw [h, Nat.two_mul, take_add]
  rw [List.take_left' (take_length _ _), List.drop_left' (take_length _ _)]

theorem fullRank_mul {k n : Nat} {A : Matrix (Fin k) (Fin n) Fq} (hA : FullRank A) {M R : Matrix (Fin n) (Fin n) Fq}
    (h : M * R = 1) : FullRank (A * M) := by
  intro v hv
  apply hA
  have : Matrix.vecMul (Matrix.vecMul v (A * M)) R = 0 := by rw [hv, Matrix.zero_vecMul]
  rwa [Matrix.vecMul_vecMul, Matrix.mul_assoc, h, Matrix.mul_one] at this

theorem Monomial.Valid.rightInv {m : Monomial p} (hm : m.Valid) (hN : p.N ≤ p.posMod) :
    ∃ r : Monomial p, r.Valid ∧ m.mat * r.mat = 1 := by
  obtain ⟨r, _, h⟩ := (monomialInv_wp m m hm hN).exists_ok
  exact ⟨r, inv_valid hm h, mat_inv hm h⟩

theorem leaf_slice (tree : TreeBuf p) (i : Nat) (hp : p.WF) (hi : i < p.T) (P : Bytes → Prop) :
    Wp F (slice tree (p.seedLen * (p.numLeaves - 1) + i * p.seedLen) p.seedLen) P ↔
      P (nodeSeg tree (p.numLeaves - 1 + i)) := by
  have hT := hp.T_lt_leaves
  have e : p.seedLen * (p.numLeaves - 1) + i * p.seedLen = (p.numLeaves - 1 + i) * p.seedLen := by ring
  rw [Wp.slice_iff, e]
  have := mul_bound (c := p.seedLen) (show p.numLeaves - 1 + i < p.numNodes by unfold Params.numNodes; omega)
  simp only [this, true_and, nodeSeg]

theorem le16_eq (i : Nat) (hi : i < 65536) : le16 (u16 i) = [UInt8.ofNat (i % 256), UInt8.ofNat (i / 256 % 256)] := by
  unfold le16 u16
  rw [Nat.mod_eq_of_lt hi, Nat.mod_eq_of_lt (show i / 256 < 256 by omega)]
  congr 1
  apply UInt8.toNat_inj.mp
  simp

/-- The commitment of a round from its leaf. -/
theorem leafCommit_wp (hp : p.WF) (fuel : Nat) (stale : Monomial p) (V : NormIS p) (Qb : MonoAction p) (G : GenMat p)
    (hG : Reduced G) (hrank : FullRank (matOf G)) (leaf salt : Bytes) (i : Nat) (hi : i < p.T) {α : Type}
    (cont : NormIS p × MonoAction p × Nat → C α) (P : α → Prop) (hF : (¬ ∃ M, IsMonomial p fuel (roundStream p salt leaf i) M) → F)
    (h : ∀ (m : Monomial p) out, m.Valid → IsMonomial p fuel (roundStream p salt leaf i) m.mat →
      (∃ R f piv, RrefOut (matOf G * m.mat) R f piv ∧ colsOf out.1 = commitment (matOf R) piv ∧
        ∀ t : Fin p.K, g out.2.1.permutation t < p.N ∧ g m.permutation (g out.2.1.permutation t) = piv t ∧
        g out.2.1.coefficients t = g m.coefficients (g out.2.1.permutation t)) → Wp F (cont out) P) :
    Wp F (do
      let Qt ← monomialSeedExpandSaltRnd fuel stale leaf salt i
      let out ← prepareDigestInput V Qb G Qt
      cont out) P := by
  have hN := hp.N_lt
  have hKN := hp.K_lt_N
  have hT := hp.T_lt
  unfold monomialSeedExpandSaltRnd
  simp only [Wp.bind_iff, Wp.pure_iff]
  rw [le16_eq i (by omega)]
  have hs := xof_at p (leaf ++ salt ++ [UInt8.ofNat (i % 256), UInt8.ofNat (i / 256 % 256)])
  refine ((monomialFromState_stream fuel stale _ _ (by omega) (by omega) hs).monoF hF).mono ?_
  rintro ⟨m, st⟩ ⟨hm, hmono, -⟩
  obtain ⟨r, -, hr⟩ := hm.rightInv (by omega)
  refine ((prepareDigestInput_wp V Qb G m hKN hN hm hG (fullRank_mul hrank hr)).monoF False.elim).mono ?_
  rintro ⟨V', Qb', ok⟩ ⟨-, R, f, piv, hR, hperm, hs, ht⟩
  exact h m _ hm hmono ⟨R, f, piv, hR, commitment_eq hR.reduced hR.flags hperm hs, ht⟩

/-! ## The hash of the commitments -/

theorem hashAbsorb_append (a b : Bytes) :
    hashAbsorb p (hashAbsorb p hashInit a) b = hashAbsorb p hashInit (a ++ b) := by
  unfold hashAbsorb
  exact incAbsorb_append _ _ _ _ (hashRate_pos p)

theorem weight_succ (i : Nat) (v : Nat → Nat) : weight (i + 1) v = weight i v + if v i ≠ 0 then 1 else 0 := by
  unfold weight
  rw [List.range_succ, List.filter_append, List.length_append]
  by_cases h : v i = 0 <;> simp [h]

theorem weight_mono {i j : Nat} (h : i ≤ j) (v : Nat → Nat) : weight i v ≤ weight j v := by
  obtain ⟨c, rfl⟩ := Nat.exists_eq_add_of_le h
  induction c with
  | zero => simp
  | succ c ih => rw [← Nat.add_assoc, weight_succ]; have := ih (by omega); omega

theorem weight_lt {i T : Nat} (hi : i < T) (v : Nat → Nat) (h : v i ≠ 0) : weight i v < weight T v := by
  have := weight_mono (show i + 1 ≤ T from hi) v
  rw [weight_succ, if_pos h] at this
  omega

theorem commits_succ (i : Nat) (coms : Nat → List (List Nat)) :
    (List.range (i + 1)).flatMap (fun j => commitBytes p.K (coms j)) =
      (List.range i).flatMap (fun j => commitBytes p.K (coms j)) ++ commitBytes p.K (coms i) := by
  rw [List.range_succ, List.flatMap_append]; simp

theorem commits_congr {i : Nat} {coms coms' : Nat → List (List Nat)} (h : ∀ j < i, coms j = coms' j) :
    (List.range i).flatMap (fun j => commitBytes p.K (coms j)) = (List.range i).flatMap (fun j => commitBytes p.K (coms' j)) := by
  apply List.flatMap_congr
  intro j hj
  rw [h j (List.mem_range.mp hj)]

/-! ## Uniqueness -/

theorem Spec.RoundCommit.unique {B B' : Nat} {pk : PK p} {sig : Sig p} {v : Nat → Nat} {i : Nat} {c c' : List (List Nat)}
    (h : RoundCommit p B pk sig v i c) (h' : RoundCommit p B' pk sig v i c') : c = c' := by
  unfold RoundCommit at h h'
  by_cases hv : v i = 0
  · rw [if_pos hv] at h h'
    obtain ⟨G, M, h1, h2, h3⟩ := h
    obtain ⟨G', M', h1', h2', h3'⟩ := h'
    rw [h1.unique h1', h2.unique h2'] at h3
    exact h3.unique h3'
  · rw [if_neg hv] at h h'
    exact h.2.unique h'.2

theorem Spec.RoundCommit.mono {B B' : Nat} (hB : B ≤ B') {pk : PK p} {sig : Sig p} {v : Nat → Nat} {i : Nat} {c : List (List Nat)}
    (h : RoundCommit p B pk sig v i c) : RoundCommit p B' pk sig v i c := by
  unfold RoundCommit at h ⊢
  by_cases hv : v i = 0
  · rw [if_pos hv] at h ⊢
    obtain ⟨G, M, h1, h2, h3⟩ := h
    exact ⟨G, M, h1.mono hB, h2.mono hB, h3⟩
  · rw [if_neg hv] at h ⊢
    exact h

/-! ## One round -/

/-- The state of the verifier after `i` rounds. -/
def RoundsDone (p : Params) (B : Nat) (pk : PK p) (sig : Sig p) (v : Nat → Nat) (i : Nat) (s : Inc × Nat) : Prop :=
  s.2 = weight i v ∧ ∃ coms : Nat → List (List Nat), (∀ j < i, RoundCommit p B pk sig v j (coms j)) ∧
    s.1 = hashAbsorb p hashInit ((List.range i).flatMap fun j => commitBytes p.K (coms j))

theorem RoundsDone.step {B : Nat} {pk : PK p} {sig : Sig p} {v : Nat → Nat} {i : Nat} {s : Inc × Nat} {V : NormIS p} {e : Nat}
    (h : RoundsDone p B pk sig v i s) (hV : RoundCommit p B pk sig v i (colsOf V)) (he : e = weight (i + 1) v) :
    RoundsDone p B pk sig v (i + 1) (hashAbsorb p s.1 (normBytes V), e) := by
  obtain ⟨h1, coms, h2, h3⟩ := h
  refine ⟨he, fun j => if j = i then colsOf V else coms j, fun j hj => ?_, ?_⟩
  · dsimp only
    by_cases e : j = i
    · rw [if_pos e, e]; exact hV
    · rw [if_neg e]; exact h2 j (by omega)
  · dsimp only
    rw [h3, hashAbsorb_append, normBytes_eq, commits_succ, if_pos rfl]
    congr 2
    apply commits_congr
    intro j hj
    rw [if_neg (by omega)]

theorem verifyRound_wp (hp : p.WF) {n : Nat} (fuel : Nat) (sl : Stale p) (pk : PubKey p) (sig : SignT p n)
    (fws : Vector Nat p.T) (tree : TreeBuf p) (G0 : RrefMat p) (i : Nat) (s : Inc × Nat) (hi : i < p.T)
    (hch : IsChallenge p fuel (xof p sig.spec.digest) (g fws))
    {A : Matrix (Fin p.K) (Fin p.N) Fq} (hG0 : G0At p fuel (xof p pk.spec.seed) G0 A)
    (htree : ∀ j < p.T, g fws j = 0 → nodeSeg tree (p.numLeaves - 1 + j) = rebuiltLeaf p sig.spec (g fws) j)
    (hgood : g fws i ≠ 0 → GoodCode p (pk.spec.codes (g fws i - 1)))
    (hI : RoundsDone p fuel pk.spec sig.spec (g fws) i s) :
    Wp (¬ VerifierFits p fuel pk.spec sig.spec) (verifyRound fuel sl pk sig fws tree G0 i s) (fun o => match o with
      | .inl r => r = 0 ∧ g fws i ≠ 0 ∧ ¬ (Spec.decodeAction p (sig.spec.responses (responsesBefore (g fws) i))).Valid
      | .inr s => RoundsDone p fuel pk.spec sig.spec (g fws) (i + 1) s) := by
  have hKN := hp.K_lt_N
  obtain ⟨h, employed⟩ := s
  unfold verifyRound
  dsimp only
  rw [Wp.bind_iff, Wp.rd_iff]
  refine ⟨hi, ?_⟩
  by_cases hx : g fws i = 0
  · rw [if_pos hx, Wp.bind_iff]
    refine (hG0.expand (Nat.le_of_lt hKN) sl.gen).mono ?_
    rintro G ⟨hG, rfl⟩
    rw [Wp.bind_iff, leaf_slice _ _ hp hi, htree i hi hx]
    refine leafCommit_wp hp fuel _ sl.norm sl.act' G hG (IsRREF.fullRank (hG0.isG0.rref (Nat.le_of_lt hKN)))
      (rebuiltLeaf p sig.spec (g fws) i) sig.treeSalt.toList i hi
      (fun out => pure (Sum.inr (hashAbsorb p h (normBytes out.1), employed))) _ ?_ ?_
    · rintro hno ⟨-, v, hv, hm⟩
      obtain rfl := hv.unique hch
      exact hno (hm i hi hx)
    · rintro m out hm hmono ⟨R, f, piv, hR, hc, -⟩
      rw [Wp.pure_iff]
      refine hI.step (V := out.1) ?_ ?_
      · unfold RoundCommit
        rw [if_pos hx]
        exact ⟨_, _, hG0.isG0, hmono, _, _, hR.rowEq, hR.rref, hc⟩
      · rw [weight_succ, if_neg (by simpa using hx)]; exact hI.1
  · have hlt := (hch.range (by have := hp.numKeypairs_ge; omega) i).1
    have hw := weight_lt hi (g fws) hx
    rw [hch.weight] at hw
    rw [if_neg hx, Wp.bind_iff, Wp.rd_iff]
    refine ⟨by omega, ?_⟩
    have he : employed = weight i (g fws) := hI.1
    rw [Wp.bind_iff, Wp.rd_iff]
    refine ⟨by omega, ?_⟩
    rw [Wp.bind_iff]
    refine (verifyResponse_spec hp sl _ (g sig.monomActions employed) (hgood hx)).mono ?_
    rintro (_ | V) ho
    · refine ⟨rfl, hx, ?_⟩
      rw [responsesBefore, ← he]
      exact ho
    · refine hI.step (V := V) ?_ ?_
      · unfold RoundCommit
        rw [if_neg hx, responsesBefore, ← he]
        exact ho
      · rw [weight_succ, if_pos hx, he]

theorem Spec.RoundCommit.response {B : Nat} {pk : PK p} {sig : Sig p} {v : Nat → Nat} {i : Nat} {c : List (List Nat)}
    (h : RoundCommit p B pk sig v i c) (hv : v i ≠ 0) : (Spec.decodeAction p (sig.responses (responsesBefore v i))).Valid := by
  unfold RoundCommit at h
  rw [if_neg hv] at h
  exact h.1

/-! ## The whole verification -/

theorem hidden_exists (hp : p.WF) {v : Nat → Nat} (h : weight p.T v = p.W) : ∃ k < p.T, hides v k = true := by
  have := hp.W_pos
  have h0 : (List.range p.T).filter (fun k => v k ≠ 0) ≠ [] := by
    intro e; unfold weight at h; rw [e] at h; simp at h; omega
  obtain ⟨k, hk⟩ := List.exists_mem_of_ne_nil _ h0
  rw [List.mem_filter, List.mem_range] at hk
  exact ⟨k, hk.1, by simpa [hides] using hk.2⟩

theorem hiddenSet_card (T : Nat) (v : Nat → Nat) : (hiddenSet T (hides v)).card = weight T v := by
  rw [weight_eq_card]
  congr 1
  ext k
  simp [hiddenSet, hides]

theorem pubCount_le (hp : p.WF) {v : Nat → Nat} (h : weight p.T v = p.W) :
    pubCount p (hides v) * p.seedLen ≤ p.maxPublishedBytes := by
  have h1 := pubCount_le_worst hp (hides v) (by rw [hiddenSet_card, h])
  rw [hp.storage_dvd]
  exact Nat.mul_le_mul_right _ (h1.trans hp.storage)

/-- The comparison after the last round. -/
theorem final_wp {F : Prop} {n : Nat} (fuel : Nat) (pk : PubKey p) (m : Bytes) (sig : SignT p n) {fws : Vector Nat p.T}
    (hch' : IsChallenge p fuel (xof p sig.spec.digest) (g fws)) {h : Inc} {e : Nat}
    (hI : RoundsDone p fuel pk.spec sig.spec (g fws) p.T (h, e)) :
    Wp F (do
      let h := hashAbsorb p h m
      let h := hashAbsorb p h sig.treeSalt.toList
      let digest := toVec p.hashLen (hashFinalize p h)
      let d ← timingSafeMemcmp digest sig.digest p.hashLen
      pure (b2n (d = 0)) : C Nat) (fun r =>
      (r = 1 ∧ Accepts p fuel pk.spec m sig.spec) ∨ (r = 0 ∧ ∀ B, ¬ Accepts p B pk.spec m sig.spec)) := by
  obtain ⟨-, coms, hcoms, hh⟩ := hI
  dsimp only at hh ⊢
  rw [hh, hashAbsorb_append, hashAbsorb_append, hash_eq]
  have ht : ((List.range p.T).flatMap fun j => commitBytes p.K (coms j)) ++ m ++ sig.treeSalt.toList =
      transcript p coms m sig.spec.salt := rfl
  rw [ht]
  have hlen : (Spec.hash p (transcript p coms m sig.spec.salt)).length = p.hashLen := by simp [Spec.hash]
  rw [Wp.bind_iff]
  refine (timingSafeMemcmp_wp _ sig.digest p.hashLen (Nat.le_refl _) (Nat.le_refl _)).mono ?_
  rintro d ⟨-, hd⟩
  rw [Wp.pure_iff]
  have hd' : d = 0 ↔ sig.spec.digest = Spec.hash p (transcript p coms m sig.spec.salt) := by
    rw [hd]
    constructor
    · intro h
      have := vec_ext h
      rw [← toVec_toList hlen, this]
      rfl
    · intro h i hi
      have : toVec p.hashLen (Spec.hash p (transcript p coms m sig.spec.salt)) = sig.digest := by
        rw [← h]; exact toVec_of_toList _
      rw [this]
  by_cases h0 : d = 0
  · left
    exact ⟨by simp [h0, b2n], g fws, coms, hch', hcoms, hd'.mp h0⟩
  · right
    refine ⟨by simp [h0, b2n], fun B => ?_⟩
    rintro ⟨v, coms', hv, hr, hdig⟩
    obtain rfl := hv.unique hch'
    apply h0
    rw [hd', hdig]
    congr 1
    unfold transcript
    congr 2
    apply commits_congr
    intro j hj
    exact (hr j hj).unique (hcoms j hj)

/-- `LESS_verify` decides acceptance, for every public key that describes codes and every signature with a complete
seed storage. -/
theorem lessVerify_wp (hp : p.WF) {n : Nat} (fuel : Nat) (sl : Nat → Stale p) (pk : PubKey p) (m : Bytes) (sig : SignT p n)
    (hgood : ∀ j < p.numKeypairs - 1, GoodCode p (pk.spec.codes j))
    (hn : ∀ v, IsChallenge p fuel (xof p sig.spec.digest) v → pubCount p (hides v) * p.seedLen ≤ n) :
    Wp (¬ VerifierFits p fuel pk.spec sig.spec) (lessVerify fuel sl pk m sig) (fun r =>
      (r = 1 ∧ Accepts p fuel pk.spec m sig.spec) ∨ (r = 0 ∧ ∀ B, ¬ Accepts p B pk.spec m sig.spec)) := by
  unfold lessVerify
  rw [Wp.bind_iff]
  refine ((expandDigest_spec hp fuel sig.digest.toList).monoF ?_).mono ?_
  · rintro hno ⟨-, v, hv, -⟩; exact hno ⟨v, hv⟩
  intro fws hch
  have hch' : IsChallenge p fuel (xof p sig.spec.digest) (g fws) := hch
  rw [Wp.bind_iff]
  refine (indicesToPublish_hides fws).mono ?_
  rintro ind ⟨hind1, hind2⟩
  rw [Wp.bind_iff]
  refine (rebuildSeedTreeLeaves_wp hp _ ind sig.seedStorage sig.treeSalt.toList hind1
    (by rw [hind2]; exact hidden_exists hp hch.weight) (by rw [hind2]; exact hn _ hch)).mono ?_
  rintro ⟨tree, used⟩ ⟨-, htree⟩
  rw [hind2, expandH_eq] at htree
  dsimp only at htree ⊢
  have htree' : ∀ j < p.T, g fws j = 0 → nodeSeg tree (p.numLeaves - 1 + j) = rebuiltLeaf p sig.spec (g fws) j := by
    intro j hj h0
    have hT := hp.T_lt_leaves
    refine htree _ (by unfold Params.numNodes; omega) ?_
    rw [covers_leaf_iff (Nat.le_of_lt hT) j (by omega)]
    rintro ⟨-, h⟩
    simp [hides, h0] at h
  rw [Wp.bind_iff]
  refine ((generatorSFSeedExpand_wp fuel (sl 0).rref pk.G0seed.toList hp).monoF ?_).mono ?_
  · rintro hno ⟨h, -⟩; exact hno h
  rintro G0 ⟨A, hG0⟩
  rw [Wp.bind_iff]
  refine Wp.forRet (RoundsDone p fuel pk.spec sig.spec (g fws)) (fun r => r = 0 ∧ ∀ B, ¬ Accepts p B pk.spec m sig.spec)
    ⟨rfl, fun _ => [], by simp, by
      unfold hashAbsorb
      rw [incAbsorb_eq_foldl _ _ _ (hashRate_pos p)]; rfl⟩ ?_ ?_ ?_
  · intro i s hi hI
    refine (verifyRound_wp hp fuel (sl (i + 1)) pk sig fws tree G0 i s hi hch' hG0 htree' (fun hx => hgood _ (by
      have := (hch.range (by have := hp.numKeypairs_ge; omega) i).1; omega)) hI).mono ?_
    rintro (r | s) ho
    · refine ⟨ho.1, fun B => ?_⟩
      rintro ⟨v, coms, hv, hr, -⟩
      obtain rfl := hv.unique hch'
      exact ho.2.2 ((hr i hi).response ho.2.1)
    · exact ho
  · intro r hr
    exact Or.inr hr
  · rintro ⟨h, e⟩ hI
    exact final_wp fuel pk m sig hch' hI

end LESS
