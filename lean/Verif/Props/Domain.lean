import Verif.Spec.Domain
import Verif.Props.Seeds
import Verif.Proofs.Sign
/-!
# Which strings are expanded in a signature (C72)

The comment in seedtree.c:29-30 says that the index of a node is part of the string from which its children are
expanded; the code leaves it out.
-/
namespace LESS

open Spec

variable {p : Params}

theorem nodeSeed_length (salt root : Bytes) (hroot : root.length = p.seedLen) (i : Nat) :
    (nodeSeed (children p salt) root i).length = p.seedLen := by
  cases i with
  | zero => rw [nodeSeed]; exact hroot
  | succ i =>
    rw [nodeSeed]
    split <;> exact take_length _ _

/-- What is expanded in a run of `LESS_sign`: the seeds of the children of inner node `i` are the output for the `i`-th
string of `nodeInputs`, the commitment of round `i` is made with the monomial expanded from the `i`-th string of
`roundInputs`. -/
theorem C72_expanded (hp : p.WF) {n : Nat} {fuel : Nat} {sl : Nat → Stale p} {rng rng' : Inc} {sk : PriKey p} {m : Bytes}
    {sig sig' : SignT p n} {num : Nat} {s : Stream} (hs : StreamAt p rng s) (hn : p.storageLen ≤ n)
    (h : lessSign fuel sl rng sk m sig = .ok (sig', num, rng')) :
    ∃ (salt : Bytes) (coms : Nat → List (List Nat)) (G0 : Matrix (Fin p.K) (Fin p.N) (ZMod 127)),
      sig'.treeSalt.toList = salt ∧ IsG0 p fuel (xof p sk.G0seed.toList) G0 ∧
      sig'.digest.toList = hash p (transcript p coms m salt) ∧
      (∀ i < p.T, ∃ M, IsMonomial p fuel (xof p ((roundInputs p (rootOf p s) salt).getD i [])) M ∧ IsCommit (G0 * M) (coms i)) ∧
      (∀ i < p.numLeaves - 1,
        nodeSeed (children p salt) (rootOf p s) (2 * i + 1) = (xof p ((nodeInputs p (rootOf p s) salt).getD i [])).take p.seedLen ∧
        nodeSeed (children p salt) (rootOf p s) (2 * i + 2) =
          ((xof p ((nodeInputs p (rootOf p s) salt).getD i [])).drop p.seedLen).take p.seedLen) := by
  obtain ⟨-, ⟨-, v, coms, G0, a1, -, a3, a4, -, -⟩, -⟩ := (lessSign_wp hp fuel sl rng sk m sig s hs hn).of_ok h
  refine ⟨_, coms, G0, rfl, a1, a3, fun i hi => ?_, fun i hi => ?_⟩
  · obtain ⟨M, R, piv, b1, b2, b3, b4, -⟩ := a4 i hi
    refine ⟨M, ?_, R, piv, b2, b3, b4⟩
    have e : (roundInputs p (rootOf p s) sig'.treeSalt.toList).getD i [] =
        roundInput (signerLeaf p (rootOf p s) sig'.treeSalt.toList i) sig'.treeSalt.toList i := by
      simp [roundInputs, List.getD_eq_getElem?_getD, hi]
    rw [e]
    exact b1
  · have e : (nodeInputs p (rootOf p s) sig'.treeSalt.toList).getD i [] =
        nodeInput sig'.treeSalt.toList (nodeSeed (children p sig'.treeSalt.toList) (rootOf p s) i) := by
      simp [nodeInputs, List.getD_eq_getElem?_getD, hi]
    rw [e]
    constructor
    · rw [nodeSeed, if_pos (by omega), show 2 * i / 2 = i by omega]; rfl
    · rw [nodeSeed, if_neg (by omega), show (2 * i + 1) / 2 = i by omega]; rfl

theorem roundInput_inj {leaf leaf' salt salt' : Bytes} {i j : Nat} (hl : leaf.length = leaf'.length)
    (hs : salt.length = salt'.length) (hi : i < 65536) (hj : j < 65536) (h : roundInput leaf salt i = roundInput leaf' salt' j) :
    leaf = leaf' ∧ salt = salt' ∧ i = j := by
  unfold roundInput at h
  obtain ⟨h1, h2⟩ := List.append_inj h (by simp [hl, hs])
  obtain ⟨h3, h4⟩ := List.append_inj h1 hl
  refine ⟨h3, h4, ?_⟩
  simp only [List.cons.injEq, and_true] at h2
  have e1 := congrArg UInt8.toNat h2.1
  have e2 := congrArg UInt8.toNat h2.2
  simp only [UInt8.toNat_ofNat'] at e1 e2
  omega

/-- In one signature no two rounds expand the same string, even if their seeds are equal, and no round expands the
string of an inner node; two inner nodes expand the same string only if their seeds are equal. -/
theorem C72_one_signature_partial (hp : p.WF) (root salt : Bytes) (hroot : root.length = p.seedLen) :
    (roundInputs p root salt).Nodup ∧ (∀ x ∈ roundInputs p root salt, x ∉ nodeInputs p root salt) ∧
      ∀ i < p.numLeaves - 1, ∀ j < p.numLeaves - 1,
        (nodeInputs p root salt).getD i [] = (nodeInputs p root salt).getD j [] →
        nodeSeed (children p salt) root i = nodeSeed (children p salt) root j := by
  have hT := hp.T_lt
  refine ⟨?_, ?_, fun i hi j hj h => ?_⟩
  · refine List.Nodup.map_on (fun i hi j hj h => ?_) List.nodup_range
    rw [List.mem_range] at hi hj
    exact (roundInput_inj (by rw [signerLeaf, signerLeaf, nodeSeed_length _ _ hroot, nodeSeed_length _ _ hroot]) rfl
      (by omega) (by omega) h).2.2
  · intro x hx hy
    simp only [roundInputs, nodeInputs, List.mem_map] at hx hy
    obtain ⟨i, -, rfl⟩ := hx
    obtain ⟨j, -, h⟩ := hy
    have := congrArg List.length h
    simp [nodeInput, roundInput, nodeSeed_length _ _ hroot, signerLeaf] at this
    omega
  · simp only [nodeInputs, List.getD_eq_getElem?_getD, List.getElem?_map, List.getElem?_range hi, List.getElem?_range hj,
      Option.map_some, Option.getD_some, nodeInput, List.append_cancel_left_eq] at h
    exact h

/-- Signatures with different salts, whatever the keys, messages and seeds, have no expanded string in common. -/
theorem C72_signatures_apart (root root' salt salt' : Bytes) (hroot : root.length = p.seedLen) (hroot' : root'.length = p.seedLen)
    (hsalt : salt.length = p.hashLen) (hsalt' : salt'.length = p.hashLen) (h : salt ≠ salt') :
    ∀ x ∈ signInputs p root salt, x ∉ signInputs p root' salt' := by
  intro x hx hy
  simp only [signInputs, roundInputs, nodeInputs, List.mem_append, List.mem_map] at hx hy
  rcases hx with ⟨i, -, rfl⟩ | ⟨i, -, rfl⟩ <;> rcases hy with ⟨j, -, e⟩ | ⟨j, -, e⟩
  · exact h (List.append_inj e.symm (by rw [hsalt, hsalt'])).1
  · have := congrArg List.length e
    simp [nodeInput, roundInput, nodeSeed_length _ _ hroot, nodeSeed_length _ _ hroot', signerLeaf, hsalt, hsalt'] at this
    omega
  · have := congrArg List.length e
    simp [nodeInput, roundInput, nodeSeed_length _ _ hroot, nodeSeed_length _ _ hroot', signerLeaf, hsalt, hsalt'] at this
    omega
  · unfold roundInput at e
    obtain ⟨h1, -⟩ := List.append_inj e.symm (by
      simp [nodeSeed_length _ _ hroot, nodeSeed_length _ _ hroot', signerLeaf, hsalt, hsalt'])
    exact h (List.append_inj h1 (by rw [signerLeaf, signerLeaf, nodeSeed_length _ _ hroot, nodeSeed_length _ _ hroot'])).2

/-- Two signatures with the same ephemeral seed. -/
example : ∀ x ∈ signInputs .cat1Balanced (List.replicate 16 7) (List.replicate 32 1),
    x ∉ signInputs .cat1Balanced (List.replicate 16 7) (List.replicate 32 2) :=
  C72_signatures_apart _ _ _ _ rfl rfl rfl rfl (by decide)

example (salt : Bytes) : (roundInputs .cat5Balanced (List.replicate 32 7) salt).Nodup :=
  (C72_one_signature_partial (Params.all_WF _ (by decide)) _ _ rfl).1

/-! ## The index of a node is missing -/

/-- Withhold the first `W` leaves. -/
def firstLeaves (p : Params) : Vector Nat p.T := indexVector p.T fun k => decide (k < p.W)

theorem hidden_first (hp : p.WF) : hiddenOf (firstLeaves p) = fun k => decide (k < p.W) := by
  have hW := hp.W_le_T
  funext k
  unfold hiddenOf firstLeaves
  by_cases hk : k < p.T
  · rw [g_indexVector _ hk]
    by_cases h : k < p.W <;> simp [h]
  · rw [show g (indexVector p.T fun k => decide (k < p.W)) k = 0 by simp [g, hk]]
    simp; omega

/-- A node that does not lie in the leftmost quarter covers none of the first leaves. -/
theorem not_covers_first {l T W i : Nat} (hW : 4 * W ≤ 2 ^ l) (t : Nat) (h1 : 5 * 2 ^ t ≤ 4 * (i + 1)) (h2 : i + 2 ≤ 2 ^ (t + 1)) :
    ¬ Covers (2 ^ l) T (fun k => decide (k < W)) i := by
  rintro ⟨k, -, hk, e, he⟩
  have hk' := of_decide_eq_true hk
  have hl := Nat.two_pow_pos l
  have he0 := Nat.two_pow_pos e
  rw [show 2 ^ l - 1 + k + 1 = 2 ^ l + k by omega] at he
  have b1 : (i + 1) * 2 ^ e ≤ 2 ^ l + k := by rw [← he]; exact Nat.div_mul_le_self _ _
  have b2 : 2 ^ l + k < (i + 2) * 2 ^ e := by
    rw [show i + 2 = (2 ^ l + k) / 2 ^ e + 1 by omega, Nat.mul_comm]; exact Nat.lt_mul_div_succ _ he0
  have b3 := Nat.mul_le_mul_right (2 ^ e) h1
  have b4 := Nat.mul_le_mul_right (2 ^ e) h2
  rw [Nat.mul_assoc, ← Nat.pow_add, Nat.mul_assoc] at b3
  rw [← Nat.pow_add] at b4
  have b5 : 2 ^ (t + e) < 2 ^ l := by omega
  have b6 : t + e < l := (Nat.pow_lt_pow_iff_right (by decide)).mp b5
  have b7 : 2 ^ (t + 1 + e) ≤ 2 ^ l := Nat.pow_le_pow_right (by decide) (by omega)
  omega

theorem sets_first : ∀ p ∈ Params.all, 4 * p.W ≤ p.numLeaves ∧ 8 ≤ p.numLeaves ∧ withheld (firstLeaves p) = p.W := by
  intro p hp
  rw [firstLeaves, withheld_indexVector]
  revert p
  decide +kernel

/-- For every parameter set, salt and seed there is a challenge of the right weight and a list of published seeds for which
the verifier puts the seed into two different nodes and derives the same children for both: what is derived does not
depend on the node. -/
theorem C72_fails_nodes : ∀ p ∈ Params.all, ∀ (t : TreeBuf p) (salt seed : Bytes), seed.length = p.seedLen →
    ∃ (st : Vector UInt8 p.storageLen) (tree : TreeBuf p) (num : Nat),
      withheld (firstLeaves p) = p.W ∧ rebuildSeedTreeLeaves t (firstLeaves p) st salt = .ok (tree, num) ∧
      num ≤ p.maxPublishedSeeds ∧
      seg tree (2 * p.seedLen) p.seedLen = seed ∧ seg tree (4 * p.seedLen) p.seedLen = seed ∧
      seg tree (5 * p.seedLen) p.seedLen = seg tree (9 * p.seedLen) p.seedLen ∧
      seg tree (6 * p.seedLen) p.seedLen = seg tree (10 * p.seedLen) p.seedLen := by
  intro p hall t salt seed hseed
  have hp := Params.all_WF p hall
  obtain ⟨hW, h8, hw⟩ := sets_first p hall
  have hW0 := hp.W_pos
  have hWT := hp.W_le_T
  have hs0 : 0 < p.seedLen := by unfold Params.seedLen; split <;> decide
  have hind : ∀ k < p.T, g (firstLeaves p) k ≤ 1 := indexVector_le _
  have hr := exists_withheld (ind := firstLeaves p) (by omega)
  have hle := pubCount_le_worst hp (hiddenOf (firstLeaves p)) (by rw [← withheld_eq, hw])
  have hst : p.storageLen = p.maxPublishedBytes + 1 := rfl
  have hmul : pubCount p (hiddenOf (firstLeaves p)) * p.seedLen ≤ p.maxPublishedBytes := by
    rw [hp.storage_dvd]; exact Nat.mul_le_mul_right _ (hle.trans hp.storage)
  obtain ⟨⟨tree, num⟩, e, h1, h2⟩ := (rebuildSeedTreeLeaves_wp (F := False) hp t (firstLeaves p)
    (Vector.ofFn (n := p.storageLen) fun j => seed.getD (j.val % p.seedLen) 0) salt hind hr (by omega)).exists_ok
  dsimp only at h1 h2
  have hL : p.numLeaves = 2 ^ bitsToRepresent p.T := rfl
  have hn : p.numNodes = 2 * p.numLeaves - 1 := rfl
  have hL3 : 3 ≤ bitsToRepresent p.T := by
    rw [hL] at h8
    exact (Nat.pow_le_pow_iff_right (a := 2) (by decide)).mp h8
  have hpow : ∀ e ≤ bitsToRepresent p.T, (p.numLeaves - 1 + 0 + 1) / 2 ^ e = 2 ^ (bitsToRepresent p.T - e) := fun e he => by
    rw [show p.numLeaves - 1 + 0 + 1 = p.numLeaves by omega, hL, Nat.pow_div he (by decide)]
  have hc0 : Covers p.numLeaves p.T (hiddenOf (firstLeaves p)) 0 := by
    rw [hidden_first hp]
    exact ⟨0, by omega, by simp; omega, bitsToRepresent p.T, by rw [hpow _ (le_refl _)]; simp⟩
  have hc1 : Covers p.numLeaves p.T (hiddenOf (firstLeaves p)) 1 := by
    rw [hidden_first hp]
    exact ⟨0, by omega, by simp; omega, bitsToRepresent p.T - 1, by
      rw [hpow _ (by omega), show bitsToRepresent p.T - (bitsToRepresent p.T - 1) = 1 by omega]; rfl⟩
  have hnc : ∀ i t, 5 * 2 ^ t ≤ 4 * (i + 1) → i + 2 ≤ 2 ^ (t + 1) → ¬ Covers p.numLeaves p.T (hiddenOf (firstLeaves p)) i := by
    intro i t a b
    rw [hidden_first hp]
    exact not_covers_first hW t a b
  have n2 := hnc 2 1 (by decide) (by decide)
  have n4 := hnc 4 2 (by decide) (by decide)
  have n5 := hnc 5 2 (by decide) (by decide)
  have n6 := hnc 6 2 (by decide) (by decide)
  have n9 := hnc 9 3 (by decide) (by decide)
  have n10 := hnc 10 3 (by decide) (by decide)
  have p2 : Published p.numLeaves p.T (hiddenOf (firstLeaves p)) 2 := ⟨by decide, by omega, n2, hc0⟩
  have p4 : Published p.numLeaves p.T (hiddenOf (firstLeaves p)) 4 := ⟨by decide, by omega, n4, hc1⟩
  have hstored : ∀ i, Published p.numLeaves p.T (hiddenOf (firstLeaves p)) i →
      seg (Vector.ofFn (n := p.storageLen) fun j => seed.getD (j.val % p.seedLen) 0)
        (p.seedLen * rank p.numLeaves p.T (hiddenOf (firstLeaves p)) i) p.seedLen = seed := by
    intro i hi
    have hlt := rank_lt_pubCount hi
    have := Nat.mul_le_mul_right p.seedLen (show rank p.numLeaves p.T (hiddenOf (firstLeaves p)) i + 1 ≤ _ from hlt)
    rw [Nat.succ_mul, Nat.mul_comm] at this
    apply List.ext_getElem (by rw [seg_length, hseed])
    intro j hj hj'
    rw [hseed] at hj'
    rw [← List.getD_eq_getElem _ 0, ← List.getD_eq_getElem _ 0, getD_seg _ _ _ _ hj', g_ofFn _ _ (by omega),
      Nat.mul_add_mod, Nat.mod_eq_of_lt hj']
  have s2 := h2 2 (by omega) n2
  have s4 := h2 4 (by omega) n4
  have s5 := h2 5 (by omega) n5
  have s6 := h2 6 (by omega) n6
  have s9 := h2 9 (by omega) n9
  have s10 := h2 10 (by omega) n10
  rw [rebuiltSeed, if_pos p2, hstored _ p2] at s2
  rw [rebuiltSeed, if_pos p4, hstored _ p4] at s4
  rw [rebuiltSeed, if_neg (fun h => n2 h.2.2.2), if_pos (by decide), show 4 / 2 = 2 from rfl, ← h2 2 (by omega) n2, s2] at s5
  rw [rebuiltSeed, if_neg (fun h => n2 h.2.2.2), if_neg (by decide), show 5 / 2 = 2 from rfl, ← h2 2 (by omega) n2, s2] at s6
  rw [rebuiltSeed, if_neg (fun h => n4 h.2.2.2), if_pos (by decide), show 8 / 2 = 4 from rfl, ← h2 4 (by omega) n4, s4] at s9
  rw [rebuiltSeed, if_neg (fun h => n4 h.2.2.2), if_neg (by decide), show 9 / 2 = 4 from rfl, ← h2 4 (by omega) n4, s4] at s10
  refine ⟨_, tree, num, hw, e, ?_, s2, s4, ?_, ?_⟩
  · rw [h1]; exact hle.trans hp.storage
  · exact s5.trans s9.symm
  · exact s6.trans s10.symm

example (t : TreeBuf .cat1Balanced) (salt : Bytes) :=
  C72_fails_nodes _ (by decide) t salt (List.replicate 16 7) rfl

end LESS
