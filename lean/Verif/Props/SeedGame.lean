import Verif.Spec.SeedGame
import Verif.Proofs.SeedGame
import Verif.Props.Domain
/-!
# What published seeds say about the rounds kept secret (C83)

The two uses of SHAKE in the tree of seeds, from a node to its children (seedtree.c:36-50) and from a leaf to the stream of a round
(monomial.c:67-86), are replaced by tables, one of each for every salt.  `C83_signature` says where the code asks them.
-/
namespace LESS
open Spec Spec.Asks

variable {p : Params}

/-! ## Seeds of bytes -/

def bytesEquiv (k : Nat) : Vector UInt8 k ≃ (Fin k → Fin (2 ^ 8)) where
  toFun d i := ⟨(d[i.val]).toNat, (d[i.val]).toNat_lt⟩
  invFun f := Vector.ofFn fun i => UInt8.ofNat (f i).val
  left_inv d := by
    apply Vector.ext
    intro i hi
    simp
  right_inv f := by
    funext i
    apply Fin.ext
    have := (f i).2
    simp only [Vector.getElem_ofFn]
    exact UInt8.toNat_ofNat_of_lt' this

instance finite_bytes (k : Nat) : Finite (Vector UInt8 k) := Finite.of_equiv _ (bytesEquiv k).symm

theorem natCard_bytes (k : Nat) : Nat.card (Vector UInt8 k) = 2 ^ (8 * k) := by
  rw [Nat.card_congr (bytesEquiv k), Nat.card_eq_fintype_card, Fintype.card_fun, Fintype.card_fin, Fintype.card_fin, ← Nat.pow_mul]

/-! ## The claim -/

/-- Seeing the published seeds of `n` signatures, for rounds chosen after all streams are seen, is as good as seeing seeds and streams
drawn independently of each other, where the seeds of hidden rounds are never used: with `q` questions no outcome gets more
or less likely by more than `(L - 1) (q + n (L - 1)) / 2^(8 seedLen)`, where `L` is the number of leaves. -/
theorem C83_hidden_rounds (hp : p.WF) {n k q : Nat} {α : Type}
    (c : Asks (SeedQuestion n p.T (Vector UInt8 p.seedLen)) (SeedAnswer n p.T (Vector UInt8 p.seedLen) (Vector UInt8 k)) α) (hc : c.AtMost q)
    (win : α → Prop) :
    |(Nat.card {x : Expansions n p.T (Vector UInt8 p.seedLen) (Vector UInt8 k) × (Fin n → Vector UInt8 p.seedLen) //
          win (treePlay p.numLeaves x.1 x.2 (fun _ => none) c)} : ℚ) /
        Nat.card (Expansions n p.T (Vector UInt8 p.seedLen) (Vector UInt8 k) × (Fin n → Vector UInt8 p.seedLen)) -
      Nat.card {x : Expansions n p.T (Vector UInt8 p.seedLen) (Vector UInt8 k) × SeedDraw n p.T p.numLeaves (Vector UInt8 p.seedLen) (Vector UInt8 k) //
          win (drawnPlay p.numLeaves x.1 x.2 (fun _ => none) c)} /
        Nat.card (Expansions n p.T (Vector UInt8 p.seedLen) (Vector UInt8 k) × SeedDraw n p.T p.numLeaves (Vector UInt8 p.seedLen) (Vector UInt8 k))| ≤
      (p.numLeaves - 1 : Nat) * (q + n * (p.numLeaves - 1 : Nat)) / 2 ^ (8 * p.seedLen) := by
  have hT := hp.T_lt_leaves
  have hT0 := hp.T_pos
  have h := tree_vs_drawn (show 2 ≤ p.numLeaves by omega) hT.le c hc win
  rw [natCard_bytes] at h
  exact_mod_cast h

/-- Nobody finds the seed of a round that is not shown, except with chance `(L - 1) (q + 1 + n (L - 1)) / 2^(8 seedLen)`. -/
theorem C83_seed_not_found (hp : p.WF) {n k q : Nat}
    (c : Asks (SeedQuestion n p.T (Vector UInt8 p.seedLen)) (SeedAnswer n p.T (Vector UInt8 p.seedLen) (Vector UInt8 k))
      (Fin n × Fin p.T × Vector UInt8 p.seedLen)) (hc : c.AtMost q) :
    (Nat.card {x : Expansions n p.T (Vector UInt8 p.seedLen) (Vector UInt8 k) × (Fin n → Vector UInt8 p.seedLen) //
          FindsSeed p.numLeaves x.1 x.2 c} : ℚ) /
        Nat.card (Expansions n p.T (Vector UInt8 p.seedLen) (Vector UInt8 k) × (Fin n → Vector UInt8 p.seedLen)) ≤
      (p.numLeaves - 1 : Nat) * (q + 1 + n * (p.numLeaves - 1 : Nat)) / 2 ^ (8 * p.seedLen) := by
  have hT := hp.T_lt_leaves
  have hT0 := hp.T_pos
  have h := card_finds_le (show 2 ≤ p.numLeaves by omega) hT.le c hc
  rw [natCard_bytes] at h
  exact_mod_cast h

/-! ## The tables of the code -/

/-- The tables that SHAKE makes: for each salt the children of a node and the first `k` bytes of the stream of a round. -/
def codeExpansions (p : Params) (k : Nat) {n : Nat} (salts : Fin n → Bytes) : Expansions n p.T (Vector UInt8 p.seedLen) (Vector UInt8 k) where
  node j s := (toVec _ (children p (salts j) s.toList).1, toVec _ (children p (salts j) s.toList).2)
  round j i s := toVec _ ((roundStream p (salts j) s.toList i).take k)

theorem seedAt_code (k : Nat) {n : Nat} (salts : Fin n → Bytes) (j : Fin n) (root : Vector UInt8 p.seedLen) (v : Nat) :
    (seedAt ((codeExpansions p k salts).node j) root v).toList = nodeSeed (children p (salts j)) root.toList v := by
  induction v using Nat.strong_induction_on with
  | _ v ih =>
    cases v with
    | zero => rw [seedAt, nodeSeed]
    | succ v =>
      rw [seedAt, nodeSeed]
      have hD : ∀ s : Vector UInt8 p.seedLen, (codeExpansions p k salts).node j s =
        (toVec _ (children p (salts j) s.toList).1, toVec _ (children p (salts j) s.toList).2) := fun _ => rfl
      split
      · rw [hD, ← ih _ (by omega)]
        exact toVec_toList (take_length _ _)
      · rw [hD, ← ih _ (by omega)]
        exact toVec_toList (take_length _ _)

theorem published_rank (L T : Nat) (hidden : Nat → Bool) (m : Nat) :
    ((List.range m).filter fun i => decide (Published L T hidden i)).map (rank L T hidden) = List.range (rank L T hidden m) := by
  induction m with
  | zero => rfl
  | succ m ih =>
    rw [rank_succ, List.range_succ, List.filter_append, List.map_append, ih]
    by_cases h : Published L T hidden m
    · simp [h, List.range_succ]
    · simp [h]

/-- A run of `LESS_sign`: the seeds in the signature are the answer to the question for the published seeds, the rounds hidden being
those with a response; the monomials of the rounds are expanded from the streams whose first bytes are the answer to the question for the
streams; and the root is drawn from the random number generator. -/
theorem C83_signature (hp : p.WF) {l : Nat} {fuel : Nat} {sl : Nat → Stale p} {rng rng' : Inc} {sk : PriKey p} {m : Bytes}
    {sig sig' : SignT p l} {num : Nat} {s : Stream} (hs : StreamAt p rng s) (hn : p.storageLen ≤ l)
    (h : lessSign fuel sl rng sk m sig = .ok (sig', num, rng')) {n k : Nat} (salts : Fin n → Bytes) (roots : Fin n → Vector UInt8 p.seedLen)
    (ch : Hidings n) (j : Fin n) (hj : salts j = sig'.treeSalt.toList) (hroot : roots j = toVec _ (rootOf p s)) (hch : ch j = none) :
    ∃ (v : Nat → Nat) (coms : Nat → List (List Nat)) (G0 : Matrix (Fin p.K) (Fin p.N) (ZMod 127)) (seeds : List (Vector UInt8 p.seedLen))
      (streams : Fin p.T → Vector UInt8 k) (full : Nat → Stream),
      IsChallenge p fuel (xof p sig'.digest.toList) v ∧ IsG0 p fuel (xof p sk.G0seed.toList) G0 ∧
      sig'.digest.toList = hash p (transcript p coms m sig'.treeSalt.toList) ∧
      treeAnswer p.numLeaves (codeExpansions p k salts) roots ch (.reveal j (hides v)) = seeds ∧
      seeds.map Vector.toList = (List.range num).map (fun i => seg sig'.seedStorage (p.seedLen * i) p.seedLen) ∧
      treeAnswer p.numLeaves (codeExpansions p k salts) roots ch (.streams j) = streams ∧
      ∀ i : Fin p.T, (streams i).toList = (full i).take k ∧ ∃ M, IsMonomial p fuel (full i) M ∧ IsCommit (G0 * M) (coms i) := by
  obtain ⟨-, ⟨-, v, coms, G0, a1, a2, a3, a4, a5, a6⟩, -⟩ := (lessSign_wp hp fuel sl rng sk m sig s hs hn).of_ok h
  have hr : (roots j).toList = rootOf p s := by rw [hroot]; exact toVec_toList (take_length _ _)
  refine ⟨v, coms, G0, _, _, fun i => roundStream p sig'.treeSalt.toList (signerLeaf p (rootOf p s) sig'.treeSalt.toList i) i, a2, a1, a3, rfl, ?_,
    rfl, fun i => ⟨?_, ?_⟩⟩
  · show (if (ch j).isNone then (publishedNodes p.numLeaves p.T (hides v)).map (seedAt ((codeExpansions p k salts).node j) (roots j)) else []).map _ = _
    rw [if_pos (by rw [hch]; rfl), List.map_map]
    have e : List.range num = (publishedNodes p.numLeaves p.T (hides v)).map (rank p.numLeaves p.T (hides v)) := by
      have a5 : num = (publishedNodes p.numLeaves p.T (hides v)).length := a5
      rw [a5]
      exact (published_rank _ _ _ _).symm
    rw [e, List.map_map]
    refine List.map_congr_left fun i hi => ?_
    have hpub : Published p.numLeaves p.T (hides v) i := of_decide_eq_true (List.mem_filter.1 hi).2
    show (seedAt _ (roots j) i).toList = _
    rw [seedAt_code, hr, hj]
    exact (a6 i hpub).symm
  · show (toVec k ((roundStream p (salts j) (seedAt ((codeExpansions p k salts).node j) (roots j) (p.numLeaves - 1 + i)).toList i).take k)).toList = _
    rw [toVec_toList (take_length _ _), seedAt_code, hr, hj]
    rfl
  · obtain ⟨M, R, piv, b1, b2, b3, b4, -⟩ := a4 i i.2
    exact ⟨M, b1, R, piv, b2, b3, b4⟩

/-! ## Cases -/

/-- Somebody who sees the streams of the only signature, has round 0 hidden, and tries the first published seed as that of round 0. -/
def tryFirst : Asks (SeedQuestion 1 2 Bool) (SeedAnswer 1 2 Bool Bool) (Fin 1 × Fin 2 × Bool) :=
  .ask (.streams 0) fun _ => .ask (.reveal 0 fun i => decide (i = 0)) fun (l : List Bool) => .done (0, 0, l.getD 0 false)

example : tryFirst.AtMost 2 := fun _ _ => trivial

/-- With these tables they succeed, as both children of the root have the same seed … -/
example : FindsSeed 2 ⟨fun _ _ => (true, true), fun _ _ s => s⟩ (fun _ => true) tryFirst := by
  refine ⟨fun hidden h => ?_, by decide +kernel⟩
  have : (fun i : Nat => decide (i = 0)) = hidden := by
    have h : some (fun i : Nat => decide (i = 0)) = some hidden := h
    exact Option.some.inj h
  subst this
  rfl

/-- … and with these they do not. -/
example : ¬ FindsSeed 2 ⟨fun _ _ => (false, true), fun _ _ s => s⟩ (fun _ => true) tryFirst := by
  rintro ⟨-, h⟩
  revert h
  decide +kernel

/-- With `LESS-1b`, a million signatures and `2^64` questions, a hidden seed is found with a chance below `2^-55`. -/
example : ((Params.cat1Balanced.numLeaves - 1 : Nat) * ((2 ^ 64 : ℚ) + 1 + 2 ^ 20 * (Params.cat1Balanced.numLeaves - 1 : Nat)) / 2 ^ (8 * Params.cat1Balanced.seedLen)) <
    1 / 2 ^ 55 := by
  have h1 : Params.cat1Balanced.numLeaves = 256 := by decide
  have h2 : Params.cat1Balanced.seedLen = 16 := by decide
  rw [h1, h2]
  norm_num

end LESS
