import Verif.Proofs.Overread
/-!
# Keys and signatures are determined by the seeds
-/
namespace LESS

open Spec

variable {p : Params}

/-- The values of a counting function that starts at 0 and grows by at most 1. -/
theorem exists_step (f : Nat → Nat) (P : Nat → Prop) [DecidablePred P] (h0 : f 0 = 0)
    (hs : ∀ i, f (i + 1) = f i + if P i then 1 else 0) (n k : Nat) (hk : k < f n) : ∃ i < n, P i ∧ f i = k := by
  induction n with
  | zero => omega
  | succ n ih =>
    have := hs n
    by_cases h : k < f n
    · obtain ⟨i, hi, h1, h2⟩ := ih h
      exact ⟨i, by omega, h1, h2⟩
    · by_cases hP : P n
      · rw [if_pos hP] at this
        exact ⟨n, by omega, hP, by omega⟩
      · rw [if_neg hP] at this; omega

theorem exists_response {v : Nat → Nat} {n k : Nat} (hk : k < weight n v) : ∃ i < n, v i ≠ 0 ∧ responsesBefore v i = k :=
  exists_step (fun i => weight i v) (fun i => v i ≠ 0) (by simp [weight]) (fun i => weight_succ i v) n k hk

theorem exists_rank {L T : Nat} {hidden : Nat → Bool} {k : Nat} (hk : k < (publishedNodes L T hidden).length) :
    ∃ i, Published L T hidden i ∧ rank L T hidden i = k := by
  obtain ⟨i, _, h1, h2⟩ := exists_step (rank L T hidden) (Published L T hidden) (by simp [rank])
    (fun i => rank_succ i) (2 * L - 1) k hk
  exact ⟨i, h1, h2⟩

/-- A response is determined by the product of the two monomial matrices and the pivots. -/
theorem action_unique {N : Matrix (Fin p.N) (Fin p.N) Fq} {piv : Fin p.K → Fin p.N}
    (hN : ∃ (π : Equiv.Perm (Fin p.N)) (c : Fin p.N → Fq), (∀ i, c i ≠ 0) ∧ ∀ i j, N i j = if π i = j then c i else 0)
    {a b : Action p} (ha : a.Valid) (hb : b.Valid)
    (h : ∀ t : Fin p.K, ∀ h : a.perm t < p.N, N ⟨a.perm t, h⟩ (piv t) = ((a.coef t : Nat) : Fq))
    (h' : ∀ t : Fin p.K, ∀ h : b.perm t < p.N, N ⟨b.perm t, h⟩ (piv t) = ((b.coef t : Nat) : Fq)) :
    ∀ t < p.K, a.perm t = b.perm t ∧ a.coef t = b.coef t := by
  obtain ⟨π, c, hc, hN⟩ := hN
  have key : ∀ {a : Action p}, a.Valid →
      (∀ t : Fin p.K, ∀ h : a.perm t < p.N, N ⟨a.perm t, h⟩ (piv t) = ((a.coef t : Nat) : Fq)) →
      ∀ t : Fin p.K, a.perm t = (π.symm (piv t)).val ∧ ((a.coef t : Nat) : Fq) = c (π.symm (piv t)) := by
    intro a ha h t
    have e := h t (ha.2.1 t t.2)
    rw [hN] at e
    have h1 := ha.1 t t.2
    have hne : ((a.coef t : Nat) : Fq) ≠ 0 := by
      intro h0
      have := zmod_val_cast h1.2
      rw [h0, ZMod.val_zero] at this
      omega
    by_cases hp : π ⟨a.perm t, ha.2.1 t t.2⟩ = piv t
    · rw [if_pos hp] at e
      have : (⟨a.perm t, ha.2.1 t t.2⟩ : Fin p.N) = π.symm (piv t) := by rw [← hp, Equiv.symm_apply_apply]
      rw [← this]
      exact ⟨rfl, e.symm⟩
    · rw [if_neg hp] at e; exact absurd e.symm hne
  intro t ht
  obtain ⟨x1, x2⟩ := key ha h ⟨t, ht⟩
  obtain ⟨y1, y2⟩ := key hb h' ⟨t, ht⟩
  dsimp only at x1 x2 y1 y2
  refine ⟨x1.trans y1.symm, ?_⟩
  have e : ((a.coef t : Nat) : Fq) = ((b.coef t : Nat) : Fq) := x2.trans y2.symm
  rw [← zmod_val_cast (ha.1 t ht).2, e, zmod_val_cast (hb.1 t ht).2]

/-- The signature is determined by the private key, the ephemeral seed, the salt and the message. -/
theorem Spec.Signed.unique (hp : p.WF) {B B' : Nat} {sk : SK p} {root m : List UInt8} {sig sig' : Sig p} {count count' : Nat}
    (h : Signed p B sk root m sig count) (h' : Signed p B' sk root m sig' count') (hsalt : sig.salt = sig'.salt) :
    sig.digest = sig'.digest ∧ count = count' ∧ (∀ j < p.W, sig.responses j = sig'.responses j) ∧
      ∀ k < count, sig.stored k = sig'.stored k := by
  obtain ⟨_, v, coms, G0, a1, a2, a3, a4, a5, a6⟩ := h
  obtain ⟨_, v', coms', G0', b1, b2, b3, b4, b5, b6⟩ := h'
  obtain rfl := a1.unique b1
  rw [← hsalt] at b3 b4 b6
  have hr : ∀ i < p.T, ∀ {M R piv M' R' piv'}, IsMonomial p B (roundStream p sig.salt (signerLeaf p root sig.salt i) i) M →
      IsMonomial p B' (roundStream p sig.salt (signerLeaf p root sig.salt i) i) M' → RowEq (G0 * M) R → RowEq (G0 * M') R' →
      IsRREF R piv → IsRREF R' piv' → M = M' ∧ R = R' ∧ piv = piv' := by
    intro i hi M R piv M' R' piv' h1 h1' h2 h2' h3 h3'
    obtain rfl := h1.unique h1'
    exact ⟨rfl, rref_unique h3 h3' (h2.symm.trans h2')⟩
  have hcoms : ∀ i < p.T, coms i = coms' i := by
    intro i hi
    obtain ⟨M, R, piv, x1, x2, x3, x4, _⟩ := a4 i hi
    obtain ⟨M', R', piv', y1, y2, y3, y4, _⟩ := b4 i hi
    obtain ⟨rfl, rfl, rfl⟩ := hr i hi x1 y1 x2 y2 x3 y3
    rw [x4, y4]
  have hdig : sig.digest = sig'.digest := by
    rw [a3, b3]; unfold transcript; rw [commits_congr hcoms]
  rw [← hdig] at b2
  obtain rfl := a2.unique b2
  have hcount : count = count' := by rw [a5, b5]
  refine ⟨hdig, hcount, ?_, ?_⟩
  · intro j hj
    obtain ⟨i, hi, hvi, hrb⟩ := exists_response (v := v) (n := p.T) (k := j) (by rw [a2.weight]; exact hj)
    obtain ⟨M, R, piv, x1, x2, x3, x4, x5⟩ := a4 i hi
    obtain ⟨M', R', piv', y1, y2, y3, y4, y5⟩ := b4 i hi
    obtain ⟨rfl, rfl, rfl⟩ := hr i hi x1 y1 x2 y2 x3 y3
    obtain ⟨S, hS, a, ha, ea, hra⟩ := x5 hvi
    obtain ⟨S', hS', b, hb, eb, hrb'⟩ := y5 hvi
    obtain rfl : S = S' := IsMonomial.unique hS hS'
    have := action_unique (exists_perm_mul hp hS x1) ha hb hra hrb'
    rw [hrb] at ea eb
    rw [ea, eb, List.map_congr_left fun t ht => (this t (by simpa using ht)).1,
      List.map_congr_left fun t ht => (this t (by simpa using ht)).2]
  · intro k hk
    obtain ⟨i, hi, hrk⟩ := exists_rank (L := p.numLeaves) (T := p.T) (hidden := hides v) (k := k) (by omega)
    rw [← hrk, a6 i hi, b6 i hi]

/-- The public key is determined by the private key. -/
theorem Spec.KeyPair.unique {B B' : Nat} {sk : SK p} {pk pk' : PK p} (hp : p.WF)
    (h : KeyPair p B sk pk) (h' : KeyPair p B' sk pk') :
    pk.seed = pk'.seed ∧ ∀ i < p.numKeypairs - 1, pk.codes i = pk'.codes i := by
  refine ⟨h.1.trans h'.1.symm, fun i hi => ?_⟩
  obtain ⟨G0, M, R, piv, a1, a2, a3, a4, a5⟩ := h.2 i hi
  obtain ⟨G0', M', R', piv', b1, b2, b3, b4, b5⟩ := h'.2 i hi
  obtain rfl := a1.unique b1
  obtain rfl : M = M' := IsMonomial.unique a2 b2
  obtain ⟨m, hm, rfl⟩ := IsMonomial.valid hp a2
  obtain ⟨r, -, hr⟩ := hm.rightInv (Nat.le_of_lt hp.N_lt)
  have hrow : RowEq R R' := by
    have := (a3.symm.trans b3).mul_right r.mat
    rwa [Matrix.mul_assoc, Matrix.mul_assoc, hr, Matrix.mul_one, Matrix.mul_one] at this
  obtain ⟨rfl, rfl⟩ := rref_unique a4 b4 hrow
  rw [a5, b5]

/-! ## Transcripts -/

theorem Spec.IsCommit.shape {k n : Nat} {A : Matrix (Fin k) (Fin n) (ZMod 127)} {c : List (List Nat)} (h : IsCommit A c) :
    c.length = n - k ∧ ∀ col ∈ c, col.length = k ∧ ∀ x ∈ col, x < 127 := by
  obtain ⟨R, piv, -, hR, rfl⟩ := h
  have hperm : (commitment R piv).Perm _ := List.mergeSort_perm _ _
  constructor
  · rw [hperm.length_eq, List.length_map]
    have h1 : ((List.finRange n).filter fun j => ∀ t, piv t ≠ j).toFinset = (Finset.univ.image piv)ᶜ := by
      ext j; simp
    have hnd : ((List.finRange n).filter fun j => ∀ t, piv t ≠ j).Nodup := (List.nodup_finRange n).filter _
    rw [← List.toFinset_card_of_nodup hnd, h1, Finset.card_compl,
      Finset.card_image_of_injective _ hR.mono.injective]
    simp
  · intro col hcol
    rw [hperm.mem_iff, List.mem_map] at hcol
    obtain ⟨j, -, rfl⟩ := hcol
    constructor
    · simp [normalise, column]
    · intro x hx
      rw [List.mem_map] at hx
      obtain ⟨y, -, rfl⟩ := hx
      exact ZMod.val_lt y

theorem commitBytes_length {k w : Nat} {c : List (List Nat)} (h : c.length = w) : (commitBytes k c).length = k * w := by
  unfold commitBytes
  rw [List.length_flatMap]
  simp [h]

/-- A commitment can be read back from its bytes. -/
theorem commitBytes_inj {k : Nat} {c c' : List (List Nat)} (hl : c.length = c'.length)
    (h : ∀ col ∈ c, col.length = k ∧ ∀ x ∈ col, x < 256) (h' : ∀ col ∈ c', col.length = k ∧ ∀ x ∈ col, x < 256)
    (e : commitBytes k c = commitBytes k c') : c = c' := by
  have key : ∀ i < k, (c.map fun c => UInt8.ofNat (c.getD i 0)) = c'.map fun c => UInt8.ofNat (c.getD i 0) := by
    have gen : ∀ n, (List.range n).flatMap (fun i => c.map fun c => UInt8.ofNat (c.getD i 0)) =
        (List.range n).flatMap (fun i => c'.map fun c => UInt8.ofNat (c.getD i 0)) →
        ∀ i < n, (c.map fun c => UInt8.ofNat (c.getD i 0)) = c'.map fun c => UInt8.ofNat (c.getD i 0) := by
      intro n
      induction n with
      | zero => intro _ i hi; omega
      | succ n ih =>
        intro e i hi
        rw [List.range_succ, List.flatMap_append, List.flatMap_append] at e
        obtain ⟨e1, e2⟩ := List.append_inj' e (by simp [hl])
        rcases Nat.lt_succ_iff_lt_or_eq.1 hi with h | rfl
        · exact ih e1 i h
        · simpa using e2
    exact gen k e
  apply List.ext_getElem hl
  intro n h1 h2
  obtain ⟨l1, b1⟩ := h c[n] (List.getElem_mem h1)
  obtain ⟨l2, b2⟩ := h' c'[n] (List.getElem_mem h2)
  apply List.ext_getElem (l1.trans l2.symm)
  intro i hi hi'
  have := List.getElem_of_eq (key i (by omega)) (i := n) (by simpa using h1)
  rw [List.getElem_map, List.getElem_map] at this
  have e3 := congrArg UInt8.toNat this
  have x1 : (c[n]).getD i 0 = c[n][i] := by simp [List.getD, hi]
  have x2 : (c'[n]).getD i 0 = c'[n][i] := by simp [List.getD, hi']
  rw [x1, x2, UInt8.toNat_ofNat', UInt8.toNat_ofNat'] at e3
  have y1 := b1 _ (List.getElem_mem hi)
  have y2 := b2 _ (List.getElem_mem hi')
  omega

/-- The hashed string determines the commitments, the message and the salt. -/
theorem transcript_inj {coms coms' : Nat → List (List Nat)} {m m' salt salt' : Bytes}
    (h : ∀ i < p.T, ∃ A : Matrix (Fin p.K) (Fin p.N) (ZMod 127), IsCommit A (coms i))
    (h' : ∀ i < p.T, ∃ A : Matrix (Fin p.K) (Fin p.N) (ZMod 127), IsCommit A (coms' i))
    (hs : salt.length = salt'.length) (e : transcript p coms m salt = transcript p coms' m' salt') :
    (∀ i < p.T, coms i = coms' i) ∧ m = m' ∧ salt = salt' := by
  unfold transcript at e
  obtain ⟨e1, e2⟩ := List.append_inj' e hs
  have hlen : ∀ i < p.T, (commitBytes p.K (coms i)).length = (commitBytes p.K (coms' i)).length := by
    intro i hi
    obtain ⟨A, hA⟩ := h i hi
    obtain ⟨A', hA'⟩ := h' i hi
    rw [commitBytes_length hA.shape.1, commitBytes_length hA'.shape.1]
  have gen : ∀ n ≤ p.T, ∀ x y, (List.range n).flatMap (fun i => commitBytes p.K (coms i)) ++ x =
      (List.range n).flatMap (fun i => commitBytes p.K (coms' i)) ++ y →
      (∀ i < n, commitBytes p.K (coms i) = commitBytes p.K (coms' i)) ∧ x = y := by
    intro n
    induction n with
    | zero => intro _ x y e; exact ⟨fun i hi => by omega, by simpa using e⟩
    | succ n ih =>
      intro hn x y e
      rw [List.range_succ, List.flatMap_append, List.flatMap_append, List.append_assoc, List.append_assoc] at e
      obtain ⟨i1, i2⟩ := ih (by omega) _ _ e
      simp only [List.flatMap_cons, List.flatMap_nil, List.append_nil] at i2
      obtain ⟨j1, j2⟩ := List.append_inj i2 (hlen n (by omega))
      refine ⟨fun i hi => ?_, j2⟩
      rcases Nat.lt_succ_iff_lt_or_eq.1 hi with h | rfl
      · exact i1 i h
      · exact j1
  obtain ⟨c1, c2⟩ := gen p.T (Nat.le_refl _) _ _ e1
  refine ⟨fun i hi => ?_, c2, e2⟩
  obtain ⟨A, hA⟩ := h i hi
  obtain ⟨A', hA'⟩ := h' i hi
  exact commitBytes_inj (hA.shape.1.trans hA'.shape.1.symm)
    (fun col hc => ⟨(hA.shape.2 col hc).1, fun x hx => ((hA.shape.2 col hc).2 x hx).trans (by decide)⟩)
    (fun col hc => ⟨(hA'.shape.2 col hc).1, fun x hx => ((hA'.shape.2 col hc).2 x hx).trans (by decide)⟩) (c1 i hi)

/-- What key generation finished can be finished again. -/
theorem Spec.KeyPair.fits (hp : p.WF) {B : Nat} {sk : SK p} {pk : PK p} (h : KeyPair p B sk pk) : KeyFits p B sk := by
  have hn := hp.numKeypairs_ge
  refine ⟨?_, fun i hi => ?_⟩
  · obtain ⟨G0, M, R, piv, h1, -⟩ := h.2 0 (by omega)
    exact ⟨G0, h1⟩
  · obtain ⟨G0, M, R, piv, -, h2, -⟩ := h.2 i hi
    exact ⟨M, h2⟩

/-- What a signer with a usable private key finished can be finished again. -/
theorem Spec.Signed.fits {B : Nat} {sk : SK p} {root m : List UInt8} {sig : Sig p} {count : Nat} (hk : KeyFits p B sk)
    (h : Signed p B sk root m sig count) : SignerFits p B sk root m sig.salt := by
  obtain ⟨_, v, coms, G0, a1, a2, a3, a4, a5, a6⟩ := h
  refine ⟨hk, fun i hi => ?_, ?_⟩
  · obtain ⟨M, _, _, h1, _⟩ := a4 i hi
    exact ⟨M, h1⟩
  · rintro digest ⟨coms', G0', b1, b2, b3⟩
    obtain rfl := a1.unique b1
    have hc : ∀ i < p.T, coms' i = coms i := by
      intro i hi
      obtain ⟨M, R, piv, x1, x2, x3, x4, _⟩ := a4 i hi
      obtain ⟨M', y1, y2⟩ := b3 i hi
      obtain rfl := x1.unique y1
      exact y2.unique ⟨R, piv, x2, x3, x4⟩
    refine ⟨v, ?_⟩
    rw [b2, show transcript p coms' m sig.salt = transcript p coms m sig.salt by unfold transcript; rw [commits_congr hc], ← a3]
    exact a2

theorem Spec.KeyFits.mono {B B' : Nat} {sk : SK p} (h : KeyFits p B sk) (hB : B ≤ B') : KeyFits p B' sk := by
  obtain ⟨⟨G0, h1⟩, h2⟩ := h
  refine ⟨⟨G0, h1.mono hB⟩, fun i hi => ?_⟩
  obtain ⟨M, hM⟩ := h2 i hi
  exact ⟨M, IsMonomial.mono hM hB⟩

theorem Spec.Signed.mono {B B' : Nat} {sk : SK p} {root m : List UInt8} {sig : Sig p} {count : Nat}
    (h : Signed p B sk root m sig count) (hB : B ≤ B') : Signed p B' sk root m sig count := by
  obtain ⟨hr, v, coms, G0, a1, a2, a3, a4, a5, a6⟩ := h
  refine ⟨hr, v, coms, G0, a1.mono hB, a2.mono hB, a3, fun i hi => ?_, a5, a6⟩
  obtain ⟨M, R, piv, x1, x2, x3, x4, x5⟩ := a4 i hi
  refine ⟨M, R, piv, x1.mono hB, x2, x3, x4, fun hv => ?_⟩
  obtain ⟨S, hS, y⟩ := x5 hv
  exact ⟨S, IsMonomial.mono hS hB, y⟩

end LESS
