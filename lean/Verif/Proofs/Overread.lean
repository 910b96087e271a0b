import Verif.Proofs.Api
/-!
# Executions that do access memory out of bounds

`Wq F O x P`: like `Wp F x P`, but an out-of-bounds access is acceptable if `O`.  With `F := False`, `O := True`
and an unsatisfiable `P` it says that `x` ends in an out-of-bounds access.
-/
namespace LESS

/-- Weakest precondition with both abnormal outcomes conditional. -/
def Wq {α : Type} (F O : Prop) (x : C α) (P : α → Prop) : Prop :=
  match x with
  | .ok a => P a
  | .error .fuel => F
  | .error .oob => O

namespace Wq

variable {α β σ ρ : Type} {F O : Prop}

theorem of_wp {x : C α} {P : α → Prop} (h : Wp F x P) : Wq F O x P := by
  cases x with
  | ok a => exact h
  | error e => cases e with
    | oob => exact h.elim
    | fuel => exact h

theorem bind_iff {x : C α} {f : α → C β} {P : β → Prop} :
    Wq F O (x >>= f) P ↔ Wq F O x (fun a => Wq F O (f a) P) := by
  cases x with
  | ok a => rfl
  | error e => cases e <;> rfl

theorem pure_iff {a : α} {P : α → Prop} : Wq F O (pure a) P ↔ P a := Iff.rfl

theorem mono {x : C α} {P P' : α → Prop} (h : Wq F O x P) (hP : ∀ a, P a → P' a) : Wq F O x P' := by
  cases x with
  | ok a => exact hP a h
  | error e => cases e <;> exact h

theorem monoF {F' : Prop} {x : C α} {P : α → Prop} (h : Wq F O x P) (hF : F → F') : Wq F' O x P := by
  cases x with
  | ok a => exact h
  | error e => cases e with
    | oob => exact h
    | fuel => exact hF h

theorem eq_oob {x : C α} (h : Wq False O x (fun _ => False)) : x = .error .oob := by
  cases x with
  | ok a => exact h.elim
  | error e => cases e with
    | oob => rfl
    | fuel => exact h.elim

theorem of_oob {x : C α} {P : α → Prop} (hO : O) (h : x = .error .oob) : Wq F O x P := by subst h; exact hO

theorem of_ok {x : C α} {a : α} {P : α → Prop} (h : Wq F O x P) (hx : x = .ok a) : P a := by subst hx; exact h

/-- A read outside is an out-of-bounds access; a read inside has a value. -/
theorem rd [Inhabited α] {n : Nat} {v : Vector α n} {i : Nat} {P : α → Prop} (hO : O) (h : i < n → P (g v i)) :
    Wq F O (LESS.rd v i) P := by
  unfold LESS.rd
  by_cases hi : i < n
  · rw [dif_pos hi]
    have := h hi
    rw [g_eq_getElem _ _ hi] at this
    exact this
  · rw [dif_neg hi]; exact hO

theorem rdB {n : Nat} {v : Vector UInt8 n} {i : Nat} {P : Nat → Prop} (hO : O) (h : i < n → P (g v i).toNat) :
    Wq F O (LESS.rdB v i) P := by
  unfold LESS.rdB
  rw [bind_iff]
  exact rd hO h

theorem slice {n : Nat} {v : Vector UInt8 n} {off len : Nat} {P : Bytes → Prop} (hO : O)
    (h : off + len ≤ n → P (seg v off len)) : Wq F O (LESS.slice v off len) P := by
  unfold LESS.slice
  by_cases hi : off + len ≤ n
  · rw [if_pos hi]; exact h hi
  · rw [if_neg hi]; exact hO

theorem forUp {n : Nat} {body : Nat → σ → C σ} {s : σ} {P : σ → Prop} (I : Nat → σ → Prop)
    (h0 : I 0 s) (hstep : ∀ i s, i < n → I i s → Wq F O (body i s) (I (i + 1)))
    (hpost : ∀ s, I n s → P s) : Wq F O (LESS.forUp n body s) P := by
  suffices h : ∀ m, m ≤ n → Wq F O (LESS.forUp m body s) (I m) from (h n (Nat.le_refl n)).mono hpost
  intro m
  induction m with
  | zero => intro _; exact h0
  | succ m ih =>
    intro hm
    show Wq F O (LESS.forUp m body s >>= body m) _
    rw [bind_iff]
    exact (ih (by omega)).mono (fun s hs => hstep m s (by omega) hs)

theorem forRet {n : Nat} {body : Nat → σ → C (ρ ⊕ σ)} {s : σ} {P : ρ ⊕ σ → Prop}
    (I : Nat → σ → Prop) (R : ρ → Prop) (h0 : I 0 s)
    (hstep : ∀ i s, i < n → I i s → Wq F O (body i s) (fun o => match o with
      | .inl r => R r | .inr s => I (i + 1) s))
    (hret : ∀ r, R r → P (.inl r)) (hpost : ∀ s, I n s → P (.inr s)) : Wq F O (LESS.forRet n body s) P := by
  suffices h : ∀ m, m ≤ n → Wq F O (LESS.forRet m body s) (fun o => match o with
      | .inl r => R r | .inr s => I m s) by
    refine (h n (Nat.le_refl n)).mono ?_
    intro o ho
    cases o with
    | inl r => exact hret r ho
    | inr s => exact hpost s ho
  intro m
  induction m with
  | zero => intro _; exact h0
  | succ m ih =>
    intro hm
    unfold LESS.forRet
    rw [bind_iff]
    refine (ih (by omega)).mono ?_
    intro o ho
    cases o with
    | inl r => exact ho
    | inr s => exact hstep m s (by omega) ho

end Wq

variable {p : Params} {F O : Prop}

/-- `rebuild_seed_tree_leaves` needs as many stored seeds as were to be published. -/
theorem rebuildSeedTreeLeaves_wq (hO : O) (hp : p.WF) {n : Nat} (t : TreeBuf p) (ind : Vector Nat p.T) (st : Vector UInt8 n)
    (salt : Bytes) (hi : ∀ k, k < p.T → g ind k ≤ 1) (hr : ∃ k < p.T, hiddenOf ind k = true) :
    Wq F O (rebuildSeedTreeLeaves t ind st salt) fun _ => pubCount p (hiddenOf ind) * p.seedLen ≤ n := by
  unfold rebuildSeedTreeLeaves
  rw [Wq.bind_iff]
  refine (Wq.of_wp (computeSeedsToPublish_wp hp ind hi)).mono ?_
  intro f hf
  have hL := hp.leaves_le
  refine Wq.forUp (fun i (s : TreeBuf p × Nat) => s.2 = Spec.rank p.numLeaves p.T (hiddenOf ind) i ∧ s.2 * p.seedLen ≤ n) ?_ ?_ ?_
  · exact ⟨rfl, by simp⟩
  · rintro i ⟨t, used⟩ hil ⟨h1, h2⟩
    dsimp only at h1 h2 ⊢
    have hil2 := hil
    unfold Params.numNodes at hil2
    have hrs := Spec.rank_succ (L := p.numLeaves) (T := p.T) (hidden := hiddenOf ind) i
    rw [Wq.bind_iff]
    refine Wq.of_wp (Wp.rd_iff.2 ⟨hil, ?_⟩)
    by_cases hc : Spec.Covers p.numLeaves p.T (hiddenOf ind) i
    · rw [hf i hil, if_pos hc, if_neg (by decide), Wq.pure_iff]
      rw [if_neg (fun h : Spec.Published _ _ _ _ => h.2.2.1 hc)] at hrs
      exact ⟨by dsimp only; omega, h2⟩
    · rw [hf i hil, if_neg hc, if_pos rfl]
      have hpos : 0 < i := by
        rcases Nat.eq_zero_or_pos i with h | h
        · subst h; exact absurd (Spec.covers_root hr) hc
        · exact h
      have hpar : (i - 1) / 2 < p.numNodes := by omega
      rw [Wq.bind_iff, parent_eq hpos (by omega)]
      refine Wq.of_wp (Wp.rd_iff.2 ⟨hpar, ?_⟩)
      suffices hmid : ∀ t' : TreeBuf p, ∀ used', used' = Spec.rank p.numLeaves p.T (hiddenOf ind) (i + 1) →
          used' * p.seedLen ≤ n →
          Wq F O (if i < p.numLeaves - 1 then do
              let tree ← expandChildren salt i t'
              pure (tree, used')
            else pure (t', used')) (fun s => s.2 = Spec.rank p.numLeaves p.T (hiddenOf ind) (i + 1) ∧ s.2 * p.seedLen ≤ n) by
        rw [hf _ hpar]
        by_cases hcp : Spec.Covers p.numLeaves p.T (hiddenOf ind) ((i - 1) / 2)
        · have hP : Spec.Published p.numLeaves p.T (hiddenOf ind) i := ⟨hpos, hil2, hc, hcp⟩
          rw [if_pos hP] at hrs
          rw [if_pos hcp]
          simp only [if_true, pure_bind]
          rw [Wq.bind_iff]
          refine Wq.slice hO (fun hle => ?_)
          rw [Wq.bind_iff]
          have hb3 := mul_bound (c := p.seedLen) hil
          refine Wq.of_wp (Wp.blit_iff.2 ⟨by rw [seg_length, Nat.mul_comm p.seedLen i]; exact hb3, ?_⟩)
          refine hmid _ _ (by omega) ?_
          rw [Nat.succ_mul, Nat.mul_comm]
          exact hle
        · have hnP : ¬ Spec.Published p.numLeaves p.T (hiddenOf ind) i := fun h => hcp h.2.2.2
          rw [if_neg hnP] at hrs
          rw [if_neg hcp]
          simp only [show ((0 : Nat) = 1) = False by simp, if_false, pure_bind]
          exact hmid _ _ (by omega) h2
      intro t' used' h3 h4
      by_cases hin : i < p.numLeaves - 1
      · rw [if_pos hin, Wq.bind_iff]
        refine (Wq.of_wp (expandChildren_wp hp salt i t' hin)).mono ?_
        intro t'' _
        exact ⟨h3, h4⟩
      · rw [if_neg hin]
        exact ⟨h3, h4⟩
  · rintro ⟨t, used⟩ ⟨h1, h2⟩
    dsimp only at h1 h2
    rw [h1] at h2
    exact h2

/-- If the signature holds fewer seeds than its challenge requires, verification reads past its end. -/
theorem lessVerify_overread (hp : p.WF) {n : Nat} (fuel : Nat) (sl : Nat → Stale p) (pk : PubKey p) (m : Bytes) (sig : SignT p n)
    {v : Nat → Nat} (hv : Spec.IsChallenge p fuel (Spec.xof p sig.spec.digest) v) (hn : n < pubCount p (Spec.hides v) * p.seedLen) :
    lessVerify fuel sl pk m sig = .error .oob := by
  apply Wq.eq_oob (O := True)
  unfold lessVerify
  rw [Wq.bind_iff]
  refine (Wq.of_wp ((expandDigest_spec hp fuel sig.digest.toList).monoF fun hno => hno ⟨v, hv⟩)).mono ?_
  intro fws hch
  obtain rfl : v = g fws := hv.unique hch
  rw [Wq.bind_iff]
  refine (Wq.of_wp (indicesToPublish_hides fws)).mono ?_
  rintro ind ⟨hind1, hind2⟩
  rw [Wq.bind_iff]
  refine (rebuildSeedTreeLeaves_wq trivial hp _ ind sig.seedStorage sig.treeSalt.toList hind1
    (by rw [hind2]; exact hidden_exists hp hch.weight)).mono ?_
  intro r h
  rw [hind2] at h
  omega

/-- The challenge of a verification that returns. -/
theorem lessVerify_challenge (hp : p.WF) {n fuel : Nat} {sl : Nat → Stale p} {pk : PubKey p} {m : Bytes} {sig : SignT p n} {r : Nat}
    (h : lessVerify fuel sl pk m sig = .ok r) : ∃ v, Spec.IsChallenge p fuel (Spec.xof p sig.spec.digest) v := by
  have : Wq True True (lessVerify fuel sl pk m sig) (fun _ => ∃ v, Spec.IsChallenge p fuel (Spec.xof p sig.spec.digest) v) := by
    unfold lessVerify
    rw [Wq.bind_iff]
    refine ((Wq.of_wp (expandDigest_spec hp fuel sig.digest.toList)).monoF (fun _ => trivial)).mono ?_
    intro fws hch
    have hall : ∀ x : C Nat, Wq True True x (fun _ => ∃ v, Spec.IsChallenge p fuel (Spec.xof p sig.spec.digest) v) := by
      intro x
      cases x with
      | ok a => exact ⟨_, hch⟩
      | error e => cases e <;> trivial
    exact hall _
  exact this.of_ok h

/-- Verification returns only if the signature holds all the seeds that the challenge requires. -/
theorem lessVerify_needs (hp : p.WF) {n fuel : Nat} {sl : Nat → Stale p} {pk : PubKey p} {m : Bytes} {sig : SignT p n} {r : Nat}
    (h : lessVerify fuel sl pk m sig = .ok r) {fuel' : Nat} {v} (hv : Spec.IsChallenge p fuel' (Spec.xof p sig.spec.digest) v) :
    pubCount p (Spec.hides v) * p.seedLen ≤ n := by
  obtain ⟨v', hv'⟩ := lessVerify_challenge hp h
  obtain rfl := hv.unique hv'
  by_contra hlt
  rw [lessVerify_overread hp fuel sl pk m sig hv' (by omega)] at h
  cases h

/-! ## Public codes with too many dense columns -/

theorem dec7_oob {n : Nat} (buf : Vector UInt8 n) (pos : Nat) (hn : 8 * n < pos + 7) :
    dec7 buf (pos / 8) (st7 (pos % 8)) = .error .oob := by
  have hrd : ∀ i, ¬ i < n → rdB buf i = .error .oob := by
    intro i hi
    unfold rdB rd
    rw [dif_neg hi]; rfl
  by_cases hi : pos / 8 < n
  · rcases mod8_cases pos with h|h|h|h|h|h|h|h <;> unfold dec7 st7 <;> rw [h]
    · omega
    · omega
    all_goals
      have h2 := hrd (pos / 8 + 1) (by omega)
      simp only [rdB_ok _ _ hi, bind_ok, h2]
      rfl
  · have h2 := hrd _ hi
    rcases mod8_cases pos with h|h|h|h|h|h|h|h <;> unfold dec7 st7 <;> rw [h] <;> simp only [h2] <;> rfl

/-- `expand_to_rref` returns only if all the dense columns announced by the flags lie inside the buffer. -/
theorem expandToRref_wq (hO : O) (hp : p.WF) (full : GenMat p) (buf : Vector UInt8 p.rrefBytes) :
    Wq F O (expandToRref full buf) (fun _ =>
      8 * ((p.N + 7) / 8) + 7 * (p.K * (nonPiv (decFlags buf) p.N).length) ≤ 8 * p.rrefBytes) := by
  have hrb := rrefBytes_eq (p := p)
  have main : ∀ r : Vector Nat p.N × Nat, r.1 = decFlags buf → r.2 = (p.N + 7) / 8 →
      Wq F O (forUp p.K (fun row (s : GenMat p × Nat × Nat) => do
        let (full, idx, state) := s
        let (full, idx, state, _) ← forUp p.N (fun col (s : GenMat p × Nat × Nat × Nat) => do
          let (full, idx, state, pivotIdx) := s
          let f ← rd r.1 col
          if f = 0 then do
            let (v, idx, state) ← dec7 buf idx state
            let full ← wr2 full row col v
            pure (full, idx, state, pivotIdx)
          else do
            let full ← wr2 full row col (b2n (row = pivotIdx))
            pure (full, idx, state, pivotIdx + 1)) (full, idx, state, 0)
        pure (full, idx, state)) (full, r.2, 0) >>= fun s => pure s.1)
        (fun _ => 8 * ((p.N + 7) / 8) + 7 * (p.K * (nonPiv (decFlags buf) p.N).length) ≤ 8 * p.rrefBytes) := by
    rintro ⟨f, idx⟩ h1 h2
    simp only at h1 h2
    rw [h1, h2, Wq.bind_iff]
    generalize decFlags buf = fl
    let P0 := 8 * ((p.N + 7) / 8)
    have hP0 : P0 = 8 * ((p.N + 7) / 8) := rfl
    let z := (nonPiv fl p.N).length
    refine Wq.forUp (fun row (s : GenMat p × Nat × Nat) => s.2.1 = (P0 + 7 * (row * z)) / 8 ∧
        s.2.2 = st7 ((P0 + 7 * (row * z)) % 8) ∧ P0 + 7 * (row * z) ≤ 8 * p.rrefBytes) ?_ ?_ ?_
    · refine ⟨?_, ?_, ?_⟩
      · simp [hP0]
      · simp [hP0, st7]
      · simp only [Nat.zero_mul, Nat.mul_zero]; omega
    · rintro row ⟨fu, ix, st⟩ hrow ⟨a2, a3, a4⟩
      simp only at a2 a3 a4
      simp only [Wq.bind_iff]
      refine Wq.forUp (fun col (s : GenMat p × Nat × Nat × Nat) =>
          s.2.1 = (P0 + 7 * (row * z + (nonPiv fl col).length)) / 8 ∧
          s.2.2.1 = st7 ((P0 + 7 * (row * z + (nonPiv fl col).length)) % 8) ∧
          P0 + 7 * (row * z + (nonPiv fl col).length) ≤ 8 * p.rrefBytes) ?_ ?_ ?_
      · exact ⟨by simpa [nonPiv] using a2, by simpa [nonPiv] using a3, by simpa [nonPiv] using a4⟩
      · rintro col ⟨fu, ix, st, pi⟩ hcol ⟨b3, b4, b5⟩
        simp only at b3 b4 b5
        simp only [Wq.bind_iff]
        refine Wq.of_wp (Wp.rd_iff.2 ⟨hcol, ?_⟩)
        by_cases h0 : g fl col = 0
        · rw [if_pos h0, b3, b4, Wq.bind_iff]
          by_cases hin : P0 + 7 * (row * z + (nonPiv fl col).length) + 7 ≤ 8 * p.rrefBytes
          · rw [dec7_ok buf _ hin]
            show Wq F O (_ >>= _) _
            rw [Wq.bind_iff]
            refine Wq.of_wp (Wp.wr2_iff.2 ⟨hrow, hcol, ?_⟩)
            rw [Wq.pure_iff, nonPiv_length_succ, if_pos h0]
            refine ⟨rfl, rfl, ?_⟩
            omega
          · exact Wq.of_oob hO (dec7_oob buf _ (by omega))
        · rw [if_neg h0, Wq.bind_iff]
          refine Wq.of_wp (Wp.wr2_iff.2 ⟨hrow, hcol, ?_⟩)
          rw [Wq.pure_iff, nonPiv_length_succ, if_neg h0]
          exact ⟨b3, b4, b5⟩
      · rintro ⟨fu, ix, st, pi⟩ ⟨b3, b4, b5⟩
        simp only at b3 b4 b5
        rw [Wq.pure_iff]
        simp only [show (row + 1) * z = row * z + z from Nat.succ_mul _ _]
        exact ⟨b3, b4, b5⟩
    · rintro ⟨fu, ix, st⟩ ⟨_, _, a⟩
      rw [Wq.pure_iff]
      exact a
  unfold expandToRref
  rw [Wq.bind_iff]
  refine Wq.of_wp ?_
  refine Wp.forUp (fun i (f : Vector Nat p.N) => ∀ j, j < 8 * i → g f j = (Spec.bitAt buf j).toNat) (by simp) ?_ ?_
  · intro i f hi hf
    exact (unpackFlagByte_wp buf i f (by omega) (by omega) hf).monoF False.elim
  · intro f hf
    have fin : ∀ f : Vector Nat p.N, (∀ i, i < p.N → g f i = (Spec.bitAt buf i).toNat) → f = decFlags buf := by
      intro f h
      apply vec_ext
      intro i hi
      rw [h i hi, decFlags, g_ofFn _ _ hi]
    rcases hasLast hp with ⟨h1, h2⟩ | ⟨h1, h2⟩
    · simp only [h1, if_true, Wq.bind_iff, Wq.pure_iff]
      refine (Wq.of_wp ((unpackLastFlags_wp buf f h2 (by omega) hf).monoF False.elim)).mono ?_
      intro f' hf'
      have := main (f', p.N / 8 + 1) (fin f' hf') (by show p.N / 8 + 1 = _; omega)
      rw [Wq.bind_iff] at this
      exact this
    · simp only [h1, Bool.false_eq_true, if_false, Wq.bind_iff, Wq.pure_iff]
      have := main (f, p.N / 8) (fin f fun i hi => hf i (by omega)) (by show p.N / 8 = _; omega)
      rw [Wq.bind_iff] at this
      exact this

/-- A code with more than `N - K` unflagged columns makes `expand_to_rref` read past the end of its buffer. -/
theorem expandToRref_overread (hp : p.WF) (hK : 2 ≤ p.K) (full : GenMat p) (buf : Vector UInt8 p.rrefBytes)
    (h : p.N - p.K < (Spec.denseBelow buf p.N).length) : expandToRref full buf = .error .oob := by
  apply Wq.eq_oob (O := True)
  refine (expandToRref_wq trivial hp full buf).mono ?_
  intro _ hle
  have hrb := rrefBytes_eq (p := p)
  rw [← denseBelow_eq buf p.N (Nat.le_refl _)] at h
  have : p.K * (p.N - p.K + 1) ≤ p.K * (nonPiv (decFlags buf) p.N).length := Nat.mul_le_mul_left _ h
  rw [Nat.mul_succ, Nat.mul_comm p.K (p.N - p.K)] at this
  omega

theorem exists_rref (hKN : p.K ≤ p.N) {A : Matrix (Fin p.K) (Fin p.N) Fq} (h : Spec.FullRank A) :
    ∃ R piv, Spec.RowEq A R ∧ Spec.IsRREF R piv := by
  obtain ⟨G, hG, rfl⟩ := exists_matOf A
  obtain ⟨r, -, -, piv, hr⟩ := (generatorRREF_full G hKN hG h).exists_ok
  exact ⟨_, piv, hr.rowEq, hr.rref⟩

/-- Under a public key all of whose codes have too many unflagged columns, verification reads past the end of the
key (in the first round that uses a response). -/
theorem lessVerify_badKey (hp : p.WF) (hK : 2 ≤ p.K) {n : Nat} (hn : p.maxPublishedBytes ≤ n) (fuel : Nat) (sl : Nat → Stale p)
    (pk : PubKey p) (hbad : ∀ j < p.numKeypairs - 1, p.N - p.K < (Spec.denseBelow (pk.spec.codes j) p.N).length)
    (m : Bytes) (sig : SignT p n) (hfits : Spec.VerifierFits p fuel pk.spec sig.spec) :
    lessVerify fuel sl pk m sig = .error .oob := by
  open Spec in
  apply Wq.eq_oob (O := True)
  unfold lessVerify
  rw [Wq.bind_iff]
  refine (Wq.of_wp ((expandDigest_spec hp fuel sig.digest.toList).monoF ?_)).mono ?_
  · obtain ⟨_, v, hv, _⟩ := hfits; exact fun hno => hno ⟨v, hv⟩
  intro fws hch
  have hch' : IsChallenge p fuel (xof p sig.spec.digest) (g fws) := hch
  rw [Wq.bind_iff]
  refine (Wq.of_wp (indicesToPublish_hides fws)).mono ?_
  rintro ind ⟨hind1, hind2⟩
  rw [Wq.bind_iff]
  refine (Wq.of_wp (rebuildSeedTreeLeaves_wp hp _ ind sig.seedStorage sig.treeSalt.toList hind1
    (by rw [hind2]; exact hidden_exists hp hch.weight) (by rw [hind2]; exact (pubCount_le hp hch.weight).trans hn))).mono ?_
  rintro ⟨tree, used⟩ ⟨-, htree⟩
  rw [hind2, expandH_eq] at htree
  dsimp only at htree ⊢
  have htree' : ∀ j < p.T, g fws j = 0 → nodeSeg tree (p.numLeaves - 1 + j) = rebuiltLeaf p sig.spec (g fws) j := by
    intro j hj h0
    have hT := hp.T_lt_leaves
    refine htree _ (by unfold Params.numNodes; omega) ?_
    rw [covers_leaf_iff (Nat.le_of_lt hT) j (by omega)]
    rintro ⟨-, h⟩
    simp [hides, h0] at h
  rw [Wq.bind_iff]
  refine (Wq.of_wp ((generatorSFSeedExpand_wp fuel (sl 0).rref pk.G0seed.toList hp).monoF fun hno => hno hfits.1)).mono ?_
  rintro G0 ⟨A, hG0⟩
  rw [Wq.bind_iff]
  refine Wq.forRet (fun i s => RoundsDone p fuel pk.spec sig.spec (g fws) i s ∧ ∀ j < i, g fws j = 0) (fun _ => False)
    ⟨⟨rfl, fun _ => [], by simp, by
      unfold hashAbsorb
      rw [incAbsorb_eq_foldl _ _ _ (hashRate_pos p)]; rfl⟩, by simp⟩ ?_ (fun _ h => h) ?_
  · rintro i s hi ⟨hI, hz⟩
    by_cases hx : g fws i = 0
    · refine ((Wq.of_wp (verifyRound_wp hp fuel (sl (i + 1)) pk sig fws tree G0 i s hi hch' hG0 htree' (fun h => absurd hx h) hI)).monoF
        (fun h => h hfits)).mono ?_
      rintro (r | s) ho
      · exact ho.2.1 hx
      · refine ⟨ho, fun j hj => ?_⟩
        rcases Nat.lt_succ_iff_lt_or_eq.1 hj with h | rfl
        · exact hz j h
        · exact hx
    · have hlt := (hch.range (by have := hp.numKeypairs_ge; omega) i).1
      have hw := weight_lt hi (g fws) hx
      rw [hch.weight] at hw
      obtain ⟨h, employed⟩ := s
      have he : employed = weight i (g fws) := hI.1
      unfold verifyRound
      dsimp only
      rw [Wq.bind_iff]
      refine Wq.of_wp (Wp.rd_iff.2 ⟨hi, ?_⟩)
      rw [if_neg hx, Wq.bind_iff]
      refine Wq.rd trivial fun _ => ?_
      rw [Wq.bind_iff]
      refine Wq.rd trivial fun _ => ?_
      rw [Wq.bind_iff]
      refine Wq.of_oob trivial ?_
      unfold verifyResponse
      rw [expandToRref_overread hp hK _ (g pk.SFG (g fws i - 1)) (hbad (g fws i - 1) (by omega))]
      rfl
  · rintro s ⟨_, hz⟩
    obtain ⟨k, hk, hh⟩ := hidden_exists hp hch.weight
    simp [hides, hz k hk] at hh

end LESS
