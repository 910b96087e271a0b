import Verif.Model.VerifyCost
import Verif.Props.SortCost
import Verif.Proofs.OptSim
import Verif.Proofs.Verify
import Verif.Proofs.Debug
import Verif.Proofs.OptBad
/-! # The work of the sorts of the verifier -/
namespace LESS
open Spec

variable {p : Params}

/-! ## Counting changes nothing -/

theorem prepareDigestInputN_fst (V : NormIS p) (Qb : MonoAction p) (G : GenMat p) (m : Monomial p) :
    (prepareDigestInputN V Qb G m >>= fun r => pure r.1) = prepareDigestInput V Qb G m := by
  unfold prepareDigestInputN prepareDigestInput
  rw [bind_assoc]
  refine bind_congr_ok fun Gd _ => ?_
  rw [bind_assoc]
  refine bind_congr_ok fun o _ => ?_
  obtain ⟨ok, R, f⟩ := o
  dsimp only
  rw [bind_assoc]
  refine bind_congr_ok fun s _ => ?_
  obtain ⟨V, Qb, a, b⟩ := s
  dsimp only
  rw [← C87_same V]
  simp only [bind_assoc, pure_bind]

theorem verifyResponseN_fst (sl : Stale p) (sfg : Vector UInt8 p.rrefBytes) (resp : Vector UInt8 p.monoBytes) :
    (verifyResponseN sl sfg resp >>= fun r => pure (r.map Prod.fst)) = verifyResponse sl sfg resp := by
  unfold verifyResponseN verifyResponse
  rw [bind_assoc]
  refine bind_congr_ok fun G _ => ?_
  rw [bind_assoc]
  refine bind_congr_ok fun act _ => ?_
  rw [bind_assoc]
  refine bind_congr_ok fun valid _ => ?_
  split
  · rfl
  · rw [bind_assoc]
    refine bind_congr_ok fun Gh _ => ?_
    rw [bind_assoc]
    refine bind_congr_ok fun o _ => ?_
    obtain ⟨ok, R, f⟩ := o
    dsimp only
    rw [bind_assoc]
    refine bind_congr_ok fun s _ => ?_
    obtain ⟨V, a⟩ := s
    dsimp only
    rw [← C87_same V]
    simp only [bind_assoc, pure_bind]
    rfl

/-- Dropping the count of a round's outcome. -/
def dropCost {ρ σ : Type} : (ρ × SortCost) ⊕ (σ × SortCost) → ρ ⊕ σ
  | .inl r => .inl r.1
  | .inr s => .inr s.1

theorem verifyRoundN_fst {n : Nat} (fuel : Nat) (sl : Stale p) (PK : PubKey p) (sig : SignT p n)
    (fws : Vector Nat p.T) (tree : TreeBuf p) (G0 : RrefMat p) (i : Nat) (s : (Inc × Nat) × SortCost) :
    (verifyRoundN fuel sl PK sig fws tree G0 i s >>= fun o => pure (dropCost o)) =
      verifyRound fuel sl PK sig fws tree G0 i s.1 := by
  obtain ⟨⟨h, e⟩, tot⟩ := s
  unfold verifyRoundN verifyRound
  dsimp only
  rw [bind_assoc]
  refine bind_congr_ok fun x _ => ?_
  by_cases hx : x = 0
  · rw [if_pos hx, if_pos hx]
    rw [bind_assoc]
    refine bind_congr_ok fun G _ => ?_
    rw [bind_assoc]
    refine bind_congr_ok fun seed _ => ?_
    rw [bind_assoc]
    refine bind_congr_ok fun Qm _ => ?_
    rw [← prepareDigestInputN_fst]
    simp only [bind_assoc, pure_bind]
    rfl
  · rw [if_neg hx, if_neg hx]
    rw [bind_assoc]
    refine bind_congr_ok fun sfg _ => ?_
    rw [bind_assoc]
    refine bind_congr_ok fun resp _ => ?_
    rw [← verifyResponseN_fst, bind_assoc, bind_assoc]
    refine bind_congr_ok fun o _ => ?_
    obtain _ | ⟨V, c⟩ := o <;> rfl

theorem forRetN_fst {ρ σ : Type} {n : Nat} {F : Nat → σ × SortCost → C ((ρ × SortCost) ⊕ (σ × SortCost))}
    {f : Nat → σ → C (ρ ⊕ σ)} (h : ∀ i s, i < n → (F i s >>= fun o => pure (dropCost o)) = f i s.1) (s : σ × SortCost) :
    (forRet n F s >>= fun o => pure (dropCost o)) = forRet n f s.1 := by
  induction n with
  | zero => rfl
  | succ n ih =>
    show ((forRet n F s >>= _) >>= _) = (forRet n f s.1 >>= _)
    rw [← ih fun i s hi => h i s (by omega), bind_assoc, bind_assoc]
    refine bind_congr_ok fun o _ => ?_
    obtain r | s' := o
    · rfl
    · exact h n s' (by omega)

theorem lessVerifyN_fst {n : Nat} (fuel : Nat) (sl : Nat → Stale p) (PK : PubKey p) (m : Bytes) (sig : SignT p n) :
    (lessVerifyN fuel sl PK m sig >>= fun r => pure r.1) = lessVerify fuel sl PK m sig := by
  unfold lessVerifyN lessVerify
  rw [bind_assoc]
  refine bind_congr_ok fun fws _ => ?_
  rw [bind_assoc]
  refine bind_congr_ok fun ind _ => ?_
  rw [bind_assoc]
  refine bind_congr_ok fun tr _ => ?_
  obtain ⟨tree, _⟩ := tr
  dsimp only
  rw [bind_assoc]
  refine bind_congr_ok fun G0 _ => ?_
  have e := forRetN_fst (n := p.T) (F := fun i => verifyRoundN fuel (sl (i + 1)) PK sig fws tree G0 i)
    (f := fun i => verifyRound fuel (sl (i + 1)) PK sig fws tree G0 i)
    (fun i s _ => verifyRoundN_fst fuel (sl (i + 1)) PK sig fws tree G0 i s) ((hashInit, 0), ⟨0, 0, 0, 0⟩)
  rw [← e, bind_assoc, bind_assoc]
  refine bind_congr_ok fun o _ => ?_
  obtain r | ⟨⟨h, e⟩, tot⟩ := o
  · rfl
  · simp only [dropCost, pure_bind, bind_assoc]

theorem cryptoSignOpenN_fst {smlen : Nat} (fuel : Nat) (sl : Nat → Stale p) (mcap : Nat) (sm : Vector UInt8 smlen)
    (pk : Vector UInt8 p.pkLen) :
    (cryptoSignOpenN fuel sl mcap sm pk >>= fun r => pure r.1) = cryptoSignOpen fuel sl mcap sm pk := by
  unfold cryptoSignOpenN cryptoSignOpen
  rw [bind_assoc]
  refine bind_congr_ok fun num _ => ?_
  dsimp only
  split
  · rfl
  · rw [bind_assoc]
    refine bind_congr_ok fun m _ => ?_
    split
    · rfl
    · rw [bind_assoc]
      refine bind_congr_ok fun sig _ => ?_
      rw [← lessVerifyN_fst]
      simp only [bind_assoc, pure_bind]

/-! ## Upper bounds -/

theorem wr2_run {r c : Nat} {G G' : Vector (Vector Nat c) r} {i j x : Nat} (h : wr2 G i j x = .ok G') :
    i < r ∧ j < c ∧ G' = upd2 G i j x := by
  have hi : i < r := by
    by_contra hi
    unfold wr2 at h
    rw [rd_neg hi] at h
    cases h
  have hj : j < c := by
    by_contra hj
    unfold wr2 at h
    rw [rd_pos hi] at h
    change (wr (g G i) j x >>= _) = _ at h
    rw [wr_neg hj] at h
    cases h
  refine ⟨hi, hj, ?_⟩
  have := (Wp.wr2_iff (F := False) (P := fun m => m = upd2 G i j x)).2 ⟨hi, hj, rfl⟩
  exact this.of_ok h

theorem lexMinimize_bytes {V R : NormIS p} {dst col : Nat} {G : GenMat p} (hV : Bytes8 V)
    (h : lexMinimize V dst G col = .ok R) : Bytes8 R := by
  unfold lexMinimize at h
  obtain ⟨⟨val, _⟩, -, h⟩ := run_of_bind h
  refine forUp_inv Bytes8 hV (fun i W W' _ hW e => ?_) h
  obtain ⟨x, -, e⟩ := run_of_bind e
  obtain ⟨hi, hd, rfl⟩ := wr2_run e
  intro a b ha hb
  rw [g2_upd2 _ _ _ _ _ _ hi hd]
  split
  · exact Nat.lt_trans (fqRed_lt _) (by decide)
  · exact hW a b ha hb

/-- The work of `k` sorts. -/
def CostBound (p : Params) (k : Nat) (c : SortCost) : Prop :=
  c.compares ≤ k * ((p.N - p.K - 1) * (p.N - p.K + 6) / 2) ∧ c.swaps ≤ c.compares / 2 ∧
    c.calls ≤ k * (2 * (p.N - p.K) - 1) ∧ c.depth ≤ p.N - p.K

theorem CostBound.mono {k l : Nat} {c : SortCost} (h : CostBound p k c) (hkl : k ≤ l) : CostBound p l c :=
  ⟨h.1.trans (Nat.mul_le_mul_right _ hkl), h.2.1, h.2.2.1.trans (Nat.mul_le_mul_right _ hkl), h.2.2.2⟩

theorem CostBound.andThen {k : Nat} {a c : SortCost} (h : CostBound p k a) (h' : CostBound p 1 c) :
    CostBound p (k + 1) (a.andThen c) := by
  obtain ⟨a1, a2, a3, a4⟩ := h
  obtain ⟨b1, b2, b3, b4⟩ := h'
  unfold CostBound SortCost.andThen
  simp only [Nat.succ_mul] at *
  refine ⟨by omega, by omega, by omega, by omega⟩

theorem sort_bound (hp : p.WF) {V R : NormIS p} {c : SortCost} (hV : Bytes8 V) (h : lexSortColsN V = .ok (R, c)) :
    CostBound p 1 c := by
  obtain ⟨R', c', e, -, h1, h2, h3, h4⟩ := C87_bounds hp V hV
  cases e.symm.trans h
  exact ⟨by omega, by omega, by omega, h2⟩

theorem prepare_bound (hp : p.WF) {V : NormIS p} {Qb : MonoAction p} {G : GenMat p} {m : Monomial p} (hV : Bytes8 V)
    {o : NormIS p × MonoAction p × Nat} {c : SortCost} (h : prepareDigestInputN V Qb G m = .ok (o, c)) :
    CostBound p 1 c := by
  unfold prepareDigestInputN at h
  obtain ⟨Gd, -, h⟩ := run_of_bind h
  obtain ⟨⟨ok, R, f⟩, -, h⟩ := run_of_bind h
  obtain ⟨⟨W, Qb', a, b⟩, hW, h⟩ := run_of_bind h
  obtain ⟨⟨W', c'⟩, hs, h⟩ := run_of_bind h
  cases h
  refine sort_bound hp ?_ hs
  refine forUp_inv (fun s : NormIS p × MonoAction p × Nat × Nat => Bytes8 s.1) hV ?_ hW
  rintro i ⟨W, Qb', a, b⟩ s' _ hI e
  obtain ⟨⟨row, val⟩, -, e⟩ := run_of_bind e
  obtain ⟨fl, -, e⟩ := run_of_bind e
  split at e
  · obtain ⟨W', h1, e⟩ := run_of_bind e
    cases e
    exact lexMinimize_bytes hI h1
  · obtain ⟨_, -, e⟩ := run_of_bind e
    obtain ⟨_, -, e⟩ := run_of_bind e
    cases e
    exact hI

theorem response_bound (hp : p.WF) {sl : Stale p} (hV : Bytes8 sl.norm) {sfg : Vector UInt8 p.rrefBytes}
    {resp : Vector UInt8 p.monoBytes} {V : NormIS p} {c : SortCost} (h : verifyResponseN sl sfg resp = .ok (some (V, c))) :
    CostBound p 1 c := by
  unfold verifyResponseN at h
  obtain ⟨G, -, h⟩ := run_of_bind h
  obtain ⟨act, -, h⟩ := run_of_bind h
  obtain ⟨valid, -, h⟩ := run_of_bind h
  split at h
  · cases h
  · obtain ⟨Gh, -, h⟩ := run_of_bind h
    obtain ⟨⟨ok, R, f⟩, -, h⟩ := run_of_bind h
    obtain ⟨⟨W, a⟩, hW, h⟩ := run_of_bind h
    obtain ⟨⟨W', c'⟩, hs, h⟩ := run_of_bind h
    cases h
    refine sort_bound hp ?_ hs
    refine forUp_inv (fun s : NormIS p × Nat => Bytes8 s.1) hV ?_ hW
    rintro i ⟨W, a⟩ s' _ hI e
    obtain ⟨fl, -, e⟩ := run_of_bind e
    split at e
    · obtain ⟨W', h1, e⟩ := run_of_bind e
      cases e
      exact lexMinimize_bytes hI h1
    · cases e
      exact hI

/-- Loops that ended. -/
theorem forRet_run {ρ σ : Type} {n : Nat} {f : Nat → σ → C (ρ ⊕ σ)} {s : σ} {o : ρ ⊕ σ} (I : Nat → σ → Prop) (J : ρ → Prop)
    (h0 : I 0 s) (hs : ∀ i s o, i < n → I i s → f i s = .ok o → Sum.elim J (I (i + 1)) o)
    (h : forRet n f s = .ok o) : Sum.elim J (I n) o := by
  induction n generalizing o with
  | zero => cases h; exact h0
  | succ m ih =>
    change (forRet m f s >>= _) = _ at h
    obtain ⟨o', h1, h⟩ := run_of_bind h
    have := ih (fun i s o hi => hs i s o (by omega)) h1
    obtain r | s' := o'
    · cases h; exact this
    · exact hs m s' o (by omega) this h

theorem verify_bound (hp : p.WF) {n : Nat} {fuel : Nat} {sl : Nat → Stale p} (hsl : ∀ i, Bytes8 (sl i).norm) {PK : PubKey p}
    {m : Bytes} {sig : SignT p n} {r : Nat} {c : SortCost} (h : lessVerifyN fuel sl PK m sig = .ok (r, c)) :
    CostBound p p.T c := by
  unfold lessVerifyN at h
  obtain ⟨fws, -, h⟩ := run_of_bind h
  obtain ⟨ind, -, h⟩ := run_of_bind h
  obtain ⟨⟨tree, _⟩, -, h⟩ := run_of_bind h
  obtain ⟨G0, -, h⟩ := run_of_bind h
  obtain ⟨o, ho, h⟩ := run_of_bind h
  have := forRet_run (fun i (s : (Inc × Nat) × SortCost) => CostBound p i s.2) (fun r : Nat × SortCost => CostBound p p.T r.2)
    ⟨by simp, by simp, by simp, by simp⟩ ?_ ho
  · obtain ⟨r', c'⟩ | ⟨⟨h', e⟩, tot⟩ := o
    · cases h; exact this
    · obtain ⟨d, -, h⟩ := run_of_bind h
      cases h; exact this
  · rintro i ⟨⟨h', e⟩, tot⟩ o hi hI e
    unfold verifyRoundN at e
    obtain ⟨x, -, e⟩ := run_of_bind e
    dsimp only at e
    split at e
    · obtain ⟨_, -, e⟩ := run_of_bind e
      obtain ⟨_, -, e⟩ := run_of_bind e
      obtain ⟨_, -, e⟩ := run_of_bind e
      obtain ⟨⟨⟨V, _, _⟩, c'⟩, h1, e⟩ := run_of_bind e
      cases e
      exact hI.andThen (prepare_bound hp (hsl _) h1)
    · obtain ⟨_, -, e⟩ := run_of_bind e
      obtain ⟨_, -, e⟩ := run_of_bind e
      obtain ⟨o', h1, e⟩ := run_of_bind e
      obtain _ | ⟨V, c'⟩ := o'
      · cases e
        exact hI.mono (Nat.le_of_lt hi)
      · cases e
        exact hI.andThen (response_bound hp (hsl _) h1)

/-! ## Exact numbers of calls -/

/-- The work of exactly `k` sorts. -/
def CostExact (p : Params) (k : Nat) (c : SortCost) : Prop :=
  c.calls = k * (2 * (p.N - p.K) - 1) ∧ 2 * (c.swaps + k * (p.N - p.K - 1)) ≤ c.compares

theorem CostExact.andThen {k : Nat} {a c : SortCost} (h : CostExact p k a) (h' : CostExact p 1 c) :
    CostExact p (k + 1) (a.andThen c) := by
  obtain ⟨a1, a2⟩ := h
  obtain ⟨b1, b2⟩ := h'
  unfold CostExact SortCost.andThen
  simp only [Nat.succ_mul, Nat.zero_mul, Nat.zero_add] at *
  refine ⟨by omega, by omega⟩

theorem sort_exact (hp : p.WF) {V R : NormIS p} {c : SortCost} (hV : Bytes8 V) (h : lexSortColsN V = .ok (R, c)) :
    CostExact p 1 c := by
  obtain ⟨R', c', e, -, h1, h2, h3, h4⟩ := C87_bounds hp V hV
  cases e.symm.trans h
  exact ⟨by omega, by omega⟩

theorem prepare_exact (hp : p.WF) {V : NormIS p} {Qb : MonoAction p} {G : GenMat p} {m : Monomial p} (hV : Bytes8 V)
    {o : NormIS p × MonoAction p × Nat} {c : SortCost} (h : prepareDigestInputN V Qb G m = .ok (o, c)) :
    CostExact p 1 c := by
  unfold prepareDigestInputN at h
  obtain ⟨Gd, -, h⟩ := run_of_bind h
  obtain ⟨⟨ok, R, f⟩, -, h⟩ := run_of_bind h
  obtain ⟨⟨W, Qb', a, b⟩, hW, h⟩ := run_of_bind h
  obtain ⟨⟨W', c'⟩, hs, h⟩ := run_of_bind h
  cases h
  refine sort_exact hp ?_ hs
  refine forUp_inv (fun s : NormIS p × MonoAction p × Nat × Nat => Bytes8 s.1) hV ?_ hW
  rintro i ⟨W, Qb', a, b⟩ s' _ hI e
  obtain ⟨⟨row, val⟩, -, e⟩ := run_of_bind e
  obtain ⟨fl, -, e⟩ := run_of_bind e
  split at e
  · obtain ⟨W', h1, e⟩ := run_of_bind e
    cases e
    exact lexMinimize_bytes hI h1
  · obtain ⟨_, -, e⟩ := run_of_bind e
    obtain ⟨_, -, e⟩ := run_of_bind e
    cases e
    exact hI

theorem response_exact (hp : p.WF) {sl : Stale p} (hV : Bytes8 sl.norm) {sfg : Vector UInt8 p.rrefBytes}
    {resp : Vector UInt8 p.monoBytes} {V : NormIS p} {c : SortCost} (h : verifyResponseN sl sfg resp = .ok (some (V, c))) :
    CostExact p 1 c := by
  unfold verifyResponseN at h
  obtain ⟨G, -, h⟩ := run_of_bind h
  obtain ⟨act, -, h⟩ := run_of_bind h
  obtain ⟨valid, -, h⟩ := run_of_bind h
  split at h
  · cases h
  · obtain ⟨Gh, -, h⟩ := run_of_bind h
    obtain ⟨⟨ok, R, f⟩, -, h⟩ := run_of_bind h
    obtain ⟨⟨W, a⟩, hW, h⟩ := run_of_bind h
    obtain ⟨⟨W', c'⟩, hs, h⟩ := run_of_bind h
    cases h
    refine sort_exact hp ?_ hs
    refine forUp_inv (fun s : NormIS p × Nat => Bytes8 s.1) hV ?_ hW
    rintro i ⟨W, a⟩ s' _ hI e
    obtain ⟨fl, -, e⟩ := run_of_bind e
    split at e
    · obtain ⟨W', h1, e⟩ := run_of_bind e
      cases e
      exact lexMinimize_bytes hI h1
    · cases e
      exact hI

theorem verify_exact (hp : p.WF) {n : Nat} {fuel : Nat} {sl : Nat → Stale p} (hsl : ∀ i, Bytes8 (sl i).norm) {PK : PubKey p}
    {m : Bytes} {sig : SignT p n} {r : Nat} {c : SortCost} (h : lessVerifyN fuel sl PK m sig = .ok (r, c)) :
    ∃ k, CostExact p k c ∧ (k = p.T ∨ k < p.T ∧ r = 0) := by
  unfold lessVerifyN at h
  obtain ⟨fws, -, h⟩ := run_of_bind h
  obtain ⟨ind, -, h⟩ := run_of_bind h
  obtain ⟨⟨tree, _⟩, -, h⟩ := run_of_bind h
  obtain ⟨G0, -, h⟩ := run_of_bind h
  obtain ⟨o, ho, h⟩ := run_of_bind h
  have := forRet_run (fun i (s : (Inc × Nat) × SortCost) => CostExact p i s.2)
    (fun r : Nat × SortCost => ∃ k, CostExact p k r.2 ∧ k < p.T ∧ r.1 = 0) ⟨by simp, by simp⟩ ?_ ho
  · obtain ⟨r', c'⟩ | ⟨⟨h', e⟩, tot⟩ := o
    · cases h
      obtain ⟨k, h1, h2⟩ := this
      exact ⟨k, h1, .inr h2⟩
    · obtain ⟨d, -, h⟩ := run_of_bind h
      cases h; exact ⟨p.T, this, .inl rfl⟩
  · rintro i ⟨⟨h', e⟩, tot⟩ o hi hI e
    unfold verifyRoundN at e
    obtain ⟨x, -, e⟩ := run_of_bind e
    dsimp only at e
    split at e
    · obtain ⟨_, -, e⟩ := run_of_bind e
      obtain ⟨_, -, e⟩ := run_of_bind e
      obtain ⟨_, -, e⟩ := run_of_bind e
      obtain ⟨⟨⟨V, _, _⟩, c'⟩, h1, e⟩ := run_of_bind e
      cases e
      exact hI.andThen (prepare_exact hp (hsl _) h1)
    · obtain ⟨_, -, e⟩ := run_of_bind e
      obtain ⟨_, -, e⟩ := run_of_bind e
      obtain ⟨o', h1, e⟩ := run_of_bind e
      obtain _ | ⟨V, c'⟩ := o'
      · cases e
        exact ⟨i, hI, hi, rfl⟩
      · cases e
        exact hI.andThen (response_exact hp (hsl _) h1)

end LESS
