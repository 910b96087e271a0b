import Verif.Model.SignCost
import Verif.Props.VerifyCost
/-!
# C94: signing takes a bounded number of column comparisons, which does not depend on the secret
-/
namespace LESS
open Spec

variable {p : Params}

theorem signRoundN_fst (fuel : Nat) (sl : Stale p) (G0 : GenMat p) (tree : TreeBuf p) (salt : Bytes) (i : Nat)
    (s : (Vector (MonoAction p) p.T × Inc) × SortCost) :
    (signRoundN fuel sl G0 tree salt i s >>= fun r => pure r.1) = signRound fuel sl G0 tree salt i s.1 := by
  obtain ⟨⟨acts, h⟩, tot⟩ := s
  unfold signRoundN signRound
  dsimp only
  rw [bind_assoc]
  refine bind_congr_ok fun seed _ => ?_
  rw [bind_assoc]
  refine bind_congr_ok fun Qt _ => ?_
  rw [bind_assoc]
  refine bind_congr_ok fun a _ => ?_
  rw [← prepareDigestInputN_fst]
  simp only [bind_assoc, pure_bind]

theorem forUpN_fst {σ : Type} {n : Nat} {F : Nat → σ × SortCost → C (σ × SortCost)} {f : Nat → σ → C σ}
    (h : ∀ i s, i < n → (F i s >>= fun o => pure o.1) = f i s.1) (s : σ × SortCost) :
    (forUp n F s >>= fun o => pure o.1) = forUp n f s.1 := by
  induction n with
  | zero => rfl
  | succ n ih =>
    show ((forUp n F s >>= _) >>= _) = (forUp n f s.1 >>= _)
    rw [← ih fun i s hi => h i s (by omega), bind_assoc, bind_assoc]
    refine bind_congr_ok fun o _ => ?_
    exact h n o (by omega)

theorem lessSignN_fst {n : Nat} (fuel : Nat) (sl : Nat → Stale p) (rng : Inc) (SK : PriKey p) (m : Bytes) (sig : SignT p n) :
    (lessSignN fuel sl rng SK m sig >>= fun r => pure r.1) = lessSign fuel sl rng SK m sig := by
  unfold lessSignN lessSign
  rw [bind_assoc]
  refine bind_congr_ok fun seeds _ => ?_
  dsimp only
  rw [bind_assoc]
  refine bind_congr_ok fun tree _ => ?_
  rw [bind_assoc]
  refine bind_congr_ok fun G0 _ => ?_
  have e := forUpN_fst (n := p.T) (F := fun i => signRoundN fuel (sl (i + 1)) G0 tree
      (toVec p.hashLen (csprngBytes p p.hashLen (csprngBytes p p.seedLen rng).2).1).toList i)
    (f := fun i => signRound fuel (sl (i + 1)) G0 tree
      (toVec p.hashLen (csprngBytes p p.hashLen (csprngBytes p p.seedLen rng).2).1).toList i)
    (fun i s _ => signRoundN_fst _ _ _ _ _ i s) ((Vector.ofFn fun i : Fin p.T => (sl i).act', hashInit), ⟨0, 0, 0, 0⟩)
  dsimp only at e
  rw [← e]
  simp only [bind_assoc, pure_bind]

/-- C94: counting the work does not change the results. -/
theorem C94_same {k : Nat} (fuel : Nat) (sl : Nat → Stale p) (rng : Inc) (sm : Vector UInt8 k) (m : Bytes)
    (sk : Vector UInt8 p.skLen) :
    (cryptoSignN fuel sl rng sm m sk >>= fun r => pure r.1) = cryptoSign fuel sl rng sm m sk := by
  unfold cryptoSignN cryptoSign
  rw [bind_assoc]
  refine bind_congr_ok fun sm _ => ?_
  rw [bind_assoc]
  refine bind_congr_ok fun sig _ => ?_
  rw [← lessSignN_fst]
  simp only [bind_assoc, pure_bind]

theorem forUp_run {σ : Type} {n : Nat} {f : Nat → σ → C σ} {s s' : σ} (I : Nat → σ → Prop) (h0 : I 0 s)
    (hs : ∀ i s s', i < n → I i s → f i s = .ok s' → I (i + 1) s') (h : forUp n f s = .ok s') : I n s' := by
  induction n generalizing s' with
  | zero => cases h; exact h0
  | succ m ih =>
    change (forUp m f s >>= f m) = _ at h
    obtain ⟨s1, h1, h⟩ := run_of_bind h
    exact hs m s1 s' (by omega) (ih (fun i s s' hi => hs i s s' (by omega)) h1) h

theorem sign_cost (hp : p.WF) {n fuel : Nat} {sl : Nat → Stale p} (hsl : ∀ i, Bytes8 (sl i).norm) {rng : Inc} {SK : PriKey p}
    {m : Bytes} {sig : SignT p n} {r : SignT p n × Nat × Inc} {c : SortCost} (h : lessSignN fuel sl rng SK m sig = .ok (r, c)) :
    CostBound p p.T c ∧ CostExact p p.T c := by
  unfold lessSignN at h
  obtain ⟨seeds, -, h⟩ := run_of_bind h
  dsimp only at h
  obtain ⟨tree, -, h⟩ := run_of_bind h
  obtain ⟨G0, -, h⟩ := run_of_bind h
  obtain ⟨⟨⟨acts, hh⟩, tot⟩, hl, h⟩ := run_of_bind h
  obtain ⟨fws, -, h⟩ := run_of_bind h
  obtain ⟨ind, -, h⟩ := run_of_bind h
  obtain ⟨_, -, h⟩ := run_of_bind h
  obtain ⟨⟨_, _⟩, -, h⟩ := run_of_bind h
  obtain ⟨⟨_, _⟩, -, h⟩ := run_of_bind h
  obtain ⟨_, -, h⟩ := run_of_bind h
  cases h
  refine forUp_run (fun i (s : (Vector (MonoAction p) p.T × Inc) × SortCost) => CostBound p i s.2 ∧ CostExact p i s.2)
    ⟨⟨by simp, by simp, by simp, by simp⟩, ⟨by simp, by simp⟩⟩ ?_ hl
  rintro i ⟨⟨acts, hh⟩, tot⟩ s' hi ⟨hI, hJ⟩ e
  unfold signRoundN at e
  dsimp only at e
  obtain ⟨_, -, e⟩ := run_of_bind e
  obtain ⟨_, -, e⟩ := run_of_bind e
  obtain ⟨_, -, e⟩ := run_of_bind e
  obtain ⟨⟨⟨V, _, _⟩, c'⟩, h1, e⟩ := run_of_bind e
  obtain ⟨_, -, e⟩ := run_of_bind e
  cases e
  exact ⟨hI.andThen (prepare_bound hp (hsl _) h1), hJ.andThen (prepare_exact hp (hsl _) h1)⟩

/-- C94: for all private keys, well-formed or not, all messages, random states and uninitialised memory: a call that returns
has made exactly `T` sorts of `2 n - 1` calls each, at most `n` of them nested, with at least `2 (n - 1)` and at most
`(n - 1) (n + 6) / 2` comparisons of two columns each, `n` the number of columns. -/
theorem C94_bounds (hp : p.WF) {k fuel : Nat} {sl : Nat → Stale p}
    (hsl : ∀ t i j, i < p.K → j < p.N - p.K → g2 (sl t).norm i j < 256) {rng : Inc} {sm : Vector UInt8 k} {m : Bytes}
    {sk : Vector UInt8 p.skLen} {r : Vector UInt8 k × Nat × Inc} {cost : SortCost}
    (h : cryptoSignN fuel sl rng sm m sk = .ok (r, cost)) :
    cost.calls = p.T * (2 * (p.N - p.K) - 1) ∧ cost.depth ≤ p.N - p.K ∧
      2 * (cost.swaps + p.T * (p.N - p.K - 1)) ≤ cost.compares ∧
      cost.compares ≤ p.T * ((p.N - p.K - 1) * (p.N - p.K + 6) / 2) := by
  unfold cryptoSignN at h
  obtain ⟨_, -, h⟩ := run_of_bind h
  obtain ⟨_, -, h⟩ := run_of_bind h
  obtain ⟨⟨⟨_, _, _⟩, c⟩, hs, h⟩ := run_of_bind h
  obtain ⟨_, -, h⟩ := run_of_bind h
  cases h
  obtain ⟨⟨a1, -, -, a4⟩, b1, b2⟩ := sign_cost hp hsl hs
  exact ⟨b1, a4, b2, a1⟩

/-! ## What the work depends on -/

theorem RrefOut.unique {A : Matrix (Fin p.K) (Fin p.N) Fq} {R R' : GenMat p} {f f' : Vector Nat p.N} {piv piv' : Fin p.K → Fin p.N}
    (h : RrefOut A R f piv) (h' : RrefOut A R' f' piv') : R = R' ∧ f = f' := by
  obtain ⟨hm, hpv⟩ := rref_unique h.rref h'.rref (h.rowEq.symm.trans h'.rowEq)
  refine ⟨matOf_inj h.reduced h'.reduced hm, ?_⟩
  apply vec_ext
  intro i hi
  have a := h.flags ⟨i, hi⟩
  have b := h'.flags ⟨i, hi⟩
  dsimp only at a b
  rw [a, b, hpv]

/-- The matrix that is sorted. -/
theorem prepare_sorted (hp : p.WF) {V : NormIS p} {Qb : MonoAction p} {G : GenMat p} {m : Monomial p} (hm : m.Valid)
    (hG : Reduced G) (hr : FullRank (matOf G)) {o : NormIS p × MonoAction p × Nat} {c : SortCost}
    (h : prepareDigestInputN V Qb G m = .ok (o, c)) :
    ∃ R f piv, ∃ W W' : NormIS p, RrefOut (matOf G * m.mat) R f piv ∧ colsOf W = normCols R f ∧ lexSortColsN W = .ok (W', c) := by
  have hKN := hp.K_lt_N
  have hN := hp.N_lt
  obtain ⟨r, -, hri⟩ := hm.rightInv (by omega)
  have hr := fullRank_mul hr hri
  unfold prepareDigestInputN at h
  obtain ⟨Gd, e1, h⟩ := run_of_bind h
  obtain ⟨⟨ok, R, f⟩, e2, h⟩ := run_of_bind h
  obtain ⟨⟨W, Qb', a, b⟩, hW, h⟩ := run_of_bind h
  obtain ⟨⟨W', c'⟩, hs, h⟩ := run_of_bind h
  cases h
  obtain ⟨hGd, hmat⟩ := (generatorMonomialMul_mat _ G m hm hG).of_ok e1
  obtain ⟨-, piv, hR⟩ := (generatorRREF_full Gd (Nat.le_of_lt hKN) hGd (by rw [hmat]; exact hr)).of_ok e2
  dsimp only at hR
  rw [hmat] at hR
  have hcount := nonPiv_count hR.flags hR.rref.mono
  refine ⟨R, f, piv, W, W', hR, colsOf_eq_of_rank hcount ?_, hs⟩
  refine (forUp_run (fun col (s : NormIS p × MonoAction p × Nat × Nat) =>
    (∀ c, c < col → g f c = 0 → colOf s.1 (nonPiv f c).length = normCol (colOf R c)) ∧
    s.2.2.2 = p.K + (nonPiv f col).length) ⟨by simp, by simp [nonPiv]⟩ ?_ hW).1
  rintro col ⟨V, Qb, pi, npi⟩ s' hcol ⟨i1, i4⟩ e
  dsimp only at i1 i4 e
  obtain ⟨⟨src, val⟩, -, e⟩ := run_of_bind e
  obtain ⟨fl, hfl, e⟩ := run_of_bind e
  obtain ⟨-, rfl⟩ := rd_run hfl
  have hle := nonPiv_length_le f col
  dsimp only at e
  split at e
  · next h0 =>
    have hlt := nonPiv_length_lt f hcol h0
    have hd : (npi + p.posMod - p.K) % p.posMod = (nonPiv f col).length := by
      rw [i4, show p.K + (nonPiv f col).length + p.posMod - p.K = (nonPiv f col).length + p.posMod by omega,
        Nat.add_mod_right]
      exact Nat.mod_eq_of_lt (by omega)
    rw [hd] at e
    obtain ⟨V', hV', e⟩ := run_of_bind e
    cases e
    obtain ⟨v1, v2⟩ := (lexMinimize_wp V _ R col (by omega) hcol
      (fun i hi => Nat.lt_trans (hR.reduced i col hi hcol) (by decide))).of_ok hV'
    refine ⟨fill_step hcount hcol h0 i1 v1 v2, ?_⟩
    dsimp only
    rw [nonPiv_length_succ, if_pos h0, i4, Nat.mod_eq_of_lt (by omega)]; omega
  · next h0 =>
    obtain ⟨_, -, e⟩ := run_of_bind e
    obtain ⟨_, -, e⟩ := run_of_bind e
    cases e
    refine ⟨fun c hlt hf => i1 c ?_ hf, by rw [nonPiv_length_succ, if_neg h0]; exact i4⟩
    rcases Nat.lt_succ_iff_lt_or_eq.mp hlt with h | h
    · exact h
    · subst h; exact absurd hf h0

theorem prepare_cost_unique (hp : p.WF) {V V' : NormIS p} {Qb Qb' : MonoAction p} {G : GenMat p} {m : Monomial p} (hm : m.Valid)
    (hG : Reduced G) (hr : FullRank (matOf G)) {o o' : NormIS p × MonoAction p × Nat} {c c' : SortCost}
    (h : prepareDigestInputN V Qb G m = .ok (o, c)) (h' : prepareDigestInputN V' Qb' G m = .ok (o', c')) : c = c' := by
  obtain ⟨R, f, piv, W, U, a1, a2, a3⟩ := prepare_sorted hp hm hG hr h
  obtain ⟨R', f', piv', W', U', b1, b2, b3⟩ := prepare_sorted hp hm hG hr h'
  obtain ⟨rfl, rfl⟩ := a1.unique b1
  obtain rfl := colsOf_inj (a2.trans b2.symm)
  exact (Prod.mk.inj (Except.ok.inj (a3.symm.trans b3))).2

theorem expandG0_unique (hp : p.WF) {fuel fuel' : Nat} {sl sl' : Stale p} {seed : Bytes} {G G' : GenMat p}
    (h : expandG0 fuel sl seed = .ok G) (h' : expandG0 fuel' sl' seed = .ok G') :
    G = G' ∧ Reduced G ∧ FullRank (matOf G) := by
  obtain ⟨a1, a2⟩ := (expandG0_wp hp fuel sl seed).of_ok h
  obtain ⟨b1, b2⟩ := (expandG0_wp hp fuel' sl' seed).of_ok h'
  exact ⟨matOf_inj a1 b1 (a2.unique b2), a1, (a2.rref (Nat.le_of_lt hp.K_lt_N)).fullRank⟩

theorem expandSalt_unique (hp : p.WF) {fuel fuel' : Nat} {st st' : Monomial p} {leaf salt : Bytes} {i : Nat} (hi : i < p.T)
    {m m' : Monomial p} (h : monomialSeedExpandSaltRnd fuel st leaf salt i = .ok m)
    (h' : monomialSeedExpandSaltRnd fuel' st' leaf salt i = .ok m') : m = m' ∧ m.Valid := by
  have hN := hp.N_lt
  have hT := hp.T_lt
  have hKN := hp.K_lt_N
  have key : ∀ {fuel st m}, monomialSeedExpandSaltRnd fuel st leaf salt i = .ok m →
      m.Valid ∧ IsMonomial p fuel (roundStream p salt leaf i) m.mat := by
    intro fuel st m h
    unfold monomialSeedExpandSaltRnd at h
    rw [le16_eq i (by omega)] at h
    have hs := xof_at p (leaf ++ salt ++ [UInt8.ofNat (i % 256), UInt8.ofNat (i / 256 % 256)])
    obtain ⟨⟨m', st'⟩, e, h⟩ := run_of_bind h
    cases h
    obtain ⟨h1, h2, -⟩ := (monomialFromState_stream fuel st _ _ (by omega) (by omega) hs).of_ok e
    exact ⟨h1, h2⟩
  obtain ⟨a1, a2⟩ := key h
  obtain ⟨b1, b2⟩ := key h'
  exact ⟨mat_inj a1 b1 (a2.unique b2), a1⟩

/-- Two loops in step. -/
theorem forUp_run₂ {σ τ : Type} {n : Nat} {f : Nat → σ → C σ} {F : Nat → τ → C τ} {s s' : σ} {t t' : τ} (I : σ → τ → Prop)
    (h0 : I s t) (hs : ∀ i s s' t t', i < n → I s t → f i s = .ok s' → F i t = .ok t' → I s' t') (h : forUp n f s = .ok s')
    (h' : forUp n F t = .ok t') : I s' t' := by
  induction n generalizing s' t' with
  | zero => cases h; cases h'; exact h0
  | succ m ih =>
    change (forUp m f s >>= f m) = _ at h
    change (forUp m F t >>= F m) = _ at h'
    obtain ⟨s1, h1, h⟩ := run_of_bind h
    obtain ⟨t1, h1', h'⟩ := run_of_bind h'
    exact hs m _ _ _ _ (by omega) (ih (fun i s s' t t' hi => hs i s s' t t' (by omega)) h1 h1') h h'

/-- C94: the work is the same for any two calls with the same random state and keys that share the public seed: it depends
neither on the secret part of the key, nor on the message, the output buffer or the uninitialised memory. -/
theorem C94_independent (hp : p.WF) {k k' fuel fuel' : Nat} {sl sl' : Nat → Stale p} {rng : Inc} {sm : Vector UInt8 k}
    {sm' : Vector UInt8 k'} {m m' : Bytes} {sk sk' : Vector UInt8 p.skLen}
    (hseed : seg sk p.skSeedLen p.seedLen = seg sk' p.skSeedLen p.seedLen) {r : Vector UInt8 k × Nat × Inc}
    {r' : Vector UInt8 k' × Nat × Inc} {cost cost' : SortCost} (h : cryptoSignN fuel sl rng sm m sk = .ok (r, cost))
    (h' : cryptoSignN fuel' sl' rng sm' m' sk' = .ok (r', cost')) : cost = cost' := by
  have hG0 : (readPri sk).G0seed = (readPri sk').G0seed := congrArg (toVec _) hseed
  unfold cryptoSignN at h h'
  obtain ⟨_, -, h⟩ := run_of_bind h
  obtain ⟨_, -, h⟩ := run_of_bind h
  obtain ⟨⟨⟨_, _, _⟩, c⟩, hs, h⟩ := run_of_bind h
  obtain ⟨_, -, h⟩ := run_of_bind h
  cases h
  obtain ⟨_, -, h'⟩ := run_of_bind h'
  obtain ⟨_, -, h'⟩ := run_of_bind h'
  obtain ⟨⟨⟨_, _, _⟩, c'⟩, hs', h'⟩ := run_of_bind h'
  obtain ⟨_, -, h'⟩ := run_of_bind h'
  cases h'
  unfold lessSignN at hs hs'
  obtain ⟨_, -, hs⟩ := run_of_bind hs
  obtain ⟨_, -, hs'⟩ := run_of_bind hs'
  dsimp only at hs hs'
  obtain ⟨tree, ht, hs⟩ := run_of_bind hs
  obtain ⟨tree', ht', hs'⟩ := run_of_bind hs'
  obtain rfl := Except.ok.inj (ht.symm.trans ht')
  obtain ⟨G0, hg, hs⟩ := run_of_bind hs
  obtain ⟨G0', hg', hs'⟩ := run_of_bind hs'
  rw [← hG0] at hg'
  obtain ⟨rfl, hred, hrank⟩ := expandG0_unique hp hg hg'
  obtain ⟨⟨⟨acts, hh⟩, tot⟩, hl, hs⟩ := run_of_bind hs
  obtain ⟨⟨⟨acts', hh'⟩, tot'⟩, hl', hs'⟩ := run_of_bind hs'
  obtain ⟨_, -, hs⟩ := run_of_bind hs
  obtain ⟨_, -, hs⟩ := run_of_bind hs
  obtain ⟨_, -, hs⟩ := run_of_bind hs
  obtain ⟨⟨_, _⟩, -, hs⟩ := run_of_bind hs
  obtain ⟨⟨_, _⟩, -, hs⟩ := run_of_bind hs
  obtain ⟨_, -, hs⟩ := run_of_bind hs
  cases hs
  obtain ⟨_, -, hs'⟩ := run_of_bind hs'
  obtain ⟨_, -, hs'⟩ := run_of_bind hs'
  obtain ⟨_, -, hs'⟩ := run_of_bind hs'
  obtain ⟨⟨_, _⟩, -, hs'⟩ := run_of_bind hs'
  obtain ⟨⟨_, _⟩, -, hs'⟩ := run_of_bind hs'
  obtain ⟨_, -, hs'⟩ := run_of_bind hs'
  cases hs'
  refine forUp_run₂ (fun (s t : (Vector (MonoAction p) p.T × Inc) × SortCost) => s.2 = t.2) ?_ ?_ hl hl'
  · rfl
  rintro i ⟨⟨acts, hh⟩, tot⟩ s' ⟨⟨acts', hh'⟩, tot'⟩ t' hi hI e e'
  obtain rfl : tot = tot' := hI
  unfold signRoundN at e e'
  dsimp only at e e'
  obtain ⟨x, hx, e⟩ := run_of_bind e
  obtain ⟨x', hx', e'⟩ := run_of_bind e'
  obtain rfl := Except.ok.inj (hx.symm.trans hx')
  obtain ⟨Q, hQ, e⟩ := run_of_bind e
  obtain ⟨Q', hQ', e'⟩ := run_of_bind e'
  obtain ⟨rfl, hv⟩ := expandSalt_unique hp hi hQ hQ'
  obtain ⟨_, -, e⟩ := run_of_bind e
  obtain ⟨_, -, e'⟩ := run_of_bind e'
  obtain ⟨⟨⟨V, _, _⟩, c⟩, h1, e⟩ := run_of_bind e
  obtain ⟨⟨⟨V', _, _⟩, c'⟩, h1', e'⟩ := run_of_bind e'
  obtain ⟨_, -, e⟩ := run_of_bind e
  obtain ⟨_, -, e'⟩ := run_of_bind e'
  cases e
  cases e'
  show tot.andThen c = tot.andThen c'
  rw [prepare_cost_unique hp hv hred hrank h1 h1']

end LESS
