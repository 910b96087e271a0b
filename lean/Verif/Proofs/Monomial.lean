import Mathlib.Data.Fintype.EquivFin
import Mathlib.Data.Matrix.Basic
import Mathlib.Data.Matrix.Mul
import Mathlib.Algebra.BigOperators.Ring.Finset
import Verif.Model.Codes
import Verif.Proofs.Fq
import Verif.Proofs.Sampler
/-!
# Monomial matrices: proofs
-/
namespace LESS

/-- The vector lists every number below `n` once. -/
def IsPerm {n : Nat} (v : Vector Nat n) : Prop :=
  (∀ i, i < n → g v i < n) ∧ ∀ i j, i < n → j < n → g v i = g v j → i = j

theorem IsPerm.surj {n : Nat} {v : Vector Nat n} (h : IsPerm v) (d : Nat) (hd : d < n) :
    ∃ i, i < n ∧ g v i = d := by
  let f : Fin n → Fin n := fun i => ⟨g v i, h.1 i i.2⟩
  have hinj : Function.Injective f := by
    intro a b hab
    have := h.2 a b a.2 b.2 (by simpa [f] using hab)
    exact Fin.ext this
  obtain ⟨i, hi⟩ := (Finite.injective_iff_surjective.mp hinj) ⟨d, hd⟩
  exact ⟨i, i.2, by simpa [f] using congrArg Fin.val hi⟩

variable {p : Params}

/-- A monomial matrix in the representation used by the code. -/
def Monomial.Valid (m : Monomial p) : Prop :=
  IsPerm m.permutation ∧ ∀ i, i < p.N → 1 ≤ g m.coefficients i ∧ g m.coefficients i < 127

/-! ## Shuffle -/

theorem isPerm_swap {n : Nat} {v : Vector Nat n} (h : IsPerm v) (i r : Nat) (hi : i < n) (hr : r < n) :
    IsPerm (upd (upd v i (g v r)) r (g v i)) := by
  have e : ∀ j, g (upd (upd v i (g v r)) r (g v i)) j =
      g v (if j = r then i else if j = i then r else j) := by
    intro j
    rw [g_upd _ _ _ _ hr, g_upd _ _ _ _ hi]
    by_cases h1 : j = r
    · simp [h1]
    · by_cases h2 : j = i
      · subst h2; simp [h1, Ne.symm h1]
      · simp [h1, h2, Ne.symm h1, Ne.symm h2]
  refine ⟨fun j hj => ?_, fun j k hj hk => ?_⟩
  · rw [e]; apply h.1; split <;> [exact hi; split <;> [exact hr; exact hj]]
  · rw [e, e]
    intro hjk
    have := h.2 _ _ (by split <;> [exact hi; split <;> [exact hr; exact hj]])
      (by split <;> [exact hi; split <;> [exact hr; exact hk]]) hjk
    split at this <;> split at this <;> try split at this
    all_goals try split at this
    all_goals omega

theorem shuffleLoop_wp (draws perm : Vector Nat p.N) (hp : IsPerm perm)
    (hd : ∀ i, i < p.N - 1 → i ≤ g draws i ∧ g draws i < p.N) :
    Wp False (shuffleLoop draws perm) IsPerm := by
  unfold shuffleLoop
  refine Wp.forUp (fun _ v => IsPerm v) hp ?_ (fun _ h => h)
  intro i v hi hv
  have := hd i hi
  simp only [Wp.bind_iff, Wp.rd_iff, Wp.wr_iff]
  refine ⟨by omega, by omega, by omega, by omega, by omega, by omega, ?_⟩
  exact isPerm_swap hv _ _ (by omega) (by omega)

theorem shuffleDraws_range (bytes : Bytes) (hN : p.N < 4294967296) (i : Nat) (hi : i < p.N - 1) :
    i ≤ g (shuffleDraws p bytes) i ∧ g (shuffleDraws p bytes) i < p.N := by
  rw [shuffleDraws, g_ofFn _ _ (by omega)]
  simp only [hi, if_true]
  have := Nat.mod_lt (leNat ((bytes.drop (4 * i)).take 4)) (show 0 < p.N - i by omega)
  unfold u32
  omega

theorem identityPerm_eq (perm : Vector Nat p.N) (hN : p.N ≤ p.posMod) :
    identityPerm perm = .ok (Vector.ofFn fun i => i.val) := by
  apply Wp.eq_ok
  unfold identityPerm
  refine Wp.forUp (fun n v => ∀ i, i < n → g v i = i) (by simp) ?_ ?_
  · intro i v hi hv
    rw [Wp.wr_iff]
    refine ⟨hi, fun j hj => ?_⟩
    rw [g_upd _ _ _ _ hi]
    split
    · subst_vars; exact Nat.mod_eq_of_lt (by omega)
    · exact hv j (by omega)
  · intro v hv
    apply vec_ext
    intro i hi
    rw [hv i hi, g_ofFn _ _ hi]

theorem isPerm_id (n : Nat) : IsPerm (Vector.ofFn fun i : Fin n => i.val) := by
  refine ⟨fun i hi => ?_, fun i j hi hj h => ?_⟩
  · rw [g_ofFn _ _ hi]; exact hi
  · rw [g_ofFn _ _ hi, g_ofFn _ _ hj] at h; exact h

theorem posMod_le : p.posMod ≤ 65536 := by
  unfold Params.posMod; cases p.cat <;> simp

/-- The expanded monomial as a function of seed state and fuel only. -/
theorem monomialFromState_stale (fuel : Nat) (s s' : Monomial p) (st : Inc) (hN0 : 0 < p.N)
    (hN : p.N ≤ p.posMod) : monomialFromState fuel s st = monomialFromState fuel s' st := by
  unfold monomialFromState fqStarRndState
  rw [randState_stale p 1 (Q - 1) fuel st s.coefficients s'.coefficients (by decide) (by decide) hN0,
    identityPerm_eq _ hN, identityPerm_eq _ hN]

theorem monomialFromState_wp (fuel : Nat) (s : Monomial p) (st : Inc) (hN0 : 0 < p.N)
    (hN : p.N ≤ p.posMod) :
    Wp True (monomialFromState fuel s st) (fun r => r.1.Valid) := by
  unfold monomialFromState
  rw [Wp.bind_iff]
  refine (randState_wp p 1 (Q - 1) fuel st s.coefficients (by decide) (by decide) hN0).mono ?_
  rintro ⟨coefs, st'⟩ hc
  simp only [identityPerm_eq _ hN, Wp.bind_iff, Wp.ok_iff, ytShuffleState]
  have hsh := shuffleLoop_wp (p := p) (shuffleDraws p (csprngBytes p (4 * p.N) st').1) _ (isPerm_id p.N)
    (fun i hi => shuffleDraws_range _ (by have := posMod_le (p := p); omega) i hi)
  refine (hsh.monoF False.elim).mono ?_
  intro v hv
  refine ⟨hv, fun i hi => ?_⟩
  have := hc i hi
  simp only [Q] at this
  show 1 ≤ g coefs i ∧ g coefs i < 127
  omega

/-! ## Products and inverses -/

theorem monomialInv_wp (stale m : Monomial p) (hm : m.Valid) (hN : p.N ≤ p.posMod) :
    Wp False (monomialInv stale m) (fun r =>
      ∀ i, i < p.N → g r.permutation (g m.permutation i) = i ∧
        g r.coefficients (g m.permutation i) = fqInv (g m.coefficients i)) := by
  unfold monomialInv
  refine Wp.forUp (fun n (r : Monomial p) => ∀ i, i < n → g r.permutation (g m.permutation i) = i ∧
        g r.coefficients (g m.permutation i) = fqInv (g m.coefficients i)) (by simp) ?_ (fun _ h => h)
  intro i r hi hr
  simp only [Wp.bind_iff, Wp.rd_iff, Wp.wr_iff, Wp.pure_iff]
  have hlt := hm.1.1 i hi
  refine ⟨hi, hlt, hi, hlt, fun j hj => ?_⟩
  rw [g_upd _ _ _ _ hlt, g_upd _ _ _ _ hlt]
  by_cases e : j = i
  · subst e; simp [Nat.mod_eq_of_lt (show j < p.posMod by omega)]
  · have : g m.permutation i ≠ g m.permutation j := fun h => e (hm.1.2 _ _ hi (by omega) h).symm
    simp only [this, if_false]
    exact hr j (by omega)

theorem monomialMul_wp (stale A B : Monomial p) (hA : IsPerm A.permutation) :
    Wp False (monomialMul stale A B) (fun r =>
      ∀ i, i < p.N → g r.permutation i = g B.permutation (g A.permutation i) ∧
        g r.coefficients i = fqRed (g A.coefficients i * g B.coefficients (g A.permutation i))) := by
  unfold monomialMul
  refine Wp.forUp (fun n (r : Monomial p) => ∀ i, i < n →
    g r.permutation i = g B.permutation (g A.permutation i) ∧
        g r.coefficients i = fqRed (g A.coefficients i * g B.coefficients (g A.permutation i)))
    (by simp) ?_ (fun _ h => h)
  intro i r hi hr
  simp only [Wp.bind_iff, Wp.rd_iff, Wp.wr_iff, Wp.pure_iff]
  have hlt := hA.1 i hi
  refine ⟨hi, hlt, hi, hi, hi, hlt, hi, fun j hj => ?_⟩
  rw [g_upd _ _ _ _ hi, g_upd _ _ _ _ hi]
  by_cases e : i = j
  · subst e; simp
  · simp only [e, if_false]; exact hr j (by omega)

theorem monomialId_wp (stale : Monomial p) (hN : p.N ≤ p.posMod) :
    Wp False (monomialId stale) (fun r =>
      ∀ i, i < p.N → g r.permutation i = i ∧ g r.coefficients i = 1) := by
  unfold monomialId
  refine Wp.forUp (fun n (r : Monomial p) => ∀ i, i < n → g r.permutation i = i ∧ g r.coefficients i = 1)
    (by simp) ?_ (fun _ h => h)
  intro i r hi hr
  simp only [Wp.bind_iff, Wp.wr_iff, Wp.pure_iff]
  refine ⟨hi, hi, fun j hj => ?_⟩
  rw [g_upd _ _ _ _ hi, g_upd _ _ _ _ hi]
  by_cases e : i = j
  · subst e; simp [Nat.mod_eq_of_lt (show i < p.posMod by omega)]
  · simp only [e, if_false]; exact hr j (by omega)

/-- Validity of the inverse. -/
theorem inv_valid {m r : Monomial p} (hm : m.Valid)
    (h : ∀ i, i < p.N → g r.permutation (g m.permutation i) = i ∧
        g r.coefficients (g m.permutation i) = fqInv (g m.coefficients i)) : r.Valid := by
  refine ⟨⟨fun d hd => ?_, fun d e hd he hde => ?_⟩, fun d hd => ?_⟩
  · obtain ⟨i, hi, rfl⟩ := hm.1.surj d hd
    rw [(h i hi).1]; exact hi
  · obtain ⟨i, hi, rfl⟩ := hm.1.surj d hd
    obtain ⟨j, hj, rfl⟩ := hm.1.surj e he
    rw [(h i hi).1, (h j hj).1] at hde
    rw [hde]
  · obtain ⟨i, hi, rfl⟩ := hm.1.surj d hd
    rw [(h i hi).2]
    have h1 := hm.2 i hi
    have := fqInv_pos (x := g m.coefficients i) (by omega) h1.2
    have := fqInv_lt (g m.coefficients i)
    omega

/-! ## Generator times monomial -/

/-- All entries are canonical field elements. -/
def Reduced {r c : Nat} (G : Vector (Vector Nat c) r) : Prop := ∀ i j, i < r → j < c → g2 G i j < 127

/-- The matrix over the field that an array of field elements stands for. -/
def matOf {r c : Nat} (G : Vector (Vector Nat c) r) : Matrix (Fin r) (Fin c) Fq :=
  fun i j => ((g2 G i j : Nat) : Fq)

theorem matOf_inj {r c : Nat} {G H : Vector (Vector Nat c) r} (hG : Reduced G) (hH : Reduced H)
    (h : matOf G = matOf H) : G = H := by
  apply mat_ext
  intro i j hi hj
  exact cast_inj (hG i j hi hj) (hH i j hi hj) (congrFun (congrFun h ⟨i, hi⟩) ⟨j, hj⟩)

/-- The matrix of a monomial: row `i` has the coefficient `i` in column `permutation[i]`. -/
def Monomial.mat (m : Monomial p) : Matrix (Fin p.N) (Fin p.N) Fq :=
  fun i j => if g m.permutation i = j.val then ((g m.coefficients i : Nat) : Fq) else 0

theorem generatorMonomialMul_wp (res G : GenMat p) (m : Monomial p) (hm : IsPerm m.permutation) :
    Wp False (generatorMonomialMul res G m) (fun R =>
      ∀ r s, r < p.K → s < p.N → g2 R r (g m.permutation s) = fqRed (g2 G r s * g m.coefficients s)) := by
  unfold generatorMonomialMul
  refine Wp.forUp (fun n (R : GenMat p) => ∀ r s, r < p.K → s < n →
      g2 R r (g m.permutation s) = fqRed (g2 G r s * g m.coefficients s)) (by simp) ?_ (fun _ h => h)
  intro c R hc hR
  have hlt := hm.1 c hc
  refine Wp.forUp (fun n (R : GenMat p) => (∀ r s, r < p.K → s < c →
      g2 R r (g m.permutation s) = fqRed (g2 G r s * g m.coefficients s)) ∧
      ∀ r, r < n → g2 R r (g m.permutation c) = fqRed (g2 G r c * g m.coefficients c)) ⟨hR, by simp⟩ ?_ ?_
  · rintro i R hi ⟨h1, h2⟩
    simp only [Wp.bind_iff, Wp.rd_iff, Wp.rd2_iff, Wp.wr2_iff]
    refine ⟨hc, hi, hc, hc, hi, hlt, ?_, ?_⟩
    · intro r s hr hs
      rw [g2_upd2 _ _ _ _ _ _ hi hlt, if_neg]
      · exact h1 r s hr hs
      · rintro ⟨_, h⟩
        have := hm.2 _ _ hc (by omega) h
        omega
    · intro r hr
      rw [g2_upd2 _ _ _ _ _ _ hi hlt]
      by_cases e : i = r
      · subst e; simp
      · rw [if_neg (by simp [e])]; exact h2 r (by omega)
  · rintro R ⟨h1, h2⟩ r s hr hs
    by_cases e : s = c
    · subst e; exact h2 r hr
    · exact h1 r s hr (by omega)

theorem mul_mat_apply (A : Matrix (Fin p.K) (Fin p.N) Fq) (m : Monomial p) (hm : IsPerm m.permutation)
    (r : Fin p.K) (s : Fin p.N) :
    (A * m.mat) r ⟨g m.permutation s, hm.1 s s.2⟩ = A r s * ((g m.coefficients s : Nat) : Fq) := by
  rw [Matrix.mul_apply, Finset.sum_eq_single s]
  · simp [Monomial.mat]
  · intro b _ hb
    have : g m.permutation b ≠ g m.permutation s := fun h => hb (Fin.ext (hm.2 _ _ b.2 s.2 h))
    simp [Monomial.mat, this]
  · simp

theorem generatorMonomialMul_mat (res G : GenMat p) (m : Monomial p) (hm : m.Valid) (hG : Reduced G) :
    Wp False (generatorMonomialMul res G m) (fun R => Reduced R ∧ matOf R = matOf G * m.mat) := by
  refine (generatorMonomialMul_wp res G m hm.1).mono ?_
  intro R hR
  refine ⟨fun i j hi hj => ?_, ?_⟩
  · obtain ⟨s, hs, rfl⟩ := hm.1.surj j hj
    rw [hR i s hi hs]; exact fqRed_lt _
  · ext r j
    obtain ⟨s, hs, hsj⟩ := hm.1.surj j j.2
    have hj : j = ⟨g m.permutation s, hm.1.1 s hs⟩ := Fin.ext hsj.symm
    rw [hj]
    rw [mul_mat_apply (matOf G) m hm.1 r ⟨s, hs⟩]
    show ((g2 R r (g m.permutation s) : Nat) : Fq) = _
    rw [hR r s r.2 hs, fqRed_mul_cast (hG r s r.2 hs) (hm.2 s hs).2]
    rfl

/-- The product of monomials is the matrix product. -/
theorem mat_mul {A B r : Monomial p} (hA : A.Valid) (hB : B.Valid)
    (h : ∀ i, i < p.N → g r.permutation i = g B.permutation (g A.permutation i) ∧
        g r.coefficients i = fqRed (g A.coefficients i * g B.coefficients (g A.permutation i))) :
    r.mat = A.mat * B.mat := by
  ext i j
  rw [Matrix.mul_apply, Finset.sum_eq_single ⟨g A.permutation i, hA.1.1 i i.2⟩]
  · have hi := h i i.2
    simp only [Monomial.mat, hi.1, if_true]
    rw [hi.2, fqRed_mul_cast (hA.2 i i.2).2 (hB.2 _ (hA.1.1 i i.2)).2]
    split <;> simp
  · intro b _ hb
    have : ¬ g A.permutation i = b.val := fun e => hb (Fin.ext e.symm)
    simp [Monomial.mat, this]
  · simp

theorem mul_valid {A B r : Monomial p} (hA : A.Valid) (hB : B.Valid)
    (h : ∀ i, i < p.N → g r.permutation i = g B.permutation (g A.permutation i) ∧
        g r.coefficients i = fqRed (g A.coefficients i * g B.coefficients (g A.permutation i))) :
    r.Valid := by
  refine ⟨⟨fun i hi => ?_, fun i j hi hj e => ?_⟩, fun i hi => ?_⟩
  · rw [(h i hi).1]; exact hB.1.1 _ (hA.1.1 i hi)
  · rw [(h i hi).1, (h j hj).1] at e
    exact hA.1.2 _ _ hi hj (hB.1.2 _ _ (hA.1.1 i hi) (hA.1.1 j hj) e)
  · rw [(h i hi).2]
    have ha := hA.2 i hi
    have hb := hB.2 _ (hA.1.1 i hi)
    refine ⟨?_, fqRed_lt _⟩
    rcases Nat.eq_zero_or_pos (fqRed (g A.coefficients i * g B.coefficients (g A.permutation i))) with e | e
    · have := fqRed_mul_cast ha.2 hb.2
      rw [e, Nat.cast_zero, eq_comm, mul_eq_zero, cast_eq_zero ha.2, cast_eq_zero hb.2] at this
      omega
    · exact e

theorem mat_id {r : Monomial p} (h : ∀ i, i < p.N → g r.permutation i = i ∧ g r.coefficients i = 1) :
    r.mat = 1 := by
  ext i j
  have := h i i.2
  simp [Monomial.mat, this.1, this.2, Matrix.one_apply, Fin.ext_iff]

theorem mat_inv {m r : Monomial p} (hm : m.Valid)
    (h : ∀ i, i < p.N → g r.permutation (g m.permutation i) = i ∧
        g r.coefficients (g m.permutation i) = fqInv (g m.coefficients i)) :
    m.mat * r.mat = 1 := by
  ext i j
  rw [Matrix.mul_apply, Finset.sum_eq_single ⟨g m.permutation i, hm.1.1 i i.2⟩]
  · have hi := h i i.2
    have hc := hm.2 i i.2
    simp only [Monomial.mat, hi.1, hi.2, if_true, Matrix.one_apply, Fin.ext_iff]
    rw [fqInv_cast _ (by omega)]
    have hne : ((g m.coefficients i : Nat) : Fq) ≠ 0 := by
      rw [Ne, cast_eq_zero hc.2]; omega
    split
    · exact mul_inv_cancel₀ hne
    · simp
  · intro b _ hb
    have : ¬ g m.permutation i = b.val := fun e => hb (Fin.ext e.symm)
    simp [Monomial.mat, this]
  · simp

theorem mat_inj {A B : Monomial p} (hA : A.Valid) (hB : B.Valid) (h : A.mat = B.mat) : A = B := by
  have key : ∀ i, i < p.N → g A.permutation i = g B.permutation i ∧ g A.coefficients i = g B.coefficients i := by
    intro i hi
    have hlt := hA.1.1 i hi
    have e := congrFun (congrFun h ⟨i, hi⟩) ⟨g A.permutation i, hlt⟩
    simp only [Monomial.mat, if_true] at e
    have ha := hA.2 i hi
    have hb := hB.2 i hi
    by_cases hp : g B.permutation i = g A.permutation i
    · rw [if_pos hp] at e
      exact ⟨hp.symm, cast_inj ha.2 hb.2 e⟩
    · rw [if_neg hp, cast_eq_zero ha.2] at e; omega
  cases A; cases B
  congr 1
  · exact vec_ext fun i hi => (key i hi).2
  · exact vec_ext fun i hi => (key i hi).1

end LESS
