import Verif.Proofs.InPlace
import Verif.Props.Toy
/-!
# C86: results written over an argument

`monomial_mat_mul`, `monomial_mat_inv`, `monomial_compose_action` and `generator_monomial_mul` take the result by
pointer. With separate memory they compute the product, the inverse and the composition. The theorems determine
for every argument whether the call that overwrites an argument gives the same matrix.
-/
namespace LESS
open Spec

variable {p : Params}

namespace Spec

/-- The matrix is diagonal: its permutation is the identity. -/
def Diagonal {n : Nat} (M : Matrix (Fin n) (Fin n) (ZMod 127)) : Prop := ∀ i j, i ≠ j → M i j = 0

end Spec

theorem diagonal_iff (m : Monomial p) (hm : m.Valid) : Spec.Diagonal m.mat ↔ ∀ i, i < p.N → g m.permutation i = i := by
  constructor
  · intro h i hi
    by_contra hne
    have hlt := hm.1.1 i hi
    have hc := hm.2 i hi
    have e := h ⟨i, hi⟩ ⟨g m.permutation i, hlt⟩ (fun e => hne (congrArg Fin.val e).symm)
    simp only [Monomial.mat, if_true] at e
    have := (cast_eq_zero hc.2).mp e
    omega
  · intro h i j hij
    have : ¬ g m.permutation i = j.val := by
      rw [h i i.2]
      exact fun e => hij (Fin.ext e)
    simp [Monomial.mat, this]

theorem fqRed_cancel {a b c : Nat} (ha : 1 ≤ a) (ha' : a < 127) (hb : b < 127) (hc : c < 127)
    (h : fqRed (a * b) = fqRed (a * c)) : b = c := by
  apply cast_inj hb hc
  have e := congrArg (fun x : Nat => (x : Fq)) h
  simp only [fqRed_mul_cast ha' hb, fqRed_mul_cast ha' hc] at e
  refine mul_left_cancel₀ ?_ e
  rw [Ne, cast_eq_zero ha']; omega

/-- C86: a product written over its first factor is the product exactly if the second factor multiplies every
column by the same number as the column that this one is moved to. -/
theorem C86_product_over_first (A B : Monomial p) (hA : A.Valid) (hB : B.Valid) :
    ∃ r, monomialMulOverFirst A B = .ok r ∧ (r.mat = A.mat * B.mat ↔
      ∀ d, d < p.N → g B.coefficients (g B.permutation d) = g B.coefficients d) := by
  obtain ⟨r, hr, h⟩ := (mulOverFirst_wp A B hA hB).exists_ok
  refine ⟨r, hr, ?_⟩
  have hlt : ∀ i, i < p.N → g r.coefficients i < 127 := fun i hi => by rw [(h i hi).2]; exact fqRed_lt _
  rw [mat_mul_iff hA hB hlt]
  constructor
  · intro hc d hd
    obtain ⟨i, hi, rfl⟩ := hA.1.surj d hd
    have ha := hA.2 i hi
    have := (hc i hi).2
    rw [(h i hi).2] at this
    exact fqRed_cancel ha.1 ha.2 (hB.2 _ (hB.1.1 _ hd)).2 (hB.2 _ hd).2 this
  · intro hc i hi
    refine ⟨(h i hi).1, ?_⟩
    rw [(h i hi).2, hc _ (hA.1.1 i hi)]

/-- C86: a product written over its second factor is the product exactly if the first factor is diagonal. -/
theorem C86_product_over_second (A B : Monomial p) (hA : A.Valid) (hB : B.Valid) :
    ∃ r, monomialMulOverSecond A B = .ok r ∧ (r.mat = A.mat * B.mat ↔ Spec.Diagonal A.mat) := by
  by_cases hid : ∀ i, i < p.N → g A.permutation i = i
  · obtain ⟨r, hr, h⟩ := (mulOverSecond_id A B hid).exists_ok
    exact ⟨r, hr, fun _ => (diagonal_iff A hA).mpr hid, fun _ => mat_mul hA hB h⟩
  · obtain ⟨j, hj, hdown, hmin⟩ := perm_down hA.1 hid
    obtain ⟨r, hr, h1, h2⟩ := (mulOverSecond_wp A B hA hB j hj hdown hmin).exists_ok
    refine ⟨r, hr, fun h => ?_, fun h => absurd ((diagonal_iff A hA).mp h) hid⟩
    have := ((mat_mul_iff hA hB h1).mp h j hj).1
    rw [h2] at this
    have hlt := hA.1.1 j hj
    have e := hB.1.2 _ _ (hA.1.1 _ hlt) hlt this
    have := hA.1.2 _ _ hlt hj e
    omega

/-- C86: an inverse written over its argument is the inverse exactly if the permutation is its own inverse and two
columns that change places are multiplied by numbers inverse to each other. -/
theorem C86_inverse_over (hN : p.N ≤ p.posMod) (m : Monomial p) (hm : m.Valid) :
    ∃ r, monomialInvOver m = .ok r ∧ (m.mat * r.mat = 1 ↔
      ∀ i, i < p.N → g m.permutation (g m.permutation i) = i ∧ (g m.permutation i ≠ i →
        g m.coefficients i * g m.coefficients (g m.permutation i) % 127 = 1)) := by
  obtain ⟨r, hr, h1, h2⟩ := (invOver_perm m hm hN).exists_ok
  refine ⟨r, hr, ?_⟩
  rw [mat_inv_iff hm h2]
  have hstep : ∀ i, i < p.N → ∀ j, j < p.N → (g m.coefficients i * g m.coefficients j % 127 = 1 ↔
      g m.coefficients j = fqInv (g m.coefficients i)) := by
    intro i hi j hj
    have hci := hm.2 i hi
    have hcj := hm.2 j hj
    have hne : ((g m.coefficients i : Nat) : Fq) ≠ 0 := by
      rw [Ne, cast_eq_zero hci.2]; omega
    constructor
    · intro h
      apply cast_inj hcj.2 (fqInv_lt _)
      rw [fqInv_cast _ (by omega)]
      apply eq_inv_of_mul_eq_one_right
      rw [← Nat.cast_mul, ← Nat.cast_one (R := Fq)]
      exact (ZMod.natCast_eq_natCast_iff' _ _ _).mpr (by rw [h])
    · intro h
      have e : ((g m.coefficients i : Nat) : Fq) * ((g m.coefficients j : Nat) : Fq) = 1 := by
        rw [h, fqInv_cast _ (by omega)]
        exact mul_inv_cancel₀ hne
      rw [← Nat.cast_mul, ← Nat.cast_one (R := Fq)] at e
      exact (ZMod.natCast_eq_natCast_iff' _ _ _).mp e
  constructor
  · intro h
    have hinv : ∀ i, i < p.N → g m.permutation (g m.permutation i) = i :=
      invSteps_involution hm.1 fun i hi => by rw [← h1]; exact (h i hi).1
    obtain ⟨r', hr', _, h4⟩ := (invOver_wp m hm hN hinv).exists_ok
    obtain rfl : r = r' := by rw [hr] at hr'; exact Except.ok.inj hr'
    have key : ∀ i, i < p.N → g m.permutation i < i →
        g m.coefficients i * g m.coefficients (g m.permutation i) % 127 = 1 := by
      intro i hi hlt
      have hj := hm.1.1 i hi
      have hcj := hm.2 _ hj
      have e1 := (h i hi).2
      rw [h4 i hi, if_neg (by omega)] at e1
      rw [hstep i hi _ hj, ← e1]
      apply cast_inj hcj.2 (fqInv_lt _)
      have := fqInv_lt (g m.coefficients (g m.permutation i))
      rw [fqInv_cast _ (by omega), fqInv_cast _ (by omega), inv_inv]
    refine fun i hi => ⟨hinv i hi, fun hne => ?_⟩
    rcases Nat.lt_or_gt_of_ne hne with hlt | hgt
    · exact key i hi hlt
    · have := key _ (hm.1.1 i hi) (by rw [hinv i hi]; exact hgt)
      rwa [hinv i hi, Nat.mul_comm] at this
  · intro h
    have hinv := fun i hi => (h i hi).1
    obtain ⟨r', hr', h3, h4⟩ := (invOver_wp m hm hN hinv).exists_ok
    obtain rfl : r = r' := by rw [hr] at hr'; exact Except.ok.inj hr'
    intro i hi
    have hj := hm.1.1 i hi
    refine ⟨by rw [h3 _ hj, hinv i hi], ?_⟩
    rw [h4 i hi]
    split
    · rfl
    · next hlt =>
      have hcj := hm.2 _ hj
      have := fqInv_lt (g m.coefficients (g m.permutation i))
      rw [← (hstep i hi _ hj).mp ((h i hi).2 (by omega))]
      apply cast_inj (fqInv_lt _) hcj.2
      rw [fqInv_cast _ (by omega), fqInv_cast _ (by omega), inv_inv]

/-- C86: the composition written over the action is the composition in separate memory exactly if every column that
the result selects is multiplied by the same number as the column that was moved to its place. -/
theorem C86_action_over (hN : p.N ≤ p.posMod) (stale stale' : Monomial p) (out : MonoAction p) (m : Monomial p)
    (a : MonoAction p) (hm : m.Valid) (ha : ∀ t, t < p.K → g a.permutation t < p.N)
    (hc : ∀ t, t < p.K → 1 ≤ g a.coefficients t ∧ g a.coefficients t < 127) :
    ∃ r r', composeActionOver stale m a = .ok r ∧ composeAction stale' out m a = .ok r' ∧
      r.permutation = r'.permutation ∧ (r = r' ↔ ∀ t u, t < p.K → u < p.N →
        g m.permutation (g m.permutation u) = g a.permutation t →
        g m.coefficients (g m.permutation u) = g m.coefficients u) := by
  obtain ⟨r, hr, h⟩ := (composeActionOver_wp stale m a hN hm ha).exists_ok
  obtain ⟨r', hr', h'⟩ := (composeAction_wp stale' out m a hN hm ha).exists_ok
  have key : ∀ t, t < p.K → ∀ u, u < p.N → g m.permutation u = g r'.permutation t →
      g r.permutation t = g r'.permutation t ∧ g r.coefficients t = fqRed (g a.coefficients t * g m.coefficients u) := by
    intro t ht u hu he
    obtain ⟨h1, h2, _⟩ := h' t ht
    exact h t ht _ u h1 hu h2 he
  have hperm : r.permutation = r'.permutation := vec_ext fun t ht => by
    obtain ⟨u, hu, he⟩ := hm.1.surj _ (h' t ht).1
    exact (key t ht u hu he).1
  refine ⟨r, r', hr, hr', hperm, ?_⟩
  constructor
  · rintro rfl t u ht hu he
    obtain ⟨h1, h2, h3⟩ := h' t ht
    have e : g m.permutation u = g r.permutation t := hm.1.2 _ _ (hm.1.1 u hu) h1 (he.trans h2.symm)
    have h4 := (key t ht u hu e).2
    rw [h3] at h4
    rw [e]
    exact fqRed_cancel (hc t ht).1 (hc t ht).2 (hm.2 _ h1).2 (hm.2 u hu).2 h4
  · intro hall
    have hcoef : r.coefficients = r'.coefficients := vec_ext fun t ht => by
      obtain ⟨h1, h2, h3⟩ := h' t ht
      obtain ⟨u, hu, he⟩ := hm.1.surj _ h1
      rw [(key t ht u hu he).2, h3, ← hall t u ht hu (by rw [he, h2]), he]
    cases r; cases r'
    cases hperm; cases hcoef; rfl

/-- C86: a product of a generator matrix with a monomial matrix written over the generator matrix is the product
for every generator matrix exactly if the monomial matrix is diagonal. -/
theorem C86_generator_over (hK : 0 < p.K) (m : Monomial p) (hm : m.Valid) :
    (∀ G : GenMat p, Reduced G → ∃ R, generatorMonomialMulOver G m = .ok R ∧ matOf R = matOf G * m.mat) ↔
      Spec.Diagonal m.mat := by
  rw [diagonal_iff m hm]
  constructor
  · intro h
    by_contra hne
    obtain ⟨k, hk, hup, hmin⟩ := perm_up hm.1 hne
    have ht := hm.1.1 k hk
    let G : GenMat p := Vector.ofFn fun _ => Vector.ofFn fun j => if j.val = k then 1 else 0
    have hg : ∀ r j, r < p.K → j < p.N → g2 G r j = if j = k then 1 else 0 := by
      intro r j hr hj
      exact g2_ofFn (fun _ j => if j.val = k then 1 else 0) r j hr hj
    have hG : Reduced G := fun r j hr hj => by
      rw [hg r j hr hj]; split <;> decide
    obtain ⟨R, hR, hmat⟩ := h G hG
    obtain ⟨R', hR', hred, hval⟩ := (generatorMulOver_wp G m hm hG k hk hup hmin).exists_ok
    obtain rfl : R = R' := by rw [hR] at hR'; exact Except.ok.inj hR'
    have e := congrFun (congrFun hmat ⟨0, hK⟩) ⟨g m.permutation (g m.permutation k), hm.1.1 _ ht⟩
    rw [mul_mat_apply (matOf G) m hm.1 ⟨0, hK⟩ ⟨g m.permutation k, ht⟩] at e
    simp only [matOf, hval 0 hK, hg 0 _ hK ht, hg 0 _ hK hk, if_true, if_neg (show ¬ g m.permutation k = k by omega),
      Nat.cast_zero, zero_mul, Nat.one_mul] at e
    have hck := hm.2 k hk
    have hct := hm.2 _ ht
    have e2 : fqRed (g m.coefficients k) = g m.coefficients k := by
      have := fqRed_mul_cast (a := 1) (b := g m.coefficients k) (by decide) hck.2
      rw [Nat.one_mul] at this
      exact cast_inj (fqRed_lt _) hck.2 (by rw [this]; simp)
    rw [e2, fqRed_mul_cast hck.2 hct.2, mul_eq_zero, cast_eq_zero hck.2, cast_eq_zero hct.2] at e
    omega
  · intro hid G hG
    obtain ⟨R, hR, h⟩ := (generatorMulOver_id G m hm hid).exists_ok
    refine ⟨R, hR, ?_⟩
    obtain ⟨R', hR', hred, hmat⟩ := (generatorMonomialMul_mat G G m hm hG).exists_ok
    obtain ⟨R'', hR'', h''⟩ := (generatorMonomialMul_wp G G m hm.1).exists_ok
    obtain rfl : R' = R'' := by rw [hR'] at hR''; exact Except.ok.inj hR''
    rw [← hmat]
    ext r j
    obtain ⟨s, hs, hsj⟩ := hm.1.surj j j.2
    show ((g2 R r j : Nat) : Fq) = ((g2 R' r j : Nat) : Fq)
    rw [← hsj, h r s r.2 hs, h'' r s r.2 hs]

/-! ## Cases -/

/-- Two columns change places and the first one is doubled. -/
def swapMono (p : Params) : Monomial p :=
  ⟨Vector.ofFn fun i => if i.val = 0 then 2 else 1,
   Vector.ofFn fun i => if i.val = 0 then 1 else if i.val = 1 then 0 else i.val⟩

theorem swapMono_perm (i : Nat) (hi : i < p.N) :
    g (swapMono p).permutation i = if i = 0 then 1 else if i = 1 then 0 else i := g_ofFn _ _ hi

theorem swapMono_coef (i : Nat) (hi : i < p.N) : g (swapMono p).coefficients i = if i = 0 then 2 else 1 :=
  g_ofFn _ _ hi

theorem swapMono_valid (h : 2 ≤ p.N) : (swapMono p).Valid := by
  refine ⟨⟨fun i hi => ?_, fun i j hi hj e => ?_⟩, fun i hi => ?_⟩
  · rw [swapMono_perm i hi]; split
    · omega
    · split <;> omega
  · rw [swapMono_perm i hi, swapMono_perm j hj] at e
    split at e <;> split at e <;> (try split at e) <;> (try split at e) <;> omega
  · rw [swapMono_coef i hi]; split <;> omega

/-- C86: every one of the operations gives a wrong matrix for some argument, with every parameter set. -/
theorem C86_fails_overwrite (hN2 : 2 ≤ p.N) (hN : p.N ≤ p.posMod) (hK : 0 < p.K) (stale stale' : Monomial p)
    (out : MonoAction p) : ∃ m : Monomial p, m.Valid ∧
    (∃ r, monomialMulOverFirst m m = .ok r ∧ r.mat ≠ m.mat * m.mat) ∧
    (∃ r, monomialMulOverSecond m m = .ok r ∧ r.mat ≠ m.mat * m.mat) ∧
    (∃ r, monomialInvOver m = .ok r ∧ m.mat * r.mat ≠ 1) ∧
    (∃ a r r', composeActionOver stale m a = .ok r ∧ composeAction stale' out m a = .ok r' ∧ r ≠ r') ∧
    ∃ G : GenMat p, Reduced G ∧ ∀ R, generatorMonomialMulOver G m = .ok R → matOf R ≠ matOf G * m.mat := by
  have hv := swapMono_valid hN2
  have p0 : g (swapMono p).permutation 0 = 1 := swapMono_perm 0 (by omega)
  have p1 : g (swapMono p).permutation 1 = 0 := swapMono_perm 1 (by omega)
  have c0 : g (swapMono p).coefficients 0 = 2 := swapMono_coef 0 (by omega)
  have c1 : g (swapMono p).coefficients 1 = 1 := swapMono_coef 1 (by omega)
  have hnd : ¬ Spec.Diagonal (swapMono p).mat := by
    rw [diagonal_iff _ hv]
    intro h
    have := h 0 (by omega)
    omega
  refine ⟨swapMono p, hv, ?_, ?_, ?_, ?_, ?_⟩
  · obtain ⟨r, hr, h⟩ := C86_product_over_first _ _ hv hv
    refine ⟨r, hr, fun e => ?_⟩
    have := h.mp e 0 (by omega)
    rw [p0, c0, c1] at this
    omega
  · obtain ⟨r, hr, h⟩ := C86_product_over_second _ _ hv hv
    exact ⟨r, hr, fun e => hnd (h.mp e)⟩
  · obtain ⟨r, hr, h⟩ := C86_inverse_over hN _ hv
    refine ⟨r, hr, fun e => ?_⟩
    have := (h.mp e 0 (by omega)).2 (by omega)
    rw [p0, c0, c1] at this
    omega
  · let a : MonoAction p := ⟨Vector.replicate p.K 1, Vector.replicate p.K 0⟩
    obtain ⟨r, r', hr, hr', _, h⟩ := C86_action_over hN stale stale' out (swapMono p) a hv
      (fun t ht => by simp only [a, g_replicate _ _ ht]; omega)
      (fun t ht => by simp only [a, g_replicate _ _ ht]; omega)
    refine ⟨a, r, r', hr, hr', fun e => ?_⟩
    have := h.mp e 0 0 hK (by omega) (by simp only [a, g_replicate _ _ hK, p0, p1])
    rw [p0, c0, c1] at this
    omega
  · by_contra hno
    apply hnd
    rw [← C86_generator_over hK _ hv]
    intro G hG
    by_contra hR
    refine hno ⟨G, hG, fun R hRe e => hR ⟨R, hRe, e⟩⟩

/-- The pair of columns that changes places is multiplied by 2 and 64, which are inverse to each other. -/
def swapInv (p : Params) : Monomial p :=
  ⟨Vector.ofFn fun i => if i.val = 0 then 2 else if i.val = 1 then 64 else 5,
   Vector.ofFn fun i => if i.val = 0 then 1 else if i.val = 1 then 0 else i.val⟩

theorem swapInv_perm (i : Nat) (hi : i < p.N) :
    g (swapInv p).permutation i = if i = 0 then 1 else if i = 1 then 0 else i := g_ofFn _ _ hi

theorem swapInv_coef (i : Nat) (hi : i < p.N) :
    g (swapInv p).coefficients i = if i = 0 then 2 else if i = 1 then 64 else 5 := g_ofFn _ _ hi

theorem swapInv_valid (h : 2 ≤ p.N) : (swapInv p).Valid := by
  refine ⟨⟨fun i hi => ?_, fun i j hi hj e => ?_⟩, fun i hi => ?_⟩
  · rw [swapInv_perm i hi]; split
    · omega
    · split <;> omega
  · rw [swapInv_perm i hi, swapInv_perm j hj] at e
    split at e <;> split at e <;> (try split at e) <;> (try split at e) <;> omega
  · rw [swapInv_coef i hi]; split
    · omega
    · split <;> omega

/-- A diagonal monomial matrix. -/
def diagMono (p : Params) : Monomial p :=
  ⟨Vector.ofFn fun i => if i.val = 0 then 2 else 1, Vector.ofFn fun i => i.val⟩

theorem diagMono_valid (p : Params) : (diagMono p).Valid := by
  refine ⟨⟨fun i hi => ?_, fun i j hi hj e => ?_⟩, fun i hi => ?_⟩
  · rw [show g (diagMono p).permutation i = i from g_ofFn _ _ hi]; exact hi
  · rwa [show g (diagMono p).permutation i = i from g_ofFn _ _ hi,
      show g (diagMono p).permutation j = j from g_ofFn _ _ hj] at e
  · rw [show g (diagMono p).coefficients i = if i = 0 then 2 else 1 from g_ofFn _ _ hi]; split <;> omega

theorem diagMono_diagonal (p : Params) : Spec.Diagonal (diagMono p).mat :=
  (diagonal_iff _ (diagMono_valid p)).mpr fun _ hi => g_ofFn _ _ hi

/-- An inverse written over its argument that is right, and one that is wrong. -/
theorem inverse_over_both (hN2 : 2 ≤ p.N) (hN : p.N ≤ p.posMod) :
    (∃ r, monomialInvOver (swapInv p) = .ok r ∧ (swapInv p).mat * r.mat = 1) ∧
    ∃ r, monomialInvOver (swapMono p) = .ok r ∧ (swapMono p).mat * r.mat ≠ 1 := by
  constructor
  · obtain ⟨r, hr, h⟩ := C86_inverse_over hN _ (swapInv_valid hN2)
    refine ⟨r, hr, h.mpr fun i hi => ?_⟩
    have hlt := (swapInv_valid hN2).1.1 i hi
    rw [swapInv_perm _ hlt, swapInv_coef _ hlt, swapInv_coef i hi, swapInv_perm i hi]
    by_cases h0 : i = 0
    · simp [h0]
    · by_cases h1 : i = 1
      · simp [h1]
      · simp [h0, h1]
  · obtain ⟨r, hr, h⟩ := C86_inverse_over hN _ (swapMono_valid hN2)
    refine ⟨r, hr, fun e => ?_⟩
    have := (h.mp e 0 (by omega)).2
    rw [show g (swapMono p).permutation 0 = 1 from swapMono_perm 0 (by omega),
      show g (swapMono p).coefficients 0 = 2 from swapMono_coef 0 (by omega),
      show g (swapMono p).coefficients 1 = 1 from swapMono_coef 1 (by omega)] at this
    have := this (by omega)
    omega

example : (∃ r, monomialInvOver (swapInv Params.cat1Balanced) = .ok r ∧
      (swapInv Params.cat1Balanced).mat * r.mat = 1) ∧
    ∃ r, monomialInvOver (swapMono Params.cat1Balanced) = .ok r ∧ (swapMono Params.cat1Balanced).mat * r.mat ≠ 1 :=
  inverse_over_both (by decide) (by decide)

/-- The first product overwrites its first factor and is right, as all numbers moved by the second one are equal. -/
theorem product_over_first_right (hN2 : 2 ≤ p.N) :
    ∃ r, monomialMulOverFirst (swapMono p) (diagMono p) = .ok r ∧ r.mat = (swapMono p).mat * (diagMono p).mat := by
  obtain ⟨r, hr, h⟩ := C86_product_over_first _ _ (swapMono_valid hN2) (diagMono_valid p)
  exact ⟨r, hr, h.mpr fun d hd => by rw [show g (diagMono p).permutation d = d from g_ofFn _ _ hd]⟩

example : ∃ r, monomialMulOverFirst (swapMono Params.cat3Balanced) (diagMono Params.cat3Balanced) = .ok r ∧
    r.mat = (swapMono Params.cat3Balanced).mat * (diagMono Params.cat3Balanced).mat :=
  product_over_first_right (by decide)

example : ∃ r, monomialMulOverSecond (diagMono Params.cat1Balanced) (swapMono Params.cat1Balanced) = .ok r ∧
    r.mat = (diagMono Params.cat1Balanced).mat * (swapMono Params.cat1Balanced).mat := by
  obtain ⟨r, hr, h⟩ := C86_product_over_second _ _ (diagMono_valid Params.cat1Balanced) (swapMono_valid (by decide))
  exact ⟨r, hr, h.mpr (diagMono_diagonal _)⟩

example (G : GenMat Params.cat5Balanced) (hG : Reduced G) :
    ∃ R, generatorMonomialMulOver G (diagMono Params.cat5Balanced) = .ok R ∧
      matOf R = matOf G * (diagMono Params.cat5Balanced).mat :=
  (C86_generator_over (by decide) _ (diagMono_valid _)).mpr (diagMono_diagonal _) G hG

example (stale stale' : Monomial Params.cat1Balanced) (out : MonoAction Params.cat1Balanced) :
    ∃ m : Monomial Params.cat1Balanced, m.Valid ∧
      ∃ a r r', composeActionOver stale m a = .ok r ∧ composeAction stale' out m a = .ok r' ∧ r ≠ r' := by
  obtain ⟨m, hm, _, _, _, h, _⟩ := C86_fails_overwrite (p := Params.cat1Balanced) (by decide) (by decide) (by decide)
    stale stale' out
  exact ⟨m, hm, h⟩

/-- The composition with a diagonal matrix may overwrite the action. -/
theorem action_over_diagonal (hN : p.N ≤ p.posMod) (stale stale' : Monomial p) (out a : MonoAction p)
    (ha : ∀ t, t < p.K → g a.permutation t < p.N)
    (hc : ∀ t, t < p.K → 1 ≤ g a.coefficients t ∧ g a.coefficients t < 127) :
    composeActionOver stale (diagMono p) a = composeAction stale' out (diagMono p) a := by
  obtain ⟨r, r', hr, hr', _, h⟩ := C86_action_over hN stale stale' out (diagMono p) a (diagMono_valid p) ha hc
  rw [hr, hr', h.mpr fun t u _ hu _ => by rw [show g (diagMono p).permutation u = u from g_ofFn _ _ hu]]

end LESS
