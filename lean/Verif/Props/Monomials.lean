import Verif.Proofs.Shuffle
import Verif.Proofs.Action
import Verif.Proofs.Monomial
import Verif.Props.Toy
import Mathlib.Data.Int.CardIntervalMod
/-!
# Monomial matrices and their encodings (C18 to C22, C32)

`Monomial.Valid m` says that the `N` permutation entries are distinct and below `N` and that the coefficients
are in `1..126`.  `m.mat` is the matrix over the field with 127 elements with the coefficient `i` in row `i` and
column `permutation[i]`; `matOf G` is the matrix with the entries of `G`; `Reduced G` says that all entries are
below 127.
-/
namespace LESS

open Spec

variable {p : Params}

/-! ## C18 -/

/-- The matrix expanded from a seed, a salt and a round index: the permutation takes every value below `N`
exactly once, the coefficients are in `1..126`, it is the matrix that the specification reads from the output
stream of the seed, and no memory is accessed out of bounds. -/
theorem C18_expand_salt_round (hp : p.WF) (fuel : Nat) (stale : Monomial p) (seed salt : Bytes) (round : Nat) :
    monomialSeedExpandSaltRnd fuel stale seed salt round ≠ .error .oob ∧
    ∀ m, monomialSeedExpandSaltRnd fuel stale seed salt round = .ok m →
      (∀ d < p.N, ∃! i, i < p.N ∧ g m.permutation i = d) ∧ (∀ i < p.N, g m.permutation i < p.N) ∧
      (∀ i < p.N, 1 ≤ g m.coefficients i ∧ g m.coefficients i ≤ 126) ∧
      Spec.IsMonomial p fuel (xof p (seed ++ salt ++ [UInt8.ofNat (round % 65536), UInt8.ofNat (round % 65536 / 256)])) m.mat := by
  have h := monomialFromState_stream fuel stale (initCsprng p (seed ++ salt ++ le16 (u16 round))) _
    (by have := hp.K_lt_N; omega) hp.N_lt.le (xof_at p _)
  have h2 : Wp (¬ ∃ M, Spec.IsMonomial p fuel (xof p (seed ++ salt ++ le16 (u16 round))) M)
      (monomialSeedExpandSaltRnd fuel stale seed salt round) (fun m => m.Valid ∧ Spec.IsMonomial p fuel (xof p (seed ++ salt ++ le16 (u16 round))) m.mat) := by
    unfold monomialSeedExpandSaltRnd
    rw [Wp.bind_iff]
    exact h.mono fun r hr => ⟨hr.1, hr.2.1⟩
  refine ⟨?_, fun m e => ?_⟩
  · intro e; rw [e] at h2; exact h2
  · obtain ⟨⟨h3, h4⟩, h5⟩ := h2.of_ok e
    refine ⟨fun d hd => ?_, h3.1, fun i hi => ?_, h5⟩
    · obtain ⟨i, hi, e⟩ := h3.surj d hd
      exact ⟨i, ⟨hi, e⟩, fun j hj => h3.2 _ _ hj.1 hi (hj.2.trans e.symm)⟩
    · have := h4 i hi; omega

/-- The same for a matrix expanded from a private seed. -/
theorem C18_expand_private (hp : p.WF) (fuel : Nat) (stale : Monomial p) (seed : Bytes) :
    monomialSeedExpandPrikey fuel stale seed ≠ .error .oob ∧
    ∀ m, monomialSeedExpandPrikey fuel stale seed = .ok m →
      (∀ d < p.N, ∃! i, i < p.N ∧ g m.permutation i = d) ∧ (∀ i < p.N, g m.permutation i < p.N) ∧
      (∀ i < p.N, 1 ≤ g m.coefficients i ∧ g m.coefficients i ≤ 126) ∧ Spec.IsMonomial p fuel (xof p seed) m.mat := by
  have h := monomialFromState_stream fuel stale (initCsprng p seed) _ (by have := hp.K_lt_N; omega) hp.N_lt.le (xof_at p _)
  have h2 : Wp (¬ ∃ M, Spec.IsMonomial p fuel (xof p seed) M)
      (monomialSeedExpandPrikey fuel stale seed) (fun m => m.Valid ∧ Spec.IsMonomial p fuel (xof p seed) m.mat) := by
    unfold monomialSeedExpandPrikey
    rw [Wp.bind_iff]
    exact h.mono fun r hr => ⟨hr.1, hr.2.1⟩
  refine ⟨?_, fun m e => ?_⟩
  · intro e; rw [e] at h2; exact h2
  · obtain ⟨⟨h3, h4⟩, h5⟩ := h2.of_ok e
    refine ⟨fun d hd => ?_, h3.1, fun i hi => ?_, h5⟩
    · obtain ⟨i, hi, e⟩ := h3.surj d hd
      exact ⟨i, ⟨hi, e⟩, fun j hj => h3.2 _ _ hj.1 hi (hj.2.trans e.symm)⟩
    · have := h4 i hi; omega

/-- The same for a matrix drawn from a generator in any state. -/
theorem C18_random (hp : p.WF) (fuel : Nat) (stale : Monomial p) (st : Inc) :
    monomialRnd fuel stale st ≠ .error .oob ∧
    ∀ r, monomialRnd fuel stale st = .ok r →
      (∀ d < p.N, ∃! i, i < p.N ∧ g r.1.permutation i = d) ∧ (∀ i < p.N, g r.1.permutation i < p.N) ∧
      (∀ i < p.N, 1 ≤ g r.1.coefficients i ∧ g r.1.coefficients i ≤ 126) := by
  have h2 := monomialFromState_wp fuel stale st (by have := hp.K_lt_N; omega) hp.N_lt.le
  refine ⟨?_, fun m e => ?_⟩
  · intro e; unfold monomialRnd at e; rw [e] at h2; exact h2
  · obtain ⟨h3, h4⟩ := h2.of_ok e
    refine ⟨fun d hd => ?_, h3.1, fun i hi => ?_⟩
    · obtain ⟨i, hi, e⟩ := h3.surj d hd
      exact ⟨i, ⟨hi, e⟩, fun j hj => h3.2 _ _ hj.1 hi (hj.2.trans e.symm)⟩
    · have := h4 i hi; omega

/-! ## C32 -/

/-- Every permutation of `0..N-1` is the result of shuffling the identity with some draws (draw `i` in `i..N-1`),
and these draws are unique; conversely all draws give a permutation. -/
theorem C32_shuffle_bijective (ident : Vector Nat p.N) (hid : ∀ x < p.N, g ident x = x) :
    (∀ draws : Vector Nat p.N, (∀ i < p.N - 1, i ≤ g draws i ∧ g draws i < p.N) →
      ∃ π, shuffleLoop draws ident = .ok π ∧ (∀ x < p.N, g π x < p.N) ∧ ∀ x < p.N, ∀ y < p.N, g π x = g π y → x = y) ∧
    (∀ π : Vector Nat p.N, (∀ x < p.N, g π x < p.N) → (∀ x < p.N, ∀ y < p.N, g π x = g π y → x = y) →
      ∃ draws : Vector Nat p.N, (∀ i < p.N - 1, i ≤ g draws i ∧ g draws i < p.N) ∧ shuffleLoop draws ident = .ok π) ∧
    (∀ draws draws' : Vector Nat p.N, (∀ i < p.N - 1, i ≤ g draws i ∧ g draws i < p.N) →
      (∀ i < p.N - 1, i ≤ g draws' i ∧ g draws' i < p.N) → shuffleLoop draws ident = shuffleLoop draws' ident →
      ∀ i < p.N - 1, g draws i = g draws' i) := by
  have run : ∀ draws : Vector Nat p.N, (∀ i < p.N - 1, i ≤ g draws i ∧ g draws i < p.N) →
      ∃ v, shuffleLoop draws ident = .ok v ∧ ∀ x < p.N, g v x = shuffled (g draws) (p.N - 1) x := by
    intro draws hd
    exact (shuffleLoop_spec draws ident (g draws) (fun i hi => ⟨rfl, (hd i hi).2⟩) hid).exists_ok
  refine ⟨?_, ?_, ?_⟩
  · intro draws hd
    obtain ⟨v, e, hv⟩ := run draws hd
    have hperm := shuffled_perm (n := p.N) (d := g draws) (m := p.N - 1) (by omega) (fun i hi => (hd i hi).2)
    refine ⟨v, e, fun x hx => by rw [hv x hx]; exact hperm.1 x hx, fun x hx y hy h => ?_⟩
    rw [hv x hx, hv y hy] at h
    exact hperm.2 x hx y hy h
  · intro π h1 h2
    obtain ⟨d, hd, he⟩ := shuffled_surj (n := p.N) (π := g π) ⟨h1, h2⟩
    have hg : ∀ i < p.N, g (Vector.ofFn fun i : Fin p.N => d i) i = d i := fun i hi => by rw [g_ofFn _ _ hi]
    have hd2 : ∀ i < p.N - 1, i ≤ g (Vector.ofFn fun i : Fin p.N => d i) i ∧ g (Vector.ofFn fun i : Fin p.N => d i) i < p.N := by
      intro i hi
      rw [hg i (by omega)]; exact hd i hi
    obtain ⟨v, e, hv⟩ := run _ hd2
    refine ⟨_, hd2, ?_⟩
    rw [e]
    congr 1
    apply vec_ext
    intro x hx
    rw [hv x hx, ← he x hx, shuffled_congr fun i hi => hg i (by omega)]
  · intro draws draws' hd hd' e
    obtain ⟨v, e1, hv⟩ := run draws hd
    obtain ⟨v', e2, hv'⟩ := run draws' hd'
    rw [e1, e2] at e
    injection e with e
    subst e
    exact shuffled_inj (n := p.N) (by omega) hd hd' fun x hx => (hv x hx).symm.trans (hv' x hx)

/-- The draws that `yt_shuffle_state` makes: for every state of the generator, draw `i` is `i + w mod (N - i)` for the `i`-th
32-bit word `w` of the generator's output, so it lies in `i..N-1`; the result is the shuffle with these draws. -/
theorem C32_draws (hN : p.N < 4294967296) (st : Inc) (ident : Vector Nat p.N) (hid : ∀ x < p.N, g ident x = x) :
    ∃ draws π, (∀ i < p.N - 1, i ≤ g draws i ∧ g draws i < p.N ∧
        g draws i = i + leNat (((csprngBytes p (4 * p.N) st).1.drop (4 * i)).take 4) % (p.N - i)) ∧
      shuffleLoop draws ident = .ok π ∧ ytShuffleState p st ident = .ok (π, (csprngBytes p (4 * p.N) st).2) := by
  rcases hb : csprngBytes p (4 * p.N) st with ⟨bytes, st'⟩
  have hd := shuffleDraws_range (p := p) bytes hN
  obtain ⟨π, e, -⟩ := (C32_shuffle_bijective ident hid).1 _ hd
  refine ⟨shuffleDraws p bytes, π, fun i hi => ⟨(hd i hi).1, (hd i hi).2, ?_⟩, e, ?_⟩
  · dsimp only
    rw [shuffleDraws, g_ofFn _ _ (by omega)]
    simp only [hi, if_true]
    have := Nat.mod_lt (leNat ((bytes.drop (4 * i)).take 4)) (show 0 < p.N - i by omega)
    unfold u32
    omega
  · unfold ytShuffleState
    rw [hb]
    dsimp only
    rw [e]
    rfl

/-- Every permutation is the result for some output of the generator. -/
theorem C32_every_permutation (hN : p.N < 4294967296) (ident : Vector Nat p.N) (hid : ∀ x < p.N, g ident x = x) (π : Vector Nat p.N)
    (h1 : ∀ x < p.N, g π x < p.N) (h2 : ∀ x < p.N, ∀ y < p.N, g π x = g π y → x = y) :
    ∃ bytes : Bytes, bytes.length = 4 * p.N ∧ shuffleLoop (shuffleDraws p bytes) ident = .ok π := by
  obtain ⟨draws, hd, e⟩ := (C32_shuffle_bijective ident hid).2.1 π h1 h2
  let f : Nat → UInt8 := fun j => UInt8.ofNat ((g draws (j / 4) - j / 4) / 256 ^ (j % 4))
  refine ⟨(List.range (4 * p.N)).map f, by simp, ?_⟩
  have hw : ∀ i < p.N - 1, leNat ((((List.range (4 * p.N)).map f).drop (4 * i)).take 4) = g draws i - i := by
    intro i hi
    have h4 : (((List.range (4 * p.N)).map f).drop (4 * i)).take 4 = [f (4 * i), f (4 * i + 1), f (4 * i + 2), f (4 * i + 3)] := by
      apply List.ext_getElem
      · simp; omega
      · intro j a b
        have hj : j < 4 := by simpa using b
        rw [List.getElem_take, List.getElem_drop, List.getElem_map, List.getElem_range]
        interval_cases j <;> rfl
    have hlt := (hd i hi).2
    have d0 : 4 * i / 4 = i ∧ 4 * i % 4 = 0 := by omega
    have d1 : (4 * i + 1) / 4 = i ∧ (4 * i + 1) % 4 = 1 := by omega
    have d2 : (4 * i + 2) / 4 = i ∧ (4 * i + 2) % 4 = 2 := by omega
    have d3 : (4 * i + 3) / 4 = i ∧ (4 * i + 3) % 4 = 3 := by omega
    rw [h4]
    simp only [leNat, f, d0, d1, d2, d3, UInt8.toNat_ofNat']
    omega
  obtain ⟨π', e', -⟩ := (C32_shuffle_bijective ident hid).1 _ (shuffleDraws_range (p := p) ((List.range (4 * p.N)).map f) hN)
  have hsame : ∀ i < p.N - 1, g (shuffleDraws p ((List.range (4 * p.N)).map f)) i = g draws i := by
    intro i hi
    rw [shuffleDraws, g_ofFn _ _ (by omega)]
    simp only [hi, if_true]
    rw [hw i hi, Nat.mod_eq_of_lt (by have := hd i hi; omega)]
    have := hd i hi
    unfold u32
    omega
  obtain ⟨v, a1, a2⟩ := (shuffleLoop_spec draws ident (g draws) (fun i hi => ⟨rfl, (hd i hi).2⟩) hid).exists_ok
  obtain ⟨v', b1, b2⟩ := (shuffleLoop_spec (shuffleDraws p ((List.range (4 * p.N)).map f)) ident (g draws)
    (fun i hi => ⟨hsame i hi, (hd i hi).2⟩) hid).exists_ok
  rw [b1]
  rw [a1] at e
  injection e with e
  subst e
  congr 1
  exact vec_ext fun x hx => (b2 x hx).trans (a2 x hx).symm

/-- The permutation reversing the order of the 132 columns. -/
example : ∃ bytes : Bytes, bytes.length = 528 ∧
    shuffleLoop (shuffleDraws toy bytes) (Vector.ofFn fun i : Fin toy.N => i.val) = .ok (Vector.ofFn fun i : Fin toy.N => 131 - i.val) :=
  C32_every_permutation (p := toy) (by decide) _ (fun x hx => g_ofFn _ _ hx) _
    (fun x hx => by rw [g_ofFn _ _ hx]; show 131 - x < 132; omega)
    (fun x hx y hy h => by
      rw [g_ofFn _ _ hx, g_ofFn _ _ hy] at h
      have h : 131 - x = 131 - y := h
      have hx : x < 132 := hx
      have hy : y < 132 := hy
      omega)

/-! ## C19 -/

theorem exists_mul (s A B : Monomial p) (hA : A.Valid) (hB : B.Valid) :
    ∃ r, monomialMul s A B = .ok r ∧ r.Valid ∧ r.mat = A.mat * B.mat := by
  obtain ⟨r, e, h⟩ := (monomialMul_wp s A B hA.1).exists_ok
  exact ⟨r, e, mul_valid hA hB h, mat_mul hA hB h⟩

theorem exists_id (hp : p.WF) (s : Monomial p) : ∃ r, monomialId s = .ok r ∧ r.Valid ∧ r.mat = 1 := by
  obtain ⟨r, e, h⟩ := (monomialId_wp s hp.N_lt.le).exists_ok
  refine ⟨r, e, ⟨⟨fun i hi => by rw [(h i hi).1]; exact hi, fun i j hi hj hij => ?_⟩, fun i hi => by rw [(h i hi).2]; omega⟩, mat_id h⟩
  rw [(h i hi).1, (h j hj).1] at hij; exact hij

theorem exists_inv (hp : p.WF) (s A : Monomial p) (hA : A.Valid) :
    ∃ r, monomialInv s A = .ok r ∧ r.Valid ∧ A.mat * r.mat = 1 := by
  obtain ⟨r, e, h⟩ := (monomialInv_wp s A hA hp.N_lt.le).exists_ok
  exact ⟨r, e, inv_valid hA h, mat_inv hA h⟩

/-- Multiplication is associative, whatever the result buffers held before. -/
theorem C19_associative {A B C : Monomial p} (hA : A.Valid) (hB : B.Valid) (hC : C.Valid) (s₁ s₂ s₃ s₄ : Monomial p) :
    ∃ AB BC R, monomialMul s₁ A B = .ok AB ∧ monomialMul s₂ B C = .ok BC ∧
      monomialMul s₃ AB C = .ok R ∧ monomialMul s₄ A BC = .ok R ∧ AB.Valid ∧ R.Valid := by
  obtain ⟨AB, e1, v1, m1⟩ := exists_mul s₁ A B hA hB
  obtain ⟨BC, e2, v2, m2⟩ := exists_mul s₂ B C hB hC
  obtain ⟨R, e3, v3, m3⟩ := exists_mul s₃ AB C v1 hC
  obtain ⟨R', e4, v4, m4⟩ := exists_mul s₄ A BC hA v2
  have : R = R' := mat_inj v3 v4 (by rw [m3, m4, m1, m2, Matrix.mul_assoc])
  subst this
  exact ⟨AB, BC, R, e1, e2, e3, e4, v1, v3⟩

/-- `monomial_mat_id` is a two-sided identity. -/
theorem C19_identity (hp : p.WF) {A : Monomial p} (hA : A.Valid) (s₁ s₂ s₃ : Monomial p) :
    ∃ I, monomialId s₁ = .ok I ∧ I.Valid ∧ monomialMul s₂ I A = .ok A ∧ monomialMul s₃ A I = .ok A := by
  obtain ⟨I, e1, v1, m1⟩ := exists_id hp s₁
  obtain ⟨R, e2, v2, m2⟩ := exists_mul s₂ I A v1 hA
  obtain ⟨R', e3, v3, m3⟩ := exists_mul s₃ A I hA v1
  have h1 : R = A := mat_inj v2 hA (by rw [m2, m1, Matrix.one_mul])
  have h2 : R' = A := mat_inj v3 hA (by rw [m3, m1, Matrix.mul_one])
  subst h1
  subst h2
  exact ⟨I, e1, v1, e2, e3⟩

/-- `monomial_mat_inv` gives a two-sided inverse. -/
theorem C19_inverse (hp : p.WF) {A : Monomial p} (hA : A.Valid) (s₁ s₂ s₃ s₄ : Monomial p) :
    ∃ I B, monomialId s₁ = .ok I ∧ monomialInv s₂ A = .ok B ∧ B.Valid ∧
      monomialMul s₃ A B = .ok I ∧ monomialMul s₄ B A = .ok I := by
  obtain ⟨I, e1, v1, m1⟩ := exists_id hp s₁
  obtain ⟨B, e2, v2, m2⟩ := exists_inv hp s₂ A hA
  obtain ⟨R, e3, v3, m3⟩ := exists_mul s₃ A B hA v2
  obtain ⟨R', e4, v4, m4⟩ := exists_mul s₄ B A v2 hA
  have h1 : R = I := mat_inj v3 v1 (by rw [m3, m1, m2])
  have h2 : R' = I := mat_inj v4 v1 (by rw [m4, m1, mul_eq_one_comm.mp m2])
  subst h1
  subst h2
  exact ⟨R', B, e1, e2, v2, e3, e4⟩

/-! ## C20 -/

/-- `generator_monomial_mul` is the matrix product over the field with 127 elements, with canonical entries. -/
theorem C20_matrix_product (res G : GenMat p) (m : Monomial p) (hm : m.Valid) (hG : Reduced G) :
    ∃ R, generatorMonomialMul res G m = .ok R ∧ Reduced R ∧ matOf R = matOf G * m.mat :=
  (generatorMonomialMul_mat res G m hm hG).exists_ok

/-- Multiplying by `A`, then by `B`, is multiplying by the product; multiplying by `A`, then by its inverse, gives
back the generator. -/
theorem C20_right_action (hp : p.WF) (G : GenMat p) (hG : Reduced G) {A B : Monomial p} (hA : A.Valid) (hB : B.Valid)
    (r₁ r₂ r₃ r₄ : GenMat p) (s₁ s₂ : Monomial p) :
    (∃ GA AB R, generatorMonomialMul r₁ G A = .ok GA ∧ monomialMul s₁ A B = .ok AB ∧
      generatorMonomialMul r₂ GA B = .ok R ∧ generatorMonomialMul r₃ G AB = .ok R) ∧
    ∃ GA A', generatorMonomialMul r₁ G A = .ok GA ∧ monomialInv s₂ A = .ok A' ∧ generatorMonomialMul r₄ GA A' = .ok G := by
  obtain ⟨GA, e1, h1, m1⟩ := C20_matrix_product r₁ G A hA hG
  obtain ⟨AB, e2, v2, m2⟩ := exists_mul s₁ A B hA hB
  obtain ⟨R, e3, h3, m3⟩ := C20_matrix_product r₂ GA B hB h1
  obtain ⟨R', e4, h4, m4⟩ := C20_matrix_product r₃ G AB v2 hG
  obtain ⟨A', e5, v5, m5⟩ := exists_inv hp s₂ A hA
  obtain ⟨R'', e6, h6, m6⟩ := C20_matrix_product r₄ GA A' v5 h1
  have t1 : R = R' := matOf_inj h3 h4 (by rw [m3, m4, m1, m2, Matrix.mul_assoc])
  have t2 : R'' = G := matOf_inj h6 hG (by rw [m6, m1, Matrix.mul_assoc, m5, Matrix.mul_one])
  subst t1
  subst t2
  exact ⟨⟨GA, AB, R, e1, e2, e3, e4⟩, GA, A', e1, e5, e6⟩

/-! ## C21, C22 -/

/-- Encoding and decoding an action gives it back, for all indices below `N` and coefficients below 128, whatever
the buffer and the structure held before.  Neither call accesses anything outside the `MONO_ACTION_PACKEDBYTES`
bytes. -/
theorem C21_action_round_trip (hp : p.WF) (a : MonoAction p) (h1 : ∀ i < p.K, g a.permutation i < p.N)
    (h2 : ∀ i < p.K, g a.coefficients i < 128) (buf : Vector UInt8 p.monoBytes) (stale : MonoAction p) :
    ∃ enc, compressMonomAction buf a = .ok enc ∧ expandToMonomAction stale enc = .ok a := by
  have hf : a.Fits := ⟨fun i hi => (h1 i hi).trans (N_lt_idxBits hp), h2⟩
  exact ⟨_, compressMonomAction_eq hp buf a hf, by rw [expandToMonomAction_eq hp, decode_packed hp a hf]⟩

/-- The encoding does not depend on what the buffer held before (every byte is written), and it is the
concatenation of the indices (8, 9 or 10 bits each) and the coefficients (7 bits each), filled up with zero bits. -/
theorem C21_encoding_layout (hp : p.WF) (a : MonoAction p) (h1 : ∀ i < p.K, g a.permutation i < p.N)
    (h2 : ∀ i < p.K, g a.coefficients i < 128) (buf : Vector UInt8 p.monoBytes) :
    compressMonomAction buf a = .ok (packed p.monoBytes
      (bitFields (indexBits p) a.permutation.toList ++ bitFields 7 a.coefficients.toList)) := by
  have hf : a.Fits := ⟨fun i hi => (h1 i hi).trans (N_lt_idxBits hp), h2⟩
  rw [compressMonomAction_eq hp buf a hf]
  unfold actionBits Params.idxBits indexBits
  cases p.cat <;> rfl

/-- Decoding any buffer of the right size succeeds and does not depend on what the structure held before. -/
theorem C21_decoding_total (hp : p.WF) (stale stale' : MonoAction p) (buf : Vector UInt8 p.monoBytes) :
    ∃ a, expandToMonomAction stale buf = .ok a ∧ expandToMonomAction stale' buf = .ok a :=
  ⟨_, expandToMonomAction_eq hp stale buf, expandToMonomAction_eq hp stale' buf⟩

/-- `is_monom_action_valid` returns 1 exactly if the coefficients are in `1..126`, the indices below `N` and
distinct; else it returns 0.  It accesses nothing out of bounds for any content. -/
theorem C22_validity_exact (a : MonoAction p) :
    ∃ r, isMonomActionValid a = .ok r ∧ (r = 0 ∨ r = 1) ∧
      (r = 1 ↔ (∀ i < p.K, 1 ≤ g a.coefficients i ∧ g a.coefficients i ≤ 126) ∧ (∀ i < p.K, g a.permutation i < p.N) ∧
        ∀ i < p.K, ∀ j < p.K, g a.permutation i = g a.permutation j → i = j) := by
  obtain ⟨r, e, h⟩ := (isMonomActionValid_wp a).exists_ok
  have hiff : a.Valid ↔ (∀ i < p.K, 1 ≤ g a.coefficients i ∧ g a.coefficients i ≤ 126) ∧ (∀ i < p.K, g a.permutation i < p.N) ∧
        ∀ i < p.K, ∀ j < p.K, g a.permutation i = g a.permutation j → i = j := by
    unfold MonoAction.Valid
    constructor
    · rintro ⟨a1, a2, a3⟩
      exact ⟨fun i hi => by have := a1 i hi; omega, a2, fun i hi j hj => a3 i j hi hj⟩
    · rintro ⟨a1, a2, a3⟩
      exact ⟨fun i hi => by have := a1 i hi; omega, a2, fun i j hi hj => a3 i hi j hj⟩
  rcases h with ⟨rfl, h⟩ | ⟨rfl, h⟩
  · exact ⟨1, e, Or.inr rfl, by simp only [true_iff]; exact hiff.mp h⟩
  · refine ⟨0, e, Or.inl rfl, ?_⟩
    constructor
    · intro h0; exact absurd h0 (by decide)
    · intro h1; exact absurd (hiff.mpr h1) h

/-! ## Concrete cases -/

/-- A cyclic shift by one column with the factors 3 in even and 5 in odd rows. -/
def shiftMono (p : Params) : Monomial p :=
  ⟨Vector.ofFn fun i => if i.val % 2 = 0 then 3 else 5, Vector.ofFn fun i => (i.val + 1) % p.N⟩

theorem shiftMono_valid (p : Params) : (shiftMono p).Valid := by
  refine ⟨⟨fun i hi => ?_, fun i j hi hj h => ?_⟩, fun i hi => ?_⟩
  · simp only [shiftMono]; rw [g_ofFn _ _ hi]; exact Nat.mod_lt _ (by omega)
  · simp only [shiftMono] at h
    rw [g_ofFn _ _ hi, g_ofFn _ _ hj] at h
    dsimp only at h
    rcases Nat.lt_or_ge (i + 1) p.N with h1 | h1 <;> rcases Nat.lt_or_ge (j + 1) p.N with h2 | h2
    · rw [Nat.mod_eq_of_lt h1, Nat.mod_eq_of_lt h2] at h; omega
    · rw [Nat.mod_eq_of_lt h1, show j + 1 = p.N by omega, Nat.mod_self] at h; omega
    · rw [Nat.mod_eq_of_lt h2, show i + 1 = p.N by omega, Nat.mod_self] at h; omega
    · omega
  · simp only [shiftMono]; rw [g_ofFn _ _ hi]; dsimp only; split <;> omega

/-- A valid matrix that moves every column, over the category 1 parameters. -/
example : (shiftMono Params.cat1Balanced).Valid ∧ g (shiftMono Params.cat1Balanced).permutation 0 = 1 ∧
    g (shiftMono Params.cat1Balanced).permutation 251 = 0 := by
  refine ⟨shiftMono_valid _, ?_, ?_⟩
  · simp only [shiftMono]; rw [g_ofFn _ _ (by decide)]; rfl
  · simp only [shiftMono]; rw [g_ofFn _ _ (by decide)]; rfl

/-- An action that the encoding preserves and the validity check rejects: all indices 251, all coefficients 127. -/
example : ∃ a : MonoAction Params.cat1Balanced, (∀ i < 126, g a.permutation i < 252) ∧ (∀ i < 126, g a.coefficients i < 128) ∧
    isMonomActionValid a = .ok 0 := by
  refine ⟨⟨Vector.replicate _ 127, Vector.replicate _ 251⟩, fun i hi => ?_, fun i hi => ?_, ?_⟩
  · dsimp only; rw [g_replicate (n := Params.cat1Balanced.K) _ _ hi]; decide
  · dsimp only; rw [g_replicate (n := Params.cat1Balanced.K) _ _ hi]; decide
  · obtain ⟨r, e, h01, hiff⟩ := C22_validity_exact (p := Params.cat1Balanced) ⟨Vector.replicate _ 127, Vector.replicate _ 251⟩
    rcases h01 with rfl | rfl
    · exact e
    · have := (hiff.mp rfl).1 0 (by decide)
      rw [g_replicate _ _ (by decide)] at this
      omega

/-- Draws that are not all trivial: always exchange with the last position. -/
example : ∀ i < Params.cat1Balanced.N - 1, i ≤ g (Vector.replicate Params.cat1Balanced.N 251) i ∧
    g (Vector.replicate Params.cat1Balanced.N 251) i < Params.cat1Balanced.N := by
  intro i hi
  have h : i < 251 := hi
  rw [g_replicate _ _ (by show i < 252; omega)]
  exact ⟨by omega, by decide⟩

end LESS
