import Mathlib.SetTheory.Cardinal.Finite
import Mathlib.Algebra.Order.BigOperators.Ring.Finset
import Verif.Props.Monomials
/-!
# How uniform the shuffle is (C60)

`yt_shuffle_state` reduces 32-bit words modulo `N - i`.  Over all outputs of `4 N` bytes, the permutations are not exactly
equally frequent.  How often each occurs is computed exactly, and any two frequencies are close.
-/
namespace LESS

open Spec

variable {p : Params}

/-- All byte strings of a given length. -/
def BytesOf (n : Nat) : Type := {b : Bytes // b.length = n}

theorem take4 (b : Bytes) (i : Nat) (h : 4 * i + 4 ≤ b.length) :
    (b.drop (4 * i)).take 4 = [b.getD (4 * i) 0, b.getD (4 * i + 1) 0, b.getD (4 * i + 2) 0, b.getD (4 * i + 3) 0] := by
  apply List.ext_getElem
  · simp; omega
  · intro j a c
    have hj : j < 4 := by simpa using c
    rw [List.getElem_take, List.getElem_drop]
    have hg : ∀ k (hk : k < b.length), b[k] = b.getD k 0 := fun k hk => by simp [hk]
    interval_cases j <;> simp [hg]

/-- A string of `4 n` bytes is the same as `n` words of 32 bits. -/
def bytesWords (n : Nat) : BytesOf (4 * n) ≃ (Fin n → Fin (2 ^ 32)) where
  toFun b i := ⟨leNat ((b.1.drop (4 * i.val)).take 4), by
    have := i.2
    rw [take4 _ _ (by rw [b.2]; omega)]
    simp only [leNat]
    have h0 := (b.1.getD (4 * i) 0).toNat_lt
    have h1 := (b.1.getD (4 * i + 1) 0).toNat_lt
    have h2 := (b.1.getD (4 * i + 2) 0).toNat_lt
    have h3 := (b.1.getD (4 * i + 3) 0).toNat_lt
    omega⟩
  invFun w := ⟨List.ofFn fun j : Fin (4 * n) => UInt8.ofNat ((w ⟨j.val / 4, by omega⟩).val / 256 ^ (j.val % 4)), by simp⟩
  left_inv b := by
    apply Subtype.ext
    apply List.ext_getElem
    · simp [b.2]
    · intro j h1 h2
      rw [List.getElem_ofFn]
      have hj : j < 4 * n := by rw [← b.2]; exact h2
      simp only
      rw [take4 _ _ (by rw [b.2]; omega)]
      simp only [leNat]
      have hg : b.1[j] = b.1.getD j 0 := by simp [h2]
      rw [hg]
      apply UInt8.toNat_inj.mp
      rw [UInt8.toNat_ofNat']
      have h0 := (b.1.getD (4 * (j / 4)) 0).toNat_lt
      have h1 := (b.1.getD (4 * (j / 4) + 1) 0).toNat_lt
      have h2 := (b.1.getD (4 * (j / 4) + 2) 0).toNat_lt
      have h3 := (b.1.getD (4 * (j / 4) + 3) 0).toNat_lt
      have hm : j % 4 < 4 := Nat.mod_lt _ (by decide)
      have hjm := Nat.div_add_mod j 4
      generalize j % 4 = m at *
      interval_cases m
      · rw [show b.1.getD j 0 = b.1.getD (4 * (j / 4)) 0 by rw [show 4 * (j / 4) = j by omega]]; omega
      · rw [show b.1.getD j 0 = b.1.getD (4 * (j / 4) + 1) 0 by rw [hjm]]; omega
      · rw [show b.1.getD j 0 = b.1.getD (4 * (j / 4) + 2) 0 by rw [hjm]]; omega
      · rw [show b.1.getD j 0 = b.1.getD (4 * (j / 4) + 3) 0 by rw [hjm]]; omega
  right_inv w := by
    funext i
    apply Fin.ext
    simp only
    have hi := i.2
    rw [take4 _ _ (by simp; omega)]
    have hg : ∀ k < 4, (List.ofFn fun j : Fin (4 * n) => UInt8.ofNat ((w ⟨j.val / 4, by omega⟩).val / 256 ^ (j.val % 4))).getD
        (4 * i.val + k) 0 = UInt8.ofNat ((w i).val / 256 ^ k) := by
      intro k hk
      have e1 : (4 * i.val + k) / 4 = i.val := by omega
      have e2 : (4 * i.val + k) % 4 = k := by omega
      rw [List.getD_eq_getElem _ _ (by simp; omega), List.getElem_ofFn]
      simp only [e1, e2]
    have h0 := hg 0 (by decide)
    rw [Nat.add_zero] at h0
    rw [h0, hg 1 (by decide), hg 2 (by decide), hg 3 (by decide)]
    simp only [leNat, UInt8.toNat_ofNat']
    have := (w i).2
    omega

/-- How often a shuffle of the identity with a uniform output of the generator gives `π`. -/
noncomputable def shuffleCount (p : Params) (π : Vector Nat p.N) : Nat :=
  Nat.card {b : BytesOf (4 * p.N) // shuffleLoop (shuffleDraws p b.1) (Vector.ofFn fun i : Fin p.N => i.val) = .ok π}

/-- How many 32-bit words lead from place `i` to place `t`. -/
noncomputable def wordsTo (n i t : Nat) : Nat := Nat.card {w : Fin (2 ^ 32) // i + 1 < n → i + w.val % (n - i) = t}

theorem shuffleCount_eq (hN : p.N < 4294967296) {d π : Vector Nat p.N} (hd : ∀ i < p.N - 1, i ≤ g d i ∧ g d i < p.N)
    (e : shuffleLoop d (Vector.ofFn fun i : Fin p.N => i.val) = .ok π) :
    shuffleCount p π = ∏ i : Fin p.N, wordsTo p.N i (g d i) := by
  have hid : ∀ x < p.N, g (Vector.ofFn fun i : Fin p.N => i.val) x = x := fun x hx => g_ofFn _ _ hx
  unfold shuffleCount wordsTo
  rw [← Nat.card_pi]
  refine Nat.card_congr (Equiv.trans (Equiv.subtypeEquiv (bytesWords p.N) ?_) Equiv.subtypePiEquivPi)
  · intro b
    have hs : ∀ i < p.N - 1, g (shuffleDraws p b.1) i = i + leNat ((b.1.drop (4 * i)).take 4) % (p.N - i) := by
      intro i hi
      rw [shuffleDraws, g_ofFn _ _ (by omega)]
      simp only [hi, if_true]
      have := Nat.mod_lt (leNat ((b.1.drop (4 * i)).take 4)) (show 0 < p.N - i by omega)
      unfold u32
      omega
    constructor
    · intro h i hi
      have := (C32_shuffle_bijective _ hid).2.2 _ d (shuffleDraws_range (p := p) b.1 hN) hd (h.trans e.symm) i.val (by omega)
      rw [hs i.val (by omega)] at this
      exact this
    · intro h
      rw [← e]
      have hsame : ∀ i < p.N - 1, g (shuffleDraws p b.1) i = g d i := by
        intro i hi
        rw [hs i hi]
        exact h ⟨i, by omega⟩ (by show i + 1 < p.N; omega)
      obtain ⟨v, a1, a2⟩ := (shuffleLoop_spec d _ (g d) (fun i hi => ⟨rfl, (hd i hi).2⟩) hid).exists_ok
      obtain ⟨v', b1, b2⟩ := (shuffleLoop_spec (shuffleDraws p b.1) _ (g d) (fun i hi => ⟨hsame i hi, (hd i hi).2⟩) hid).exists_ok
      rw [a1, b1]
      congr 1
      exact vec_ext fun x hx => (b2 x hx).trans (a2 x hx).symm

theorem wordsTo_last {n i t : Nat} (h : ¬ i + 1 < n) : wordsTo n i t = 2 ^ 32 := by
  unfold wordsTo
  rw [Nat.card_congr (Equiv.subtypeUnivEquiv (fun w h' => absurd h' h)), Nat.card_eq_fintype_card, Fintype.card_fin]

/-- The number of words for one target. -/
theorem wordsTo_eq {n i t : Nat} (h : i + 1 < n) (h1 : i ≤ t) (h2 : t < n) :
    wordsTo n i t = 2 ^ 32 / (n - i) + if t - i < 2 ^ 32 % (n - i) then 1 else 0 := by
  have hc := Nat.count_modEq_card (2 ^ 32) (r := n - i) (by omega) (t - i)
  rw [Nat.count_eq_card_filter_range, Nat.mod_eq_of_lt (show t - i < n - i by omega)] at hc
  rw [← hc]
  unfold wordsTo
  rw [Nat.card_eq_fintype_card, Fintype.card_subtype]
  refine Finset.card_bij (fun w _ => w.val) ?_ (fun a _ b _ e => Fin.ext e) ?_
  · intro w hw
    simp only [Finset.mem_filter, Finset.mem_univ, true_and, Finset.mem_range] at hw ⊢
    refine ⟨w.2, ?_⟩
    unfold Nat.ModEq
    have := hw h
    rw [Nat.mod_eq_of_lt (show t - i < n - i by omega)]
    omega
  · intro w hw
    simp only [Finset.mem_filter, Finset.mem_range] at hw
    obtain ⟨a, b⟩ := hw
    unfold Nat.ModEq at b
    rw [Nat.mod_eq_of_lt (show t - i < n - i by omega)] at b
    refine ⟨⟨w, a⟩, ?_, rfl⟩
    simp only [Finset.mem_filter, Finset.mem_univ, true_and]
    intro _
    omega

/-- A permutation of `0..N-1`. -/
def Permutes {n : Nat} (π : Vector Nat n) : Prop :=
  (∀ x < n, g π x < n) ∧ ∀ x < n, ∀ y < n, g π x = g π y → x = y

/-- C60, the exact frequency: the product over the places `i` of the number of words that select the `i`-th draw; a target
among the first `2^32 mod (N-i)` has one more word than the others. -/
theorem C60_frequency (hN : p.N < 4294967296) {π : Vector Nat p.N} (hπ : Permutes π) :
    ∃ d : Vector Nat p.N, (∀ i < p.N - 1, i ≤ g d i ∧ g d i < p.N) ∧
      shuffleLoop d (Vector.ofFn fun i : Fin p.N => i.val) = .ok π ∧
      shuffleCount p π = ∏ i : Fin p.N, (if i.val + 1 < p.N then
        2 ^ 32 / (p.N - i) + (if g d i - i < 2 ^ 32 % (p.N - i) then 1 else 0) else 2 ^ 32) := by
  obtain ⟨d, hd, e⟩ := (C32_shuffle_bijective (p := p) (Vector.ofFn fun i : Fin p.N => i.val) (fun x hx => g_ofFn _ _ hx)).2.1 π hπ.1 hπ.2
  refine ⟨d, hd, e, ?_⟩
  rw [shuffleCount_eq hN hd e]
  refine Finset.prod_congr rfl fun i _ => ?_
  split
  · rename_i h
    exact wordsTo_eq h (hd i (by omega)).1 (hd i (by omega)).2
  · rename_i h
    exact wordsTo_last h

/-- C60, closeness: with `q = 2^32 / N`, the frequencies of any two permutations differ at most by the factor
`((q + 1) / q) ^ N`. -/
theorem C60_close_partial (hN : p.N < 4294967296) {π π' : Vector Nat p.N} (hπ : Permutes π) (hπ' : Permutes π') :
    shuffleCount p π * (2 ^ 32 / p.N) ^ p.N ≤ shuffleCount p π' * (2 ^ 32 / p.N + 1) ^ p.N := by
  obtain ⟨d, -, -, e⟩ := C60_frequency hN hπ
  obtain ⟨d', -, -, e'⟩ := C60_frequency hN hπ'
  rw [e, e']
  have hc : ∀ x : Nat, x ^ p.N = ∏ _i : Fin p.N, x := fun x => by
    rw [Finset.prod_const, Finset.card_univ, Fintype.card_fin]
  rw [hc (2 ^ 32 / p.N), hc (2 ^ 32 / p.N + 1), ← Finset.prod_mul_distrib, ← Finset.prod_mul_distrib]
  refine Finset.prod_le_prod (fun _ _ => Nat.zero_le _) fun i _ => ?_
  have hq : 2 ^ 32 / p.N ≤ 2 ^ 32 / (p.N - i) := Nat.div_le_div_left (by omega) (by have := i.2; omega)
  generalize 2 ^ 32 / p.N = q at hq ⊢
  generalize 2 ^ 32 / (p.N - i) = r at hq ⊢
  split
  · have h1 : (r + if g d i - i < 2 ^ 32 % (p.N - i) then 1 else 0) ≤ r + 1 := by split <;> omega
    have h2 : r ≤ (r + if g d' i - i < 2 ^ 32 % (p.N - i) then 1 else 0) := by split <;> omega
    calc _ ≤ (r + 1) * q := Nat.mul_le_mul_right _ h1
      _ ≤ r * (q + 1) := by
        rw [Nat.add_mul, Nat.mul_add]; omega
      _ ≤ _ := Nat.mul_le_mul_right _ h2
  · exact Nat.mul_le_mul_left _ (by omega)

/-- C60 for the seven parameter sets: no permutation is more frequent than another by more than one part in ten thousand. -/
theorem C60_parameter_sets_partial (hp : p ∈ Params.all) {π π' : Vector Nat p.N} (hπ : Permutes π) (hπ' : Permutes π') :
    10000 * shuffleCount p π ≤ 10001 * shuffleCount p π' := by
  have hN : p.N < 4294967296 := (by decide : ∀ p ∈ Params.all, p.N < 4294967296) p hp
  have h := C60_close_partial hN hπ hπ'
  have hq : 10000 * (2 ^ 32 / p.N + 1) ^ p.N ≤ 10001 * (2 ^ 32 / p.N) ^ p.N ∧ 0 < (2 ^ 32 / p.N) ^ p.N :=
    (by decide +kernel : ∀ p ∈ Params.all, 10000 * (2 ^ 32 / p.N + 1) ^ p.N ≤ 10001 * (2 ^ 32 / p.N) ^ p.N ∧
      0 < (2 ^ 32 / p.N) ^ p.N) p hp
  generalize (2 ^ 32 / p.N) ^ p.N = A at *
  generalize (2 ^ 32 / p.N + 1) ^ p.N = B at *
  refine Nat.le_of_mul_le_mul_right (c := A) ?_ hq.2
  calc 10000 * shuffleCount p π * A = 10000 * (shuffleCount p π * A) := by rw [Nat.mul_assoc]
    _ ≤ 10000 * (shuffleCount p π' * B) := Nat.mul_le_mul_left _ h
    _ = shuffleCount p π' * (10000 * B) := by ring
    _ ≤ shuffleCount p π' * (10001 * A) := Nat.mul_le_mul_left _ hq.1
    _ = 10001 * shuffleCount p π' * A := by ring

/-- C60 is false as stated: two permutations with different frequencies, for every `N ≥ 3`. -/
theorem C60_fails_exact (h3 : 3 ≤ p.N) (hN : p.N < 4294967296) :
    ∃ π π' : Vector Nat p.N, Permutes π ∧ Permutes π' ∧ shuffleCount p π' < shuffleCount p π := by
  let d : Vector Nat p.N := Vector.ofFn fun i => i.val
  let d' : Vector Nat p.N := Vector.ofFn fun i => if i.val + 3 = p.N then i.val + 1 else i.val
  have gd : ∀ i < p.N, g d i = i := fun i hi => g_ofFn _ _ hi
  have gd' : ∀ i < p.N, g d' i = if i + 3 = p.N then i + 1 else i := fun i hi => g_ofFn _ _ hi
  have hd : ∀ i < p.N - 1, i ≤ g d i ∧ g d i < p.N := fun i hi => by rw [gd i (by omega)]; omega
  have hd' : ∀ i < p.N - 1, i ≤ g d' i ∧ g d' i < p.N := fun i hi => by rw [gd' i (by omega)]; split <;> omega
  obtain ⟨π, e, hπ⟩ := (C32_shuffle_bijective (p := p) (Vector.ofFn fun i : Fin p.N => i.val) (fun x hx => g_ofFn _ _ hx)).1 d hd
  obtain ⟨π', e', hπ'⟩ := (C32_shuffle_bijective (p := p) (Vector.ofFn fun i : Fin p.N => i.val) (fun x hx => g_ofFn _ _ hx)).1 d' hd'
  refine ⟨π, π', hπ, hπ', ?_⟩
  rw [shuffleCount_eq hN hd e, shuffleCount_eq hN hd' e']
  refine Finset.prod_lt_prod (fun i _ => ?_) (fun i _ => ?_) ⟨⟨p.N - 3, by omega⟩, Finset.mem_univ _, ?_⟩
  · by_cases h : i.val + 1 < p.N
    · rw [wordsTo_eq h (hd' i (by omega)).1 (hd' i (by omega)).2]
      have : 0 < 2 ^ 32 / (p.N - i) := Nat.div_pos (by omega) (by omega)
      omega
    · rw [wordsTo_last h]; decide
  · by_cases h : i.val + 1 < p.N
    · rw [wordsTo_eq h (hd' i (by omega)).1 (hd' i (by omega)).2, wordsTo_eq h (hd i (by omega)).1 (hd i (by omega)).2,
        gd i i.2, gd' i i.2]
      split_ifs <;> omega
    · rw [wordsTo_last h, wordsTo_last h]
  · have h : p.N - 3 + 1 < p.N := by omega
    rw [wordsTo_eq h (hd' _ (by omega)).1 (hd' _ (by omega)).2, wordsTo_eq h (hd _ (by omega)).1 (hd _ (by omega)).2,
        gd _ (by omega), gd' _ (by omega), if_pos (show p.N - 3 + 3 = p.N by omega), show p.N - (p.N - 3) = 3 by omega]
    rw [show p.N - 3 + 1 - (p.N - 3) = 1 by omega, Nat.sub_self]
    decide

/-- Reversal and identity of 252 places: frequencies within one part in ten thousand. -/
example : 10000 * shuffleCount Params.cat1Balanced (Vector.ofFn fun i : Fin Params.cat1Balanced.N => i.val) ≤
    10001 * shuffleCount Params.cat1Balanced (Vector.ofFn fun i : Fin Params.cat1Balanced.N => Params.cat1Balanced.N - 1 - i.val) :=
  C60_parameter_sets_partial (by decide)
    ⟨fun x hx => by rw [g_ofFn _ _ hx]; exact hx, fun x hx y hy h => by rwa [g_ofFn _ _ hx, g_ofFn _ _ hy] at h⟩
    ⟨fun x hx => by rw [g_ofFn _ _ hx]; omega, fun x hx y hy h => by rw [g_ofFn _ _ hx, g_ofFn _ _ hy] at h; dsimp only at h; omega⟩

end LESS
