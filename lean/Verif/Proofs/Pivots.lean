import Mathlib.Order.Interval.Finset.Fin
import Verif.Proofs.RrefPack
import Verif.Proofs.Rref
/-!
# Pivot flags and ranks
-/
namespace LESS

open Spec (RowEq IsRREF FullRank)

variable {p : Params}

/-- The flags mark exactly the columns `piv t`. -/
def FlagsOf {k n : Nat} (f : Vector Nat n) (piv : Fin k → Fin n) : Prop :=
  ∀ j : Fin n, g f j = if ∃ t, piv t = j then 1 else 0

theorem FlagsOf.le_one {k n : Nat} {f : Vector Nat n} {piv : Fin k → Fin n} (h : FlagsOf f piv) (i : Nat)
    (hi : i < n) : g f i ≤ 1 := by
  have := h ⟨i, hi⟩
  simp only at this
  rw [this]; split <;> simp

theorem FlagsOf.ne_zero_iff {k n : Nat} {f : Vector Nat n} {piv : Fin k → Fin n} (h : FlagsOf f piv) (i : Nat)
    (hi : i < n) : g f i ≠ 0 ↔ ∃ t, piv t = ⟨i, hi⟩ := by
  have := h ⟨i, hi⟩
  simp only at this
  rw [this]; split <;> simp_all

/-- Number of pivots left of column `n`. -/
theorem rank_card {k m : Nat} {f : Vector Nat m} {piv : Fin k → Fin m} (h : FlagsOf f piv)
    (hinj : Function.Injective piv) (n : Nat) (hn : n ≤ m) :
    n - (nonPiv f n).length = (Finset.univ.filter fun t : Fin k => (piv t).val < n).card := by
  induction n with
  | zero => simp
  | succ n ih =>
    have hle := nonPiv_length_le f n
    rw [nonPiv_length_succ]
    have ih := ih (by omega)
    by_cases h0 : g f n = 0
    · rw [if_pos h0]
      have hno : ¬ ∃ t, piv t = ⟨n, by omega⟩ := fun he => (h.ne_zero_iff n (by omega)).mpr he h0
      have : (Finset.univ.filter fun t : Fin k => (piv t).val < n + 1) =
          (Finset.univ.filter fun t : Fin k => (piv t).val < n) := by
        ext t
        simp only [Finset.mem_filter, Finset.mem_univ, true_and]
        constructor
        · intro hlt
          by_contra hc
          exact hno ⟨t, Fin.ext (by simp only; omega)⟩
        · intro hlt; omega
      rw [this, ← ih]; omega
    · rw [if_neg h0]
      obtain ⟨t0, ht0⟩ := (h.ne_zero_iff n (by omega)).mp h0
      have hv : (piv t0).val = n := by rw [ht0]
      have : (Finset.univ.filter fun t : Fin k => (piv t).val < n + 1) =
          insert t0 (Finset.univ.filter fun t : Fin k => (piv t).val < n) := by
        ext t
        simp only [Finset.mem_filter, Finset.mem_univ, true_and, Finset.mem_insert]
        constructor
        · intro hlt
          by_cases e : (piv t).val = n
          · left; exact hinj (Fin.ext (by rw [e, hv]))
          · right; omega
        · rintro (rfl | hlt) <;> omega
      rw [this, Finset.card_insert_of_notMem (by simp [hv]), ← ih]
      omega

theorem rank_piv {k m : Nat} {f : Vector Nat m} {piv : Fin k → Fin m} (h : FlagsOf f piv)
    (hmono : StrictMono piv) (t : Fin k) : (piv t).val - (nonPiv f (piv t)).length = t := by
  rw [rank_card h hmono.injective _ (Nat.le_of_lt (piv t).2)]
  have : (Finset.univ.filter fun s : Fin k => (piv s).val < (piv t).val) = Finset.univ.filter fun s : Fin k => s < t := by
    ext s
    simp only [Finset.mem_filter, Finset.mem_univ, true_and]
    exact hmono.lt_iff_lt
  rw [this, show (Finset.univ.filter fun s : Fin k => s < t) = Finset.Iio t by ext; simp, Fin.card_Iio]

theorem nonPiv_count {k m : Nat} {f : Vector Nat m} {piv : Fin k → Fin m} (h : FlagsOf f piv)
    (hmono : StrictMono piv) : (nonPiv f m).length = m - k := by
  have h1 := rank_card h hmono.injective m (Nat.le_refl _)
  have h2 : (Finset.univ.filter fun t : Fin k => (piv t).val < m) = Finset.univ := by
    ext t; simp
  rw [h2, Finset.card_univ, Fintype.card_fin] at h1
  have := nonPiv_length_le f m
  omega

/-- The entry of the list of unflagged positions at index `z` has rank `z`. -/
theorem nonPiv_rank {m : Nat} (f : Vector Nat m) (n z c : Nat) (h : (nonPiv f n)[z]? = some c) :
    (nonPiv f c).length = z ∧ c < n ∧ g f c = 0 := by
  induction n with
  | zero => simp [nonPiv] at h
  | succ n ih =>
    rw [nonPiv_succ] at h
    by_cases hz : z < (nonPiv f n).length
    · rw [List.getElem?_append_left hz] at h
      have := ih h
      exact ⟨this.1, by omega, this.2.2⟩
    · rw [List.getElem?_append_right (by omega)] at h
      by_cases h0 : g f n = 0
      · rw [if_pos h0] at h
        have hz' : z - (nonPiv f n).length = 0 := by
          by_contra hc
          obtain ⟨d, hd⟩ : ∃ d, z - (nonPiv f n).length = d + 1 := ⟨_, (Nat.succ_pred_eq_of_ne_zero hc).symm⟩
          rw [hd] at h; simp at h
        rw [hz'] at h
        have hcn : n = c := by simpa using h
        subst hcn
        exact ⟨by omega, by omega, h0⟩
      · rw [if_neg h0] at h; simp at h

theorem nonPiv_nodup {m : Nat} (f : Vector Nat m) (n : Nat) : (nonPiv f n).Nodup :=
  List.Nodup.filter _ List.nodup_range

theorem mem_nonPiv {m : Nat} (f : Vector Nat m) (n c : Nat) : c ∈ nonPiv f n ↔ c < n ∧ g f c = 0 := by
  simp [nonPiv]

/-- A matrix in reduced row echelon form with its flags, equivalent to `A`. -/
structure RrefOut (A : Matrix (Fin p.K) (Fin p.N) Fq) (R : GenMat p) (f : Vector Nat p.N)
    (piv : Fin p.K → Fin p.N) : Prop where
  reduced : Reduced R
  rowEq : RowEq A (matOf R)
  rref : IsRREF (matOf R) piv
  flags : FlagsOf f piv

theorem generatorRREF_full (G : GenMat p) (hKN : p.K ≤ p.N) (hG : Reduced G) (hr : FullRank (matOf G)) :
    Wp False (generatorRREF G (Vector.replicate p.N 0)) (fun res =>
      res.1 = 1 ∧ ∃ piv, RrefOut (matOf G) res.2.1 res.2.2 piv) := by
  refine (generatorRREF_wp G hKN hG).mono ?_
  rintro ⟨r, R, f⟩ ⟨h1, h2, h3⟩
  rcases h3 with ⟨_, h⟩ | ⟨h4, _, piv, h5, h6⟩
  · exact absurd hr h
  · exact ⟨h4, piv, h1, h2, h5, h6⟩

theorem RrefOut.fits {A : Matrix (Fin p.K) (Fin p.N) Fq} {R : GenMat p} {f : Vector Nat p.N}
    {piv : Fin p.K → Fin p.N} (h : RrefOut A R f piv) : RrefFits R f where
  flag := fun i hi => h.flags.le_one i hi
  count := nonPiv_count h.flags h.rref.mono
  entry := fun i j hi hj => Nat.lt_trans (h.reduced i j hi hj) (by decide)

/-- Flagged columns are unit vectors. -/
theorem RrefOut.unit {A : Matrix (Fin p.K) (Fin p.N) Fq} {R : GenMat p} {f : Vector Nat p.N}
    {piv : Fin p.K → Fin p.N} (h : RrefOut A R f piv) (i j : Nat) (hi : i < p.K) (hj : j < p.N)
    (hf : g f j ≠ 0) : g2 R i j = b2n (i = j - (nonPiv f j).length) := by
  obtain ⟨t, ht⟩ := (h.flags.ne_zero_iff j hj).mp hf
  have hrk := rank_piv h.flags h.rref.mono t
  rw [ht] at hrk
  simp only at hrk
  rw [hrk]
  have hu := h.rref.unit ⟨i, hi⟩ t
  rw [ht] at hu
  have hlt := h.reduced i j hi hj
  apply cast_inj hlt (by unfold b2n; split <;> decide)
  rw [show ((g2 R i j : Nat) : Fq) = matOf R ⟨i, hi⟩ ⟨j, hj⟩ from rfl, hu]
  by_cases e : i = t.val
  · rw [if_pos (Fin.ext e)]; simp [b2n, e]
  · rw [if_neg (fun h => e (by rw [← h]))]; simp [b2n, e]

/-- Encoding and decoding of a public code. -/
theorem RrefOut.roundTrip {A : Matrix (Fin p.K) (Fin p.N) Fq} {R : GenMat p} {f : Vector Nat p.N}
    {piv : Fin p.K → Fin p.N} (h : RrefOut A R f piv) :
    decodeRref (Spec.packed p.rrefBytes (rrefBits R f)) = R :=
  decodeRref_packed R f h.fits fun i j hi hj hf => h.unit i j hi hj hf

end LESS
