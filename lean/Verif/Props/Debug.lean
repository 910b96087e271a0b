import Verif.Proofs.Debug
import Verif.Props.Toy

/-!
# C89: no assertion fires

A build without `NDEBUG` (the `Debug` build type, which is also what CMake's empty default build type gives) keeps the
assertions of the library.  The theorems show that none of them can be made to fire through the API, whatever the bytes
of the keys, the messages and the signatures, so that a debug build returns the same results as a release build; and
they determine when a direct call of `prepare_digest_input` fires the one assertion that depends on data.
-/

namespace LESS

open Spec

variable {p : Params}

namespace Spec

/-- The run `d` of a program with assertions (`none`: aborted) is the run `r` of the program without them. -/
structure SameRun {α : Type} (d : C (Option α)) (r : C α) : Prop where
  no_abort : d ≠ .ok none
  results : ∀ a, d = .ok (some a) ↔ r = .ok a
  failures : ∀ e, d = .error e ↔ r = .error e

end Spec

theorem sameRun_up {α : Type} (r : C α) : Spec.SameRun (up r) r := by
  cases r with
  | error e =>
    exact ⟨fun h => (by cases h), fun a => ⟨fun h => (by cases h), fun h => (by cases h)⟩,
      fun e' => ⟨fun h => (by cases h; rfl), fun h => (by cases h; rfl)⟩⟩
  | ok a =>
    exact ⟨fun h => (by cases h), fun a' => ⟨fun h => (by cases h; rfl), fun h => (by cases h; rfl)⟩,
      fun e' => ⟨fun h => (by cases h), fun h => (by cases h)⟩⟩

/-- C89: `crypto_sign` in a debug build, with any bytes as private key, never aborts and returns what the release build
returns. -/
theorem C89_sign (hp : p.WF) {k : Nat} (fuel : Nat) (sl : Nat → Stale p) (rng : Inc) (sm : Vector UInt8 k) (m : Bytes)
    (sk : Vector UInt8 p.skLen) :
    Spec.SameRun (cryptoSignD fuel sl rng sm m sk) (cryptoSign fuel sl rng sm m sk) := by
  rw [cryptoSignD_eq hp]
  exact sameRun_up _

/-- C89: `crypto_sign_open` in a debug build, with any bytes as signed message and public key, never aborts and returns
what the release build returns. -/
theorem C89_open (hp : p.WF) {smlen : Nat} (fuel : Nat) (sl : Nat → Stale p) (mcap : Nat) (sm : Vector UInt8 smlen)
    (pk : Vector UInt8 p.pkLen) :
    Spec.SameRun (cryptoSignOpenD fuel sl mcap sm pk) (cryptoSignOpen fuel sl mcap sm pk) := by
  rw [cryptoSignOpenD_eq hp]
  exact sameRun_up _

/-- C89: the same for the optimized code on both instruction sets. -/
theorem C89_sign_optimized (isa : Isa) (hp : p.WF) (hN : p.N ≤ p.nPad) {k : Nat} (fuel : Nat) (sl : Nat → OStale p)
    (rng : Inc) (sm : Vector UInt8 k) (m : Bytes) (sk : Vector UInt8 p.skLen) :
    Spec.SameRun (cryptoSignOD isa fuel sl rng sm m sk) (cryptoSignO isa fuel sl rng sm m sk) := by
  rw [cryptoSignOD_eq isa hp hN]
  exact sameRun_up _

/-- C89: the same for the optimized code on both instruction sets; the public codes need not be in range. -/
theorem C89_open_optimized (isa : Isa) (hp : p.WF) (hN : p.N ≤ p.nPad) {smlen : Nat} (fuel : Nat) (sl : Nat → OStale p)
    (mcap : Nat) (sm : Vector UInt8 smlen) (pk : Vector UInt8 p.pkLen) :
    Spec.SameRun (cryptoSignOpenOD isa fuel sl mcap sm pk) (cryptoSignOpenO isa fuel sl mcap sm pk) := by
  rw [cryptoSignOpenOD_eq isa hp hN]
  exact sameRun_up _

/-- C89: called directly with a matrix over the field and a monomial matrix, `prepare_digest_input` aborts exactly if the
rows of the matrix are linearly dependent, and otherwise runs as in a release build. -/
theorem C89_rank (hKN : p.K < p.N) (hN : p.N < p.posMod) (V : NormIS p) (Qb : MonoAction p) (G : GenMat p)
    (m : Monomial p) (hm : m.Valid) (hG : Reduced G) :
    (prepareDigestInputD V Qb G m = .ok none ↔ ¬ FullRank (matOf G)) ∧
    (FullRank (matOf G) → Spec.SameRun (prepareDigestInputD V Qb G m) (prepareDigestInput V Qb G m)) := by
  obtain ⟨h1, h2⟩ := prepareDigestInputD_eq hKN hN V Qb hm hG
  refine ⟨⟨fun h hr => ?_, fun h => h2 h⟩, fun h => ?_⟩
  · rw [h1 hr] at h
    exact (sameRun_up (prepareDigestInput V Qb G m)).no_abort h
  · rw [h1 h]
    exact sameRun_up _

/-! ## Concrete cases -/

/-- A matrix of zeros fires the assertion, for every monomial matrix and in every parameter set. -/
theorem zero_aborts (hp : p.WF) (hK : 0 < p.K) (V : NormIS p) (Qb : MonoAction p) (m : Monomial p) (hm : m.Valid) :
    prepareDigestInputD V Qb (Vector.replicate p.K (Vector.replicate p.N 0)) m = .ok none := by
  have hz : ∀ i j, i < p.K → j < p.N → g2 (Vector.replicate p.K (Vector.replicate p.N 0) : GenMat p) i j = 0 := by
    intro i j hi hj
    rw [g2_row _ _ _ hi, g_replicate _ _ hi, g_replicate _ _ hj]
  refine (C89_rank hp.K_lt_N hp.N_lt V Qb _ m hm fun i j hi hj => ?_).1.mpr fun h => ?_
  · rw [hz i j hi hj]; omega
  · have := congrFun (h (fun _ => 1) (by
      funext j
      simp [Matrix.vecMul, dotProduct, matOf, hz _ _ (Fin.isLt _) j.2])) ⟨0, hK⟩
    exact absurd this one_ne_zero

example (V : NormIS Params.cat1Balanced) (Qb : MonoAction Params.cat1Balanced) (m : Monomial Params.cat1Balanced)
    (hm : m.Valid) : prepareDigestInputD V Qb (Vector.replicate _ (Vector.replicate _ 0)) m = .ok none :=
  zero_aborts cat1Balanced_WF (by decide) V Qb m hm

example (fuel : Nat) (sl : Nat → Stale Params.cat5Balanced) (sm : Vector UInt8 80000) (pk : Vector UInt8 _) :
    cryptoSignOpenD fuel sl 80000 sm pk ≠ .ok none :=
  (C89_open cat5Balanced_WF fuel sl 80000 sm pk).no_abort

example (isa : Isa) (fuel : Nat) (sl : Nat → OStale Params.cat3Balanced) (sm : Vector UInt8 80000) (pk : Vector UInt8 _) :
    cryptoSignOpenOD isa fuel sl 80000 sm pk ≠ .ok none :=
  (C89_open_optimized isa cat3Balanced_WF (by decide) fuel sl 80000 sm pk).no_abort

end LESS
