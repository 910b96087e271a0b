import Verif.Model.Bench
import Verif.Spec.Statistics
import Verif.Props.Testbench
import Verif.Props.Codes
import Mathlib.Data.Rat.Defs
import Mathlib.Algebra.Field.Rat
import Mathlib.Algebra.Order.Ring.Rat
import Mathlib.Tactic.Ring
import Mathlib.Tactic.FieldSimp
import Mathlib.Tactic.LinearCombination
/-!
# C75: the benchmark program reports what it measured

The two numbers printed for each operation are the average and the (square of the) standard deviation of all measured
intervals, whatever the clock returned; the verdict printed at the end is always "functional".  The intervals printed for
the elimination are not of random matrices: all but the first are of a matrix that already is in reduced form.
-/
namespace LESS
open Spec

variable {p : Params}

theorem sum_sq_dev (m : Rat) (xs : List Rat) :
    (xs.map fun x => (x - m) * (x - m)).sum = (xs.map fun x => x * x).sum - 2 * m * xs.sum + xs.length * (m * m) := by
  induction xs with
  | nil => simp
  | cons x xs ih =>
    simp only [List.map_cons, List.sum_cons, List.length_cons, ih]
    push_cast
    ring

theorem welford_fold (xs : List Rat) : (xs.foldl welfordUpdate welfordInit).count = xs.length ∧
    (xs.foldl welfordUpdate welfordInit).mean * xs.length = xs.sum ∧
    (xs.foldl welfordUpdate welfordInit).M2 = (xs.map fun x => x * x).sum -
      xs.length * ((xs.foldl welfordUpdate welfordInit).mean * (xs.foldl welfordUpdate welfordInit).mean) := by
  induction xs using List.reverseRecOn with
  | nil => simp [welfordInit]
  | append_singleton xs x ih =>
    rw [List.foldl_append, List.foldl_cons, List.foldl_nil]
    obtain ⟨h1, h2, h3⟩ := ih
    generalize xs.foldl welfordUpdate welfordInit = t at h1 h2 h3
    obtain ⟨m, M, n⟩ := t
    dsimp only at h1 h2 h3
    subst h1
    have hn : (xs.length : Rat) + 1 ≠ 0 := by positivity
    simp only [welfordUpdate, List.length_append, List.length_cons, List.length_nil, List.map_append, List.map_cons,
      List.map_nil, List.sum_append, List.sum_cons, List.sum_nil]
    push_cast
    rw [h3, ← h2]
    refine ⟨trivial, ?_, ?_⟩
    · field_simp
      ring
    · field_simp
      ring

/-- The printed numbers are the average and the sample variance of the measurements (of any number of them, in exact
arithmetic). -/
theorem C75_statistics (xs : List Rat) :
    welfordPrint (xs.foldl welfordUpdate welfordInit) = (average xs, sampleVariance xs) := by
  obtain ⟨h1, h2, h3⟩ := welford_fold xs
  rcases Nat.eq_zero_or_pos xs.length with h0 | hpos
  · rw [List.length_eq_zero_iff] at h0
    subst h0
    simp [welfordPrint, welfordInit, average, sampleVariance]
  have hn : (xs.length : Rat) ≠ 0 := by
    have : (0 : Rat) < xs.length := by exact_mod_cast hpos
    exact this.ne'
  have hm : (xs.foldl welfordUpdate welfordInit).mean = average xs := by
    unfold average
    rw [← h2]
    field_simp
  unfold welfordPrint sampleVariance
  rw [h1, h3, sum_sq_dev, hm]
  have hs : xs.sum = average xs * xs.length := by rw [← hm, h2]
  rw [hs]
  congr 2
  ring

theorem kiloCycles_eq (c : UInt64 × UInt64) : kiloCycles c = duration c.1.toNat c.2.toNat := by
  unfold kiloCycles duration
  have h1 := c.1.toNat_lt
  have h2 := c.2.toNat_lt
  have h3 : (c.2 - c.1).toNat = if c.1.toNat ≤ c.2.toNat then c.2.toNat - c.1.toNat else
      c.2.toNat + 18446744073709551616 - c.1.toNat := by
    rw [UInt64.toNat_sub]
    split <;> omega
  rw [h3]

theorem samples_succ (n : Nat) (clk : Nat → UInt64 × UInt64) : samples (n + 1) clk = samples n clk ++ [kiloCycles (clk n)] := by
  unfold samples
  rw [List.range_succ, List.map_append, kiloCycles_eq]
  rfl

/-- The timer after `n` iterations. -/
def timer (n : Nat) (clk : Nat → UInt64 × UInt64) : Welford := (samples n clk).foldl welfordUpdate welfordInit

theorem timer_succ (n : Nat) (clk : Nat → UInt64 × UInt64) : timer (n + 1) clk = welfordUpdate (timer n clk) (kiloCycles (clk n)) := by
  unfold timer
  rw [samples_succ, List.foldl_append]
  rfl

theorem timer_print (n : Nat) (clk : Nat → UInt64 × UInt64) :
    welfordPrint (timer n clk) = (average (samples n clk), sampleVariance (samples n clk)) := C75_statistics _

theorem generatorRnd_rng (hN : 0 < p.N) (fuel : Nat) (res : GenMat p) {st : Inc} (hr : RngOk p st) :
    Wp True (generatorRnd fuel res st) (fun r => RngOk p r.2) := by
  unfold generatorRnd
  refine Wp.forUp (fun i s => RngOk p s.2) hr ?_ fun _ h => h
  rintro i ⟨G, st⟩ hi hI
  dsimp only at hI ⊢
  rw [Wp.bind_iff, Wp.rd_iff]
  refine ⟨hi, ?_⟩
  obtain ⟨s, hs⟩ := exists_stream p st hI
  rw [Wp.bind_iff]
  refine ((randState_stream fuel st s _ (Nat.zero_le _) (by decide) hN hs).monoF fun _ => trivial).mono ?_
  rintro ⟨row, st'⟩ ⟨v, s', -, -, h⟩
  rw [Wp.bind_iff, Wp.wr_iff]
  exact ⟨hi, h.1⟩

/-- One elimination, with any flags: it ends, and the result is reduced modulo 127. -/
theorem rref_step (hKN : p.K ≤ p.N) {G : GenMat p} (hG : Reduced G) (f : Vector Nat p.N) :
    ∃ a R o, generatorRREF G f = .ok (a, R, o) ∧ Reduced R := by
  obtain ⟨⟨a, R, o⟩, e, h, -⟩ := (generatorRREF_wp G hKN hG).exists_ok
  obtain ⟨o', e'⟩ := rref_any G _ f e
  exact ⟨a, R, o', e', h⟩

/-- The benchmark of the elimination stays inside its buffers, and the printed numbers are the average and the variance of
the measured intervals. -/
theorem C75_elimination (hp : p.WF) (fuel tests : Nat) (clk : Nat → UInt64 × UInt64) (G : GenMat p) (f : Vector Nat p.N)
    {rng : Inc} (hr : RngOk p rng) : Wp True (microbench fuel tests clk G f rng) (fun r =>
      r.1 = (average (samples tests clk), sampleVariance (samples tests clk)) ∧ RngOk p r.2.2) := by
  have hKN := hp.K_lt_N
  unfold microbench
  rw [Wp.bind_iff]
  refine (generatorRnd_wp (by omega) fuel G rng).andEq.mono ?_
  rintro ⟨G1, rng1⟩ ⟨e0, h1⟩
  have h2 := (generatorRnd_rng (by omega) fuel G hr).of_ok e0
  dsimp only at h1 h2 ⊢
  rw [Wp.bind_iff]
  refine Wp.forUp (fun i s => Reduced s.1 ∧ s.2.2 = timer i clk) ⟨h1, rfl⟩ ?_ ?_
  · rintro i ⟨A, f, t⟩ hi ⟨hA, ht⟩
    dsimp only at hA ht ⊢
    obtain ⟨a, R, o, e, hR⟩ := rref_step hKN.le hA f
    rw [e, ht, ← timer_succ]
    exact ⟨hR, rfl⟩
  · rintro ⟨A, f, t⟩ ⟨-, ht⟩
    dsimp only at ht
    subst ht
    exact ⟨timer_print _ _, h2⟩

/-- Only the first interval is the elimination of a random matrix: if the matrix drawn has full rank, all the others
eliminate a matrix which is in reduced form already and leave it as it is. -/
theorem C75_fails_elimination (hp : p.WF) {fuel : Nat} {G G1 : GenMat p} {rng rng1 : Inc}
    (h : generatorRnd fuel G rng = .ok (G1, rng1)) (hr : FullRank (matOf G1)) :
    ∃ R piv, IsRREF (matOf R) piv ∧ (∀ f, ∃ o, generatorRREF G1 f = .ok (1, R, o)) ∧
      (∀ f, ∃ o, generatorRREF R f = .ok (1, R, o)) ∧
      ∀ tests clk f, ∃ out, microbench fuel (tests + 1) clk G f rng = .ok (out, R, rng1) := by
  have hKN := hp.K_lt_N
  have hG1 : Reduced G1 := (generatorRnd_wp (by omega) fuel G rng).of_ok h
  obtain ⟨⟨oa, R, fa⟩, ea, eoa, pa, houtA⟩ := (generatorRREF_full G1 hKN.le hG1 hr).exists_ok
  dsimp only at eoa houtA
  subst eoa
  obtain ⟨S, fs, es1, es2⟩ := C24_rref_canonical G1 R hKN.le hG1 houtA.reduced hr houtA.rowEq.sameCode
  rw [ea] at es1
  cases es1
  refine ⟨R, pa, houtA.rref, fun f => rref_any G1 _ f ea, fun f => rref_any R _ f es2, fun tests clk f => ?_⟩
  have : Wp False (microbench fuel (tests + 1) clk G f rng) (fun r => r.2 = (R, rng1)) := by
    unfold microbench
    rw [h]
    show Wp False (forUp (tests + 1) _ _ >>= _) _
    rw [Wp.bind_iff]
    refine Wp.forUp (fun i s => s.1 = if i = 0 then G1 else R) rfl ?_ ?_
    · rintro i ⟨A, f, t⟩ hi hA
      dsimp only at hA ⊢
      have : ∃ o, generatorRREF A f = .ok (1, R, o) := by
        rw [hA]
        split
        · exact rref_any G1 _ f ea
        · exact rref_any R _ f es2
      obtain ⟨o, e⟩ := this
      rw [e]
      rfl
    · rintro ⟨A, f, t⟩ hA
      dsimp only at hA
      subst hA
      exact rfl
  obtain ⟨⟨out, r⟩, e, e2⟩ := this.exists_ok
  dsimp only at e2
  subst e2
  exact ⟨out, e⟩

/-- The benchmark of the scheme stays inside its buffers; the printed numbers are the average and the variance of the
measured intervals; and with at least one iteration the verdict is "functional". -/
theorem C75_speed (hp : p.WF) (fuel : Nat) {tests : Nat} (ht : 0 < tests) (clk : Nat → Nat → UInt64 × UInt64)
    (sl : Nat → Nat → Nat → Stale p) (l : SpeedLocals p) {rng : Inc} (hr : RngOk p rng) :
    Wp True (signVerifySpeed fuel tests clk sl l rng) (fun r =>
      r.1.keygen = (average (samples tests (clk 0)), sampleVariance (samples tests (clk 0))) ∧
      r.1.sign = (average (samples tests (clk 1)), sampleVariance (samples tests (clk 1))) ∧
      r.1.verify = (average (samples tests (clk 2)), sampleVariance (samples tests (clk 2))) ∧ r.1.ok = 1) := by
  unfold signVerifySpeed
  rw [Wp.bind_iff]
  refine Wp.forUp (fun i s => RngOk p s.2.2.1 ∧ s.2.2.2 = timer i (clk 0) ∧ (0 < i → ∃ sl' rng0 rng', RngOk p rng0 ∧
    lessKeygen fuel sl' rng0 = .ok (s.1, s.2.1, rng'))) ⟨hr, rfl, fun h => absurd h (by omega)⟩ ?_ ?_
  · rintro i ⟨sk, pk, st, t⟩ hi ⟨h1, h2, -⟩
    dsimp only at h1 h2 ⊢
    rcases hk : lessKeygen fuel (sl 0 i) st with e | ⟨sk', pk', st'⟩
    · cases e with
      | oob => exact absurd hk (C05_keygen_memory_safe hp fuel _ h1)
      | fuel => trivial
    refine ⟨(keygen_pair hp h1 hk).2, ?_, fun _ => ⟨_, _, _, h1, hk⟩⟩
    rw [h2, ← timer_succ]
  rintro ⟨sk, pk, st, t0⟩ ⟨h1, h2, h3⟩
  obtain ⟨sl', rng0, rng', hr0, hk⟩ := h3 ht
  dsimp only at h1 h2 hk ⊢
  rw [Wp.bind_iff]
  refine Wp.forUp (fun i s => RngOk p s.2.1 ∧ s.2.2 = timer i (clk 1) ∧ (0 < i → ∃ sl'' st0 sig0 num st', RngOk p st0 ∧
    lessSign fuel sl'' st0 sk signme sig0 = .ok (s.1, num, st'))) ⟨h1, rfl, fun h => absurd h (by omega)⟩ ?_ ?_
  · rintro i ⟨sig, st, t⟩ hi ⟨k1, k2, -⟩
    dsimp only at k1 k2 ⊢
    rcases hs : lessSign fuel (sl 1 i) st sk signme sig with e | ⟨sig', num, st'⟩
    · cases e with
      | oob => exact absurd hs (C05_sign_memory_safe hp (Nat.le_refl _) fuel _ k1 sk signme sig)
      | fuel => trivial
    refine ⟨?_, ?_, fun _ => ⟨_, _, _, _, _, k1, hs⟩⟩
    · obtain ⟨s, hst⟩ := exists_stream p st k1
      exact ((lessSign_wp hp fuel (sl 1 i) st sk signme sig s hst (Nat.le_refl _)).of_ok hs).2.2.2.2.1
    · rw [k2, ← timer_succ]
  rintro ⟨sig, st', t1⟩ ⟨k1, k2, k3⟩
  obtain ⟨sl'', st0, sig0, num, st'', hst0, hs⟩ := k3 ht
  dsimp only at k1 k2 hs ⊢
  rw [Wp.bind_iff]
  refine Wp.forUp (fun i s => s.2 = timer i (clk 2) ∧ (0 < i → s.1 = 1)) ⟨rfl, fun h => absurd h (by omega)⟩ ?_ ?_
  · rintro i ⟨ok, t⟩ hi ⟨m1, -⟩
    dsimp only at m1 ⊢
    rw [C01_honest_signature_verifies hp (Nat.le_refl _) hr0 hst0 hk hs (Nat.le_refl _) (Nat.le_refl _) (sl 2 i), m1, ← timer_succ]
    exact ⟨rfl, fun _ => rfl⟩
  rintro ⟨ok, t2⟩ ⟨m1, m2⟩
  dsimp only at m1 m2
  subst h2 k2 m1
  exact ⟨timer_print _ _, timer_print _ _, timer_print _ _, m2 ht⟩

/-- The whole program: the seed is fixed, but the clock and the contents of uninitialised memory are arbitrary. -/
theorem C75_program (hp : p.WF) (fuel : Nat) {tests : Nat} (ht : 0 < tests) (clk₀ : Nat → UInt64 × UInt64) (G : GenMat p)
    (f : Vector Nat p.N) (clk : Nat → Nat → UInt64 × UInt64) (sl : Nat → Nat → Nat → Stale p) (l : SpeedLocals p) :
    benchMain fuel tests clk₀ G f clk sl l ≠ .error .oob ∧
    ∀ e s rng, benchMain fuel tests clk₀ G f clk sl l = .ok ((e, s), rng) →
      e = (average (samples tests clk₀), sampleVariance (samples tests clk₀)) ∧
      s.keygen = (average (samples tests (clk 0)), sampleVariance (samples tests (clk 0))) ∧
      s.sign = (average (samples tests (clk 1)), sampleVariance (samples tests (clk 1))) ∧
      s.verify = (average (samples tests (clk 2)), sampleVariance (samples tests (clk 2))) ∧ s.ok = 1 := by
  have h : Wp True (benchMain fuel tests clk₀ G f clk sl l) (fun r =>
      r.1.1 = (average (samples tests clk₀), sampleVariance (samples tests clk₀)) ∧
      r.1.2.keygen = (average (samples tests (clk 0)), sampleVariance (samples tests (clk 0))) ∧
      r.1.2.sign = (average (samples tests (clk 1)), sampleVariance (samples tests (clk 1))) ∧
      r.1.2.verify = (average (samples tests (clk 2)), sampleVariance (samples tests (clk 2))) ∧ r.1.2.ok = 1) := by
    unfold benchMain
    rw [Wp.bind_iff]
    refine (C75_elimination hp fuel tests clk₀ G f (initCsprng_ok p benchSeed)).mono ?_
    rintro ⟨e, A, st⟩ ⟨h1, h2⟩
    dsimp only at h1 h2 ⊢
    rw [Wp.bind_iff]
    refine (C75_speed hp fuel ht clk sl l h2).mono ?_
    rintro ⟨s, st'⟩ h3
    exact ⟨h1, h3⟩
  refine ⟨fun e => ?_, fun e s rng h' => h.of_ok h'⟩
  rw [e] at h
  exact h

/-! ## Cases -/

/-- Four measurements: average 5/2, variance 5/3. -/
example : welfordPrint ([1, 2, 3, 4].foldl welfordUpdate welfordInit) = (5 / 2, 5 / 3) := by decide +kernel

/-- A clock that overflows between the readings. -/
example : kiloCycles (18446744073709551000, 384) = 1 := by decide +kernel

end LESS
