import Verif.Props.Testbench
import Verif.Props.Bench
import Verif.Proofs.ToyRun
/-! # Runs for C70 and C75: test functions with the small parameter set, evaluated by the kernel -/
namespace LESS
open Spec ToyRun
set_option maxRecDepth 100000

example : (monomialTester 100 stale stale rng0).toBool = true := by decide +kernel
example : (rrefGenCompressTester 100 stale rng0).toBool = true := by decide +kernel
example : (monoIsCompressTester 100 stale (.replicate _ 7) rng0).toBool = true := by decide +kernel

/-- The matrix drawn by the benchmark from this state has full rank: the case of `C75_fails_elimination`. -/
example : ∃ G1 rng1, generatorRnd 100 stale.gen rng0 = .ok (G1, rng1) ∧ FullRank (matOf G1) := by
  have h : (do let r ← generatorRnd 100 stale.gen rng0; let o ← generatorRREF r.1 (Vector.replicate _ 0); pure o.1 : C Nat).toOption
      = some 1 := by decide +kernel
  rcases e : generatorRnd 100 stale.gen rng0 with x | ⟨G1, rng1⟩
  · rw [e] at h; cases h
  · have hG : Reduced G1 := (generatorRnd_wp (by decide) 100 stale.gen rng0).of_ok e
    rw [e] at h
    obtain ⟨⟨a, R, o⟩, e2, -, -, h3⟩ := (generatorRREF_wp G1 (by decide) hG).exists_ok
    change (generatorRREF G1 (Vector.replicate _ 0) >>= _ : C Nat).toOption = some 1 at h
    rw [e2] at h
    have h4 : a = 1 := by injection h
    dsimp only at h3
    rcases h3 with ⟨h5, -⟩ | ⟨-, h5, -⟩
    · omega
    · exact ⟨G1, rng1, rfl, h5⟩

end LESS
