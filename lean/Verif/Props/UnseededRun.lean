import Verif.Props.Unseeded
import Verif.Proofs.ToyRun
/-! # A run for C69: key generation without seeding, with the small parameter set, evaluated by the kernel -/
namespace LESS
open ToyRun
set_option maxRecDepth 100000

/-- The hypothesis of `C69_fails_unseeded`. -/
example : (cryptoSignKeypair 100 (fun _ => stale) platformInitial).toBool = true := by decide +kernel

/-- A run as in `C69_seeded_partial`. -/
example : ∃ r, cryptoSignKeypair 100 (fun _ => stale) (initCsprng toy seed) = .ok r := by
  unfold cryptoSignKeypair
  rw [rng0_eq, keygen_eq]
  exact ⟨_, rfl⟩

end LESS
