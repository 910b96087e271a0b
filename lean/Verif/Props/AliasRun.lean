import Verif.Props.Alias
import Verif.Props.Run
/-! # Runs for C71 with the small parameter set -/
namespace LESS
namespace ToyRun

/-- The memory holds the message at the place for the signed message, followed by some other bytes. -/
def inPlace : Vector UInt8 6000 := blitV (Vector.replicate _ 7) 100 msg

/-- Signing in place. -/
example (back : Bool) (sl : Nat → Stale toy) : ∃ mem r, cryptoSignAlias back 100 sl rng2 inPlace 100 100 33 skBuf = .ok (mem, signedLen, r) ∧
    ∀ i < signedLen, g mem (100 + i) = g signed i := by
  have hm : seg inPlace 100 33 = msg := seg_blitV_same _ _ _ _ (by decide) (by decide)
  have hlen : toy.sigLen ≤ 5000 := by decide
  have hle : signedLen ≤ 33 + toy.sigLen := by decide +kernel
  obtain ⟨b, r, h1, h2⟩ := C47_sign_total toy_WF (Nat.le_refl _) (Nat.le_refl _) rng0_ok rng2_ok keypair_eq (Nat.le_refl _) (by decide) cryptoSign_eq
    sl (bufferAt inPlace 100 (33 + toy.sigLen))
  refine ⟨blitV inPlace 100 b.toList, r, ?_, fun i hi => ?_⟩
  · rw [C71_sign_partial back 100 sl rng2_ok inPlace skBuf (by omega) (by omega) (.inl rfl), hm, h1]
    rfl
  · rw [g_blitV _ _ _ _ (by omega), if_pos (by rw [Vector.length_toList]; omega), Nat.add_sub_cancel_left, getD_toList _ _ (by omega)]
    exact h2 i hi

/-- The signed message at the beginning of a larger memory. -/
def delivered : Vector UInt8 9000 := blitV (Vector.replicate _ 7) 0 received.toList

/-- Opening in place. -/
example (back : Bool) (sl : Nat → Stale toy) : ∃ mem, cryptoSignOpenAlias back 100 sl delivered 0 0 signedLen pkBuf = .ok (0, some 33, mem) := by
  have hle : signedLen ≤ 4000 := by decide +kernel
  have hb : bufferAt delivered 0 signedLen = received := by
    unfold bufferAt delivered
    rw [seg_blitV_same _ _ _ _ (Vector.length_toList) (by omega), toVec_of_toList]
  have hpos : 0 < signedLen := by decide +kernel
  have hs : (g signed (signedLen - 1)).toNat = 2 := by decide +kernel
  have hc : (g delivered (0 + (signedLen - 1))).toNat = 2 := by
    unfold delivered
    rw [g_blitV _ _ _ _ (by omega), if_pos (by rw [Vector.length_toList]; omega), getD_toList _ _ (by omega), received,
      g_firstBytes _ _ _ (by omega), Nat.zero_add, Nat.sub_zero, hs]
  rw [C71_open_partial toy_WF back 100 sl delivered pkBuf hpos (by omega) (by omega) (by omega)
    (by rw [hc]; decide +kernel) (.inl rfl), hb, opens 100 (Nat.le_refl _) sl signedLen (by decide +kernel)]
  exact ⟨_, rfl⟩

end ToyRun
end LESS
