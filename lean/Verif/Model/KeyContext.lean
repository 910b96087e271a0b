import Verif.Model.Less
/-!
# The context left by the expansion of the private key

`LESS_keygen` and `LESS_sign` expand the private key with a local context, `sk_shake_state`, that is not cleared (no function of the
library clears its variables).
-/
namespace LESS

/-- LESS.c:43-53 and 101-111: `privateSeeds` with the context `sk_shake_state`, which stays on the stack. -/
def privateSeedsCtx (p : Params) (sk : Bytes) : C (Vector (Vector UInt8 p.skSeedLen) (p.numKeypairs - 1) × Inc) :=
  forUp (p.numKeypairs - 1)
    (fun i (s : Vector (Vector UInt8 p.skSeedLen) (p.numKeypairs - 1) × Inc) => do
      let (seeds, st) := s
      let (out, st) := csprngBytes p p.skSeedLen st
      let seeds ← wr seeds i (toVec p.skSeedLen out)
      pure (seeds, st))
    (Vector.replicate _ (Vector.replicate _ 0), initCsprng p sk)

end LESS
