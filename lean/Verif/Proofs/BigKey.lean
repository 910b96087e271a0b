import Verif.Proofs.BigData
/-! # Key generation on the big-endian machine (see `Proofs/BigData`) -/
namespace LESS
namespace BigRun
open ToyRun (of_returns stale seeds g0 salt msg storage')

theorem Qinv_eq : Machine.monomialSeedExpandPrikey .big 100 stale.mono (g seeds 0).toList = .ok Qinv := of_returns (by decide +kernel)

theorem Qm_eq : monomialInv stale.mono' Qinv = .ok Qm := of_returns (by decide +kernel)

theorem Mk_eq : generatorMonomialMul stale.gen G Qm = .ok Mk := of_returns (by decide +kernel)

theorem Rk_eq : generatorRREF Mk (Vector.replicate toy.N 0) = .ok (1, Rk, pivk) := of_returns (by decide +kernel)

theorem code_eq : compressRref (p := toy) (.replicate _ 99) Rk pivk = .ok code := of_returns (by decide +kernel)

end BigRun
end LESS
