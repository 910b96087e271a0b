import Verif.Model.Trace
/-!
# Memory accesses made with private monomials

The functions that key generation and signing apply to private monomials, with their reads and writes of arrays
recorded.  `Props/SecretTrace` shows that dropping the record gives the functions of the model back.

* Every mention of an array element that the abstract machine evaluates is one access.  C leaves open which side of an
  assignment comes first; here the index on the left side is read before the right side.
* Simplified: of `LESS_keygen` and of the responses of `LESS_sign` only the accesses made by the functions of this file
  are recorded.  The record is a part of what the program does, selected by array.

Numbers of the arrays:

| function | array | number |
|---|---|---|
| `monomial_mat_inv` | `res->permutation`, `res->coefficients` | 10, 11 |
| | `to_invert->permutation`, `to_invert->coefficients` | 12, 13 |
| `generator_monomial_mul` | `res->values`, `G->values` | 20, 21 |
| | `monom->permutation`, `monom->coefficients` | 22, 23 |
| `monomial_compose_action` | `reverse_Q.permutation`, `reverse_Q.coefficients` | 30, 31 |
| | `Q_in->permutation`, `Q_in->coefficients` | 32, 33 |
| | `in->permutation`, `in->coefficients` | 34, 35 |
| | `out->permutation`, `out->coefficients` | 36, 37 |
-/
namespace LESS

variable {p : Params}

/-- A write to the one-dimensional array with number `arg`. -/
def twr {α : Type} {n : Nat} (arg : Nat) (v : Vector α n) (i : Nat) (x : α) : Tr (Vector α n) := do
  note (.write arg i 0)
  StateT.lift (wr v i x)

/-- monomial.c:125-132 `monomial_mat_inv` with its accesses; `fq_inv` (fq_arith.h:132-149) reads no array. -/
def monomialInvT (stale toInvert : Monomial p) : Tr (Monomial p) :=
  tforUp p.N (fun i res => do
    let d ← trd 12 toInvert.permutation i
    let perm ← twr 10 res.permutation d (i % p.posMod)
    let d ← trd 12 toInvert.permutation i
    let c ← trd 13 toInvert.coefficients i
    let coefs ← twr 11 res.coefficients d (fqInv c)
    pure ⟨coefs, perm⟩) stale

/-- codes.c:34-45 `generator_monomial_mul` with its accesses. -/
def generatorMonomialMulT (res G : GenMat p) (monom : Monomial p) : Tr (GenMat p) :=
  tforUp p.N (fun srcCol res =>
    tforUp p.K (fun row res => do
      let d ← trd 22 monom.permutation srcCol
      let x ← trd2 21 G row srcCol
      let c ← trd 23 monom.coefficients srcCol
      twr2 20 res row d (fqRed (x * c))) res) res

/-- monomial.c:196-214 `monomial_compose_action` with its accesses. -/
def composeActionT (stale : Monomial p) (staleOut : MonoAction p) (Qin : Monomial p) (a : MonoAction p) :
    Tr (MonoAction p) := do
  let rev ← tforUp p.N (fun i (rev : Monomial p) => do
    let d ← trd 32 Qin.permutation i
    let perm ← twr 30 rev.permutation d (i % p.posMod)
    let d ← trd 32 Qin.permutation i
    let c ← trd 33 Qin.coefficients i
    let coefs ← twr 31 rev.coefficients d c
    pure ⟨coefs, perm⟩) stale
  tforUp p.K (fun i (out : MonoAction p) => do
    let s ← trd 34 a.permutation i
    let rp ← trd 30 rev.permutation s
    let perm ← twr 36 out.permutation i rp
    let c ← trd 35 a.coefficients i
    let s ← trd 34 a.permutation i
    let rc ← trd 31 rev.coefficients s
    let coefs ← twr 37 out.coefficients i (fqRed (c * rc))
    pure ⟨coefs, perm⟩) staleOut

/-- LESS.c:68-86, one public code, with the accesses of the two functions applied to the private monomial. -/
def keygenOneT (fuel : Nat) (sl : Stale p) (G0 : GenMat p) (seed : Bytes) (buf : Vector UInt8 p.rrefBytes) :
    Tr (Vector UInt8 p.rrefBytes) := do
  let Qinv ← StateT.lift (monomialSeedExpandPrikey fuel sl.mono seed)
  let Qm ← monomialInvT sl.mono' Qinv
  let G ← generatorMonomialMulT sl.gen G0 Qm
  let (_, G, isPivot) ← StateT.lift (generatorRREF G (Vector.replicate p.N 0))
  StateT.lift (compressRref buf G isPivot)

/-- LESS.c:38-87 `LESS_keygen` with the accesses of the functions applied to the private monomials. -/
def lessKeygenT (fuel : Nat) (sl : Nat → Stale p) (rng : Inc) : Tr (PriKey p × PubKey p × Inc) := do
  let (sk, rng) := csprngBytes p p.skSeedLen rng
  let seeds ← StateT.lift (privateSeeds p sk)
  let (g0, rng) := csprngBytes p p.seedLen rng
  let G0 ← StateT.lift (expandG0 fuel (sl 0) g0)
  let sfg ← tforUp (p.numKeypairs - 1) (fun i sfg => do
    let seed ← StateT.lift (rd seeds i)
    let buf ← StateT.lift (rd sfg i)
    let buf ← keygenOneT fuel (sl (i + 1)) G0 seed.toList buf
    StateT.lift (wr sfg i buf)) (sl 0).sfg
  pure (⟨toVec _ sk, toVec _ g0⟩, ⟨toVec _ g0, sfg⟩, rng)

/-- LESS.c:172-187, one response of the signer, with the accesses of the composition with the private monomial. -/
def signResponseT (fuel : Nat) (sl : Stale p) (fws : Vector Nat p.T)
    (seeds : Vector (Vector UInt8 p.skSeedLen) (p.numKeypairs - 1)) (acts : Vector (MonoAction p) p.T)
    (i : Nat) (s : Vector (Vector UInt8 p.monoBytes) p.W × Nat) :
    Tr (Vector (Vector UInt8 p.monoBytes) p.W × Nat) := do
  let (out, emitted) := s
  let x ← StateT.lift (rd fws i)
  if x ≠ 0 then do
    let seed ← StateT.lift (rd seeds (x - 1))
    let Qm ← StateT.lift (monomialSeedExpandPrikey fuel sl.mono seed.toList)
    let a ← StateT.lift (rd acts i)
    let act ← composeActionT sl.mono' sl.act Qm a
    let buf ← StateT.lift (rd out emitted)
    let buf ← StateT.lift (compressMonomAction buf act)
    let out ← StateT.lift (wr out emitted buf)
    pure (out, emitted + 1)
  else pure (out, emitted)

end LESS
