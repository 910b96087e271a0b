import Verif.Proofs.ToyRun
/-!
# The small run with less room for published seeds

The same steps as in `Proofs/ToyData`, `Proofs/ToyRounds` and `Proofs/ToyRun`, with a parameter set in which an honest signature
publishes as many seeds as the storage has room for.
-/
namespace LESS

/-- As `toy`, but with room for two seeds only. -/
def tight : Params := ⟨.one, 132, 2, 2, 3, 1, 32⟩

theorem tight_WF : tight.WF := by constructor <;> decide

namespace TightRun

/-! ## Steps that do not depend on the room for seeds -/

theorem csprng_same : csprngBytes tight = csprngBytes toy := rfl
theorem init_same : initCsprng tight = initCsprng toy := rfl
theorem shuffle_same : ytShuffleState tight = ytShuffleState toy := rfl

theorem ident_same : @identityPerm tight = @identityPerm toy := rfl

theorem absorb_same : hashAbsorb tight = hashAbsorb toy := rfl

theorem finalize_same : hashFinalize tight = hashFinalize toy := rfl

theorem seeds_same : privateSeeds tight = privateSeeds toy := rfl

theorem tree_same : @generateSeedTree tight = @generateSeedTree toy := rfl

theorem mul_same (A B : GenMat tight) (c π : Vector Nat 132) : @generatorMonomialMul tight A B ⟨c, π⟩ = @generatorMonomialMul toy A B ⟨c, π⟩ := rfl

theorem compress_same : @compressRref tight = @compressRref toy := rfl

theorem sample_same {n : Nat} (a b c : Nat) : ∀ (fuel : Nat) (st : Inc) (buf : Vector Nat n) (k : Nat),
    sampleLoop tight a b c fuel st buf k = sampleLoop toy a b c fuel st buf k
  | 0, _, _, _ => rfl
  | fuel + 1, st, buf, k => by
    unfold sampleLoop
    rw [csprng_same]
    dsimp only
    congr 1
    funext r
    cases r with
    | inl _ => rfl
    | inr r => exact sample_same a b c fuel _ _ _

theorem star_same {n : Nat} (fuel : Nat) (st : Inc) (buf : Vector Nat n) : fqStarRndState tight fuel st buf = fqStarRndState toy fuel st buf :=
  sample_same _ _ _ _ _ _ _

/-- The same monomial. -/
def asTight (m : Monomial toy) : Monomial tight := ⟨m.coefficients, m.permutation⟩

theorem fromState_eq {p : Params} {fuel : Nat} {m : Monomial p} {st st1 st2 : Inc} {c perm0 perm : Vector Nat p.N}
    (h1 : fqStarRndState p fuel st m.coefficients = .ok (c, st1)) (h2 : identityPerm m.permutation = .ok perm0)
    (h3 : ytShuffleState p st1 perm0 = .ok (perm, st2)) : monomialFromState fuel m st = .ok (⟨c, perm⟩, st2) := by
  unfold monomialFromState
  rw [h1, Kat.ok_bind]
  dsimp only
  rw [h2, Kat.ok_bind, h3, Kat.ok_bind]
  rfl

theorem fromState_parts {p : Params} {fuel : Nat} {m m' : Monomial p} {st st2 : Inc} (h : monomialFromState fuel m st = .ok (m', st2)) :
    ∃ st1 perm0, fqStarRndState p fuel st m.coefficients = .ok (m'.coefficients, st1) ∧ identityPerm m.permutation = .ok perm0 ∧
      ytShuffleState p st1 perm0 = .ok (m'.permutation, st2) := by
  unfold monomialFromState at h
  cases h1 : fqStarRndState p fuel st m.coefficients with
  | error _ => rw [h1] at h; cases h
  | ok r =>
    rw [h1, Kat.ok_bind] at h
    dsimp only at h
    cases h2 : identityPerm m.permutation with
    | error _ => rw [h2] at h; cases h
    | ok perm0 =>
      rw [h2, Kat.ok_bind] at h
      cases h3 : ytShuffleState p r.2 perm0 with
      | error _ => rw [h3] at h; cases h
      | ok r' => rw [h3, Kat.ok_bind] at h; cases h; exact ⟨_, _, rfl, rfl, h3⟩

theorem fromState_same {fuel : Nat} {m m' : Monomial toy} {st st2 : Inc} (h : monomialFromState fuel m st = .ok (m', st2)) :
    monomialFromState fuel (asTight m) st = .ok (asTight m', st2) := by
  obtain ⟨st1, perm0, h1, h2, h3⟩ := fromState_parts h
  have e1 : fqStarRndState tight fuel st (asTight m).coefficients = .ok ((asTight m').coefficients, st1) := (star_same fuel st m.coefficients).trans h1
  have e2 : identityPerm (p := tight) (asTight m).permutation = .ok perm0 := (congrFun ident_same m.permutation).trans h2
  have e3 : ytShuffleState tight st1 perm0 = .ok ((asTight m').permutation, st2) := (congrFun (congrFun shuffle_same st1) perm0).trans h3
  exact fromState_eq e1 e2 e3

theorem expandSalt_same {fuel : Nat} {m m' : Monomial toy} {seed salt : Bytes} {i : Nat} (h : monomialSeedExpandSaltRnd fuel m seed salt i = .ok m') :
    monomialSeedExpandSaltRnd fuel (asTight m) seed salt i = .ok (asTight m') := by
  unfold monomialSeedExpandSaltRnd at h ⊢
  dsimp only at h ⊢
  cases h1 : monomialFromState fuel m (initCsprng toy (seed ++ salt ++ le16 (u16 i))) with
  | error _ => rw [h1] at h; cases h
  | ok r =>
    rw [h1, Kat.ok_bind] at h
    cases h
    rw [init_same, fromState_same h1]
    rfl

theorem expandPrikey_same {fuel : Nat} {m m' : Monomial toy} {seed : Bytes} (h : monomialSeedExpandPrikey fuel m seed = .ok m') :
    monomialSeedExpandPrikey fuel (asTight m) seed = .ok (asTight m') := by
  unfold monomialSeedExpandPrikey at h ⊢
  cases h1 : monomialFromState fuel m (initCsprng toy seed) with
  | error _ => rw [h1] at h; cases h
  | ok r =>
    rw [h1, Kat.ok_bind] at h
    cases h
    rw [init_same, fromState_same h1]
    rfl

/-! ## The run -/

open ToyRun (of_returns seed msg rng0 rng1 rng2 rng3 rng4 sk g0 ephem salt h1 h2 h3 h4 h5 digest num okk forUp_zero forUp_succ)

/-- Contents of uninitialised memory. -/
def stale : Stale tight := ⟨⟨.replicate _ 99, .replicate _ 99⟩, ⟨.replicate _ 99, .replicate _ 99⟩, .replicate _ (.replicate _ 99),
  ⟨.replicate _ (.replicate _ 99), .replicate _ 99⟩, .replicate _ (.replicate _ 99), ⟨.replicate _ 99, .replicate _ 99⟩,
  ⟨.replicate _ 99, .replicate _ 99⟩, .replicate _ (.replicate _ 99)⟩

/-- The loop of `prepareDigestInput` over the columns. -/
def columnLoop (V : NormIS tight) (Qbar : MonoAction tight) (Qin : Monomial tight) (Gd : GenMat tight) (isPivot : Vector Nat tight.N) :
    C (NormIS tight × MonoAction tight × Nat × Nat) :=
  forUp tight.N (fun col (s : NormIS tight × MonoAction tight × Nat × Nat) => do
    let (V, Qbar, pivIdx, nonPivIdx) := s
    let (rowIdx, val) ← findSource Qin col
    let f ← rd isPivot col
    if f = 0 then do
      let V ← lexMinimize V ((nonPivIdx + tight.posMod - tight.K) % tight.posMod) Gd col
      pure (V, Qbar, pivIdx, (nonPivIdx + 1) % tight.posMod)
    else do
      let perm ← wr Qbar.permutation pivIdx rowIdx
      let coefs ← wr Qbar.coefficients pivIdx (u8 val)
      pure (V, ⟨coefs, perm⟩, (pivIdx + 1) % tight.posMod, nonPivIdx)) (V, Qbar, 0, tight.K)

/-- The sort is given by its specification. -/
theorem prepare_eq {V : NormIS tight} {Qbar : MonoAction tight} {G : GenMat tight} {Q : Monomial tight} {U R : NormIS tight}
    {Gd Gr : GenMat tight} {piv : Vector Nat tight.N} {a : MonoAction tight} {ok i j : Nat}
    (h1 : generatorMonomialMul (Vector.replicate tight.K (Vector.replicate tight.N 0)) G Q = .ok Gd)
    (h2 : generatorRREF Gd (Vector.replicate tight.N 0) = .ok (ok, Gr, piv)) (h3 : columnLoop V Qbar Q Gr piv = .ok (U, a, i, j))
    (hU : ∀ i < tight.K, ∀ j < tight.N - tight.K, g2 U i j < 256) (hp : (colsOf U).Perm (colsOf R))
    (hs : (colsOf R).IsChain (· ≤ ·)) : prepareDigestInput V Qbar G Q = .ok (R, a, ok) := by
  obtain ⟨S, e, g1, g2⟩ := C28_sorts tight_WF U (fun i j hi hj => hU i hi j hj)
  have hR : S = R := sorted_unique g2 hs.pairwise (g1.trans hp)
  subst hR
  unfold columnLoop at h3
  unfold prepareDigestInput
  rw [h1, Kat.ok_bind, h2, Kat.ok_bind]
  dsimp only
  rw [h3, Kat.ok_bind]
  dsimp only
  rw [e, Kat.ok_bind]
  rfl


def seeds : Vector (Vector UInt8 tight.skSeedLen) (tight.numKeypairs - 1) := ToyRun.seeds
def G0 : GenMat tight := ToyRun.G0
def Qm : Monomial tight := ⟨ToyRun.Qm.coefficients, ToyRun.Qm.permutation⟩
def Mk : GenMat tight := ToyRun.Mk
def Rk : GenMat tight := ToyRun.Rk
def pivk : Vector Nat tight.N := ToyRun.pivk
def Qinv : Monomial tight := ⟨ToyRun.Qinv.coefficients, ToyRun.Qinv.permutation⟩
def code : Vector UInt8 tight.rrefBytes := ToyRun.code
def tree : TreeBuf tight := ToyRun.tree
def M0 : GenMat tight := ToyRun.M0
def R0 : GenMat tight := ToyRun.R0
def piv0 : Vector Nat tight.N := ToyRun.piv0
def U0 : NormIS tight := ToyRun.U0
def Q0 : Monomial tight := ⟨ToyRun.Q0.coefficients, ToyRun.Q0.permutation⟩
def V0 : NormIS tight := ToyRun.V0
def act0 : MonoAction tight := ⟨ToyRun.act0.coefficients, ToyRun.act0.permutation⟩
def M1 : GenMat tight := ToyRun.M1
def R1 : GenMat tight := ToyRun.R1
def piv1 : Vector Nat tight.N := ToyRun.piv1
def U1 : NormIS tight := ToyRun.U1
def Q1 : Monomial tight := ⟨ToyRun.Q1.coefficients, ToyRun.Q1.permutation⟩
def V1 : NormIS tight := ToyRun.V1
def act1 : MonoAction tight := ⟨ToyRun.act1.coefficients, ToyRun.act1.permutation⟩
def M2 : GenMat tight := ToyRun.M2
def R2 : GenMat tight := ToyRun.R2
def piv2 : Vector Nat tight.N := ToyRun.piv2
def U2 : NormIS tight := ToyRun.U2
def Q2 : Monomial tight := ⟨ToyRun.Q2.coefficients, ToyRun.Q2.permutation⟩
def V2 : NormIS tight := ToyRun.V2
def act2 : MonoAction tight := ⟨ToyRun.act2.coefficients, ToyRun.act2.permutation⟩
def fws : Vector Nat tight.T := ToyRun.fws
def resp : Vector (Vector UInt8 tight.monoBytes) tight.W := ToyRun.resp

theorem rng0_eq : initCsprng tight seed = rng0 := (congrFun init_same _).trans ToyRun.rng0_eq

theorem sk_eq : csprngBytes tight tight.skSeedLen rng0 = (sk, rng1) := (congrFun (congrFun csprng_same _) _).trans ToyRun.sk_eq

theorem seeds_eq : privateSeeds tight sk = .ok seeds := (congrFun seeds_same _).trans ToyRun.seeds_eq

theorem g0_eq : csprngBytes tight tight.seedLen rng1 = (g0, rng2) := (congrFun (congrFun csprng_same _) _).trans ToyRun.g0_eq

theorem G0_eq : expandG0 100 stale g0 = .ok G0 := of_returns (by decide +kernel)

theorem seed0_eq : rd seeds 0 = .ok (g seeds 0) :=
  rfl

theorem Qinv_eq : monomialSeedExpandPrikey 100 stale.mono (g seeds 0).toList = .ok Qinv := expandPrikey_same ToyRun.Qinv_eq

theorem Qm_eq : monomialInv stale.mono' Qinv = .ok Qm := of_returns (by decide +kernel)

theorem Mk_eq : generatorMonomialMul stale.gen G0 Qm = .ok Mk := (mul_same _ _ _ _).trans ToyRun.Mk_eq

theorem Rk_eq : generatorRREF Mk (Vector.replicate tight.N 0) = .ok (okk, Rk, pivk) := of_returns (by decide +kernel)

theorem code_eq : compressRref (p := tight) (.replicate _ 99) Rk pivk = .ok code := (congrFun (congrFun (congrFun compress_same _) _) _).trans ToyRun.code_eq

end TightRun
end LESS
