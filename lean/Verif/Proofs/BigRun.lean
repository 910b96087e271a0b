import Verif.Proofs.ByteOrderScheme
import Verif.Proofs.BigRound0
import Verif.Proofs.BigRound2
import Verif.Proofs.BigKey
/-! # Key generation and verification on the big-endian machine, composed from the steps of `Proofs/BigData` -/
namespace LESS
open Spec

namespace BigRun
open ToyRun (of_returns stale seeds g0 salt msg storage' sk G0 forUp_succ forUp_zero)

/-! ## The answered round does not depend on the byte order -/

theorem seeds_list : (g seeds 0).toList = Machine.privSeed toy sk 0 :=
  (privateSeeds_wp (F := False) (p := toy) sk).of_ok ToyRun.seeds_eq 0 (by decide)

theorem g0_ok : Reduced G0 ∧ Machine.G0Ok (p := toy) .little 100 g0 (matOf G0) :=
  (Machine.expandG0_wp toy_WF .little 100 stale g0).of_ok (by rw [Machine.expandG0_little]; exact ToyRun.G0_eq)

theorem g0_rank : FullRank (matOf G0) := by
  obtain ⟨piv, h⟩ := g0_ok.2.1
  exact IsRREF.fullRank h

theorem public_ok : Machine.PublicOk .little 100 (matOf G0) (Machine.privSeed toy sk 0) ToyRun.code := by
  rw [← seeds_list]
  exact (Machine.keygenOne_wp toy_WF .little 100 stale G0 g0_ok.1 g0_rank _ _).of_ok
    (by rw [Machine.keygenOne_little]; exact ToyRun.keygenOne_eq)

/-- The leaf of the answered round. -/
def leaf1 : Bytes := seg ToyRun.tree (toy.seedLen * (toy.numLeaves - 1) + 1 * toy.seedLen) toy.seedLen

theorem roundInfo_of {p : Params} (hp : p.WF) {o : ByteOrder} {fuel : Nat} {salt leaf : Bytes} {i : Nat} {m : Monomial p} {G : GenMat p}
    {V V' : NormIS p} {a a' : MonoAction p} {ok : Nat} (hm : Machine.Mono o fuel (Machine.roundState o p leaf salt i) m) (hG : Reduced G)
    (hr : FullRank (matOf G)) (h : prepareDigestInput V a G m = .ok (V', a', ok)) :
    Machine.RoundInfo o fuel (matOf G) salt leaf i a' (colsOf V') := by
  have hN := hp.N_lt
  have hKN := hp.K_lt_N
  obtain ⟨r, -, hr'⟩ := hm.1.rightInv (by omega)
  obtain ⟨-, R, f, piv, hR, hperm, hs, ht⟩ := (prepareDigestInput_wp V a G m hKN hN hm.1 hG (fullRank_mul hr hr')).of_ok h
  exact ⟨m, R, f, piv, hm, hR, commitment_eq hR.reduced hR.flags hperm hs, ht⟩

theorem round_ok : Machine.RoundInfo .little 100 (matOf G0) salt leaf1 1 ToyRun.act1 (colsOf ToyRun.V1) :=
  roundInfo_of toy_WF ((Machine.saltRnd_wp toy_WF .little 100 stale.mono leaf1 salt 1).of_ok
    (by rw [Machine.saltRnd_little]; exact ToyRun.Q1_eq)) g0_ok.1 g0_rank ToyRun.V1_eq

theorem response_ok : Machine.ResponseOk .little 100 sk (matOf G0) salt leaf1 1 1 (colsOf ToyRun.V1) (g ToyRun.resp 0) := by
  refine (Machine.signResponse_one toy_WF .little 100 stale sk round_ok (v := 1) (g seeds 0).toList seeds_list (.replicate _ 0)
    (fun b => pure b) (Machine.ResponseOk .little 100 sk (matOf G0) salt leaf1 1 1 (colsOf ToyRun.V1))
    (fun b hb => by rw [Wp.pure_iff]; exact hb)).of_ok ?_
  rw [Machine.prikey_little, ToyRun.Qinv_eq, Kat.ok_bind]
  have h := ToyRun.compose_eq
  cases hc : composeAction stale.mono' stale.act ToyRun.Qinv ToyRun.act1 with
  | error e => rw [hc] at h; cases h
  | ok a =>
    rw [hc, Kat.ok_bind] at h
    rw [Kat.ok_bind, h]
    rfl

theorem response_eq : verifyResponse stale ToyRun.code (g ToyRun.resp 0) = .ok (some ToyRun.V1) := by
  obtain ⟨V, h, e⟩ := Machine.verifyResponse_ok toy_WF response_ok public_ok stale
  rw [h, colsOf_inj e]

/-! ## Verification -/

theorem leaf_eq (i : Nat) (h : i < toy.T) : slice tree (toy.seedLen * (toy.numLeaves - 1) + i * toy.seedLen) toy.seedLen =
    .ok (seg tree (toy.seedLen * (toy.numLeaves - 1) + i * toy.seedLen) toy.seedLen) := by
  have : ∀ i < toy.T, ToyRun.returns (slice tree (toy.seedLen * (toy.numLeaves - 1) + i * toy.seedLen) toy.seedLen)
      (seg tree (toy.seedLen * (toy.numLeaves - 1) + i * toy.seedLen) toy.seedLen) = true := by decide +kernel
  exact of_returns (this i h)

theorem hidden_round {i : Nat} {h h' : Inc} {e : Nat} {V : NormIS toy} {Qi : Monomial toy} {a : MonoAction toy} (hi : i < toy.T)
    (e1 : rd fws i = .ok 0)
    (e2 : Machine.monomialSeedExpandSaltRnd .big 100 ⟨Vector.replicate _ 0, Vector.replicate _ 0⟩
      (seg tree (toy.seedLen * (toy.numLeaves - 1) + i * toy.seedLen) toy.seedLen) salt i = .ok Qi)
    (e3 : prepareDigestInput stale.norm stale.act' G Qi = .ok (V, a, 1)) (e4 : hashAbsorb toy h (normBytes V) = h') :
    Machine.verifyRound .big 100 stale ToyRun.pubKey ToyRun.signature fws tree sf i (h, e) = .ok (.inr (h', e)) := by
  unfold Machine.verifyRound
  dsimp only
  rw [e1, Kat.ok_bind, if_pos rfl, G_eq, Kat.ok_bind, leaf_eq i hi, Kat.ok_bind,
    show ToyRun.signature.treeSalt.toList = salt from ToyRun.salt_list, e2, Kat.ok_bind, e3, Kat.ok_bind]
  dsimp only
  rw [e4]
  rfl

theorem answered_round : Machine.verifyRound .big 100 stale ToyRun.pubKey ToyRun.signature fws tree sf 1 (h1, 0) =
    .ok (.inr (h2, 1)) := by
  unfold Machine.verifyRound
  dsimp only
  rw [show rd fws 1 = .ok 1 from rfl, Kat.ok_bind, if_neg (by decide), show rd ToyRun.pubKey.SFG (1 - 1) = .ok ToyRun.code from rfl,
    Kat.ok_bind, show rd ToyRun.signature.monomActions 0 = .ok (g ToyRun.resp 0) from rfl, Kat.ok_bind, response_eq, Kat.ok_bind]
  dsimp only
  rw [h2_eq]
  rfl

theorem forRet_succ {ρ σ : Type} (n : Nat) (f : Nat → σ → C (ρ ⊕ σ)) (s t : σ) (h : forRet n f s = .ok (.inr t)) :
    forRet (n + 1) f s = f n t := by
  show (forRet n f s >>= fun r => match r with
    | .inl r => pure (.inl r)
    | .inr s => f n s) = f n t
  rw [h, Kat.ok_bind]

theorem rounds_eq : forRet toy.T (fun i => Machine.verifyRound .big 100 stale ToyRun.pubKey ToyRun.signature fws tree sf i)
    (hashInit, 0) = .ok (.inr (h3, 1)) := by
  have r0 := hidden_round (i := 0) (h := hashInit) (e := 0) (by decide) rfl Q0_eq V0_eq h1_eq
  have r2 := hidden_round (i := 2) (h := h2) (e := 1) (by decide) rfl Q2_eq V2_eq h3_eq
  exact (forRet_succ 2 _ _ _ ((forRet_succ 1 _ _ _ ((forRet_succ 0 _ _ _ rfl).trans r0)).trans answered_round)).trans r2

theorem compare_eq : (timingSafeMemcmp (toVec toy.hashLen digest) ToyRun.signature.digest toy.hashLen >>= fun d =>
    (pure (b2n (d = 0)) : C Nat)) = .ok 0 := of_returns (by decide +kernel)

/-- The big-endian machine refuses the signature made by the little-endian one. -/
theorem verify_eq : Machine.lessVerify .big 100 (fun _ => stale) ToyRun.pubKey msg ToyRun.signature = .ok 0 := by
  unfold Machine.lessVerify
  rw [show ToyRun.signature.digest.toList = ToyRun.digest from ToyRun.digest_list, fws_eq, Kat.ok_bind,
    show indicesToPublish (p := toy) fws = .ok ToyRun.ind from ToyRun.ind_eq, Kat.ok_bind,
    show ToyRun.signature.treeSalt.toList = salt from ToyRun.salt_list, show ToyRun.signature.seedStorage = storage' from rfl,
    tree_eq, Kat.ok_bind]
  dsimp only
  rw [show ToyRun.pubKey.G0seed.toList = g0 from ToyRun.g0_list, sf_eq, Kat.ok_bind, rounds_eq, Kat.ok_bind]
  dsimp only
  rw [h4_eq, h5_eq, digest_eq]
  exact compare_eq

/-! ## Keys -/

def pubKey : PubKey toy := ⟨toVec _ g0, #v[code]⟩

theorem G0_eq : Machine.expandG0 .big 100 stale g0 = .ok G := by
  unfold Machine.expandG0
  rw [sf_eq, Kat.ok_bind, G_eq]

theorem keygenOne_eq : Machine.keygenOne .big 100 stale G (g seeds 0).toList (.replicate _ 99) = .ok code := by
  unfold Machine.keygenOne
  rw [Qinv_eq, Kat.ok_bind, Qm_eq, Kat.ok_bind, Mk_eq, Kat.ok_bind, Rk_eq, Kat.ok_bind]
  exact code_eq

theorem keygen_eq : Machine.lessKeygen .big 100 (fun _ => stale) ToyRun.rng0 = .ok (ToyRun.priKey, pubKey, ToyRun.rng2) := by
  unfold Machine.lessKeygen
  rw [ToyRun.sk_eq]
  dsimp only
  rw [ToyRun.seeds_eq, Kat.ok_bind, ToyRun.g0_eq]
  dsimp only
  rw [G0_eq, Kat.ok_bind]
  have h : forUp (toy.numKeypairs - 1) (fun i (sfg : Vector (Vector UInt8 toy.rrefBytes) (toy.numKeypairs - 1)) => do
      let seed ← rd seeds i
      let buf ← rd sfg i
      let buf ← Machine.keygenOne .big 100 stale G seed.toList buf
      wr sfg i buf) stale.sfg = .ok #v[code] := by
    refine (forUp_succ 0 _ _ _ (forUp_zero _ _)).trans ?_
    rw [ToyRun.seed0_eq, Kat.ok_bind, show rd stale.sfg 0 = .ok (.replicate _ 99) from rfl, Kat.ok_bind, keygenOne_eq]
    rfl
  rw [h]
  rfl

theorem code_ne : code ≠ ToyRun.code := by decide +kernel

theorem key_ne : pubKey ≠ ToyRun.pubKey := by
  intro h
  exact code_ne (congrArg (fun k : PubKey toy => g k.SFG 0) h)

end BigRun
end LESS
