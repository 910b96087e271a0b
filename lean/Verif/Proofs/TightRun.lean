import Verif.Proofs.TightRounds
/-! # Key generation and signing of the run of `Proofs/TightData` -/
namespace LESS
namespace TightRun
open ToyRun (of_returns seed msg rng0 rng1 rng2 rng3 rng4 sk g0 ephem salt h1 h2 h3 h4 h5 digest num okk forUp_zero forUp_succ)

/-- The keys. -/
def priKey : PriKey tight := ⟨toVec _ sk, toVec _ g0⟩
def pubKey : PubKey tight := ⟨toVec _ g0, #v[code]⟩

theorem keygenOne_eq : keygenOne 100 stale G0 (g seeds 0).toList (.replicate _ 99) = .ok code := by
  unfold keygenOne
  rw [Qinv_eq, Kat.ok_bind, Qm_eq, Kat.ok_bind, Mk_eq, Kat.ok_bind, Rk_eq, Kat.ok_bind]
  exact code_eq

theorem keygen_eq : lessKeygen 100 (fun _ => stale) rng0 = .ok (priKey, pubKey, rng2) := by
  unfold lessKeygen
  rw [sk_eq]
  dsimp only
  rw [seeds_eq, Kat.ok_bind, g0_eq]
  dsimp only
  rw [G0_eq, Kat.ok_bind]
  have h : forUp (tight.numKeypairs - 1) (fun i (sfg : Vector (Vector UInt8 tight.rrefBytes) (tight.numKeypairs - 1)) => do
      let seed ← rd seeds i
      let buf ← rd sfg i
      let buf ← keygenOne 100 stale G0 seed.toList buf
      wr sfg i buf) stale.sfg = .ok #v[code] := by
    refine (forUp_succ 0 _ _ _ (forUp_zero _ _)).trans ?_
    rw [seed0_eq, Kat.ok_bind, show rd stale.sfg 0 = .ok (.replicate _ 99) from rfl, Kat.ok_bind, keygenOne_eq]
    rfl
  rw [h]
  rfl

/-- The actions after each round. -/
def acts0 : Vector (MonoAction tight) tight.T := Vector.ofFn fun _ => stale.act'
def acts1 : Vector (MonoAction tight) tight.T := #v[act0, stale.act', stale.act']
def acts2 : Vector (MonoAction tight) tight.T := #v[act0, act1, stale.act']
def acts3 : Vector (MonoAction tight) tight.T := #v[act0, act1, act2]

theorem signRound_eq {i : Nat} {h h' : Inc} {V : NormIS tight} {Q : Monomial tight} {acts acts' : Vector (MonoAction tight) tight.T}
    {a : MonoAction tight} {s : Bytes}
    (e1 : slice tree (tight.seedLen * (tight.numLeaves - 1) + i * tight.seedLen) tight.seedLen = .ok s)
    (e2 : monomialSeedExpandSaltRnd 100 stale.mono s salt i = .ok Q) (e3 : rd acts i = .ok stale.act')
    (e4 : prepareDigestInput stale.norm stale.act' G0 Q = .ok (V, a, 1)) (e5 : wr acts i a = .ok acts')
    (e6 : hashAbsorb tight h (normBytes V) = h') : signRound 100 stale G0 tree salt i (acts, h) = .ok (acts', h') := by
  unfold signRound
  dsimp only
  rw [e1, Kat.ok_bind, e2, Kat.ok_bind, e3, Kat.ok_bind, e4, Kat.ok_bind]
  dsimp only
  rw [e5, Kat.ok_bind, e6]
  rfl

theorem rounds_eq : forUp tight.T (fun i => signRound 100 stale G0 tree salt i) (acts0, hashInit) = .ok (acts3, h3) := by
  have r0 := signRound_eq (acts := acts0) (acts' := acts1) leaf0_eq Q0_eq rfl V0_eq rfl h1_eq
  have r1 := signRound_eq (acts := acts1) (acts' := acts2) leaf1_eq Q1_eq rfl V1_eq rfl h2_eq
  have r2 := signRound_eq (acts := acts2) (acts' := acts3) leaf2_eq Q2_eq rfl V2_eq rfl h3_eq
  refine (forUp_succ 2 _ _ _ ((forUp_succ 1 _ _ _ ((forUp_succ 0 _ _ _ rfl).trans r0)).trans r1)).trans r2

/-- The published positions. -/
def ind : Vector Nat tight.T := #v[0, 1, 0]

theorem ind_eq : indicesToPublish (p := tight) fws = .ok ind := of_returns (by decide +kernel)

def blank : SignT tight tight.storageLen := ⟨.replicate _ 0, .replicate _ (.replicate _ 0), .replicate _ 0, .replicate _ 0⟩

theorem blit_eq : blit blank.seedStorage 0 (List.replicate tight.maxPublishedBytes 0) = .ok (Vector.replicate tight.storageLen 0) :=
  of_returns (by decide +kernel)

/-- The two seeds and their number fill the storage. -/
def storage : Vector UInt8 tight.storageLen :=
  #v[202, 142, 27, 192, 251, 142, 24, 246, 75, 255, 158, 154, 99, 87, 108, 188, 142, 12, 113, 53, 83, 207, 177, 115,
  181, 226, 3, 167, 5, 188, 248, 191, 0]

def storage' : Vector UInt8 tight.storageLen :=
  #v[202, 142, 27, 192, 251, 142, 24, 246, 75, 255, 158, 154, 99, 87, 108, 188, 142, 12, 113, 53, 83, 207, 177, 115,
  181, 226, 3, 167, 5, 188, 248, 191, 2]

theorem storage_eq : seedTreePath (p := tight) tree ind (Vector.replicate tight.storageLen 0) = .ok (storage, num) :=
  of_returns (by decide +kernel)

theorem storage'_eq : wrB storage (num * tight.seedLen) num = .ok storage' := of_returns (by decide +kernel)

theorem compose_eq : (composeAction stale.mono' stale.act Qinv act1 >>= fun a => compressMonomAction (p := tight) (.replicate _ 0) a) =
    .ok (g resp 0) := of_returns (by decide +kernel)

theorem resp_eq : forUp tight.T (fun i => signResponse 100 stale fws seeds acts3 i) (blank.monomActions, 0) = .ok (resp, 1) := by
  have e0 : signResponse 100 stale fws seeds acts3 0 (blank.monomActions, 0) = .ok (blank.monomActions, 0) := rfl
  have e1 : signResponse 100 stale fws seeds acts3 1 (blank.monomActions, 0) = .ok (resp, 1) := by
    unfold signResponse
    dsimp only
    rw [show rd fws 1 = .ok 1 from rfl, Kat.ok_bind, if_pos (by decide), seed0_eq, Kat.ok_bind, Qinv_eq, Kat.ok_bind,
      show rd acts3 1 = .ok act1 from rfl, Kat.ok_bind]
    have h := compose_eq
    cases hc : composeAction stale.mono' stale.act Qinv act1 with
    | error e => rw [hc] at h; cases h
    | ok a =>
      rw [hc, Kat.ok_bind] at h
      rw [Kat.ok_bind, show rd blank.monomActions 0 = .ok (.replicate _ 0) from rfl, Kat.ok_bind, h]
      rfl
  have e2 : signResponse 100 stale fws seeds acts3 2 (resp, 1) = .ok (resp, 1) := rfl
  exact (forUp_succ 2 _ _ _ ((forUp_succ 1 _ _ _ ((forUp_succ 0 _ _ _ rfl).trans e0)).trans e1)).trans e2

/-- The signature. -/
def signature : SignT tight tight.storageLen := ⟨toVec _ salt, resp, toVec _ digest, storage'⟩

theorem sk_list : priKey.compressedSk.toList = sk := by decide +kernel
theorem g0_list : priKey.G0seed.toList = g0 := by decide +kernel
theorem salt_list : (toVec tight.hashLen salt).toList = salt := by decide +kernel
theorem digest_list : (toVec tight.hashLen digest).toList = digest := by decide +kernel

theorem sign_eq : lessSign 100 (fun _ => stale) rng2 priKey msg blank = .ok (signature, num, rng4) := by
  unfold lessSign
  rw [sk_list, seeds_eq, Kat.ok_bind, ephem_eq]
  dsimp only
  rw [salt_eq]
  dsimp only
  rw [salt_list, tree_eq, Kat.ok_bind, g0_list, G0_eq, Kat.ok_bind]
  rw [show (Vector.ofFn fun _ : Fin tight.T => stale.act') = acts0 from rfl, rounds_eq, Kat.ok_bind]
  dsimp only
  rw [h4_eq, h5_eq, digest_eq, digest_list, fws_eq, Kat.ok_bind, ind_eq, Kat.ok_bind, blit_eq, Kat.ok_bind, storage_eq, Kat.ok_bind]
  dsimp only
  rw [resp_eq, Kat.ok_bind]
  dsimp only
  rw [storage'_eq, Kat.ok_bind]
  rfl


end TightRun
end LESS
