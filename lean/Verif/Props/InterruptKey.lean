import Verif.Props.Interrupt
/-!
# C99: a key generation that is interrupted

What the two buffers of `crypto_sign_keypair` and the generator hold when the call is stopped part of the way, in particular if the buffers
held another key pair before.
-/
namespace LESS

open Spec

variable {p : Params}

/-- The first `j` codes of the new public key, and those that were there behind. -/
def codesDone (old new : PubKey p) (j : Nat) : PubKey p :=
  ⟨new.G0seed, Vector.ofFn fun k => if k < j then g new.SFG k else g old.SFG k⟩

/-- What the outputs hold at the moments of a key generation. -/
def keyMoments (sk₀ sk : PriKey p) (pk₀ pk : PubKey p) : List (PriKey p × PubKey p) :=
  [(sk₀, pk₀), (⟨sk.compressedSk, sk₀.G0seed⟩, pk₀), (sk, pk₀)] ++ (List.range p.numKeypairs).map fun j => (sk, codesDone pk₀ pk j)

/-- Keeping the record does not change the results. -/
theorem keygenI_same (fuel : Nat) {sl : Nat → Stale p} (rng : Inc) (sk₀ : PriKey p) {pk₀ : PubKey p} (h : (sl 0).sfg = pk₀.SFG) :
    (lessKeygenI fuel sl rng sk₀ pk₀ >>= fun r => pure r.1) = lessKeygen fuel sl rng := by
  unfold lessKeygenI lessKeygen
  dsimp only
  rw [bind_assoc]
  refine bind_congr_ok fun seeds _ => ?_
  rw [bind_assoc]
  refine bind_congr_ok fun G0 _ => ?_
  have e := forUpI_fst (n := p.numKeypairs - 1) (F := fun i (s : Vector (Vector UInt8 p.rrefBytes) (p.numKeypairs - 1) ×
      List (Vector (Vector UInt8 p.rrefBytes) (p.numKeypairs - 1))) => (do
    let (sfg, log) := s
    let seed ← rd seeds i
    let buf ← rd sfg i
    let buf ← keygenOne fuel (sl (i + 1)) G0 seed.toList buf
    let sfg ← wr sfg i buf
    pure (sfg, log ++ [sfg]))) (f := fun i sfg => (do
    let seed ← rd seeds i
    let buf ← rd sfg i
    let buf ← keygenOne fuel (sl (i + 1)) G0 seed.toList buf
    wr sfg i buf)) (fun i s _ => by simp only [bind_assoc, pure_bind, bind_pure]) (pk₀.SFG, [])
  dsimp only at e
  rw [h, ← e]
  unfold keygenCodesI
  simp only [bind_assoc, pure_bind]

theorem codes_log {fuel : Nat} {sl : Nat → Stale p} {G0 : GenMat p} {seeds : Vector (Vector UInt8 p.skSeedLen) (p.numKeypairs - 1)}
    {base out : Vector (Vector UInt8 p.rrefBytes) (p.numKeypairs - 1)} {log : List (Vector (Vector UInt8 p.rrefBytes) (p.numKeypairs - 1))}
    (h : keygenCodesI fuel sl G0 seeds base = .ok (out, log)) :
    log = (List.range (p.numKeypairs - 1)).map
      (fun j => Vector.ofFn fun k : Fin (p.numKeypairs - 1) => if k.val < j + 1 then g out k else g base k) := by
  refine (forUp_run (fun i (s : Vector (Vector UInt8 p.rrefBytes) (p.numKeypairs - 1) ×
      List (Vector (Vector UInt8 p.rrefBytes) (p.numKeypairs - 1))) =>
    s.2 = (List.range i).map (fun j => Vector.ofFn fun k : Fin (p.numKeypairs - 1) => if k.val < j + 1 then g s.1 k else g base k) ∧
      ∀ k, i ≤ k → g s.1 k = g base k) ⟨rfl, fun _ _ => rfl⟩ ?_ h).1
  rintro i ⟨st, lg⟩ s' - ⟨i1, i3⟩ e
  dsimp only at i1 i3 e
  obtain ⟨_, -, e⟩ := run_of_bind e
  obtain ⟨_, -, e⟩ := run_of_bind e
  obtain ⟨buf, -, e⟩ := run_of_bind e
  obtain ⟨st', hst, e⟩ := run_of_bind e
  cases e
  have hkeep : ∀ k, k ≠ i → g st' k = g st k := by
    obtain rfl : st' = upd st i buf := by
      unfold wr at hst
      split at hst
      · rename_i hlt
        cases hst
        unfold upd
        simp [hlt]
      · cases hst
    exact fun k hk => g_upd_ne _ _ _ _ (Ne.symm hk)
  dsimp only
  refine ⟨?_, fun k hk => ?_⟩
  · rw [List.range_succ, List.map_append, i1]
    congr 1
    · refine List.map_congr_left fun j hj => ?_
      rw [List.mem_range] at hj
      apply vec_ext
      intro k hk
      rw [g_ofFn _ _ hk, g_ofFn _ _ hk]
      dsimp only
      by_cases hkj : k < j + 1
      · rw [if_pos hkj, if_pos hkj, hkeep k (by omega)]
      · rw [if_neg hkj, if_neg hkj]
    · rw [List.map_cons, List.map_nil]
      congr 1
      apply vec_ext
      intro k hk
      rw [g_ofFn _ _ hk]
      dsimp only
      by_cases hkj : k < i + 1
      · rw [if_pos hkj]
      · rw [if_neg hkj, hkeep k (by omega), i3 k (by omega)]
  · rw [hkeep k (by omega), i3 k (by omega)]

/-- The record of `LESS_keygen`: what the keys are at its moments, and where the generator is. -/
theorem keygenI_moments (hp : p.WF) {fuel : Nat} {sl : Nat → Stale p} {rng rng' : Inc} {sk₀ sk : PriKey p} {pk₀ pk : PubKey p}
    {log : List ((PriKey p × PubKey p) × Inc)} (h : lessKeygenI fuel sl rng sk₀ pk₀ = .ok ((sk, pk, rng'), log)) :
    log.map Prod.fst = keyMoments sk₀ sk pk₀ pk ∧ log.getLast? = some ((sk, pk), rng') ∧
      ∀ e ∈ log, e = ((sk₀, pk₀), rng) ∨ e.2 = (csprngBytes p p.skSeedLen rng).2 ∨ e.2 = rng' := by
  unfold lessKeygenI at h
  dsimp only at h
  obtain ⟨seeds, -, h⟩ := run_of_bind h
  obtain ⟨G0, -, h⟩ := run_of_bind h
  obtain ⟨⟨sfg, codes⟩, hc, h⟩ := run_of_bind h
  cases h
  have hl := codes_log hc
  have hn : p.numKeypairs = (p.numKeypairs - 1) + 1 := by have := hp.numKeypairs_ge; omega
  have hmoments : ∀ (new : PriKey p) (g0 : Vector UInt8 p.seedLen), (List.range p.numKeypairs).map (fun j => (new, codesDone pk₀ ⟨g0, sfg⟩ j)) =
      (new, ⟨g0, pk₀.SFG⟩) :: codes.map fun c => (new, (⟨g0, c⟩ : PubKey p)) := by
    intro new g0
    conv => lhs; rw [hn]
    rw [List.range_succ_eq_map, List.map_cons, List.map_map, hl, List.map_map]
    congr 1
    unfold codesDone
    congr 2
    apply vec_ext
    intro k hk
    rw [g_ofFn _ _ hk, if_neg (by simp)]
  refine ⟨?_, ?_, fun e he => ?_⟩
  · unfold keyMoments
    rw [hmoments]
    simp only [List.map_cons, List.map_map, List.cons_append, List.nil_append, Function.comp_def]
  · have hr : List.range (p.numKeypairs - 1) = List.range (p.numKeypairs - 2) ++ [p.numKeypairs - 2] := by
      rw [← List.range_succ]
      congr 1
      have := hp.numKeypairs_ge
      omega
    have hlast : codes.getLast? = some sfg := by
      rw [hl, hr, List.map_append, List.map_cons, List.map_nil, List.getLast?_concat]
      congr 1
      apply vec_ext
      intro k hk
      rw [g_ofFn _ _ hk, if_pos (by dsimp only; omega)]
    rw [List.getLast?_append, List.getLast?_map, hlast]
    rfl
  · rw [List.mem_append] at he
    rcases he with he | he
    · simp only [List.mem_cons, List.not_mem_nil, or_false] at he
      rcases he with rfl | rfl | rfl | rfl
      · exact Or.inl rfl
      · exact Or.inr (Or.inl rfl)
      · exact Or.inr (Or.inr rfl)
      · exact Or.inr (Or.inr rfl)
    · obtain ⟨x, -, rfl⟩ := List.mem_map.mp he
      exact Or.inr (Or.inr rfl)

/-! ## The buffers of the caller -/

/-- The keys in the two buffers. -/
def keysIn (b : Vector UInt8 p.pkLen × Vector UInt8 p.skLen) : PriKey p × PubKey p := (readPri b.2, readPub b.1)

/-- C99: keeping the record does not change what `crypto_sign_keypair` gives. -/
theorem C99_same (fuel : Nat) {sl : Nat → Stale p} (rng : Inc) {pk : Vector UInt8 p.pkLen} (sk : Vector UInt8 p.skLen)
    (h : (sl 0).sfg = (readPub pk).SFG) :
    (cryptoSignKeypairI fuel sl rng pk sk >>= fun r => pure r.1) = cryptoSignKeypair fuel sl rng := by
  unfold cryptoSignKeypairI cryptoSignKeypair
  rw [← keygenI_same fuel rng (readPri sk) h]
  simp only [bind_assoc, pure_bind]

theorem keypairI_parts {fuel : Nat} {sl : Nat → Stale p} {rng rng' : Inc} {pk pk' : Vector UInt8 p.pkLen} {sk sk' : Vector UInt8 p.skLen}
    {log : List ((Vector UInt8 p.pkLen × Vector UInt8 p.skLen) × Inc)}
    (h : cryptoSignKeypairI fuel sl rng pk sk = .ok ((pk', sk', rng'), log)) :
    ∃ part, lessKeygenI fuel sl rng (readPri sk) (readPub pk) = .ok ((readPri sk', readPub pk', rng'), part) ∧
      pk' = toVec _ (pubBytes (readPub pk')) ∧ sk' = toVec _ (priBytes (readPri sk')) ∧
      log = part.map fun e => ((toVec _ (pubBytes e.1.2), toVec _ (priBytes e.1.1)), e.2) := by
  unfold cryptoSignKeypairI at h
  obtain ⟨⟨⟨a, b, c⟩, part⟩, h1, h⟩ := run_of_bind h
  cases h
  rw [readPri_priBytes, readPub_pubBytes]
  exact ⟨part, h1, rfl, rfl, rfl⟩

/-- C99, the part that holds: the moments of the call, one after the other: at each, every field of the two keys is the old one or the
new one, and at the last moment the buffers are the results.  Missing: in between, the keys do not belong together
(`C99_fails_pair`). -/
theorem C99_moments_partial (hp : p.WF) {fuel : Nat} {sl : Nat → Stale p} {rng rng' : Inc} {pk pk' : Vector UInt8 p.pkLen}
    {sk sk' : Vector UInt8 p.skLen} {log : List ((Vector UInt8 p.pkLen × Vector UInt8 p.skLen) × Inc)}
    (h : cryptoSignKeypairI fuel sl rng pk sk = .ok ((pk', sk', rng'), log)) :
    (log.map fun e => keysIn e.1) = keyMoments (readPri sk) (readPri sk') (readPub pk) (readPub pk') ∧
      log.getLast? = some ((pk', sk'), rng') := by
  obtain ⟨part, h1, hpk, hsk, rfl⟩ := keypairI_parts h
  obtain ⟨m1, m2, -⟩ := keygenI_moments hp h1
  constructor
  · rw [← m1, List.map_map]
    refine List.map_congr_left fun e _ => ?_
    unfold keysIn
    dsimp only [Function.comp]
    rw [readPri_priBytes, readPub_pubBytes]
  · rw [List.getLast?_map, m2, Option.map_some]
    dsimp only
    rw [← hpk, ← hsk]

/-- C99 is false: a call that overwrites a key pair has a moment at which the private key is the new one and the public key is still the
old one, which do not belong together unless the new seed of the codes happens to be the old one. -/
theorem C99_fails_pair (hp : p.WF) {fuel : Nat} {sl : Nat → Stale p} {rng rng' : Inc} {pk pk' : Vector UInt8 p.pkLen}
    {sk sk' : Vector UInt8 p.skLen} {log : List ((Vector UInt8 p.pkLen × Vector UInt8 p.skLen) × Inc)}
    (h₀ : (sl 0).sfg = (readPub pk).SFG) (h : cryptoSignKeypairI fuel sl rng pk sk = .ok ((pk', sk', rng'), log)) {s : Stream}
    (hs : StreamAt p rng s) (hne : (readPub pk).spec.seed ≠ (skOf p s).seed) :
    ∃ e ∈ log, readPub e.1.1 = readPub pk ∧ (readPri e.1.2).spec = skOf p s ∧
      ∀ B, ¬ KeyPair p B (readPri e.1.2).spec (readPub e.1.1).spec := by
  have h' : cryptoSignKeypair fuel sl rng = .ok (pk', sk', rng') := by
    rw [← C99_same fuel rng sk h₀, h]
    rfl
  have hsk : (readPri sk').spec = skOf p s := ((cryptoSignKeypair_wp hp fuel sl rng s hs).of_ok h').1
  have hmem : (readPri sk', readPub pk) ∈ log.map fun e => keysIn e.1 := by
    rw [(C99_moments_partial hp h).1]
    unfold keyMoments
    simp
  obtain ⟨e, he, hk⟩ := List.mem_map.mp hmem
  obtain ⟨k1, k2⟩ := Prod.mk.inj hk
  refine ⟨e, he, k2, ?_, fun B hB => hne ?_⟩
  · rw [k1, hsk]
  · rw [k1, k2, hsk] at hB
    exact hB.1

/-- C99, for a call that is made again: once anything was written, the next key generation on the generator as it was left draws none of
the bytes of the secret that was written. -/
theorem C99_retry (hp : p.WF) {fuel : Nat} {sl : Nat → Stale p} {rng rng' : Inc} {pk pk' : Vector UInt8 p.pkLen}
    {sk sk' : Vector UInt8 p.skLen} {log : List ((Vector UInt8 p.pkLen × Vector UInt8 p.skLen) × Inc)}
    (h₀ : (sl 0).sfg = (readPub pk).SFG) (h : cryptoSignKeypairI fuel sl rng pk sk = .ok ((pk', sk', rng'), log)) {s : Stream}
    (hs : StreamAt p rng s) {e : (Vector UInt8 p.pkLen × Vector UInt8 p.skLen) × Inc} (he : e ∈ log)
    (hne : keysIn e.1 ≠ (readPri sk, readPub pk)) {fuel₂ : Nat} {sl₂ : Nat → Stale p} {pk₂ : Vector UInt8 p.pkLen}
    {sk₂ : Vector UInt8 p.skLen} {rng₂ : Inc} (h₂ : cryptoSignKeypair fuel₂ sl₂ e.2 = .ok (pk₂, sk₂, rng₂)) :
    (readPri sk').spec = skOf p s ∧ KeyPair p fuel₂ (readPri sk₂).spec (readPub pk₂).spec ∧
      ((readPri sk₂).spec = skOf p (s.drop p.skSeedLen) ∨ (readPri sk₂).spec = skOf p (s.drop (p.skSeedLen + p.seedLen))) := by
  have h' : cryptoSignKeypair fuel sl rng = .ok (pk', sk', rng') := by
    rw [← C99_same fuel rng sk h₀, h]
    rfl
  obtain ⟨q1, -, q3⟩ := (cryptoSignKeypair_wp hp fuel sl rng s hs).of_ok h'
  refine ⟨q1, ?_⟩
  obtain ⟨part, h1, -, -, rfl⟩ := keypairI_parts h
  obtain ⟨-, -, m3⟩ := keygenI_moments hp h1
  obtain ⟨x, hx, rfl⟩ := List.mem_map.mp he
  rcases m3 x hx with rfl | hr | hr
  · exfalso
    apply hne
    unfold keysIn
    dsimp only
    rw [readPri_priBytes, readPub_pubBytes]
  · dsimp only at h₂
    rw [hr] at h₂
    obtain ⟨r1, r2, -⟩ := (cryptoSignKeypair_wp hp fuel₂ sl₂ _ _ (hs.next p.skSeedLen)).of_ok h₂
    dsimp only at r1 r2
    rw [r1]
    exact ⟨r2, Or.inl rfl⟩
  · dsimp only at h₂
    rw [hr] at h₂
    obtain ⟨r1, r2, -⟩ := (cryptoSignKeypair_wp hp fuel₂ sl₂ _ _ q3).of_ok h₂
    dsimp only at r1 r2
    rw [r1]
    exact ⟨r2, Or.inr rfl⟩

/-- C99: every call that succeeds has such a record, whatever private key was in its buffer. -/
theorem C99_record {fuel : Nat} {sl : Nat → Stale p} {rng rng' : Inc} {pk pk' : Vector UInt8 p.pkLen} (sk : Vector UInt8 p.skLen)
    {sk' : Vector UInt8 p.skLen} (h₀ : (sl 0).sfg = (readPub pk).SFG) (h : cryptoSignKeypair fuel sl rng = .ok (pk', sk', rng')) :
    ∃ log, cryptoSignKeypairI fuel sl rng pk sk = .ok ((pk', sk', rng'), log) := by
  rw [← C99_same fuel rng sk h₀] at h
  obtain ⟨⟨r, log⟩, h1, h2⟩ := run_of_bind h
  cases h2
  exact ⟨log, h1⟩

end LESS
