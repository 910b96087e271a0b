import Verif.Model.Interrupt
import Verif.Props.SignCost
import Verif.Props.Api
/-!
# C98: a signing call that is interrupted

What the output of `LESS_sign` and the generator hold when the call is stopped part of the way: the process is killed and its memory
is read, or a signal handler leaves the call.
-/
namespace LESS

open Spec

variable {p : Params} {n : Nat}

/-- How far a signature has been written. -/
inductive Progress where
  | nothing
  | salt
  | digest
  | seeds (j : Nat)
  | responses (j : Nat)
  | all

/-- What the output holds at some progress.  This is made from what it held before, the finished signature and the number of seeds in
it, and from nothing else. -/
def Progress.view (old final : SignT p n) (num : Nat) : Progress → SignT p n
  | nothing => old
  | salt => ⟨final.treeSalt, old.monomActions, old.digest, old.seedStorage⟩
  | digest => ⟨final.treeSalt, old.monomActions, final.digest, old.seedStorage⟩
  | seeds j => ⟨final.treeSalt, old.monomActions, final.digest, seedsDone j⟩
  | responses j => ⟨final.treeSalt, Vector.ofFn fun k => if k < j then g final.monomActions k else g old.monomActions k, final.digest,
      seedsDone num⟩
  | all => final
where
  /-- The storage after `j` seeds: these, zeros, and the byte behind the zeros as it was. -/
  seedsDone (j : Nat) : Vector UInt8 n := Vector.ofFn fun k =>
    if k < j * p.seedLen then g final.seedStorage k else if k < p.maxPublishedBytes then 0 else g old.seedStorage k

/-- The moments of a signature with `num` seeds and `w` responses. -/
def moments (num w : Nat) : List Progress :=
  [.nothing, .nothing, .salt, .digest, .seeds 0] ++ (List.range num).map (fun j => .seeds (j + 1))
    ++ (List.range w).map (fun j => .responses (j + 1)) ++ [.all]

theorem forUpI_fst {σ τ : Type} {n : Nat} {F : Nat → σ × τ → C (σ × τ)} {f : Nat → σ → C σ}
    (h : ∀ i s, i < n → (F i s >>= fun o => pure o.1) = f i s.1) (s : σ × τ) :
    (forUp n F s >>= fun o => pure o.1) = forUp n f s.1 := by
  induction n with
  | zero => rfl
  | succ n ih =>
    show ((forUp n F s >>= _) >>= _) = (forUp n f s.1 >>= _)
    rw [← ih fun i s hi => h i s (by omega), bind_assoc, bind_assoc]
    refine bind_congr_ok fun o _ => ?_
    exact h n o (by omega)

theorem seedTreePathI_fst (tree : TreeBuf p) (indices : Vector Nat p.T) (storage : Vector UInt8 n) :
    (seedTreePathI tree indices storage >>= fun r => pure r.1) = seedTreePath tree indices storage := by
  unfold seedTreePathI seedTreePath
  rw [bind_assoc]
  refine bind_congr_ok fun flags _ => ?_
  refine forUpI_fst (fun i s _ => ?_) _
  obtain ⟨⟨storage, num⟩, log⟩ := s
  dsimp only
  rw [bind_assoc]
  refine bind_congr_ok fun b _ => ?_
  cases b <;> simp only [bind_assoc, pure_bind, if_true, Bool.false_eq_true, if_false]

theorem signResponseI_fst (fuel : Nat) (sl : Stale p) (fws : Vector Nat p.T)
    (seeds : Vector (Vector UInt8 p.skSeedLen) (p.numKeypairs - 1)) (acts : Vector (MonoAction p) p.T) (i : Nat)
    (s : (Vector (Vector UInt8 p.monoBytes) p.W × Nat) × List (Vector (Vector UInt8 p.monoBytes) p.W)) :
    (signResponseI fuel sl fws seeds acts i s >>= fun r => pure r.1) = signResponse fuel sl fws seeds acts i s.1 := by
  obtain ⟨⟨out, emitted⟩, log⟩ := s
  unfold signResponseI signResponse
  dsimp only
  rw [bind_assoc]
  refine bind_congr_ok fun x _ => ?_
  by_cases h : x ≠ 0
  · rw [if_pos h, if_pos h]
    simp only [bind_assoc, pure_bind]
  · rw [if_neg h, if_neg h]
    simp only [pure_bind]

/-- C98: keeping the record does not change the results. -/
theorem C98_same (fuel : Nat) (sl : Nat → Stale p) (rng : Inc) (SK : PriKey p) (m : Bytes) (sig : SignT p n) :
    (lessSignI fuel sl rng SK m sig >>= fun r => pure r.1) = lessSign fuel sl rng SK m sig := by
  unfold lessSignI lessSign
  dsimp only
  rw [bind_assoc]
  refine bind_congr_ok fun seeds _ => ?_
  rw [bind_assoc]
  refine bind_congr_ok fun tree _ => ?_
  rw [bind_assoc]
  refine bind_congr_ok fun G0 _ => ?_
  rw [bind_assoc]
  refine bind_congr_ok fun acts _ => ?_
  rw [bind_assoc]
  refine bind_congr_ok fun fws _ => ?_
  rw [bind_assoc]
  refine bind_congr_ok fun ind _ => ?_
  rw [bind_assoc]
  refine bind_congr_ok fun cleared _ => ?_
  rw [← seedTreePathI_fst]
  rw [bind_assoc, bind_assoc]
  refine bind_congr_ok fun st _ => ?_
  have e := forUpI_fst (n := p.T) (F := fun i => signResponseI fuel (sl (p.T + i + 1)) fws seeds acts.1 i)
    (f := fun i => signResponse fuel (sl (p.T + i + 1)) fws seeds acts.1 i) (fun i s _ => signResponseI_fst _ _ _ _ _ i s)
    ((sig.monomActions, 0), [])
  dsimp only at e
  rw [pure_bind]
  rw [← e]
  simp only [bind_assoc, pure_bind]

/-- The seeds written so far are those of the storage now, the rest is as it was. -/
theorem path_log {tree : TreeBuf p} {indices : Vector Nat p.T} {base storage : Vector UInt8 n} {num : Nat} {log : List (Vector UInt8 n)}
    (h : seedTreePathI tree indices base = .ok ((storage, num), log)) :
    log = (List.range num).map (fun j => Vector.ofFn fun k : Fin n => if k.val < (j + 1) * p.seedLen then g storage k else g base k) ∧
      ∀ k, num * p.seedLen ≤ k → g storage k = g base k := by
  unfold seedTreePathI at h
  obtain ⟨flags, -, h⟩ := run_of_bind h
  refine forUp_run (fun _ (s : (Vector UInt8 n × Nat) × List (Vector UInt8 n)) =>
    s.2 = (List.range s.1.2).map (fun j => Vector.ofFn fun k : Fin n => if k.val < (j + 1) * p.seedLen then g s.1.1 k else g base k) ∧
      ∀ k, s.1.2 * p.seedLen ≤ k → g s.1.1 k = g base k) ⟨rfl, fun _ _ => rfl⟩ ?_ h
  rintro i ⟨⟨st, nm⟩, lg⟩ s' - ⟨i1, i2⟩ e
  dsimp only at i1 i2 e
  obtain ⟨b, -, e⟩ := run_of_bind e
  cases b with
  | false => cases e; exact ⟨i1, i2⟩
  | true =>
    rw [if_pos rfl] at e
    obtain ⟨seed, hseed, e⟩ := run_of_bind e
    obtain ⟨st', hst, e⟩ := run_of_bind e
    cases e
    have hlen : seed.length = p.seedLen := by
      unfold slice at hseed
      split at hseed
      · cases hseed; simp
      · cases hseed
    have hst' : st' = blitV st (nm * p.seedLen) seed := by
      unfold blit at hst
      split at hst
      · cases hst; rfl
      · cases hst
    have hkeep : ∀ k, ¬ (nm * p.seedLen ≤ k ∧ k < (nm + 1) * p.seedLen) → g st' k = g st k := by
      intro k hk
      by_cases hkn : k < n
      · rw [hst', g_blitV _ _ _ _ hkn, hlen, if_neg]
        rwa [Nat.succ_mul] at hk
      · unfold g
        simp [hkn]
    dsimp only
    refine ⟨?_, fun k hk => ?_⟩
    · rw [List.range_succ, List.map_append, i1]
      congr 1
      · refine List.map_congr_left fun j hj => ?_
        rw [List.mem_range] at hj
        apply vec_ext
        intro k hk
        rw [g_ofFn _ _ hk, g_ofFn _ _ hk]
        dsimp only
        by_cases hkj : k < (j + 1) * p.seedLen
        · have : (j + 1) * p.seedLen ≤ nm * p.seedLen := Nat.mul_le_mul_right _ hj
          rw [if_pos hkj, if_pos hkj, hkeep k (by omega)]
        · rw [if_neg hkj, if_neg hkj]
      · rw [List.map_cons, List.map_nil]
        congr 1
        apply vec_ext
        intro k hk
        rw [g_ofFn _ _ hk]
        dsimp only
        by_cases hkj : k < (nm + 1) * p.seedLen
        · rw [if_pos hkj]
        · rw [if_neg hkj, hkeep k (by omega), i2 k]
          rw [Nat.succ_mul] at hkj
          omega
    · rw [hkeep k (by omega), i2 k]
      rw [Nat.succ_mul] at hk
      omega

theorem response_log {fuel : Nat} {sl : Nat → Stale p} {fws : Vector Nat p.T} {seeds : Vector (Vector UInt8 p.skSeedLen) (p.numKeypairs - 1)}
    {acts : Vector (MonoAction p) p.T} {base out : Vector (Vector UInt8 p.monoBytes) p.W} {w : Nat}
    {log : List (Vector (Vector UInt8 p.monoBytes) p.W)}
    (h : forUp p.T (fun i => signResponseI fuel (sl (p.T + i + 1)) fws seeds acts i) ((base, 0), []) = .ok ((out, w), log)) :
    log = (List.range w).map (fun j => Vector.ofFn fun k : Fin p.W => if k.val < j + 1 then g out k else g base k) ∧
      w ≤ p.W ∧ ∀ k, w ≤ k → g out k = g base k := by
  refine forUp_run (fun _ (s : (Vector (Vector UInt8 p.monoBytes) p.W × Nat) × List (Vector (Vector UInt8 p.monoBytes) p.W)) =>
    s.2 = (List.range s.1.2).map (fun j => Vector.ofFn fun k : Fin p.W => if k.val < j + 1 then g s.1.1 k else g base k) ∧
      s.1.2 ≤ p.W ∧ ∀ k, s.1.2 ≤ k → g s.1.1 k = g base k) ⟨rfl, Nat.zero_le _, fun _ _ => rfl⟩ ?_ h
  rintro i ⟨⟨st, nm⟩, lg⟩ s' - ⟨i1, i2, i3⟩ e
  dsimp only at i1 i2 i3 e
  unfold signResponseI at e
  dsimp only at e
  obtain ⟨x, -, e⟩ := run_of_bind e
  by_cases hx : x ≠ 0
  · rw [if_pos hx] at e
    obtain ⟨_, -, e⟩ := run_of_bind e
    obtain ⟨_, -, e⟩ := run_of_bind e
    obtain ⟨_, -, e⟩ := run_of_bind e
    obtain ⟨_, -, e⟩ := run_of_bind e
    obtain ⟨_, -, e⟩ := run_of_bind e
    obtain ⟨buf, -, e⟩ := run_of_bind e
    obtain ⟨st', hst, e⟩ := run_of_bind e
    cases e
    obtain ⟨hnm, rfl⟩ : nm < p.W ∧ st' = upd st nm buf := by
      unfold wr at hst
      split at hst
      · rename_i hlt
        refine ⟨hlt, ?_⟩
        cases hst
        unfold upd
        simp [hlt]
      · cases hst
    have hkeep : ∀ k, k ≠ nm → g (upd st nm buf) k = g st k := fun k hk => g_upd_ne _ _ _ _ (Ne.symm hk)
    dsimp only
    refine ⟨?_, hnm, fun k hk => ?_⟩
    · rw [List.range_succ, List.map_append, i1]
      congr 1
      · refine List.map_congr_left fun j hj => ?_
        rw [List.mem_range] at hj
        apply vec_ext
        intro k hk
        rw [g_ofFn _ _ hk, g_ofFn _ _ hk]
        dsimp only
        by_cases hkj : k < j + 1
        · rw [if_pos hkj, if_pos hkj, hkeep k (by omega)]
        · rw [if_neg hkj, if_neg hkj]
      · rw [List.map_cons, List.map_nil]
        congr 1
        apply vec_ext
        intro k hk
        rw [g_ofFn _ _ hk]
        dsimp only
        by_cases hkj : k < nm + 1
        · rw [if_pos hkj]
        · rw [if_neg hkj, hkeep k (by omega), i3 k (by omega)]
    · rw [hkeep k (by omega), i3 k (by omega)]
  · rw [if_neg hx] at e
    cases e
    exact ⟨i1, i2, i3⟩

/-- C98: at every moment of a call that returns, the output holds what it held before the call, or parts of the signature the call
will return, or zeros: these are the moments, one after the other. -/
theorem C98_moments {fuel : Nat} {sl : Nat → Stale p} {rng rng' : Inc} {SK : PriKey p} {m : Bytes} {sig final : SignT p n} {num : Nat}
    {log : List (SignT p n × Inc)} (h : lessSignI fuel sl rng SK m sig = .ok ((final, num, rng'), log)) :
    ∃ w ≤ p.W, log.map Prod.fst = (moments num w).map (Progress.view sig final num) := by
  unfold lessSignI at h
  obtain ⟨seeds, -, h⟩ := run_of_bind h
  dsimp only at h
  obtain ⟨tree, -, h⟩ := run_of_bind h
  obtain ⟨G0, -, h⟩ := run_of_bind h
  obtain ⟨⟨acts, hh⟩, -, h⟩ := run_of_bind h
  dsimp only at h
  obtain ⟨fws, -, h⟩ := run_of_bind h
  obtain ⟨ind, -, h⟩ := run_of_bind h
  obtain ⟨cleared, hc, h⟩ := run_of_bind h
  obtain ⟨⟨⟨storage, num'⟩, storages⟩, hst, h⟩ := run_of_bind h
  dsimp only at h
  obtain ⟨⟨⟨monoms, w⟩, outs⟩, hout, h⟩ := run_of_bind h
  dsimp only at h
  obtain ⟨full, hfull, h⟩ := run_of_bind h
  cases h
  obtain ⟨a1, a2⟩ := path_log hst
  obtain ⟨b1, b2, b3⟩ := response_log hout
  have hcl : ∀ k, k < n → g cleared k = if k < p.maxPublishedBytes then 0 else g sig.seedStorage k := by
    intro k hk
    have : cleared = blitV sig.seedStorage 0 (List.replicate p.maxPublishedBytes 0) := by
      unfold blit at hc
      split at hc
      · cases hc; rfl
      · cases hc
    rw [this, g_blitV _ _ _ _ hk, List.length_replicate]
    by_cases hkm : k < p.maxPublishedBytes
    · rw [if_pos ⟨Nat.zero_le _, by omega⟩, if_pos hkm]
      simp [List.getD, hkm]
    · rw [if_neg (by omega), if_neg hkm]
  have hfu : ∀ k, k < num * p.seedLen → g full k = g storage k := by
    intro k hk
    have : full = upd storage (num * p.seedLen) (UInt8.ofNat num) := by
      unfold wrB wr at hfull
      split at hfull
      · rename_i hlt
        cases hfull
        unfold upd
        simp [hlt]
      · cases hfull
    rw [this, g_upd_ne _ _ _ _ (by omega)]
  refine ⟨w, b2, ?_⟩
  have hsd : ∀ j ≤ num, (Vector.ofFn fun k : Fin n => if k.val < j * p.seedLen then g storage k else g cleared k) =
      Progress.view.seedsDone sig ⟨toVec p.hashLen (csprngBytes p p.hashLen (csprngBytes p p.seedLen rng).2).1, monoms,
        toVec p.hashLen (hashFinalize p (hashAbsorb p (hashAbsorb p hh m)
          (toVec p.hashLen (csprngBytes p p.hashLen (csprngBytes p p.seedLen rng).2).1).toList)), full⟩ j := by
    intro j hj
    have hle : j * p.seedLen ≤ num * p.seedLen := Nat.mul_le_mul_right _ hj
    unfold Progress.view.seedsDone
    apply vec_ext
    intro k hk
    rw [g_ofFn _ _ hk, g_ofFn _ _ hk]
    dsimp only
    by_cases hkj : k < j * p.seedLen
    · rw [if_pos hkj, if_pos hkj, hfu k (by omega)]
    · rw [if_neg hkj, if_neg hkj, hcl k hk]
  have h0 : cleared = Vector.ofFn fun k : Fin n => if k.val < 0 * p.seedLen then g storage k else g cleared k := by
    apply vec_ext
    intro k hk
    rw [g_ofFn _ _ hk, if_neg (by simp)]
  have hN : storage = Vector.ofFn fun k : Fin n => if k.val < num * p.seedLen then g storage k else g cleared k := by
    apply vec_ext
    intro k hk
    rw [g_ofFn _ _ hk]
    dsimp only
    by_cases hkj : k < num * p.seedLen
    · rw [if_pos hkj]
    · rw [if_neg hkj, a2 k (by omega)]
  rw [hsd 0 (Nat.zero_le _)] at h0
  rw [hsd num (Nat.le_refl _)] at hN
  unfold moments
  simp only [List.map_append, List.map_cons, List.map_nil, List.map_map, List.cons_append, List.nil_append, Function.comp_def]
  refine congrArg₂ _ rfl (congrArg₂ _ rfl (congrArg₂ _ rfl (congrArg₂ _ rfl (congrArg₂ _ ?_ ?_))))
  · rw [Progress.view, ← h0]
  · refine congrArg₂ _ (congrArg₂ _ ?_ ?_) rfl
    · rw [a1, List.map_map]
      refine List.map_congr_left fun j hj => ?_
      rw [List.mem_range] at hj
      simp only [Function.comp_def]
      rw [hsd (j + 1) hj]
      rfl
    · rw [b1, List.map_map]
      refine List.map_congr_left fun j hj => ?_
      simp only [Function.comp_def]
      rw [Progress.view, ← hN]

/-- The generator at every moment. -/
theorem record_rng {fuel : Nat} {sl : Nat → Stale p} {rng rng' : Inc} {SK : PriKey p} {m : Bytes} {sig final : SignT p n} {num : Nat}
    {log : List (SignT p n × Inc)} (h : lessSignI fuel sl rng SK m sig = .ok ((final, num, rng'), log)) {v : SignT p n} {st : Inc}
    (hv : (v, st) ∈ log) : v = sig ∨ st = rng' := by
  unfold lessSignI at h
  obtain ⟨seeds, -, h⟩ := run_of_bind h
  dsimp only at h
  obtain ⟨tree, -, h⟩ := run_of_bind h
  obtain ⟨G0, -, h⟩ := run_of_bind h
  obtain ⟨⟨acts, hh⟩, -, h⟩ := run_of_bind h
  dsimp only at h
  obtain ⟨fws, -, h⟩ := run_of_bind h
  obtain ⟨ind, -, h⟩ := run_of_bind h
  obtain ⟨cleared, -, h⟩ := run_of_bind h
  obtain ⟨⟨⟨storage, num'⟩, storages⟩, -, h⟩ := run_of_bind h
  dsimp only at h
  obtain ⟨⟨⟨monoms, w⟩, outs⟩, -, h⟩ := run_of_bind h
  dsimp only at h
  obtain ⟨full, -, h⟩ := run_of_bind h
  cases h
  rw [List.mem_append] at hv
  rcases hv with hv | hv
  · simp only [List.mem_cons, Prod.mk.injEq, List.not_mem_nil, or_false] at hv
    rcases hv with hv | hv <;> exact Or.inl hv.1
  · obtain ⟨x, -, hx⟩ := List.mem_map.mp hv
    cases hx
    exact Or.inr rfl

/-! ## The buffer of the caller -/

/-- C98: the same for `crypto_sign`. -/
theorem C98_same_sign {k : Nat} (fuel : Nat) (sl : Nat → Stale p) (rng : Inc) (sm : Vector UInt8 k) (m : Bytes)
    (sk : Vector UInt8 p.skLen) :
    (cryptoSignI fuel sl rng sm m sk >>= fun r => pure r.1) = cryptoSign fuel sl rng sm m sk := by
  unfold cryptoSignI cryptoSign
  rw [bind_assoc]
  refine bind_congr_ok fun sm _ => ?_
  rw [bind_assoc]
  refine bind_congr_ok fun sig _ => ?_
  rw [← C98_same]
  simp only [bind_assoc, pure_bind]

/-- Where a byte of a signature lies. -/
theorem byte_cases {i : Nat} (h : i < p.fixedLen + n) : i < p.hashLen ∨
    (∃ a b, a < p.W ∧ b < p.monoBytes ∧ i = p.hashLen + a * p.monoBytes + b) ∨
    (∃ j, j < p.hashLen ∧ i = p.hashLen + p.W * p.monoBytes + j) ∨ ∃ j, j < n ∧ i = p.fixedLen + j := by
  have hf : p.fixedLen = p.hashLen + p.W * p.monoBytes + p.hashLen := rfl
  by_cases h1 : i < p.hashLen
  · exact Or.inl h1
  by_cases h2 : i < p.hashLen + p.W * p.monoBytes
  · refine Or.inr (Or.inl ⟨(i - p.hashLen) / p.monoBytes, (i - p.hashLen) % p.monoBytes, ?_, ?_, ?_⟩)
    · exact Nat.div_lt_of_lt_mul (by rw [Nat.mul_comm]; omega)
    · refine Nat.mod_lt _ (Nat.pos_of_ne_zero fun e => ?_)
      rw [e] at h2
      omega
    · have := Nat.div_add_mod (i - p.hashLen) p.monoBytes
      rw [Nat.mul_comm] at this
      omega
  by_cases h3 : i < p.fixedLen
  · exact Or.inr (Or.inr (Or.inl ⟨i - (p.hashLen + p.W * p.monoBytes), by omega, by omega⟩))
  · exact Or.inr (Or.inr (Or.inr ⟨i - p.fixedLen, by omega, by omega⟩))

/-- Every byte is an old one, one of the finished signature, or zero. -/
theorem view_bytes (old final : SignT p n) (num : Nat) (pr : Progress) (i : Nat) (h : i < p.fixedLen + n) :
    (signBytes (pr.view old final num)).getD i 0 = (signBytes old).getD i 0 ∨
    (signBytes (pr.view old final num)).getD i 0 = (signBytes final).getD i 0 ∨ (signBytes (pr.view old final num)).getD i 0 = 0 := by
  have hstore : ∀ j c, c < n → g (Progress.view.seedsDone old final j) c = g old.seedStorage c ∨
      g (Progress.view.seedsDone old final j) c = g final.seedStorage c ∨ g (Progress.view.seedsDone old final j) c = 0 := by
    intro j c hc
    unfold Progress.view.seedsDone
    rw [g_ofFn _ _ hc]
    dsimp only
    split
    · exact Or.inr (Or.inl rfl)
    · split
      · exact Or.inr (Or.inr rfl)
      · exact Or.inl rfl
  rcases byte_cases h with h | ⟨a, b, ha, hb, rfl⟩ | ⟨c, hc, rfl⟩ | ⟨c, hc, rfl⟩
  · rw [getD_signBytes_salt _ _ h, getD_signBytes_salt _ _ h, getD_signBytes_salt _ _ h]
    cases pr <;> simp [Progress.view]
  · rw [getD_signBytes_mono _ _ _ ha hb, getD_signBytes_mono _ _ _ ha hb, getD_signBytes_mono _ _ _ ha hb]
    cases pr with
    | responses j =>
      simp only [Progress.view]
      rw [g_ofFn _ _ ha]
      dsimp only
      split
      · exact Or.inr (Or.inl rfl)
      · exact Or.inl rfl
    | _ => simp [Progress.view]
  · rw [getD_signBytes_digest _ _ hc, getD_signBytes_digest _ _ hc, getD_signBytes_digest _ _ hc]
    cases pr <;> simp [Progress.view]
  · rw [getD_signBytes_storage _ _ hc, getD_signBytes_storage _ _ hc, getD_signBytes_storage _ _ hc]
    cases pr with
    | seeds j => exact hstore j c hc
    | responses j => exact hstore num c hc
    | _ => simp [Progress.view]

/-- The bytes of the structure that lies in a buffer. -/
theorem viewSign_bytes {k : Nat} (buf : Vector UInt8 k) (off : Nat) {i : Nat} (h : i < p.fixedLen + n) :
    (signBytes (viewSign (p := p) buf off n)).getD i 0 = g buf (off + i) := by
  rcases byte_cases h with h | ⟨a, b, ha, hb, rfl⟩ | ⟨c, hc, rfl⟩ | ⟨c, hc, rfl⟩
  · rw [getD_signBytes_salt _ _ h]
    unfold viewSign
    rw [g_toVec _ _ _ h, getD_seg _ _ _ _ h]
  · rw [getD_signBytes_mono _ _ _ ha hb]
    unfold viewSign
    dsimp only
    rw [g_ofFn _ _ ha, g_toVec _ _ _ hb, getD_seg _ _ _ _ hb]
    dsimp only
    congr 1
    omega
  · rw [getD_signBytes_digest _ _ hc]
    unfold viewSign
    rw [g_toVec _ _ _ hc, getD_seg _ _ _ _ hc]
    congr 1
    omega
  · rw [getD_signBytes_storage _ _ hc]
    unfold viewSign
    rw [g_toVec _ _ _ hc, getD_seg _ _ _ _ hc]
    congr 1
    omega

/-- A run of `crypto_sign` and its record, in parts. -/
theorem signI_parts {k fuel : Nat} {sl : Nat → Stale p} {rng rng' : Inc} {sm sm' : Vector UInt8 k} {m : Bytes} {sk : Vector UInt8 p.skLen}
    {smlen : Nat} {log : List (Vector UInt8 k × Inc)} (hk : m.length + p.sigLen ≤ k)
    (h : cryptoSignI fuel sl rng sm m sk = .ok ((sm', smlen, rng'), log)) :
    ∃ (final : SignT p p.storageLen) (num : Nat) (part : List (SignT p p.storageLen × Inc)),
      lessSignI fuel sl rng (readPri sk) m (viewSign (blitV sm 0 m) m.length p.storageLen) = .ok ((final, num, rng'), part) ∧
      sm' = blitV (blitV sm 0 m) m.length (signBytes final) ∧
      log = (sm, rng) :: part.map fun e => (blitV (blitV sm 0 m) m.length (signBytes e.1), e.2) := by
  have hsl : p.sigLen = p.fixedLen + p.storageLen := rfl
  unfold cryptoSignI at h
  obtain ⟨sm₁, h1, h⟩ := run_of_bind h
  have e1 : sm₁ = blitV sm 0 m := by
    unfold blit at h1
    split at h1
    · cases h1; rfl
    · cases h1
  subst e1
  obtain ⟨_, h0, h⟩ := run_of_bind h
  rw [readSign_eq _ _ _ (by omega)] at h0
  cases h0
  obtain ⟨⟨⟨final, num, r⟩, part⟩, h2, h⟩ := run_of_bind h
  dsimp only at h
  obtain ⟨sm₂, h3, h⟩ := run_of_bind h
  cases h
  refine ⟨final, num, part, h2, ?_, rfl⟩
  unfold blit at h3
  split at h3
  · cases h3; rfl
  · cases h3

/-- C98: at every moment of a call of `crypto_sign` that returns, every byte of the buffer is the byte that was there before, the byte
that the call will have put there when it returns, or zero. -/
theorem C98_buffer {k fuel : Nat} {sl : Nat → Stale p} {rng rng' : Inc} {sm sm' : Vector UInt8 k} {m : Bytes} {sk : Vector UInt8 p.skLen}
    {smlen : Nat} {log : List (Vector UInt8 k × Inc)} (hk : m.length + p.sigLen ≤ k)
    (h : cryptoSignI fuel sl rng sm m sk = .ok ((sm', smlen, rng'), log)) {b : Vector UInt8 k} {st : Inc} (hb : (b, st) ∈ log)
    (i : Nat) (hi : i < k) : g b i = g sm i ∨ g b i = g sm' i ∨ g b i = 0 := by
  have hsl : p.sigLen = p.fixedLen + p.storageLen := rfl
  obtain ⟨final, num, part, h2, rfl, rfl⟩ := signI_parts hk h
  rcases List.mem_cons.mp hb with e | hb
  · cases e
    exact Or.inl rfl
  · obtain ⟨⟨v, st'⟩, hv, e⟩ := List.mem_map.mp hb
    cases e
    obtain ⟨w, -, hmom⟩ := C98_moments h2
    have hv' : v ∈ part.map Prod.fst := List.mem_map.mpr ⟨_, hv, rfl⟩
    rw [hmom] at hv'
    obtain ⟨pr, -, rfl⟩ := List.mem_map.mp hv'
    dsimp only
    rw [g_blitV _ _ _ _ hi, g_blitV _ m.length (signBytes final) _ hi, signBytes_length, signBytes_length]
    by_cases hin : m.length ≤ i ∧ i < m.length + (p.fixedLen + p.storageLen)
    · rw [if_pos hin, if_pos hin]
      have := view_bytes (viewSign (blitV sm 0 m) m.length p.storageLen) final num pr (i - m.length) (by omega)
      rw [viewSign_bytes _ _ (by omega), show m.length + (i - m.length) = i by omega, g_blitV sm _ _ _ hi, if_neg (by omega)] at this
      exact this
    · rw [if_neg hin, if_neg hin]
      exact Or.inr (Or.inl rfl)

/-- C98: if the call is stopped when something of the signature is in the buffer, the generator has moved on: a signature made
afterwards, with any key and for any message, has other random bytes. -/
theorem C98_retry (hp : p.WF) {k fuel : Nat} {sl : Nat → Stale p} {rng rng' : Inc} {sm sm' : Vector UInt8 k} {m : Bytes}
    {sk : Vector UInt8 p.skLen} {smlen : Nat} {log : List (Vector UInt8 k × Inc)} (hk : m.length + p.sigLen ≤ k)
    (h : cryptoSignI fuel sl rng sm m sk = .ok ((sm', smlen, rng'), log)) {b : Vector UInt8 k} {st : Inc} (hb : (b, st) ∈ log)
    {i : Nat} (hi : m.length ≤ i) (hik : i < k) (hne : g b i ≠ g sm i) {s : Stream} (hs : StreamAt p rng s) {k₂ fuel₂ : Nat}
    {sl₂ : Nat → Stale p} {sk₂ : Vector UInt8 p.skLen} {sm₂ sm₂' : Vector UInt8 k₂} {m₂ : Bytes} {smlen₂ : Nat} {rng₂ : Inc}
    (hk₂ : m₂.length + p.sigLen ≤ k₂) (h₂ : cryptoSign fuel₂ sl₂ st sm₂ m₂ sk₂ = .ok (sm₂', smlen₂, rng₂)) :
    SignedMessage p fuel (readPri sk).spec (s.take p.seedLen) ((s.drop p.seedLen).take p.hashLen) m sm sm' smlen ∧
    SignedMessage p fuel₂ (readPri sk₂).spec ((s.drop (p.seedLen + p.hashLen)).take p.seedLen)
      ((s.drop (p.seedLen + p.hashLen + p.seedLen)).take p.hashLen) m₂ sm₂ sm₂' smlen₂ := by
  have h' : cryptoSign fuel sl rng sm m sk = .ok (sm', smlen, rng') := by
    rw [← C98_same_sign, h]
    rfl
  obtain ⟨q1, q2⟩ := (cryptoSign_wp hp fuel sl rng sm m sk s hs hk).of_ok h'
  refine ⟨q1, ?_⟩
  have hst : st = rng' := by
    obtain ⟨final, num, part, h2, rfl, rfl⟩ := signI_parts hk h
    rcases List.mem_cons.mp hb with e | hb
    · cases e
      exact absurd rfl hne
    · obtain ⟨⟨v, st'⟩, hv, e⟩ := List.mem_map.mp hb
      cases e
      rcases record_rng h2 hv with rfl | e
      · refine absurd ?_ hne
        have hsl : p.sigLen = p.fixedLen + p.storageLen := rfl
        dsimp only
        rw [g_blitV _ _ _ _ hik, signBytes_length]
        by_cases hin : m.length ≤ i ∧ i < m.length + (p.fixedLen + p.storageLen)
        · rw [if_pos hin, viewSign_bytes _ _ (by omega), show m.length + (i - m.length) = i by omega, g_blitV sm _ _ _ hik, if_neg (by omega)]
        · rw [if_neg hin, g_blitV sm _ _ _ hik, if_neg (by omega)]
      · exact e
  subst hst
  have := ((cryptoSign_wp hp fuel₂ sl₂ st sm₂ m₂ sk₂ _ q2 hk₂).of_ok h₂).1
  unfold rootOf saltOf at this
  rw [drop_drop] at this
  exact this

/-- C98: every call that returns has a record, which begins with the buffer as it was and ends with the buffer as it is returned. -/
theorem C98_record {k fuel : Nat} {sl : Nat → Stale p} {rng rng' : Inc} {sm sm' : Vector UInt8 k} {m : Bytes} {sk : Vector UInt8 p.skLen}
    {smlen : Nat} (hk : m.length + p.sigLen ≤ k) (h : cryptoSign fuel sl rng sm m sk = .ok (sm', smlen, rng')) :
    ∃ log, cryptoSignI fuel sl rng sm m sk = .ok ((sm', smlen, rng'), log) ∧ log.head? = some (sm, rng) ∧
      log.getLast? = some (sm', rng') := by
  rw [← C98_same_sign] at h
  obtain ⟨⟨r, log⟩, h1, h2⟩ := run_of_bind h
  cases h2
  refine ⟨log, h1, ?_⟩
  obtain ⟨final, num, part, h2, rfl, rfl⟩ := signI_parts hk h1
  refine ⟨rfl, ?_⟩
  have hl : part.getLast? = some (final, rng') := by
    unfold lessSignI at h2
    obtain ⟨_, -, h2⟩ := run_of_bind h2
    dsimp only at h2
    obtain ⟨_, -, h2⟩ := run_of_bind h2
    obtain ⟨_, -, h2⟩ := run_of_bind h2
    obtain ⟨_, -, h2⟩ := run_of_bind h2
    obtain ⟨_, -, h2⟩ := run_of_bind h2
    obtain ⟨_, -, h2⟩ := run_of_bind h2
    obtain ⟨_, -, h2⟩ := run_of_bind h2
    obtain ⟨_, -, h2⟩ := run_of_bind h2
    obtain ⟨_, -, h2⟩ := run_of_bind h2
    obtain ⟨_, -, h2⟩ := run_of_bind h2
    cases h2
    rw [List.map_append, ← List.append_assoc]
    exact List.getLast?_concat
  rw [List.getLast?_cons, List.getLast?_map, hl]
  rfl

end LESS
