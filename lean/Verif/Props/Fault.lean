import Verif.Model.Fault
import Verif.Props.Backtrack
import Verif.Props.Interrupt
import Verif.Props.Seeds
/-!
# C100: signing on a device that can be disturbed

What a signature shows if the flags that say which seeds to withhold are wrong for one round or several.
-/
namespace LESS

open Spec

variable {p : Params}

/-- The flags that a disturbance makes of a challenge. -/
def flagsOf (p : Params) (f : Nat → Bool → Bool) (v : Nat → Nat) : Vector Nat p.T := Vector.ofFn fun k => b2n (f k (v k ≠ 0))

theorem flagsOf_le (f : Nat → Bool → Bool) (v : Nat → Nat) {k : Nat} (hk : k < p.T) : g (flagsOf p f v) k ≤ 1 := by
  unfold flagsOf
  rw [g_ofFn _ _ hk]
  unfold b2n
  split <;> omega

theorem flagsOf_one {f : Nat → Bool → Bool} {v : Nat → Nat} {k : Nat} (hk : k < p.T) :
    g (flagsOf p f v) k = 1 ↔ f k (v k ≠ 0) = true := by
  unfold flagsOf
  rw [g_ofFn _ _ hk]
  unfold b2n
  split <;> simp_all

theorem faultFlags_eq {f : Nat → Bool → Bool} {fws ind : Vector Nat p.T} (h : indicesToPublish fws = .ok ind) :
    faultFlags f ind = flagsOf p f (g fws) := by
  obtain ⟨h1, h2⟩ := (indicesToPublish_hides (F := False) fws).of_ok h
  unfold faultFlags flagsOf
  apply vec_ext
  intro k hk
  rw [g_ofFn _ _ hk, g_ofFn _ _ hk]
  have h3 := congrFun h2 k
  unfold hiddenOf hides at h3
  have h4 := h1 k hk
  congr 2
  by_cases h5 : g fws k = 0
  · have : g ind k ≠ 1 := by simpa [h5] using h3
    simp [h5, show g ind k = 0 by omega]
  · have : g ind k = 1 := by simpa [h5] using h3
    simp [h5, this]

/-- C100: without a disturbance this is `LESS_sign`. -/
theorem C100_same {n : Nat} (fuel : Nat) (sl : Nat → Stale p) (rng : Inc) (sk : PriKey p) (m : Bytes) (out : SignT p n) :
    lessSignF (fun _ b => b) fuel sl rng sk m out = lessSign fuel sl rng sk m out := by
  unfold lessSignF lessSign
  refine bind_congr_ok fun seeds _ => ?_
  refine bind_congr_ok fun tree _ => bind_congr_ok fun G0 _ => bind_congr_ok fun r _ => ?_
  refine bind_congr_ok fun fws _ => bind_congr_ok fun ind hind => ?_
  have hsame : faultFlags (fun _ b => b) ind = ind := by
    have h1 := ((indicesToPublish_hides (F := False) fws).of_ok hind).1
    apply vec_ext
    intro k hk
    unfold faultFlags
    rw [g_ofFn _ _ hk]
    have := h1 k hk
    unfold b2n
    split
    · rename_i h
      have : g ind k ≠ 0 := by simpa using h
      omega
    · rename_i h
      have : g ind k = 0 := by simpa using h
      omega
  rw [hsame]

/-- The disturbed call, in terms of the call that was not disturbed: the salt, the responses and the digest are the same, and the seeds
are the ones that the wrong flags release. -/
theorem faulted (hp : p.WF) {n : Nat} {f : Nat → Bool → Bool} {fuel : Nat} {sl : Nat → Stale p} {rng rng' : Inc} {sk : PriKey p} {m : Bytes}
    {out sig : SignT p n} {num : Nat} (h : lessSign fuel sl rng sk m out = .ok (sig, num, rng')) {s : Stream} (hs : StreamAt p rng s)
    (hw : ∀ v, IsChallenge p fuel (xof p sig.spec.digest) v → ∃ k < p.T, f k (v k ≠ 0) = true)
    (hroom : ∀ v, IsChallenge p fuel (xof p sig.spec.digest) v → published p (flagsOf p f v) * p.seedLen < n) :
    ∃ sig' num', lessSignF f fuel sl rng sk m out = .ok (sig', num', rng') ∧ sig'.treeSalt = sig.treeSalt ∧
      sig'.monomActions = sig.monomActions ∧ sig'.digest = sig.digest ∧
      ∃ v, IsChallenge p fuel (xof p sig.spec.digest) v ∧ num' = published p (flagsOf p f v) ∧
        ∀ i, Published p.numLeaves p.T (hiddenOf (flagsOf p f v)) i →
          seg sig'.seedStorage (rank p.numLeaves p.T (hiddenOf (flagsOf p f v)) i * p.seedLen) p.seedLen =
            nodeSeed (expandH p sig.spec.salt) (s.take p.seedLen) i := by
  unfold lessSign at h
  unfold lessSignF
  obtain ⟨seeds, e1, h⟩ := run_of_bind h
  rw [e1, bind_ok]
  dsimp only at h ⊢
  obtain ⟨tree, e2, h⟩ := run_of_bind h
  rw [e2, bind_ok]
  obtain ⟨G0, e3, h⟩ := run_of_bind h
  rw [e3, bind_ok]
  obtain ⟨⟨acts, hh⟩, e4, h⟩ := run_of_bind h
  rw [e4, bind_ok]
  dsimp only at h ⊢
  obtain ⟨fws, e5, h⟩ := run_of_bind h
  rw [e5, bind_ok]
  obtain ⟨ind, e6, h⟩ := run_of_bind h
  rw [e6, bind_ok]
  obtain ⟨cleared, e7, h⟩ := run_of_bind h
  rw [e7, bind_ok]
  obtain ⟨⟨storage, num₁⟩, e8, h⟩ := run_of_bind h
  dsimp only at h
  obtain ⟨⟨monoms, w⟩, e9, h⟩ := run_of_bind h
  dsimp only at h
  obtain ⟨full, e10, h⟩ := run_of_bind h
  cases h
  have hch := (expandDigest_spec hp fuel _).of_ok e5
  have hw' := hw _ hch
  have hroom' := hroom _ hch
  rw [faultFlags_eq e6]
  have htree := (generateSeedTree_wp (F := False) hp _ _ _ (by rw [hs.2]; exact take_length _ _)).of_ok e2
  obtain ⟨k, hk, hfk⟩ := hw'
  have hhid : ∃ k < p.T, hiddenOf (flagsOf p f (g fws)) k = true := ⟨k, hk, by
    unfold hiddenOf
    rw [decide_eq_true_eq]
    exact (flagsOf_one hk).mpr hfk⟩
  obtain ⟨⟨st', num'⟩, p1, p2, p3, -⟩ := (seedTreePath_wp (F := False) hp tree (flagsOf p f (g fws)) cleared
    (fun k hk => flagsOf_le f _ hk) hhid (Nat.le_of_lt hroom')).exists_ok
  dsimp only at p2 p3
  rw [p1, bind_ok]
  dsimp only
  rw [e9, bind_ok]
  dsimp only
  have hlt : num' * p.seedLen < n := by rw [p2]; exact hroom'
  have hwr : wrB st' (num' * p.seedLen) num' = .ok (upd st' (num' * p.seedLen) (UInt8.ofNat num')) := by
    unfold wrB wr upd
    simp [hlt]
  rw [hwr, bind_ok]
  refine ⟨_, _, rfl, rfl, rfl, rfl, g fws, hch, p2, fun i hi => ?_⟩
  have hrank : rank p.numLeaves p.T (hiddenOf (flagsOf p f (g fws))) i < num' := by rw [p2]; exact rank_lt_pubCount hi
  have hstep : (rank p.numLeaves p.T (hiddenOf (flagsOf p f (g fws))) i + 1) * p.seedLen ≤ num' * p.seedLen := Nat.mul_le_mul_right _ hrank
  rw [Nat.add_mul, Nat.one_mul] at hstep
  have hkeep : seg (upd st' (num' * p.seedLen) (UInt8.ofNat num')) (rank p.numLeaves p.T (hiddenOf (flagsOf p f (g fws))) i * p.seedLen) p.seedLen =
      seg st' (rank p.numLeaves p.T (hiddenOf (flagsOf p f (g fws))) i * p.seedLen) p.seedLen := by
    unfold seg
    refine List.map_congr_left fun j hj => ?_
    rw [List.mem_range] at hj
    exact g_upd_ne _ _ _ _ (by omega)
  dsimp only
  rw [hkeep, p3 i hi, htree i hi.2.1, hs.2]
  rfl

/-- What a reader of the public key and the signature has who knows which rounds were disturbed: for every round with a response whose
flag was lost, the function of the verifier rebuilds the ephemeral seed, and its monomial and the response give a monomial that carries
the code of the public key to the public starting code: the secret. -/
def Revealed (p : Params) {n : Nat} (fuel : Nat) (pk : PK p) (f : Nat → Bool → Bool) (sig : SignT p n) : Prop :=
  ∃ (G0 : Matrix (Fin p.K) (Fin p.N) (ZMod 127)) (v : Nat → Nat), IsG0 p fuel (xof p pk.seed) G0 ∧
    IsChallenge p fuel (xof p sig.spec.digest) v ∧
    ∀ t, ∃ tree count, rebuildSeedTreeLeaves t (flagsOf p f v) sig.seedStorage sig.spec.salt = .ok (tree, count) ∧
      ∀ j < p.T, v j ≠ 0 → f j true = false → ∃ M,
        Spec.IsMonomial p fuel (roundStream p sig.spec.salt (leafOf tree j) j) M ∧
        let x := Answer.response (Spec.decodeAction p (sig.spec.responses (responsesBefore v j)))
        (extract p (publicCode pk G0 (v j)) x G0 (.seed M)).IsMonomial ∧
        RowEq (ColOp.on (publicCode pk G0 (v j)) (extract p (publicCode pk G0 (v j)) x G0 (.seed M))) G0

/-- C100 is false: whenever a call would return, the disturbed call returns too, and its signature reveals the secret for every round
with a response whose flag was lost. -/
theorem C100_fails_flags (hp : p.WF) {n : Nat} {f : Nat → Bool → Bool} {fuel : Nat} {sl : Nat → Stale p} {rng rng' : Inc} (hr : RngOk p rng)
    {sk : PriKey p} {pk : PubKey p} (hkey : KeyPair p fuel sk.spec pk.spec) {m : Bytes} {out sig : SignT p n} {num : Nat}
    (hn : p.storageLen ≤ n) (h : lessSign fuel sl rng sk m out = .ok (sig, num, rng'))
    (hw : ∀ v, IsChallenge p fuel (xof p sig.spec.digest) v → ∃ k < p.T, f k (v k ≠ 0) = true)
    (hroom : ∀ v, IsChallenge p fuel (xof p sig.spec.digest) v → published p (flagsOf p f v) * p.seedLen < n) :
    ∃ sig' num', lessSignF f fuel sl rng sk m out = .ok (sig', num', rng') ∧ Revealed p fuel pk.spec f sig' := by
  obtain ⟨s, hs⟩ := exists_stream p rng hr
  obtain ⟨sig', num', q1, q2, q3, q4, v, hv, -, hseeds⟩ := faulted hp h hs hw hroom
  obtain ⟨-, hsigned, -⟩ := (lessSign_wp hp fuel sl rng sk m out s hs hn).of_ok h
  obtain ⟨G0, v', hG0, hv', hrounds⟩ := ephemeral_reveals hp hkey hsigned
  obtain rfl := hv.unique hv'
  have hsalt : sig'.spec.salt = sig.spec.salt := by unfold SignT.spec; dsimp only; rw [q2]
  have hdig : sig'.spec.digest = sig.spec.digest := by unfold SignT.spec; dsimp only; rw [q4]
  have hresp : sig'.spec.responses = sig.spec.responses := by unfold SignT.spec; dsimp only; rw [q3]
  refine ⟨sig', num', q1, G0, v, hG0, by rw [hdig]; exact hv, fun t => ?_⟩
  obtain ⟨k, hk, hfk⟩ := hw v hv
  have hhid : ∃ k < p.T, hiddenOf (flagsOf p f v) k = true := ⟨k, hk, by
    unfold hiddenOf
    rw [decide_eq_true_eq]
    exact (flagsOf_one hk).mpr hfk⟩
  obtain ⟨⟨tree, count⟩, r1, -, r3⟩ := (rebuildSeedTreeLeaves_wp (F := False) hp t (flagsOf p f v) sig'.seedStorage sig'.spec.salt
    (fun k hk => flagsOf_le f _ hk) hhid (Nat.le_of_lt (hroom v hv))).exists_ok
  refine ⟨tree, count, r1, fun j hj hvj hfj => ?_⟩
  have hL := hp.T_lt_leaves
  have hlt : p.numLeaves - 1 + j < p.numNodes := by unfold Params.numNodes; omega
  have hnc : ¬ Covers p.numLeaves p.T (hiddenOf (flagsOf p f v)) (p.numLeaves - 1 + j) := by
    rw [covers_leaf_iff (by omega) j (by omega)]
    unfold hiddenOf
    rw [decide_eq_true_eq, flagsOf_one hj]
    simp [hvj, hfj]
  have hleaf : leafOf tree j = signerLeaf p (s.take p.seedLen) sig.spec.salt j := by
    show nodeSeg tree _ = _
    dsimp only at r3
    rw [r3 _ hlt hnc, hsalt]
    unfold signerLeaf
    rw [← expandH_eq]
    refine rebuilt_eq_nodeSeed _ _ _ hhid ?_ _ hlt hnc
    intro i hi
    rw [Nat.mul_comm]
    exact hseeds i hi
  obtain ⟨x, M, hx, hM, hex⟩ := hrounds j hj
  cases x with
  | seed M' => exact absurd hx.1 hvj
  | response a =>
    obtain ⟨-, rfl⟩ := hx
    refine ⟨M, by rw [hsalt, hleaf]; exact hM, ?_⟩
    dsimp only
    rw [hresp]
    exact hex

/-! ## One flag -/

/-- The flag of round `j` is lost. -/
def loseFlag (j : Nat) : Nat → Bool → Bool := fun k b => if k = j then false else b

/-- The bound on the number of published seeds, for any number of withheld leaves. -/
theorem pubCount_le_worstFor (hp : p.WF) (hidden : Nat → Bool) (hr : ∃ k < p.T, hidden k = true) :
    pubCount p hidden ≤ { p with W := (hiddenSet p.T hidden).card }.worstSeeds := by
  have hT := hp.T_lt_leaves
  have h := Spec.publishedNodes_length (d := bitsToRepresent p.T) (T := p.T) (hidden := hidden) (Nat.le_of_lt hT) hr
  have hle : ∑ l ∈ Finset.range (bitsToRepresent p.T), Spec.levelCount (bitsToRepresent p.T) p.T hidden l ≤
      ((List.range (bitsToRepresent p.T)).map fun l =>
        min (hiddenSet p.T hidden).card ((p.T + 2 ^ (bitsToRepresent p.T - l) - 1) / 2 ^ (bitsToRepresent p.T - l))).sum := by
    have hconv : ∀ (f : Nat → Nat) n, ((List.range n).map f).sum = ∑ l ∈ Finset.range n, f l := by
      intro f n
      induction n with
      | zero => rfl
      | succ n ih => rw [List.range_succ, List.map_append, List.sum_append, ih, Finset.sum_range_succ]; simp
    rw [hconv]
    exact Finset.sum_le_sum fun l _ => Spec.levelCount_le l
  unfold pubCount Params.worstSeeds Params.numLeaves
  dsimp only
  omega

/-- The withheld leaves after the flag of a round with a response was lost. -/
theorem hiddenSet_lose {v : Nat → Nat} {j : Nat} (hj : j < p.T) (hv : v j ≠ 0) :
    (hiddenSet p.T (hiddenOf (flagsOf p (loseFlag j) v))).card = weight p.T v - 1 := by
  have h : hiddenSet p.T (hiddenOf (flagsOf p (loseFlag j) v)) = (hiddenSet p.T (hides v)).erase j := by
    ext k
    unfold hiddenSet
    rw [Finset.mem_erase, Finset.mem_filter, Finset.mem_filter, Finset.mem_range]
    by_cases hk : k < p.T
    · unfold hiddenOf hides
      rw [decide_eq_true_eq, flagsOf_one hk]
      unfold loseFlag
      by_cases hkj : k = j
      · simp [hkj]
      · simp [hkj, hk]
    · simp [hk]
  rw [h, Finset.card_erase_of_mem (by unfold hiddenSet hides; simp [hj, hv]), hiddenSet_card]

/-- C100 is false for a single flag: if one withheld leaf fewer needs no more room than there is, losing the flag of any round with a
response reveals the secret of that round. -/
theorem C100_fails_one (hp : p.WF) (hW : 2 ≤ p.W) (hworst : { p with W := p.W - 1 }.worstSeeds * p.seedLen < p.storageLen) {n : Nat} {fuel : Nat}
    {sl : Nat → Stale p} {rng rng' : Inc} (hr : RngOk p rng) {sk : PriKey p} {pk : PubKey p} (hkey : KeyPair p fuel sk.spec pk.spec)
    {m : Bytes} {out sig : SignT p n} {num : Nat} (hn : p.storageLen ≤ n) (h : lessSign fuel sl rng sk m out = .ok (sig, num, rng'))
    {v : Nat → Nat} (hv : IsChallenge p fuel (xof p sig.spec.digest) v) {j : Nat} (hj : j < p.T) (hvj : v j ≠ 0) :
    ∃ sig' num', lessSignF (loseFlag j) fuel sl rng sk m out = .ok (sig', num', rng') ∧ Revealed p fuel pk.spec (loseFlag j) sig' := by
  have hcard := hiddenSet_lose hj hvj
  rw [hv.weight] at hcard
  have hex : ∃ k < p.T, hiddenOf (flagsOf p (loseFlag j) v) k = true := by
    obtain ⟨k, hk⟩ := Finset.card_pos.mp (show 0 < (hiddenSet p.T (hiddenOf (flagsOf p (loseFlag j) v))).card by omega)
    unfold hiddenSet at hk
    rw [Finset.mem_filter, Finset.mem_range] at hk
    exact ⟨k, hk⟩
  refine C100_fails_flags hp hr hkey hn h (fun v' hv' => ?_) (fun v' hv' => ?_)
  · obtain rfl := hv.unique hv'
    obtain ⟨k, hk, hk'⟩ := hex
    unfold hiddenOf at hk'
    rw [decide_eq_true_eq] at hk'
    exact ⟨k, hk, (flagsOf_one hk).mp hk'⟩
  · obtain rfl := hv.unique hv'
    have h1 := pubCount_le_worstFor hp _ hex
    rw [hcard] at h1
    have h2 : published p (flagsOf p (loseFlag j) v) = pubCount p (hiddenOf (flagsOf p (loseFlag j) v)) := rfl
    have h3 := Nat.mul_le_mul_right p.seedLen h1
    rw [h2]
    omega

/-- C100 is false for every parameter set of the library and every round with a response. -/
theorem C100_fails_sets (hp : p ∈ Params.all) {n : Nat} {fuel : Nat}
    {sl : Nat → Stale p} {rng rng' : Inc} (hr : RngOk p rng) {sk : PriKey p} {pk : PubKey p} (hkey : KeyPair p fuel sk.spec pk.spec)
    {m : Bytes} {out sig : SignT p n} {num : Nat} (hn : p.storageLen ≤ n) (h : lessSign fuel sl rng sk m out = .ok (sig, num, rng'))
    {v : Nat → Nat} (hv : IsChallenge p fuel (xof p sig.spec.digest) v) {j : Nat} (hj : j < p.T) (hvj : v j ≠ 0) :
    ∃ sig' num', lessSignF (loseFlag j) fuel sl rng sk m out = .ok (sig', num', rng') ∧ Revealed p fuel pk.spec (loseFlag j) sig' := by
  have hsets : ∀ p ∈ Params.all, 2 ≤ p.W ∧ { p with W := p.W - 1 }.worstSeeds * p.seedLen < p.storageLen := by decide +kernel
  exact C100_fails_one (Params.all_WF p hp) (hsets p hp).1 (hsets p hp).2 hr hkey hn h hv hj hvj

/-! ## The challenge -/

/-- A loop of responses that returns has written as many responses as the challenge has entries other than 0, and all of them inside the
array. -/
theorem responses_fit {fuel : Nat} {sl : Nat → Stale p} {fws : Vector Nat p.T} {seeds : Vector (Vector UInt8 p.skSeedLen) (p.numKeypairs - 1)}
    {acts : Vector (MonoAction p) p.T} {base out : Vector (Vector UInt8 p.monoBytes) p.W} {w : Nat}
    (h : forUp p.T (fun i => signResponse fuel (sl (p.T + i + 1)) fws seeds acts i) (base, 0) = .ok (out, w)) :
    w = weight p.T (g fws) ∧ w ≤ p.W := by
  refine forUp_run (fun i (s : Vector (Vector UInt8 p.monoBytes) p.W × Nat) => s.2 = weight i (g fws) ∧ s.2 ≤ p.W) ⟨rfl, Nat.zero_le _⟩ ?_ h
  rintro i ⟨st, e⟩ s' hi ⟨i1, i2⟩ h
  dsimp only at i1 i2
  unfold signResponse at h
  dsimp only at h
  obtain ⟨x, hx, h⟩ := run_of_bind h
  have hx' : x = g fws i :=
    (Wp.rd_iff (F := False) (P := fun y => y = g fws i) |>.mpr ⟨hi, rfl⟩).of_ok hx
  subst hx'
  split at h
  · rename_i hne
    obtain ⟨_, -, h⟩ := run_of_bind h
    obtain ⟨_, -, h⟩ := run_of_bind h
    obtain ⟨_, -, h⟩ := run_of_bind h
    obtain ⟨_, -, h⟩ := run_of_bind h
    obtain ⟨_, -, h⟩ := run_of_bind h
    obtain ⟨_, -, h⟩ := run_of_bind h
    obtain ⟨_, hwr, h⟩ := run_of_bind h
    cases h
    have hlt : e < p.W := by
      unfold wr at hwr
      split at hwr
      · assumption
      · cases hwr
    dsimp only
    rw [weight_succ, if_pos hne, ← i1]
    exact ⟨rfl, hlt⟩
  · rename_i heq
    cases h
    dsimp only
    rw [weight_succ, if_neg heq, ← i1]
    exact ⟨rfl, i2⟩

/-- C100: without a disturbance this is `LESS_sign` too. -/
theorem C100_same_challenge {n : Nat} (fuel : Nat) (sl : Nat → Stale p) (rng : Inc) (sk : PriKey p) (m : Bytes) (out : SignT p n) :
    lessSignR (fun _ x => x) fuel sl rng sk m out = lessSign fuel sl rng sk m out := by
  unfold lessSignR lessSign
  have hsame : ∀ fws : Vector Nat p.T, (Vector.ofFn fun k : Fin p.T => g fws k) = fws := by
    intro fws
    apply vec_ext
    intro k hk
    rw [g_ofFn _ _ hk]
  simp only [hsame]

/-- C100 is false for the challenge as well: if an entry of it becomes other than 0 after the seeds were chosen, no call comes back
without having written outside the array of the responses. -/
theorem C100_fails_bounds (hp : p.WF) {n : Nat} {f : Nat → Nat → Nat} {fuel : Nat} {sl : Nat → Stale p} {rng rng' : Inc} {sk : PriKey p}
    {m : Bytes} {out sig : SignT p n} {num : Nat} (h : lessSign fuel sl rng sk m out = .ok (sig, num, rng')) {v : Nat → Nat}
    (hv : IsChallenge p fuel (xof p sig.spec.digest) v) {j : Nat} (hj : j < p.T) (hvj : v j = 0) (hfj : f j 0 ≠ 0)
    (hf : ∀ k, k ≠ j → f k (v k) = v k) (r : SignT p n × Nat × Inc) : lessSignR f fuel sl rng sk m out ≠ .ok r := by
  intro hr
  unfold lessSign at h
  unfold lessSignR at hr
  obtain ⟨seeds, e1, h⟩ := run_of_bind h
  rw [e1, bind_ok] at hr
  dsimp only at h hr
  obtain ⟨tree, e2, h⟩ := run_of_bind h
  rw [e2, bind_ok] at hr
  obtain ⟨G0, e3, h⟩ := run_of_bind h
  rw [e3, bind_ok] at hr
  obtain ⟨⟨acts, hh⟩, e4, h⟩ := run_of_bind h
  rw [e4, bind_ok] at hr
  dsimp only at h hr
  obtain ⟨fws, e5, h⟩ := run_of_bind h
  rw [e5, bind_ok] at hr
  obtain ⟨ind, e6, h⟩ := run_of_bind h
  rw [e6, bind_ok] at hr
  obtain ⟨cleared, e7, h⟩ := run_of_bind h
  rw [e7, bind_ok] at hr
  obtain ⟨⟨storage, num₁⟩, e8, h⟩ := run_of_bind h
  rw [e8, bind_ok] at hr
  dsimp only at h hr
  obtain ⟨⟨monoms, w⟩, e9, h⟩ := run_of_bind h
  dsimp only at h
  obtain ⟨full, e10, h⟩ := run_of_bind h
  cases h
  obtain ⟨⟨monoms', w'⟩, e9', -⟩ := run_of_bind hr
  have hch := (expandDigest_spec hp fuel _).of_ok e5
  obtain rfl := hv.unique hch
  obtain ⟨h1, h2⟩ := responses_fit e9'
  have hsucc : hiddenSet p.T (hides (g (Vector.ofFn fun k : Fin p.T => f k (g fws k)))) = insert j (hiddenSet p.T (hides (g fws))) := by
    ext k
    unfold hiddenSet hides
    rw [Finset.mem_insert, Finset.mem_filter, Finset.mem_filter, Finset.mem_range, decide_eq_true_eq, decide_eq_true_eq]
    by_cases hk : k < p.T
    · rw [g_ofFn _ _ hk]
      dsimp only
      by_cases hkj : k = j
      · subst hkj
        simp [hk, hvj, hfj]
      · simp [hkj, hf k hkj]
    · constructor
      · exact fun h => absurd h.1 hk
      · rintro (rfl | h)
        · exact absurd hj hk
        · exact absurd h.1 hk
  have hcard := congrArg Finset.card hsucc
  rw [hiddenSet_card, Finset.card_insert_of_notMem (by unfold hiddenSet hides; simp [hvj]), hiddenSet_card, hch.weight] at hcard
  omega

/-- `x` does not run out of fuel. -/
def NoFuel {α : Type} (x : C α) : Prop := x ≠ .error .fuel

namespace NoFuel

theorem ok {α : Type} (a : α) : NoFuel (pure a : C α) := by
  unfold NoFuel
  exact fun h => nomatch h

theorem bind {α β : Type} {x : C α} {f : α → C β} (hx : NoFuel x) (hf : ∀ a, x = .ok a → NoFuel (f a)) : NoFuel (x >>= f) := by
  match x, hx, hf with
  | .ok a, _, hf => exact hf a rfl
  | .error .oob, _, _ => exact fun h => nomatch h
  | .error .fuel, hx, _ => exact absurd rfl hx

theorem rd {α : Type} {n : Nat} (v : Vector α n) (i : Nat) : NoFuel (LESS.rd v i) := by
  unfold NoFuel LESS.rd
  split <;> exact fun h => nomatch h

theorem wr {α : Type} {n : Nat} (v : Vector α n) (i : Nat) (x : α) : NoFuel (LESS.wr v i x) := by
  unfold NoFuel LESS.wr
  split <;> exact fun h => nomatch h

theorem rdB {n : Nat} (v : Vector UInt8 n) (i : Nat) : NoFuel (LESS.rdB v i) := bind (rd v i) fun _ _ => ok _

theorem wrB {n : Nat} (v : Vector UInt8 n) (i x : Nat) : NoFuel (LESS.wrB v i x) := wr v i _

theorem forUp {σ : Type} {n : Nat} {f : Nat → σ → C σ} (hf : ∀ i < n, ∀ s, NoFuel (f i s)) (s : σ) : NoFuel (LESS.forUp n f s) := by
  induction n with
  | zero => exact ok s
  | succ n ih => exact bind (ih fun i hi => hf i (by omega)) fun s _ => hf n (by omega) s

end NoFuel

theorem enc7_noFuel {n : Nat} (v : Nat) (e : EncState n) : NoFuel (enc7 v e) := by
  unfold enc7
  dsimp only
  split <;> repeat' first
    | exact NoFuel.ok _
    | refine NoFuel.bind (NoFuel.wrB _ _ _) fun _ _ => ?_
    | refine NoFuel.bind (NoFuel.rdB _ _) fun _ _ => ?_

theorem enc9_noFuel {n : Nat} (v : Nat) (e : EncState n) : NoFuel (enc9 v e) := by
  unfold enc9
  dsimp only
  split <;> repeat' first
    | exact NoFuel.ok _
    | refine NoFuel.bind (NoFuel.wrB _ _ _) fun _ _ => ?_
    | refine NoFuel.bind (NoFuel.rdB _ _) fun _ _ => ?_

theorem enc10_noFuel {n : Nat} (v : Nat) (e : EncState n) : NoFuel (enc10 v e) := by
  unfold enc10
  dsimp only
  split <;> repeat' first
    | exact NoFuel.ok _
    | refine NoFuel.bind (NoFuel.wrB _ _ _) fun _ _ => ?_
    | refine NoFuel.bind (NoFuel.rdB _ _) fun _ _ => ?_

theorem compressMonomAction_noFuel (buf : Vector UInt8 p.monoBytes) (a : MonoAction p) : NoFuel (compressMonomAction buf a) := by
  unfold compressMonomAction
  refine NoFuel.bind (NoFuel.forUp (fun i _ e => NoFuel.bind (NoFuel.rd _ _) fun v _ => ?_) _) fun e _ =>
    NoFuel.bind (NoFuel.forUp (fun i _ e => NoFuel.bind (NoFuel.rd _ _) fun v _ => enc7_noFuel v e) _) fun _ _ => NoFuel.ok _
  split
  · exact NoFuel.bind (NoFuel.wrB _ _ _) fun _ _ => NoFuel.ok _
  · exact enc9_noFuel v e
  · exact enc10_noFuel v e

theorem composeAction_noFuel (stale : Monomial p) (staleOut : MonoAction p) (M : Monomial p) (a : MonoAction p) :
    NoFuel (composeAction stale staleOut M a) := by
  unfold composeAction
  refine NoFuel.bind (NoFuel.forUp (fun i _ s => ?_) _) fun _ _ => NoFuel.forUp (fun i _ s => ?_) _
  all_goals repeat' first
    | exact NoFuel.ok _
    | refine NoFuel.bind (NoFuel.wr _ _ _) fun _ _ => ?_
    | refine NoFuel.bind (NoFuel.rd _ _) fun _ _ => ?_

/-- The loop of LESS.c:172-187 ends, whatever the challenge is, if every secret map can be expanded. -/
theorem responses_noFuel (hp : p.WF) {fuel : Nat} {sl : Nat → Stale p} {sk : Bytes} {fws : Vector Nat p.T}
    {seeds : Vector (Vector UInt8 p.skSeedLen) (p.numKeypairs - 1)} {acts : Vector (MonoAction p) p.T}
    (hseeds : privateSeeds p sk = .ok seeds) (hsec : ∀ i < p.numKeypairs - 1, ∃ M, IsSecret p fuel sk i M)
    (s : Vector (Vector UInt8 p.monoBytes) p.W × Nat) :
    NoFuel (forUp p.T (fun i => signResponse fuel (sl i) fws seeds acts i) s) := by
  refine NoFuel.forUp (fun i _ s => ?_) s
  unfold signResponse
  refine NoFuel.bind (NoFuel.rd _ _) fun x _ => ?_
  split
  · refine NoFuel.bind (NoFuel.rd _ _) fun seed hseed => ?_
    refine NoFuel.bind ?_ fun M _ => NoFuel.bind (NoFuel.rd _ _) fun a _ => NoFuel.bind (composeAction_noFuel _ _ _ _) fun act _ =>
      NoFuel.bind (NoFuel.rd _ _) fun b _ => NoFuel.bind (compressMonomAction_noFuel _ _) fun b' _ =>
      NoFuel.bind (NoFuel.wr _ _ _) fun _ _ => NoFuel.ok _
    have hx : x - 1 < p.numKeypairs - 1 := by
      by_contra hx
      unfold rd at hseed
      rw [dif_neg hx] at hseed
      cases hseed
    have hg : seed = g seeds (x - 1) := by
      unfold rd at hseed
      rw [dif_pos hx] at hseed
      unfold g
      rw [dif_pos hx]
      cases hseed
      rfl
    have hseed' := (privateSeeds_wp (F := False) (p := p) sk).of_ok hseeds (x - 1) hx
    obtain ⟨M, hM⟩ := hsec _ hx
    unfold IsSecret at hM
    rw [← hseed', ← hg] at hM
    unfold monomialSeedExpandPrikey
    refine NoFuel.bind ?_ fun _ _ => NoFuel.ok _
    have hN := hp.N_lt
    have hKN := hp.K_lt_N
    have hw := (monomialFromState_stream fuel (sl i).mono _ _ (by omega) (by omega) (xof_at p seed.toList)).monoF (F' := False) (fun h => h ⟨M, hM⟩)
    intro h
    rw [h] at hw
    exact hw
  · exact NoFuel.ok _

/-- The same for the keys that key generation makes: the call does access memory outside an array, rather than run on for ever. -/
theorem C100_fails_oob (hp : p.WF) {n : Nat} {f : Nat → Nat → Nat} {fuel : Nat} {sl : Nat → Stale p} {rng rng' : Inc} {sk : PriKey p}
    {pk : PK p} (hK : KeyPair p fuel sk.spec pk)
    {m : Bytes} {out sig : SignT p n} {num : Nat} (h : lessSign fuel sl rng sk m out = .ok (sig, num, rng')) {v : Nat → Nat}
    (hv : IsChallenge p fuel (xof p sig.spec.digest) v) {j : Nat} (hj : j < p.T) (hvj : v j = 0) (hfj : f j 0 ≠ 0)
    (hf : ∀ k, k ≠ j → f k (v k) = v k) : lessSignR f fuel sl rng sk m out = .error .oob := by
  have hno := C100_fails_bounds hp h hv hj hvj hfj hf
  have hnf : NoFuel (lessSignR f fuel sl rng sk m out) := by
    unfold lessSign at h
    unfold lessSignR
    obtain ⟨seeds, e1, h⟩ := run_of_bind h
    rw [e1, bind_ok]
    dsimp only at h ⊢
    obtain ⟨tree, e2, h⟩ := run_of_bind h
    rw [e2, bind_ok]
    obtain ⟨G0, e3, h⟩ := run_of_bind h
    rw [e3, bind_ok]
    obtain ⟨⟨acts, hh⟩, e4, h⟩ := run_of_bind h
    rw [e4, bind_ok]
    dsimp only at h ⊢
    obtain ⟨fws, e5, h⟩ := run_of_bind h
    rw [e5, bind_ok]
    obtain ⟨ind, e6, h⟩ := run_of_bind h
    rw [e6, bind_ok]
    obtain ⟨cleared, e7, h⟩ := run_of_bind h
    rw [e7, bind_ok]
    obtain ⟨⟨storage, num₁⟩, e8, h⟩ := run_of_bind h
    rw [e8, bind_ok]
    dsimp only
    refine NoFuel.bind (responses_noFuel hp (sl := fun i => sl (p.T + i + 1)) e1 (fun i hi => ?_) _) fun _ _ =>
      NoFuel.bind (NoFuel.wrB _ _ _) fun _ _ => NoFuel.ok _
    obtain ⟨_, M, _, _, _, hM, _⟩ := hK.2 i hi
    exact ⟨M, hM⟩
  match hx : lessSignR f fuel sl rng sk m out with
  | .ok r => exact absurd hx (hno r)
  | .error .oob => rfl
  | .error .fuel => exact absurd hx hnf

/-! ## Flags that are set -/

/-- C100, the part that holds: if no flag of a round with a response is lost, the seeds in the signature are those of nodes from which no
ephemeral seed of a round with a response is derived, whatever other flags are set.  Missing: flags that are lost
(`C100_fails_flags`). -/
theorem C100_withheld_partial (hp : p.WF) {n : Nat} {f : Nat → Bool → Bool} (hf : ∀ k, f k true = true) {fuel : Nat} {sl : Nat → Stale p}
    {rng rng' : Inc} {sk : PriKey p} {m : Bytes} {out sig : SignT p n} {num : Nat}
    (h : lessSign fuel sl rng sk m out = .ok (sig, num, rng')) {s : Stream} (hs : StreamAt p rng s)
    (hroom : ∀ v, IsChallenge p fuel (xof p sig.spec.digest) v → published p (flagsOf p f v) * p.seedLen < n) :
    ∃ sig' num' v, ∃ l : List Nat, lessSignF f fuel sl rng sk m out = .ok (sig', num', rng') ∧ IsChallenge p fuel (xof p sig'.spec.digest) v ∧
      sig'.monomActions = sig.monomActions ∧ l.length = num' ∧ l.Nodup ∧
      (∀ i ∈ l, ∃ k < num', seg sig'.seedStorage (k * p.seedLen) p.seedLen =
        nodeSeed (children p sig'.spec.salt) (s.take p.seedLen) i) ∧
      ∀ j < p.T, v j ≠ 0 → ¬ Derivable (· ∈ l) (p.numLeaves - 1 + j) := by
  have hw : ∀ v, IsChallenge p fuel (xof p sig.spec.digest) v → ∃ k < p.T, f k (v k ≠ 0) = true := by
    intro v hv
    obtain ⟨k, hk, h⟩ := hidden_exists hp hv.weight
    unfold hides at h
    exact ⟨k, hk, by rw [h]; exact hf k⟩
  obtain ⟨sig', num', q1, q2, q3, q4, v, hv, hnum, hseeds⟩ := faulted hp h hs hw hroom
  have hsalt : sig'.spec.salt = sig.spec.salt := by unfold SignT.spec; dsimp only; rw [q2]
  have hdig : sig'.spec.digest = sig.spec.digest := by unfold SignT.spec; dsimp only; rw [q4]
  have hmem : ∀ i, i ∈ publishedNodes p.numLeaves p.T (hiddenOf (flagsOf p f v)) ↔ Published p.numLeaves p.T (hiddenOf (flagsOf p f v)) i := by
    intro i
    unfold publishedNodes
    rw [List.mem_filter, List.mem_range, decide_eq_true_eq]
    exact ⟨fun h => h.2, fun h => ⟨h.2.1, h⟩⟩
  refine ⟨sig', num', v, publishedNodes p.numLeaves p.T (hiddenOf (flagsOf p f v)), q1, by rw [hdig]; exact hv, q3, hnum.symm,
    List.Nodup.filter _ List.nodup_range, fun i hi => ?_, fun j hj hvj hd => ?_⟩
  · refine ⟨_, ?_, by rw [hsalt, ← expandH_eq]; exact hseeds i ((hmem i).mp hi)⟩
    rw [hnum]
    exact rank_lt_pubCount ((hmem i).mp hi)
  · have hder : ∀ j, Derivable (· ∈ publishedNodes p.numLeaves p.T (hiddenOf (flagsOf p f v))) j →
        ∃ i ∈ publishedNodes p.numLeaves p.T (hiddenOf (flagsOf p f v)), IsAncestor i j := by
      intro j hj
      induction hj with
      | known h => exact ⟨_, h, IsAncestor.refl _⟩
      | @left i _ ih =>
        obtain ⟨a, ha, h⟩ := ih
        refine ⟨a, ha, h.trans ?_⟩
        have := isAncestor_parent (2 * i + 1) (by omega)
        rwa [show (2 * i + 1 - 1) / 2 = i by omega] at this
      | @right i _ ih =>
        obtain ⟨a, ha, h⟩ := ih
        refine ⟨a, ha, h.trans ?_⟩
        have := isAncestor_parent (2 * i + 2) (by omega)
        rwa [show (2 * i + 2 - 1) / 2 = i by omega] at this
    obtain ⟨i, hi, ha⟩ := hder _ hd
    refine published_not_above ((hmem i).mp hi) hj ?_ ha
    unfold hiddenOf
    rw [decide_eq_true_eq, flagsOf_one hj]
    simp [hvj, hf]

end LESS
