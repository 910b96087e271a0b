import Verif.Spec.Less
import Verif.Proofs.Fips
import Verif.Proofs.Sampler
import Verif.Proofs.Monomial
/-!
# The generator as a byte stream: samplers, shuffle, monomial matrices
-/
namespace LESS
open Spec

/-! ## Streams -/

theorem take_length (s : Stream) (n : Nat) : (s.take n).length = n := by simp [Stream.take]

theorem drop_drop (s : Stream) (a b : Nat) : (s.drop a).drop b = s.drop (a + b) := by
  funext k; simp [Stream.drop, Nat.add_assoc]

theorem drop_zero (s : Stream) : s.drop 0 = s := by funext k; simp [Stream.drop]

theorem take_add (s : Stream) (a b : Nat) : s.take (a + b) = s.take a ++ (s.drop a).take b := by
  simp [Stream.take, Stream.drop, List.range_add]

theorem take_succ' (s : Stream) (n : Nat) : s.take (n + 1) = s 0 :: (s.drop 1).take n := by
  rw [Nat.add_comm, take_add]; simp [Stream.take]

theorem take_getD (s : Stream) (n k : Nat) (hk : k < n) : (s.take n).getD k 0 = s k := by
  unfold Stream.take
  rw [List.getD_eq_getElem?_getD, List.getElem?_map, List.getElem?_range hk]; rfl

theorem take_getElem (s : Stream) (n k : Nat) (hk : k < (s.take n).length) : (s.take n)[k] = s k := by
  simp [Stream.take]

theorem take_take (s : Stream) (a n : Nat) (h : a ≤ n) : (s.take n).take a = s.take a := by
  obtain ⟨b, rfl⟩ := Nat.exists_eq_add_of_le h
  rw [take_add, List.take_left' (take_length s a)]

theorem take_drop (s : Stream) (a n : Nat) (h : a ≤ n) : (s.take n).drop a = (s.drop a).take (n - a) := by
  obtain ⟨b, rfl⟩ := Nat.exists_eq_add_of_le h
  rw [take_add, List.drop_left' (take_length s a), Nat.add_sub_cancel_left]

theorem word_succ (s : Stream) (n : Nat) : s.word (n + 1) = (s 0).toNat + 256 * (s.drop 1).word n := by
  unfold Stream.word
  rw [List.range_succ_eq_map, List.map_cons, List.sum_cons, List.map_map, ← List.sum_map_mul_left]
  simp only [pow_zero, mul_one, Function.comp_def, Stream.drop]
  congr 3
  funext k
  rw [show 1 + k = k + 1 by omega, pow_succ]; ring

theorem leNat_take (s : Stream) (n : Nat) : leNat (s.take n) = s.word n := by
  induction n generalizing s with
  | zero => rfl
  | succ n ih => rw [take_succ', leNat, ih, word_succ]

theorem word_lt (s : Stream) (n : Nat) : s.word n < 256 ^ n := by
  induction n generalizing s with
  | zero => simp [Stream.word]
  | succ n ih =>
    rw [word_succ, pow_succ]
    have := ih (s.drop 1)
    have := (s 0).toNat_lt
    omega

/-! ## Bytes of a bit string -/

theorem byteOf_toNat (b : UInt8) : byteOf (fun i => b.toNat.testBit i) = b := by
  have h : ∀ n : Fin 256, byteOf (fun i => n.val.testBit i) = UInt8.ofNat n.val := by decide +kernel
  have := h ⟨b.toNat, b.toNat_lt⟩
  simpa using this

theorem byteOf_congr8 {a b : Nat → Bool} (h : ∀ i < 8, a i = b i) : byteOf a = byteOf b := by
  unfold byteOf
  congr 2
  apply List.map_congr_left
  intro i hi
  rw [h i (List.mem_range.mp hi)]

theorem byteOf_bits (m : Bytes) (k : Nat) : byteOf (fun i => (bits m).getD (8 * k + i) false) = m.getD k 0 := by
  rw [← byteOf_toNat (m.getD k 0)]
  apply byteOf_congr8
  intro i hi
  rw [bits_getD]
  congr 2
  · congr 1; omega
  · omega

theorem bytes_of_bits {m : Bytes} {l : List Bool} (h : bits m = l) :
    m = (List.range m.length).map fun k => byteOf fun i => l.getD (8 * k + i) false := by
  subst h
  apply List.ext_getElem
  · simp
  · intro k h1 h2
    rw [List.getElem_map, List.getElem_range, byteOf_bits, List.getD_eq_getElem?_getD, List.getElem?_eq_getElem h1]
    rfl

/-! ## The generator -/

/-- The generator in state `st` will produce the stream `s`. -/
def StreamAt (p : Params) (st : Inc) (s : Stream) : Prop :=
  RngOk p st ∧ ∀ n, (csprngBytes p n st).1 = s.take n

theorem StreamAt.next {p : Params} {st : Inc} {s : Stream} (h : StreamAt p st s) (n : Nat) :
    StreamAt p (csprngBytes p n st).2 (s.drop n) := by
  refine ⟨csprngBytes_ok p n st h.1, fun k => ?_⟩
  have h1 := h.2 (n + k)
  rw [csprngBytes_add p n k st h.1] at h1
  simp only at h1
  rw [h.2 n, take_add] at h1
  exact List.append_cancel_left h1

theorem xof_at (p : Params) (seed : Bytes) : StreamAt p (initCsprng p seed) (xof p seed) := by
  refine ⟨initCsprng_ok p seed, fun n => ?_⟩
  have hlen := csprngBytes_length p n _ (initCsprng_ok p seed)
  have hbits : ∀ n, bits (csprngBytes p n (initCsprng p seed)).1 = shake (xofCapacity p) (8 * n) seed := by
    intro n
    unfold csprngBytes initCsprng shake
    rw [shake_eq _ _ _ (xofRate_pos p) (xofRate_le p)]
    congr 1
    unfold Params.xofRate xofCapacity
    cases p.cat <;> rfl
  apply List.ext_getElem
  · rw [hlen, take_length]
  · intro k h1 h2
    rw [take_length] at h2
    rw [take_getElem, xof, ← hbits, byteOf_bits]
    have h3 : (csprngBytes p (k + 1) (initCsprng p seed)).1 = (csprngBytes p n (initCsprng p seed)).1.take (k + 1) := by
      unfold csprngBytes
      have := initCsprng_ok p seed
      unfold RngOk at this
      rw [incSqueeze_eq _ (xofRate_pos p) _ _ this, incSqueeze_eq _ (xofRate_pos p) _ _ this]
      exact squeezeN_prefix _ _ _ _ h2
    rw [h3, List.getD_eq_getElem?_getD, List.getElem?_take_of_lt (by omega), List.getElem?_eq_getElem h1]
    rfl

/-- Any generator state produces some stream. -/
theorem exists_stream (p : Params) (st : Inc) (h : RngOk p st) : ∃ s, StreamAt p st s := by
  refine ⟨fun k => (csprngBytes p (k + 1) st).1.getD k 0, h, fun n => ?_⟩
  have hlen := csprngBytes_length p n st h
  apply List.ext_getElem
  · rw [hlen, take_length]
  · intro k h1 h2
    rw [take_length] at h2
    rw [take_getElem]
    have h3 : (csprngBytes p (k + 1) st).1 = (csprngBytes p n st).1.take (k + 1) := by
      unfold csprngBytes
      unfold RngOk at h
      rw [incSqueeze_eq _ (xofRate_pos p) _ _ h, incSqueeze_eq _ (xofRate_pos p) _ _ h]
      exact squeezeN_prefix _ _ _ _ h2
    rw [h3, List.getD_eq_getElem?_getD, List.getElem?_take_of_lt (by omega), List.getElem?_eq_getElem h1]
    rfl

theorem hash_eq (p : Params) (m : Bytes) : hashFinalize p (hashAbsorb p hashInit m) = Spec.hash p m := by
  have hlen := hashFinalize_length p (hashAbsorb p hashInit m)
  have hb : bits (hashFinalize p (hashAbsorb p hashInit m)) = sha3 (8 * p.hashLen) m := by
    unfold hashFinalize hashAbsorb hashInit sha3
    rw [sha3IncFinalize_eq _ _ _ (hashRate_pos p) (hashLen_le p), sha3_eq _ _ _ (hashRate_pos p) (hashRate_le p)]
    congr 1
    unfold Params.hashRate Params.hashLen Params.seedLen
    cases p.cat <;> rfl
  have := bytes_of_bits hb
  rw [hlen] at this
  exact this

/-! ## Sampling -/

theorem accepted_succ (b lo hi : Nat) (s : Stream) (w : Nat) :
    accepted b lo hi s (w + 1) = accepted b lo hi s w ++ accept b lo hi ((s.drop (8 * w)).word 8) := by
  unfold accepted; rw [List.range_succ, List.flatMap_append]; simp

theorem accepted_mono (b lo hi : Nat) (s : Stream) {w w' : Nat} (h : w ≤ w') :
    ∃ l, accepted b lo hi s w' = accepted b lo hi s w ++ l := by
  obtain ⟨d, rfl⟩ := Nat.exists_eq_add_of_le h
  induction d with
  | zero => exact ⟨[], by simp⟩
  | succ d ih =>
    obtain ⟨l, hl⟩ := ih (by omega)
    rw [← Nat.add_assoc, accepted_succ, hl, List.append_assoc]
    exact ⟨_, rfl⟩

theorem accepted_length_mono (b lo hi : Nat) (s : Stream) {w w' : Nat} (h : w ≤ w') :
    (accepted b lo hi s w).length ≤ (accepted b lo hi s w').length := by
  obtain ⟨l, hl⟩ := accepted_mono b lo hi s h
  rw [hl]; simp

theorem Spec.Sampled.mono {b lo hi n B B' : Nat} {s s' : Stream} {v : List Nat} (h : Sampled b lo hi n B s v s') (hB : B ≤ B') :
    Sampled b lo hi n B' s v s' := by
  obtain ⟨w, h1, h2⟩ := h
  exact ⟨w, h1.trans hB, h2⟩

/-- The result does not depend on the budget. -/
theorem Spec.Sampled.unique {b lo hi n B B' : Nat} {s s1 s2 : Stream} {v1 v2 : List Nat}
    (h1 : Sampled b lo hi n B s v1 s1) (h2 : Sampled b lo hi n B' s v2 s2) : v1 = v2 ∧ s1 = s2 := by
  obtain ⟨w, _, a1, a2, rfl, rfl⟩ := h1
  obtain ⟨w', _, b1, b2, rfl, rfl⟩ := h2
  have : w = w' := by
    rcases Nat.lt_trichotomy w w' with h | h | h
    · have := b2 w h; omega
    · exact h
    · have := a2 w' h; omega
  subst this
  exact ⟨rfl, rfl⟩

theorem Spec.Sampled.length {b lo hi n B : Nat} {s s' : Stream} {v : List Nat} (h : Sampled b lo hi n B s v s') : v.length = n := by
  obtain ⟨w, _, a1, _, rfl, _⟩ := h
  rw [List.length_take]; omega

theorem Spec.Sampled.range {b lo hi n B : Nat} {s s' : Stream} {v : List Nat} (hlo : lo ≤ hi) (h : Sampled b lo hi n B s v s') :
    ∀ k < n, lo ≤ v.getD k 0 ∧ v.getD k 0 ≤ hi := by
  intro k hk
  have hlen := h.length
  obtain ⟨w, _, a1, _, rfl, _⟩ := h
  rw [List.getD_eq_getElem?_getD, List.getElem?_eq_getElem (by omega)]
  simp only [Option.getD_some]
  have := List.mem_of_mem_take (List.getElem_mem (n := k) (l := (accepted b lo hi s w).take n) (by omega))
  generalize ((accepted b lo hi s w).take n)[k]'(by omega) = x at this ⊢
  unfold accepted accept at this
  simp only [List.mem_flatMap, List.mem_map, List.mem_filter, decide_eq_true_eq] at this
  obtain ⟨_, _, y, ⟨_, h2⟩, h3⟩ := this
  omega

theorem accept_eq (b lo hi word : Nat) : accept b lo hi word = acc1 b lo (hi - lo) word (64 / b) := rfl

theorem sampleRec_stream {p : Params} {b lo hi n : Nat} (fuel : Nat) (st : Inc) (s : Stream) (w : Nat)
    (hst : StreamAt p st (s.drop (8 * w))) (hacc : (accepted b lo hi s w).length < n) :
    Wp (¬ ∃ v s', Sampled b lo hi n (w + fuel) s v s')
      (sampleRec p b lo (hi - lo) n fuel st (accepted b lo hi s w))
      (fun r => ∃ v s', Sampled b lo hi n (w + fuel) s v s' ∧ r.1 = arr n v ∧ StreamAt p r.2 s') := by
  induction fuel generalizing st w with
  | zero =>
    show ¬ _
    rintro ⟨v, s', w', h1, h2, h3, _⟩
    have := accepted_length_mono b lo hi s (show w' ≤ w by omega)
    omega
  | succ fuel ih =>
    unfold sampleRec
    rw [hst.2 8, leNat_take, ← accept_eq, ← accepted_succ]
    have hnext := hst.next 8
    rw [drop_drop, show 8 * w + 8 = 8 * (w + 1) by ring] at hnext
    by_cases hn : n ≤ (accepted b lo hi s (w + 1)).length
    · simp only [hn, if_true, Wp.ok_iff]
      refine ⟨_, _, ⟨w + 1, by omega, hn, ?_, rfl, rfl⟩, rfl, hnext⟩
      intro w' hw'
      have := accepted_length_mono b lo hi s (show w' ≤ w by omega)
      omega
    · simp only [hn, if_false]
      have := ih _ _ hnext (by omega)
      rwa [show w + 1 + fuel = w + (fuel + 1) by omega] at this

theorem randState_stream {p : Params} {lo hi n : Nat} (fuel : Nat) (st : Inc) (s : Stream) (buf : Vector Nat n)
    (hlo : lo ≤ hi) (hhi : hi < 256) (hn : 0 < n) (hst : StreamAt p st s) :
    Wp (¬ ∃ v s', Sampled (bitsToRepresent (hi - lo)) lo hi n fuel s v s') (randState p lo hi fuel st buf)
      (fun r => ∃ v s', Sampled (bitsToRepresent (hi - lo)) lo hi n fuel s v s' ∧ r.1 = arr n v ∧ StreamAt p r.2 s') := by
  rw [randState_eq p lo hi fuel st buf hlo hhi hn]
  have := sampleRec_stream (p := p) (b := bitsToRepresent (hi - lo)) (lo := lo) (hi := hi) (n := n) fuel st s 0
    (by rw [Nat.mul_zero, drop_zero]; exact hst) (by simpa [accepted] using hn)
  rw [Nat.zero_add] at this
  exact this

/-! ## The shuffle -/

theorem exchange_upd {n : Nat} {v : Vector Nat n} {π : Nat → Nat} (hv : ∀ x < n, g v x = π x) {i r : Nat}
    (hi : i < n) (hr : r < n) : ∀ x < n, g (upd (upd v i (g v r)) r (g v i)) x = exchange π i r x := by
  intro x hx
  rw [g_upd _ _ _ _ hr, g_upd _ _ _ _ hi, exchange]
  by_cases h1 : x = i
  · subst h1
    rw [if_pos rfl]
    by_cases h2 : r = x
    · subst h2; rw [if_pos rfl, if_pos rfl, hv _ hx]
    · rw [if_neg h2, if_pos rfl, hv _ hr]
  · rw [if_neg h1]
    by_cases h2 : x = r
    · subst h2; rw [if_pos rfl, if_pos rfl, hv _ hi]
    · rw [if_neg (Ne.symm h2), if_neg (Ne.symm h1), if_neg h2, hv _ hx]

theorem shuffleLoop_spec {p : Params} (draws perm : Vector Nat p.N) (d : Nat → Nat)
    (hd : ∀ i, i < p.N - 1 → g draws i = d i ∧ d i < p.N) (hid : ∀ x < p.N, g perm x = x) :
    Wp False (shuffleLoop draws perm) (fun v => ∀ x < p.N, g v x = shuffled d (p.N - 1) x) := by
  unfold shuffleLoop
  refine Wp.forUp (fun m v => ∀ x < p.N, g v x = shuffled d m x) (fun x hx => by rw [hid x hx]; rfl) ?_ (fun _ h => h)
  intro i v hi hv
  have hd' := hd i hi
  simp only [Wp.bind_iff, Wp.rd_iff, Wp.wr_iff]
  have hi' : i < p.N := by omega
  have hr : g draws i < p.N := by rw [hd'.1]; exact hd'.2
  refine ⟨hi', hi', hr, hi', hi', hr, ?_⟩
  have := exchange_upd hv hi' hr
  intro x hx
  rw [this x hx, hd'.1]; rfl

theorem shuffleDraws_stream {p : Params} (s : Stream) (hN : p.N < 4294967296) (i : Nat) (hi : i < p.N - 1) :
    g (shuffleDraws p (s.take (4 * p.N))) i = partner p.N s i ∧ partner p.N s i < p.N := by
  have hlt := Nat.mod_lt ((s.drop (4 * i)).word 4) (show 0 < p.N - i by omega)
  rw [shuffleDraws, g_ofFn _ _ (by omega)]
  simp only [hi, if_true]
  rw [take_drop _ _ _ (by omega), take_take _ _ _ (by omega), leNat_take]
  unfold partner u32
  omega

/-! ## Monomial matrices -/

theorem arr_g {n : Nat} (l : List Nat) (i : Nat) (hi : i < n) : g (arr n l) i = l.getD i 0 := by
  rw [arr, g_ofFn _ _ hi]

theorem Spec.IsMonomial.mono {p : Params} {B B' : Nat} {s : Stream} {M} (h : IsMonomial p B s M) (hB : B ≤ B') :
    IsMonomial p B' s M := by
  obtain ⟨v, s', h1, h2⟩ := h
  exact ⟨v, s', h1.mono hB, h2⟩

theorem Spec.IsMonomial.unique {p : Params} {B B' : Nat} {s : Stream} {M M'} (h : IsMonomial p B s M)
    (h' : IsMonomial p B' s M') : M = M' := by
  obtain ⟨v, s', h1, rfl⟩ := h
  obtain ⟨v', s'', h1', rfl⟩ := h'
  obtain ⟨rfl, rfl⟩ := h1.unique h1'
  rfl

theorem bits_126 : bitsToRepresent 126 = 7 ∧ bitsToRepresent 125 = 7 := by decide

theorem monomialFromState_stream {p : Params} (fuel : Nat) (stale : Monomial p) (st : Inc) (s : Stream)
    (hN0 : 0 < p.N) (hN : p.N ≤ p.posMod) (hst : StreamAt p st s) :
    Wp (¬ ∃ M, IsMonomial p fuel s M) (monomialFromState fuel stale st)
      (fun r => r.1.Valid ∧ IsMonomial p fuel s r.1.mat ∧ RngOk p r.2) := by
  have hpm := posMod_le (p := p)
  unfold monomialFromState
  rw [Wp.bind_iff]
  have h0 := randState_stream (p := p) (lo := 1) (hi := Q - 1) fuel st s stale.coefficients (by decide) (by decide) hN0 hst
  refine (h0.monoF ?_).mono ?_
  · rintro h ⟨M, v, s', h1, -⟩
    exact h ⟨v, s', h1⟩
  · rintro ⟨coefs, st'⟩ ⟨v, s', hv, hc, hst'⟩
    dsimp only at hc hst' ⊢
    rw [identityPerm_eq _ hN]
    simp only [Wp.bind_iff, Wp.ok_iff]
    unfold ytShuffleState
    rw [← Prod.mk.eta (p := csprngBytes p (4 * p.N) st')]
    simp only [hst'.2, Wp.bind_iff, Wp.pure_iff]
    have hd := fun i hi => shuffleDraws_stream (p := p) s' (by omega) i hi
    have h1 := shuffleLoop_spec (shuffleDraws p (s'.take (4 * p.N))) (Vector.ofFn fun i => i.val) (partner p.N s') hd
      (fun x hx => by rw [g_ofFn _ _ hx])
    have h2 := shuffleLoop_wp (shuffleDraws p (s'.take (4 * p.N))) (Vector.ofFn fun i => i.val) (isPerm_id p.N)
      (fun i hi => ⟨by rw [(hd i hi).1]; unfold partner; omega, by rw [(hd i hi).1]; exact (hd i hi).2⟩)
    refine ((h1.conj h2).monoF False.elim).mono ?_
    rintro perm ⟨hp, hperm⟩
    refine ⟨⟨hperm, fun i hi => ?_⟩, ⟨v, s', hv, ?_⟩, csprngBytes_ok p _ _ hst'.1⟩
    · dsimp only
      rw [hc, arr_g _ _ hi]
      have := hv.range (by decide) i hi
      simp only [Q] at this
      omega
    · funext i j
      simp only [Monomial.mat, monoMat]
      rw [hp i i.2, hc, arr_g _ _ i.2]

end LESS
