import Verif.Proofs.Pack
/-!
# Encoding of the responses (`compress_monom_action`, `expand_to_monom_action`): proofs
-/
namespace LESS

open Spec (bitField bitFields byteOf packed bitAt fieldAt)

theorem toList_eq_map_g {n : Nat} (v : Vector Nat n) : v.toList = (List.range n).map (g v) := by
  apply List.ext_getElem
  · simp
  · intro i h1 h2
    have : i < n := by simpa using h1
    simp [g_eq_getElem _ _ this]

theorem map_g_succ {n : Nat} (v : Vector Nat n) (i : Nat) :
    (List.range (i + 1)).map (g v) = (List.range i).map (g v) ++ [g v i] := by
  rw [List.range_succ, List.map_append]; rfl

/-- A loop storing one `w`-bit field after the other. -/
theorem encLoop_wp {n m : Nat} (w : Nat) (step : Nat → EncState n → C (EncState n)) (st : Nat → Nat)
    (vals : Vector Nat m) (l0 : List Bool) (buf : Vector UInt8 n) (hP : Packed buf l0) (hw : 1 ≤ w)
    (hstep : ∀ i, i < m → ∀ v buf, step v ⟨buf, (l0.length + w * i) / 8, st (l0.length + w * i)⟩ =
      .ok ⟨packStep w v buf (l0.length + w * i), (l0.length + w * i + w) / 8, st (l0.length + w * i + w)⟩)
    (hw' : ∀ i, i < m → (l0.length + w * i) % 8 + w ≤ 16) (hn : l0.length + w * m ≤ 8 * n)
    (hv : ∀ i, i < m → g vals i < 2 ^ w) :
    Wp False (forUp m (fun i e => do
        let v ← rd vals i
        step v e) ⟨buf, l0.length / 8, st l0.length⟩)
      (fun e => Packed e.buf (l0 ++ bitFields w vals.toList) ∧ e.idx = (l0.length + w * m) / 8) := by
  refine Wp.forUp (fun i (e : EncState n) => Packed e.buf (l0 ++ bitFields w ((List.range i).map (g vals))) ∧
    e.idx = (l0.length + w * i) / 8 ∧ e.state = st (l0.length + w * i)) ?_ ?_ ?_
  · simpa [bitFields] using hP
  · rintro i ⟨b, idx, s⟩ hi ⟨h1, h2, h3⟩
    simp only at h1 h2 h3
    rw [Wp.bind_iff, Wp.rd_iff]
    refine ⟨hi, ?_⟩
    rw [h2, h3, hstep i hi, Wp.ok_iff]
    have hlen : (l0 ++ bitFields w ((List.range i).map (g vals))).length = l0.length + w * i := by
      simp [bitFields_length]
    have hmul : w * (i + 1) ≤ w * m := Nat.mul_le_mul_left _ hi
    rw [Nat.mul_succ] at hmul
    refine ⟨?_, ?_, ?_⟩
    · rw [map_g_succ, bitFields_append, ← List.append_assoc]
      have := h1.step (w := w) (hv i hi) hw (by rw [hlen]; exact hw' i hi) (by rw [hlen]; omega)
      rwa [hlen] at this
    · simp [Nat.mul_succ, Nat.add_assoc]
    · simp [Nat.mul_succ, Nat.add_assoc]
  · rintro ⟨b, idx, s⟩ ⟨h1, h2, h3⟩
    rw [toList_eq_map_g]
    exact ⟨h1, h2⟩

variable {p : Params}

/-- Number of bits of a column index. -/
def Params.idxBits (p : Params) : Nat := match p.cat with
  | .one => 8 | .three => 9 | .five => 10

theorem bits_N (hp : p.WF) : bitsToRepresent p.N = p.idxBits := by
  unfold Params.idxBits
  cases hc : p.cat
  · have := hp.pack1 hc
    exact bitsToRepresent_of_range (by decide) (by decide) this.1 this.2
  · have := hp.pack3 hc
    exact bitsToRepresent_of_range (by decide) (by decide) this.1 this.2.1
  · have := hp.pack5 hc
    exact bitsToRepresent_of_range (by decide) (by decide) this.1 this.2.1

theorem N_lt_idxBits (hp : p.WF) : p.N < 2 ^ p.idxBits := by
  unfold Params.idxBits
  cases hc : p.cat
  · exact (hp.pack1 hc).2
  · exact (hp.pack3 hc).2.1
  · exact (hp.pack5 hc).2.1

theorem idxBits_K (hp : p.WF) : (p.cat = .one ∧ p.idxBits = 8) ∨ (p.cat = .three ∧ p.idxBits = 9 ∧ p.K % 8 = 0) ∨
    (p.cat = .five ∧ p.idxBits = 10 ∧ p.K % 8 = 2) := by
  unfold Params.idxBits
  cases hc : p.cat
  · exact Or.inl ⟨rfl, rfl⟩
  · exact Or.inr (Or.inl ⟨rfl, rfl, (hp.pack3 hc).2.2⟩)
  · exact Or.inr (Or.inr ⟨rfl, rfl, (hp.pack5 hc).2.2⟩)

theorem monoBytes_eq (hp : p.WF) : p.monoBytes = (p.idxBits * p.K + 7 * p.K + 7) / 8 := by
  unfold Params.monoBytes
  rw [bits_Q, bits_N hp]
  rcases idxBits_K hp with ⟨_, h⟩ | ⟨_, h, h2⟩ | ⟨_, h, h2⟩ <;> rw [h] <;> omega

/-- The bits of a response on the wire. -/
def actionBits (a : MonoAction p) : List Bool :=
  bitFields p.idxBits a.permutation.toList ++ bitFields 7 a.coefficients.toList

theorem actionBits_length (a : MonoAction p) : (actionBits a).length = p.idxBits * p.K + 7 * p.K := by
  simp [actionBits, bitFields_length]

/-- Entries fit their fields. -/
def MonoAction.Fits (a : MonoAction p) : Prop :=
  (∀ i, i < p.K → g a.permutation i < 2 ^ p.idxBits) ∧ ∀ i, i < p.K → g a.coefficients i < 128

theorem packStep8 {n : Nat} (v : Nat) (buf : Vector UInt8 n) (pos : Nat) (h : pos % 8 = 0) :
    packStep 8 v buf pos = upd buf (pos / 8) (UInt8.ofNat v) := by
  simp [packStep, h]

theorem compressMonomAction_eq (hp : p.WF) (buf : Vector UInt8 p.monoBytes) (a : MonoAction p) (ha : a.Fits) :
    compressMonomAction buf a = .ok (packed p.monoBytes (actionBits a)) := by
  apply Wp.eq_ok
  have hmb := monoBytes_eq hp
  have hperm : Packed buf [] := by intro k hk; simp at hk
  unfold compressMonomAction
  rw [Wp.bind_iff]
  have key : ∀ e : EncState p.monoBytes, Packed e.buf (bitFields p.idxBits a.permutation.toList) →
      e.idx = p.idxBits * p.K / 8 → e.state = st7 (p.idxBits * p.K % 8) →
      Wp False (forUp p.K (fun i (e : EncState p.monoBytes) => do
        let v ← rd a.coefficients i
        enc7 v e) e >>= fun e => pure e.buf) (fun b => b = packed p.monoBytes (actionBits a)) := by
    rintro ⟨b, idx, s⟩ h1 h2 h3
    simp only at h1 h2 h3
    have hlen : (bitFields p.idxBits a.permutation.toList).length = p.idxBits * p.K := by
      simp [bitFields_length]
    rw [Wp.bind_iff, h2, h3, ← hlen]
    refine (encLoop_wp 7 enc7 (fun k => st7 (k % 8)) a.coefficients _ b h1 (by decide) ?_ ?_ ?_ ?_).mono ?_
    · intro i hi v b
      rw [hlen]
      have : 7 * (i + 1) ≤ 7 * p.K := Nat.mul_le_mul_left _ hi
      exact enc7_ok v b _ (by rw [hmb]; omega)
    · intros; omega
    · rw [hlen, hmb]; omega
    · intro i hi; exact ha.2 i hi
    · rintro e ⟨e1, _⟩
      rw [Wp.pure_iff]
      apply e1.eq_packed
      have : (bitFields p.idxBits a.permutation.toList ++ bitFields 7 a.coefficients.toList).length = _ :=
        actionBits_length a
      rw [this, hmb]
  rcases idxBits_K hp with ⟨hc, h⟩ | ⟨hc, h, h2⟩ | ⟨hc, h, h2⟩
  · simp only [hc]
    refine (encLoop_wp 8 (fun v e => do
      let buf ← wrB e.buf e.idx v
      pure ⟨buf, e.idx + 1, e.state⟩) (fun _ => 0) a.permutation [] buf hperm (by decide) ?_ ?_ ?_ ?_).mono ?_
    · intro i hi v b
      rw [packStep8 _ _ _ (by simp)]
      simp only [List.length_nil, Nat.zero_add, Nat.mul_div_cancel_left _ (show 0 < 8 by decide)]
      rw [wrB_ok _ _ _ (by rw [hmb, h]; omega), bind_ok, pure_ok]
      simp
    · intros; simp
    · rw [hmb, h]; simp; omega
    · intro i hi; have := ha.1 i hi; rwa [h] at this
    · rintro e ⟨e1, e2⟩
      simp only [List.length_nil, Nat.zero_add, List.nil_append] at e1 e2
      refine key _ (by rw [h]; exact e1) (by rw [h]; exact e2) ?_
      rw [h]; simp [st7]
  · simp only [hc]
    refine (encLoop_wp 9 enc9 (fun k => k % 8) a.permutation [] buf hperm (by decide) ?_ ?_ ?_ ?_).mono ?_
    · intro i hi v b
      exact enc9_ok v b _ (by rw [hmb, h]; simp; omega)
    · intros; omega
    · rw [hmb, h]; simp; omega
    · intro i hi; have := ha.1 i hi; rwa [h] at this
    · rintro e ⟨e1, e2⟩
      simp only [List.length_nil, Nat.zero_add, List.nil_append] at e1 e2
      rw [← h] at e1 e2
      refine key _ e1 e2 ?_
      rw [h]; simp only [st7]; omega
  · simp only [hc]
    refine (encLoop_wp 10 enc10 (fun k => k % 8 / 2) a.permutation [] buf hperm (by decide) ?_ ?_ ?_ ?_).mono ?_
    · intro i hi v b
      exact enc10_ok v b _ (by simp; omega) (by rw [hmb, h]; simp; omega)
    · intro i hi; simp; omega
    · rw [hmb, h]; simp; omega
    · intro i hi; have := ha.1 i hi; rwa [h] at this
    · rintro e ⟨e1, e2⟩
      simp only [List.length_nil, Nat.zero_add, List.nil_append] at e1 e2
      rw [← h] at e1 e2
      refine key _ e1 e2 ?_
      rw [h]; simp only [st7]; omega

/-! ## Decoding -/

/-- A loop reading one `w`-bit field after the other. -/
theorem decLoop_wp {n m : Nat} (w : Nat) (buf : Vector UInt8 n) (step : Nat → Nat → C (Nat × Nat × Nat))
    (st : Nat → Nat) (pos0 : Nat) (out : Vector Nat m)
    (hstep : ∀ i, i < m → step ((pos0 + w * i) / 8) (st (pos0 + w * i)) =
      .ok (fieldAt w buf (pos0 + w * i), (pos0 + w * i + w) / 8, st (pos0 + w * i + w))) :
    Wp False (forUp m (fun i (s : Vector Nat m × Nat × Nat) => do
        let (perm, idx, state) := s
        let (v, idx, state) ← step idx state
        let perm ← wr perm i v
        pure (perm, idx, state)) (out, pos0 / 8, st pos0))
      (fun s => s.1 = Vector.ofFn (fun i : Fin m => fieldAt w buf (pos0 + w * i)) ∧
        s.2.1 = (pos0 + w * m) / 8) := by
  refine Wp.forUp (fun i (s : Vector Nat m × Nat × Nat) => (∀ j, j < i → g s.1 j = fieldAt w buf (pos0 + w * j)) ∧
    s.2.1 = (pos0 + w * i) / 8 ∧ s.2.2 = st (pos0 + w * i)) (by simp) ?_ ?_
  · rintro i ⟨v, idx, s⟩ hi ⟨h1, h2, h3⟩
    simp only at h1 h2 h3
    rw [Wp.bind_iff]
    simp only [h2, h3]
    rw [hstep i hi, Wp.ok_iff]
    simp only [Wp.bind_iff, Wp.wr_iff, Wp.pure_iff]
    refine ⟨hi, fun j hj => ?_, by rw [Nat.mul_succ, Nat.add_assoc], by rw [Nat.mul_succ, Nat.add_assoc]⟩
    rw [g_upd _ _ _ _ hi]
    by_cases e : i = j
    · subst e; simp
    · rw [if_neg e]; exact h1 j (by omega)
  · rintro ⟨v, idx, s⟩ ⟨h1, h2, _⟩
    refine ⟨?_, h2⟩
    apply vec_ext
    intro i hi
    rw [h1 i hi, g_ofFn _ _ hi]

/-- What `expand_to_monom_action` reads. -/
def decodeAction (buf : Vector UInt8 p.monoBytes) : MonoAction p :=
  ⟨Vector.ofFn fun i => fieldAt 7 buf (p.idxBits * p.K + 7 * i),
   Vector.ofFn fun i => fieldAt p.idxBits buf (p.idxBits * i)⟩

theorem maskN_eq (hp : p.WF) : p.maskN = 2 ^ p.idxBits - 1 := by
  unfold Params.maskN; rw [bits_N hp]

theorem fieldAt8 {n : Nat} (buf : Vector UInt8 n) (i : Nat) : fieldAt 8 buf (8 * i) = (g buf i).toNat := by
  rw [← unpackStep_eq _ _ (by omega)]
  unfold unpackStep
  have : (g buf i).toNat &&& (2 ^ 8 - 1) = (g buf i).toNat := by
    rw [Nat.and_two_pow_sub_one_eq_mod]
    exact Nat.mod_eq_of_lt (g buf i).toNat_lt
  simp only [show 8 * i % 8 = 0 by omega, show 8 * i / 8 = i by omega]
  simpa using this

theorem expandToMonomAction_eq (hp : p.WF) (stale : MonoAction p) (buf : Vector UInt8 p.monoBytes) :
    expandToMonomAction stale buf = .ok (decodeAction buf) := by
  apply Wp.eq_ok
  have hmb := monoBytes_eq hp
  have hmask := maskN_eq hp
  have key : ∀ s : Vector Nat p.K × Nat × Nat, s.1 = (decodeAction buf).permutation →
      s.2.1 = p.idxBits * p.K / 8 →
      Wp False (forUp p.K (fun i (s : Vector Nat p.K × Nat × Nat) => do
        let (coefs, idx, state) := s
        let (v, idx, state) ← dec7 buf idx state
        let coefs ← wr coefs i v
        pure (coefs, idx, state)) (stale.coefficients, s.2.1, st7 (p.idxBits * p.K % 8)))
        (fun c => (⟨c.1, s.1⟩ : MonoAction p) = decodeAction buf) := by
    rintro ⟨v, idx, s⟩ h1 h2
    simp only at h1 h2
    rw [h1, h2]
    refine (decLoop_wp 7 buf (fun a b => dec7 buf a b) (fun k => st7 (k % 8)) (p.idxBits * p.K) stale.coefficients
      ?_).mono ?_
    · intro i hi
      have : 7 * (i + 1) ≤ 7 * p.K := Nat.mul_le_mul_left _ hi
      exact dec7_ok buf _ (by rw [hmb]; omega)
    · rintro c ⟨c1, _⟩
      rw [c1]; rfl
  unfold expandToMonomAction
  rw [Wp.bind_iff]
  rcases idxBits_K hp with ⟨hc, h⟩ | ⟨hc, h, h2⟩ | ⟨hc, h, h2⟩
  · simp only [hc]
    have hbody : (fun i (s : Vector Nat p.K × Nat × Nat) => do
        let v ← rdB buf s.2.1
        let perm ← wr s.1 i v
        pure (perm, s.2.1 + 1, s.2.2) : Nat → Vector Nat p.K × Nat × Nat → C (Vector Nat p.K × Nat × Nat)) =
      (fun i (s : Vector Nat p.K × Nat × Nat) => do
        let (perm, idx, state) := s
        let (v, idx, state) ← (do
          let v ← rdB buf idx
          pure (v, idx + 1, state) : C (Nat × Nat × Nat))
        let perm ← wr perm i v
        pure (perm, idx, state)) := by
      funext i s
      obtain ⟨x, y, z⟩ := s
      simp only
      cases rdB buf y <;> rfl
    rw [hbody]
    refine (decLoop_wp 8 buf (fun a b => do
      let v ← rdB buf a
      pure (v, a + 1, b)) (fun _ => 0) 0 stale.permutation ?_).mono ?_
    · intro i hi
      simp only [Nat.zero_add, Nat.mul_div_cancel_left _ (show 0 < 8 by decide)]
      rw [rdB_ok _ _ (by rw [hmb, h]; omega), bind_ok, pure_ok, fieldAt8]
      simp
    · rintro ⟨v, idx, s⟩ ⟨e1, e2⟩
      simp only [Nat.zero_add] at e1 e2
      rw [Wp.bind_iff]
      have := key (v, idx, s) (by rw [e1]; simp [decodeAction, h]) (by rw [e2, h])
      rw [h, show st7 (8 * p.K % 8) = 0 by simp [st7]] at this
      exact this.mono fun c hc => hc
  · simp only [hc]
    rw [hmask, h]
    refine (decLoop_wp 9 buf (fun a b => dec9 511 buf a b) (fun k => k % 8) 0 stale.permutation ?_).mono ?_
    · intro i hi
      exact dec9_ok buf _ (by rw [hmb, h]; omega)
    · rintro ⟨v, idx, s⟩ ⟨e1, e2⟩
      simp only [Nat.zero_add] at e1 e2
      rw [Wp.bind_iff]
      have := key (v, idx, s) (by rw [e1]; simp [decodeAction, h]) (by rw [e2, h])
      rw [h, show st7 (9 * p.K % 8) = 0 by simp only [st7]; omega] at this
      exact this.mono fun c hc => hc
  · simp only [hc]
    rw [hmask, h]
    refine (decLoop_wp 10 buf (fun a b => dec10 1023 buf a b) (fun k => k % 8 / 2) 0 stale.permutation ?_).mono ?_
    · intro i hi
      exact dec10_ok buf _ (by omega) (by rw [hmb, h]; omega)
    · rintro ⟨v, idx, s⟩ ⟨e1, e2⟩
      simp only [Nat.zero_add] at e1 e2
      rw [Wp.bind_iff]
      have := key (v, idx, s) (by rw [e1]; simp [decodeAction, h]) (by rw [e2, h])
      rw [h, show st7 (10 * p.K % 8) = 4 by simp only [st7]; omega] at this
      exact this.mono fun c hc => hc

/-- Decoding undoes encoding. -/
theorem decode_packed (hp : p.WF) (a : MonoAction p) (ha : a.Fits) :
    decodeAction (packed p.monoBytes (actionBits a)) = a := by
  have hmb := monoBytes_eq hp
  obtain ⟨c, q⟩ := a
  obtain ⟨h1, h2⟩ := ha
  simp only at h1 h2
  unfold decodeAction
  congr 1
  · apply vec_ext
    intro i hi
    rw [g_ofFn _ _ hi]
    apply fieldAt_of_getD (h2 i hi)
    intro b hb
    have : 7 * (i + 1) ≤ 7 * p.K := Nat.mul_le_mul_left _ hi
    rw [bitAt_packed _ _ (by rw [hmb]; omega), actionBits, List.getD_append_right _ _ _ _ (by
      simp [bitFields_length]; omega)]
    rw [show p.idxBits * p.K + 7 * i + b - (bitFields p.idxBits q.toList).length = 7 * i + b by
      simp [bitFields_length]; omega]
    rw [getD_bitFields _ _ _ _ (by simpa using hi) hb]
    simp [g_eq_getElem _ _ hi]
  · apply vec_ext
    intro i hi
    rw [g_ofFn _ _ hi]
    apply fieldAt_of_getD (pos := p.idxBits * i) (h1 i hi)
    intro b hb
    have : p.idxBits * (i + 1) ≤ p.idxBits * p.K := Nat.mul_le_mul_left _ hi
    rw [Nat.mul_succ] at this
    rw [bitAt_packed _ _ (by rw [hmb]; omega), actionBits, List.getD_append _ _ _ _ (by
      rw [bitFields_length, Vector.length_toList]; omega)]
    rw [getD_bitFields _ _ _ _ (by simpa using hi) hb]
    simp [g_eq_getElem _ _ hi]

theorem decodeAction_fits (buf : Vector UInt8 p.monoBytes) : (decodeAction buf).Fits := by
  refine ⟨fun i hi => ?_, fun i hi => ?_⟩
  · rw [decodeAction, g_ofFn _ _ hi]; exact fieldAt_lt _ _ _
  · rw [decodeAction, g_ofFn _ _ hi]; exact fieldAt_lt _ _ _

/-! ## Validity -/

/-- Non-zero coefficients and distinct columns: a partial monomial matrix. -/
def MonoAction.Valid (a : MonoAction p) : Prop :=
  (∀ i, i < p.K → 1 ≤ g a.coefficients i ∧ g a.coefficients i < 127) ∧
  (∀ i, i < p.K → g a.permutation i < p.N) ∧
  ∀ i j, i < p.K → j < p.K → g a.permutation i = g a.permutation j → i = j

theorem MonoAction.Valid.fits (hp : p.WF) {a : MonoAction p} (h : a.Valid) : a.Fits :=
  ⟨fun i hi => Nat.lt_trans (h.2.1 i hi) (N_lt_idxBits hp), fun i hi => by have := h.1 i hi; omega⟩

theorem isMonomActionValid_wp (a : MonoAction p) :
    Wp False (isMonomActionValid a) (fun r => (r = 1 ∧ a.Valid) ∨ (r = 0 ∧ ¬ a.Valid)) := by
  unfold isMonomActionValid
  rw [Wp.bind_iff]
  refine Wp.forRet (fun n _ => ∀ i, i < n → 1 ≤ g a.coefficients i ∧ g a.coefficients i < 127)
    (fun r => r = 0 ∧ ¬ a.Valid) (by simp) ?_ ?_ ?_
  · intro i s hi hs
    simp only [Wp.bind_iff, Wp.rd_iff, Wp.ite_iff, Wp.pure_iff]
    refine ⟨hi, fun h => ⟨by simp, fun hv => ?_⟩, fun h j hj => ?_⟩
    · have := hv.1 i hi
      unfold Q at h
      omega
    · unfold Q at h
      by_cases e : j = i
      · subst e; omega
      · exact hs j (by omega)
  · rintro r h
    exact Or.inr h
  · intro s h1
    rw [Wp.bind_iff]
    refine Wp.forRet (fun n (fl : Vector Nat p.N) => (∀ i, i < n → g a.permutation i < p.N) ∧
      (∀ i j, i < n → j < n → g a.permutation i = g a.permutation j → i = j) ∧
      ∀ x, x < p.N → (g fl x = if ∃ i, i < n ∧ g a.permutation i = x then 1 else 0))
      (fun r => r = 0 ∧ ¬ a.Valid) ?_ ?_ ?_ ?_
    · refine ⟨by simp, by simp, fun x hx => ?_⟩
      rw [g_replicate _ _ hx]; simp
    · rintro i fl hi ⟨a1, a2, a3⟩
      simp only [Wp.bind_iff, Wp.rd_iff, Wp.wr_iff, Wp.ite_iff, Wp.pure_iff]
      refine ⟨hi, fun h => ⟨by simp, fun hv => ?_⟩, fun h => ?_⟩
      · have := hv.2.1 i hi; omega
      · have hx : g a.permutation i < p.N := by omega
        refine ⟨hx, fun hf => ⟨by simp, fun hv => ?_⟩, fun hf => ⟨hx, ?_, ?_, ?_⟩⟩
        · rw [a3 _ hx] at hf
          have : ∃ k, k < i ∧ g a.permutation k = g a.permutation i := by
            by_contra hc; simp [hc] at hf
          obtain ⟨k, hk, he⟩ := this
          have := hv.2.2 k i (by omega) hi he
          omega
        · intro j hj
          by_cases e : j = i
          · subst e; exact hx
          · exact a1 j (by omega)
        · have hno : ∀ k, k < i → g a.permutation k ≠ g a.permutation i := by
            intro k hk he
            rw [a3 _ hx, if_pos ⟨k, hk, he⟩] at hf
            exact hf rfl
          intro j k hj hk he
          by_cases e1 : j = i
          · by_cases e2 : k = i
            · omega
            · subst e1; exact absurd he.symm (hno k (by omega))
          · by_cases e2 : k = i
            · subst e2; exact absurd he (hno j (by omega))
            · exact a2 j k (by omega) (by omega) he
        · intro x hxN
          rw [g_upd _ _ _ _ hx, a3 x hxN]
          by_cases e : g a.permutation i = x
          · rw [if_pos e, if_pos ⟨i, by omega, e⟩]
          · rw [if_neg e]
            have : (∃ k, k < i + 1 ∧ g a.permutation k = x) ↔ ∃ k, k < i ∧ g a.permutation k = x := by
              constructor
              · rintro ⟨k, hk, he⟩
                refine ⟨k, ?_, he⟩
                by_contra hc
                have : k = i := by omega
                subst this; exact e he
              · rintro ⟨k, hk, he⟩; exact ⟨k, by omega, he⟩
            simp [this]
    · rintro r h
      exact Or.inr h
    · rintro fl ⟨a1, a2, _⟩
      exact Or.inl ⟨rfl, h1, a1, a2⟩

end LESS
