import Verif.Model.Keccak
/-!
# Incremental Keccak: byte-wise view, splitting of input and output
-/
namespace LESS

theorem xorBytes_append (s : Lanes) (a b : Bytes) (off : Nat) :
    xorBytes s (a ++ b) off = xorBytes (xorBytes s a off) b (off + a.length) := by
  induction a generalizing s off with
  | nil => rfl
  | cons x a ih =>
    simp only [List.cons_append, xorBytes, List.length_cons, ih]
    congr 1; omega

theorem extractBytes_length (s : Lanes) (off n : Nat) : (extractBytes s off n).length = n := by
  simp [extractBytes]

theorem extractBytes_add (s : Lanes) (off a b : Nat) :
    extractBytes s off (a + b) = extractBytes s off a ++ extractBytes s (off + a) b := by
  unfold extractBytes
  rw [List.range_add, List.map_append, List.map_map]
  congr 1
  apply List.map_congr_left
  intro i _
  simp only [Function.comp, Nat.add_assoc]

/-! ## Absorbing one byte at a time -/

/-- Absorb one byte. -/
def absorb1 (r : Nat) (st : Inc) (b : UInt8) : Inc :=
  let s := xorBytes st.s [b] st.pos
  if st.pos + 1 = r then ⟨permute s, 0⟩ else ⟨s, st.pos + 1⟩

theorem foldl_absorb1_lt (r : Nat) (m : Bytes) (st : Inc) (h : m.length + st.pos < r) :
    m.foldl (absorb1 r) st = ⟨xorBytes st.s m st.pos, st.pos + m.length⟩ := by
  induction m generalizing st with
  | nil => rfl
  | cons b m ih =>
    simp only [List.length_cons] at h
    rw [List.foldl_cons, absorb1, if_neg (by omega), ih _ (by simp only; omega)]
    simp only [xorBytes, List.length_cons]
    congr 1; omega

theorem foldl_absorb1_full (r : Nat) (m : Bytes) (st : Inc) (h : m.length + st.pos = r) (hm : m ≠ []) :
    m.foldl (absorb1 r) st = ⟨permute (xorBytes st.s m st.pos), 0⟩ := by
  induction m generalizing st with
  | nil => exact absurd rfl hm
  | cons b m ih =>
    simp only [List.length_cons] at h
    rw [List.foldl_cons, absorb1]
    by_cases e : m = []
    · subst e
      rw [if_pos (by simp at h; omega)]
      rfl
    · have : m.length ≠ 0 := fun h => e (List.length_eq_zero_iff.mp h)
      rw [if_neg (by omega), ih _ (by simp only; omega) e]
      simp only [xorBytes]

theorem incAbsorb_eq_foldl (r : Nat) (st : Inc) (m : Bytes) (h : st.pos < r) :
    incAbsorb r st m = m.foldl (absorb1 r) st := by
  induction hn : m.length using Nat.strongRecOn generalizing st m with
  | _ n ih =>
    subst hn
    rw [incAbsorb]
    by_cases hc : r ≤ m.length + st.pos
    · rw [dif_pos ⟨hc, h⟩]
      rw [ih _ (by rw [List.length_drop]; omega) _ _ (by simp only; omega) rfl]
      have hlen : (m.take (r - st.pos)).length = r - st.pos := by rw [List.length_take]; omega
      conv => rhs; rw [← List.take_append_drop (r - st.pos) m, List.foldl_append]
      rw [foldl_absorb1_full r (m.take (r - st.pos)) st (by omega)]
      intro e; rw [e] at hlen; simp at hlen; omega
    · rw [dif_neg (fun h => hc h.1), foldl_absorb1_lt r m st (by omega)]

theorem absorb1_pos (r : Nat) (st : Inc) (b : UInt8) (h : st.pos < r) : (absorb1 r st b).pos < r := by
  unfold absorb1
  dsimp only
  split <;> (simp only; omega)

theorem incAbsorb_pos (r : Nat) (st : Inc) (m : Bytes) (h : st.pos < r) : (incAbsorb r st m).pos < r := by
  rw [incAbsorb_eq_foldl r st m h]
  induction m generalizing st with
  | nil => exact h
  | cons b m ih => rw [List.foldl_cons]; exact ih _ (absorb1_pos r st b h)

/-- Absorbing in two calls is absorbing the concatenation. -/
theorem incAbsorb_append (r : Nat) (st : Inc) (a b : Bytes) (h : st.pos < r) :
    incAbsorb r (incAbsorb r st a) b = incAbsorb r st (a ++ b) := by
  rw [incAbsorb_eq_foldl r _ b (incAbsorb_pos r st a h), incAbsorb_eq_foldl r st a h,
    incAbsorb_eq_foldl r st _ h, List.foldl_append]

/-! ## Squeezing one byte at a time -/

/-- Squeeze one byte. -/
def squeeze1 (r : Nat) (st : Inc) : Bytes × Inc :=
  if st.pos = 0 then (extractBytes (permute st.s) 0 1, ⟨permute st.s, r - 1⟩)
  else (extractBytes st.s (r - st.pos) 1, ⟨st.s, st.pos - 1⟩)

/-- Squeeze `n` bytes one by one. -/
def squeezeN (r : Nat) : Nat → Inc → Bytes × Inc
  | 0, st => ([], st)
  | n + 1, st => ((squeeze1 r st).1 ++ (squeezeN r n (squeeze1 r st).2).1, (squeezeN r n (squeeze1 r st).2).2)

theorem squeezeN_add (r a b : Nat) (st : Inc) :
    squeezeN r (a + b) st = ((squeezeN r a st).1 ++ (squeezeN r b (squeezeN r a st).2).1,
      (squeezeN r b (squeezeN r a st).2).2) := by
  induction a generalizing st with
  | zero => simp [squeezeN]
  | succ a ih =>
    rw [show a + 1 + b = (a + b) + 1 by omega]
    simp only [squeezeN, ih, List.append_assoc]

theorem squeezeN_block (r n : Nat) (st : Inc) (h : n ≤ st.pos) (hr : st.pos ≤ r) :
    squeezeN r n st = (extractBytes st.s (r - st.pos) n, ⟨st.s, st.pos - n⟩) := by
  induction n generalizing st with
  | zero => simp [squeezeN, extractBytes]
  | succ n ih =>
    rw [squeezeN, squeeze1, if_neg (by omega)]
    rw [ih _ (by simp only; omega) (by simp only; omega)]
    simp only
    rw [Nat.add_comm n 1, extractBytes_add]
    refine Prod.ext ?_ ?_
    · simp only; congr 2; omega
    · simp only; congr 1; omega

theorem squeezeN_fresh (r n : Nat) (st : Inc) (h0 : st.pos = 0) (hn : 0 < n) (hr : n ≤ r) :
    squeezeN r n st = (extractBytes (permute st.s) 0 n, ⟨permute st.s, r - n⟩) := by
  obtain ⟨m, rfl⟩ : ∃ m, n = m + 1 := ⟨n - 1, by omega⟩
  rw [squeezeN, squeeze1, if_pos h0, squeezeN_block _ _ _ (by simp only; omega) (by simp only; omega)]
  simp only
  rw [Nat.add_comm m 1, extractBytes_add]
  refine Prod.ext ?_ ?_
  · simp only; congr 2; omega
  · simp only; congr 1; omega

theorem squeezeLoop_eq (r : Nat) (hr : 0 < r) (n : Nat) (st : Inc) (h0 : n = 0 ∨ st.pos = 0) :
    squeezeLoop r st n = squeezeN r n st := by
  induction n using Nat.strongRecOn generalizing st with
  | _ n ih =>
    rw [squeezeLoop]
    by_cases hn : n = 0
    · rw [dif_pos (Or.inl hn)]; subst hn; rfl
    · rw [dif_neg (by omega)]
      have hp : st.pos = 0 := h0.resolve_left hn
      by_cases hlt : n < r
      · simp only [hlt, if_true]
        rw [ih (n - n) (by omega) _ (Or.inl (Nat.sub_self n)), Nat.sub_self, squeezeN_fresh r n st hp (by omega) (by omega)]
        simp [squeezeN]
      · simp only [hlt, if_false]
        rw [ih (n - r) (by omega) _ (Or.inr (Nat.sub_self r))]
        conv => rhs; rw [show n = r + (n - r) by omega, squeezeN_add]
        rw [squeezeN_fresh r r st hp hr (Nat.le_refl r)]

theorem incSqueeze_eq (r : Nat) (hr : 0 < r) (n : Nat) (st : Inc) (h : st.pos ≤ r) :
    incSqueeze r st n = squeezeN r n st := by
  unfold incSqueeze
  by_cases hlt : n < st.pos
  · simp only [hlt, if_true]
    rw [squeezeLoop_eq r hr _ _ (Or.inl (Nat.sub_self n)), Nat.sub_self, squeezeN_block r n st (by omega) h]
    simp [squeezeN]
  · simp only [hlt, if_false]
    rw [squeezeLoop_eq r hr _ _ (Or.inr (Nat.sub_self _))]
    conv => rhs; rw [show n = st.pos + (n - st.pos) by omega, squeezeN_add]
    rw [squeezeN_block r st.pos st (Nat.le_refl _) h]

theorem squeeze1_length (r : Nat) (st : Inc) : (squeeze1 r st).1.length = 1 := by
  unfold squeeze1; split <;> simp [extractBytes_length]

theorem squeezeN_length (r n : Nat) (st : Inc) : (squeezeN r n st).1.length = n := by
  induction n generalizing st with
  | zero => rfl
  | succ n ih => rw [squeezeN]; simp only [List.length_append, squeeze1_length, ih]; omega

theorem squeeze1_pos (r : Nat) (st : Inc) (h : st.pos ≤ r) : (squeeze1 r st).2.pos ≤ r := by
  unfold squeeze1; split <;> simp only <;> omega

theorem squeezeN_pos (r n : Nat) (st : Inc) (h : st.pos ≤ r) : (squeezeN r n st).2.pos ≤ r := by
  induction n generalizing st with
  | zero => exact h
  | succ n ih => rw [squeezeN]; exact ih _ (squeeze1_pos r st h)

theorem incFinalize_pos (r : Nat) (d : UInt8) (st : Inc) : (incFinalize r d st).pos = 0 := by
  unfold incFinalize; split <;> rfl

/-! ## The generator -/

theorem xofRate_pos (p : Params) : 0 < p.xofRate := by unfold Params.xofRate; cases p.cat <;> decide
theorem xofRate_le (p : Params) : p.xofRate ≤ 200 := by unfold Params.xofRate; cases p.cat <;> decide
theorem hashRate_pos (p : Params) : 0 < p.hashRate := by unfold Params.hashRate; cases p.cat <;> decide
theorem hashRate_le (p : Params) : p.hashRate ≤ 200 := by unfold Params.hashRate; cases p.cat <;> decide
theorem hashLen_le (p : Params) : p.hashLen ≤ p.hashRate := by
  unfold Params.hashRate Params.hashLen Params.seedLen; cases p.cat <;> decide
theorem seedLen_pos (p : Params) : 0 < p.seedLen := by unfold Params.seedLen; cases p.cat <;> decide

/-- A generator state as it is between calls. -/
def RngOk (p : Params) (st : Inc) : Prop := st.pos ≤ p.xofRate

theorem initCsprng_ok (p : Params) (seed : Bytes) : RngOk p (initCsprng p seed) := by
  unfold RngOk initCsprng; rw [incFinalize_pos]; omega

theorem csprngBytes_ok (p : Params) (n : Nat) (st : Inc) (h : RngOk p st) : RngOk p (csprngBytes p n st).2 := by
  unfold RngOk csprngBytes at *
  rw [incSqueeze_eq _ (xofRate_pos p) _ _ h]
  exact squeezeN_pos _ _ _ h

theorem csprngBytes_length (p : Params) (n : Nat) (st : Inc) (h : RngOk p st) : (csprngBytes p n st).1.length = n := by
  unfold csprngBytes RngOk at *
  rw [incSqueeze_eq _ (xofRate_pos p) _ _ h, squeezeN_length]

theorem csprngBytes_add (p : Params) (a b : Nat) (st : Inc) (h : RngOk p st) :
    csprngBytes p (a + b) st = ((csprngBytes p a st).1 ++ (csprngBytes p b (csprngBytes p a st).2).1,
      (csprngBytes p b (csprngBytes p a st).2).2) := by
  unfold csprngBytes RngOk at *
  rw [incSqueeze_eq _ (xofRate_pos p) _ _ h, incSqueeze_eq _ (xofRate_pos p) _ _ h, squeezeN_add,
    incSqueeze_eq _ (xofRate_pos p) _ _ (squeezeN_pos _ _ _ h)]

theorem hashFinalize_length (p : Params) (st : Inc) : (hashFinalize p st).length = p.hashLen := by
  unfold hashFinalize sha3IncFinalize
  have := hashLen_le p
  simp [squeezeBlocks, extractBytes_length]; omega

end LESS
