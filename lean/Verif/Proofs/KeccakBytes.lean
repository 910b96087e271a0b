import Verif.Model.KeccakBytes
import Verif.Spec.StateBytes
import Verif.Basic
/-!
# The functions of the assembly file that read and write bytes of the state
-/
namespace LESS.Asm
open Spec

theorem rdMap_eq : ∀ l : Fin 25, rdMap (8 * l.val) = .ok (avx2Byte (8 * l.val)) := by
  have h : ∀ l : Fin 25, (mapState[l.val]?).map (· * 8) = some (avx2Byte (8 * l.val)) := by decide +kernel
  intro l
  have h := h l
  unfold rdMap
  rw [if_pos (by omega), show 8 * l.val / 8 = l.val by omega]
  cases e : mapState[l.val]? with
  | none => rw [e] at h; cases h
  | some a => rw [e] at h; exact congrArg _ (Option.some.inj h)

theorem avx2Byte_add (l k : Nat) (hk : k < 8) : avx2Byte (8 * l + k) = avx2Byte (8 * l) + k := by
  unfold avx2Byte
  rw [show (8 * l + k) / 8 = 8 * l / 8 by omega, show (8 * l + k) / 40 = 8 * l / 40 by omega]
  omega

theorem avx2Byte_add' (j k : Nat) (hj : j % 8 = 0) (hk : k < 8) : avx2Byte (j + k) = avx2Byte j + k := by
  have := avx2Byte_add (j / 8) k hk
  rwa [show 8 * (j / 8) = j by omega] at this

theorem avx2Byte_mod (j : Nat) : avx2Byte j = avx2Byte (j - j % 8) + j % 8 := by
  have := avx2Byte_add' (j - j % 8) (j % 8) (by omega) (by omega)
  rwa [show j - j % 8 + j % 8 = j by omega] at this

theorem avx2Byte_inverse : ∀ j : Fin 200, avx2Byte j < 200 ∧
    (List.range 200).findIdx? (fun i => avx2Byte i == avx2Byte j) = some j.val := by decide +kernel

theorem avx2Byte_lt {j : Nat} (h : j < 200) : avx2Byte j < 200 := (avx2Byte_inverse ⟨j, h⟩).1

theorem avx2Byte_inj {i j : Nat} (hi : i < 200) (hj : j < 200) (h : avx2Byte i = avx2Byte j) : i = j := by
  have h1 := (avx2Byte_inverse ⟨i, hi⟩).2
  have h2 := (avx2Byte_inverse ⟨j, hj⟩).2
  dsimp only at h1 h2
  rw [h, h2] at h1
  exact (Option.some.inj h1).symm

theorem avx2Byte_surj : ∀ a : Fin 200, ∃ j : Fin 200, avx2Byte j = a := by decide +kernel

theorem rdMap_at {j : Nat} (h : j < 200) (h8 : j % 8 = 0) : rdMap j = .ok (avx2Byte j) := by
  have := rdMap_eq ⟨j / 8, by omega⟩
  dsimp only at this
  rwa [show 8 * (j / 8) = j by omega] at this

theorem loopCount_eq {n : Nat} (h : 0 < n) (h' : n < 18446744073709551616) : loopCount n = n := by
  unfold loopCount
  omega

section
variable {σ : Type}

theorem laneLoop_wp (P : Pass σ) (Inv : Nat → σ → Prop) (off len : Nat) (hb : off + len ≤ 200)
    (hlane : ∀ k s, k + 8 ≤ len → (off + k) % 8 = 0 → Inv k s → Wp False (P.lane (avx2Byte (off + k)) k s) (Inv (k + 8))) :
    ∀ (rcx rdx i : Nat) (s : σ), i + rcx = len → (rcx = 0 ∨ rdx = off + i ∧ rdx % 8 = 0) → Inv i s →
      Wp False (laneLoop P rcx rdx i s) fun r => r.2.2.1 + r.1 = len ∧ r.1 < 8 ∧
        (r.1 = 0 ∨ r.2.1 = off + r.2.2.1 ∧ r.2.1 % 8 = 0) ∧ Inv r.2.2.1 r.2.2.2 := by
  intro rcx
  induction rcx using Nat.strongRecOn with
  | _ rcx ih =>
    intro rdx i s hi hr hs
    unfold laneLoop
    split
    · exact ⟨hi, by assumption, hr, hs⟩
    · rename_i h8
      obtain ⟨e, e8⟩ : rdx = off + i ∧ rdx % 8 = 0 := by
        rcases hr with h | h
        · omega
        · exact h
      rw [rdMap_at (by omega) e8]
      refine Wp.bind_iff.2 ?_
      rw [Wp.ok_iff]
      refine Wp.bind_iff.2 ?_
      rw [e]
      refine (hlane i s (by omega) (by omega) hs).mono fun s' hs' => ?_
      exact ih (rcx - 8) (by omega) (off + i + 8) (i + 8) s' (by omega) (Or.inr ⟨by omega, by omega⟩) hs'

theorem lastLane_wp (P : Pass σ) (Inv : Nat → σ → Prop) (off len : Nat) (hb : off + len ≤ 200)
    (hlast : ∀ k r s, k + r = len → 0 < r → r < 8 → (off + k) % 8 = 0 → Inv k s →
      Wp False (P.last (avx2Byte (off + k)) k r s) (Inv len)) (r : Nat × Nat × Nat × σ)
    (h1 : r.2.2.1 + r.1 = len) (h2 : r.1 < 8) (h3 : r.1 = 0 ∨ r.2.1 = off + r.2.2.1 ∧ r.2.1 % 8 = 0) (h4 : Inv r.2.2.1 r.2.2.2) :
    Wp False (lastLane P r) (Inv len) := by
  obtain ⟨rcx, rdx, i, s⟩ := r
  dsimp only at h1 h2 h3 h4
  unfold lastLane
  dsimp only
  split
  · rename_i h
    have : i = len := by omega
    rw [← this]
    exact h4
  · obtain ⟨e, e8⟩ : rdx = off + i ∧ rdx % 8 = 0 := by
      rcases h3 with h | h
      · omega
      · exact h
    rw [rdMap_at (by omega) e8]
    refine Wp.bind_iff.2 ?_
    rw [Wp.ok_iff, e]
    exact hlast i rcx s h1 (by omega) h2 (by omega) h4

/-- The skeleton: what holds for bytes and lanes holds for the whole range. -/
theorem walkBytes_wp (P : Pass σ) (Inv : Nat → σ → Prop) (off len : Nat) (hb : off + len ≤ 200)
    (hhead : ∀ k s, k < len → Inv k s → Wp False (P.head (avx2Byte (off + k)) k s) (Inv (k + 1)))
    (hlane : ∀ k s, k + 8 ≤ len → (off + k) % 8 = 0 → Inv k s → Wp False (P.lane (avx2Byte (off + k)) k s) (Inv (k + 8)))
    (hlast : ∀ k r s, k + r = len → 0 < r → r < 8 → (off + k) % 8 = 0 → Inv k s →
      Wp False (P.last (avx2Byte (off + k)) k r s) (Inv len)) (s : σ) (h0 : Inv 0 s) :
    Wp False (walkBytes P off len s) (Inv len) := by
  unfold walkBytes
  split
  · rename_i h
    rw [h]
    exact h0
  rename_i hl
  refine Wp.bind_iff.2 ?_
  have key : ∀ r : Nat × Nat × Nat × σ, (r.2.2.1 + r.1 = len ∧ (r.1 = 0 ∨ r.2.1 = off + r.2.2.1 ∧ r.2.1 % 8 = 0) ∧ Inv r.2.2.1 r.2.2.2) →
      Wp False (laneLoop P r.1 r.2.1 r.2.2.1 r.2.2.2 >>= fun r => lastLane P r) (Inv len) := by
    intro r ⟨h1, h2, h3⟩
    refine Wp.bind_iff.2 ?_
    exact (laneLoop_wp P Inv off len hb hlane _ _ _ _ h1 h2 h3).mono fun r ⟨h1, h2, h3, h4⟩ =>
      lastLane_wp P Inv off len hb hlast r h1 h2 h3 h4
  unfold firstLane
  dsimp only
  split
  · rename_i h8
    refine Wp.pure_iff.2 (key _ ⟨?_, Or.inr ⟨?_, ?_⟩, h0⟩)
    · dsimp only; omega
    · dsimp only; omega
    · dsimp only; omega
  · rename_i h8
    have hr : ∀ r9, r9 = (if len ≤ 8 - off % 8 then len else 8 - off % 8) → 0 < r9 ∧ r9 ≤ len ∧ r9 ≤ 8 - off % 8 ∧
        (len = r9 ∨ r9 = 8 - off % 8) := by
      intro r9 h
      split at h <;> omega
    generalize hr9 : (if len ≤ 8 - off % 8 then len else 8 - off % 8) = r9
    obtain ⟨a1, a2, a3, a4⟩ := hr r9 hr9.symm
    rw [loopCount_eq a1 (by omega), rdMap_at (by omega) (by omega), Wp.bind_iff, Wp.ok_iff, Wp.bind_iff]
    refine Wp.forUp (fun k s => Inv k s) h0 ?_ fun s' hs' => ?_
    · intro k s hk hs
      have := hhead k s (by omega) hs
      rw [avx2Byte_mod (off + k), show off + k - (off + k) % 8 = off - off % 8 by omega,
        show (off + k) % 8 = off % 8 + k by omega, ← Nat.add_assoc] at this
      exact this
    · refine Wp.pure_iff.2 (key _ ⟨?_, ?_, hs'⟩)
      · dsimp only; omega
      · dsimp only
        rcases a4 with h | h
        · left; omega
        · right; omega

end

/-! ## Loads and stores -/

section
variable {n : Nat}

/-- The array after a store. -/
def stqV (v : Vector UInt8 n) (a : Nat) (q : Vector UInt8 8) : Vector UInt8 n :=
  Vector.ofFn fun i : Fin n => if a ≤ i.val ∧ i.val < a + 8 then g q (i - a) else v[i]

theorem stq_ok (v : Vector UInt8 n) (a : Nat) (q : Vector UInt8 8) (h : a + 8 ≤ n) : stq v a q = .ok (stqV v a q) := by
  unfold stq
  rw [if_pos h]
  rfl

theorem ldq_ok (v : Vector UInt8 n) (a : Nat) (h : a + 8 ≤ n) : ldq v a = .ok (Vector.ofFn fun i : Fin 8 => g v (a + i)) := by
  unfold ldq
  rw [if_pos h]

theorem g_stqV (v : Vector UInt8 n) (a : Nat) (q : Vector UInt8 8) (h : a + 8 ≤ n) (i : Nat) :
    g (stqV v a q) i = if a ≤ i ∧ i < a + 8 then g q (i - a) else g v i := by
  by_cases hi : i < n
  · unfold stqV
    rw [g_ofFn _ _ hi, g_eq_getElem v _ hi]
    rfl
  · rw [if_neg (by omega)]
    unfold g
    rw [dif_neg hi, dif_neg hi]

theorem g_ldq (v : Vector UInt8 n) (a t : Nat) (ht : t < 8) : g (Vector.ofFn fun i : Fin 8 => g v (a + i)) t = g v (a + t) := by
  rw [g_ofFn _ _ ht]

theorem g_xorq (p q : Vector UInt8 8) (t : Nat) (ht : t < 8) : g (xorq p q) t = g p t ^^^ g q t := by
  unfold xorq
  rw [g_ofFn _ _ ht]

theorem g_shr8 (q : Vector UInt8 8) (t : Nat) (ht : t + 1 < 8) : g (shr8 q) t = g q (t + 1) := by
  unfold shr8
  rw [g_ofFn _ _ (by omega)]
  dsimp only
  rw [if_pos ht]

end

/-! ## Writing to the state -/

/-- The bytes from `off` on, `k` of them, are `f`; the others are those of `st`. -/
def Written (st : Vector UInt8 200) (f : Nat → UInt8) (off k : Nat) (s : Vector UInt8 200) : Prop :=
  ∀ j < 200, g s (avx2Byte j) = if off ≤ j ∧ j < off + k then f j else g st (avx2Byte j)

section
variable {st : Vector UInt8 200} {f : Nat → UInt8} {off : Nat}

theorem written_zero : Written st f off 0 st := by
  intro j _
  rw [if_neg (by omega)]

theorem written_byte {k : Nat} {s : Vector UInt8 200} (h : Written st f off k s) (hk : off + k < 200) :
    Written st f off (k + 1) (upd s (avx2Byte (off + k)) (f (off + k))) := by
  intro j hj
  rw [g_upd _ _ _ _ (avx2Byte_lt hk)]
  split
  · rename_i e
    have := avx2Byte_inj hk hj e
    rw [this, if_pos (by omega)]
  · rename_i e
    have hne : j ≠ off + k := by rintro rfl; exact e rfl
    rw [h j hj]
    have : (off ≤ j ∧ j < off + k) ↔ (off ≤ j ∧ j < off + (k + 1)) := by omega
    simp only [this]

theorem avx2Byte_room {j : Nat} (h8 : j % 8 = 0) (h : j + 8 ≤ 200) : avx2Byte j + 8 ≤ 200 := by
  have h1 := avx2Byte_add' j 7 h8 (by omega)
  have h2 := avx2Byte_lt (j := j + 7) (by omega)
  omega

theorem avx2Byte_lane {j i : Nat} (h8 : j % 8 = 0) (hj : j + 8 ≤ 200) (hi : i < 200) :
    (avx2Byte j ≤ avx2Byte i ∧ avx2Byte i < avx2Byte j + 8) ↔ (j ≤ i ∧ i < j + 8) := by
  constructor
  · intro ⟨h1, h2⟩
    have e := avx2Byte_add' j (avx2Byte i - avx2Byte j) h8 (by omega)
    rw [Nat.add_sub_cancel' h1] at e
    have := avx2Byte_inj (by omega) hi e
    omega
  · intro ⟨h1, h2⟩
    have e := avx2Byte_add' j (i - j) h8 (by omega)
    rw [Nat.add_sub_cancel' h1] at e
    omega

theorem written_lane {k : Nat} {s : Vector UInt8 200} (h : Written st f off k s) (h8 : (off + k) % 8 = 0) (hk : off + k + 8 ≤ 200)
    {q : Vector UInt8 8} (hq : ∀ t < 8, g q t = f (off + k + t)) :
    Written st f off (k + 8) (stqV s (avx2Byte (off + k)) q) := by
  intro j hj
  rw [g_stqV _ _ _ (avx2Byte_room h8 hk)]
  simp only [avx2Byte_lane h8 hk hj]
  split
  · rename_i e
    have ea := avx2Byte_add' (off + k) (j - (off + k)) h8 (by omega)
    rw [Nat.add_sub_cancel' e.1] at ea
    rw [ea, Nat.add_sub_cancel_left, hq _ (by omega), Nat.add_sub_cancel' e.1, if_pos (by omega)]
  · rename_i e
    rw [h j hj]
    have : (off ≤ j ∧ j < off + k) ↔ (off ≤ j ∧ j < off + (k + 8)) := by omega
    simp only [this]

theorem written_read {k : Nat} {s : Vector UInt8 200} (h : Written st f off k s) {j : Nat} (hj : j < 200) (hk : off + k ≤ j) :
    g s (avx2Byte j) = g st (avx2Byte j) := by
  rw [h j hj, if_neg (by omega)]

/-- A function that writes to the state byte by byte and lane by lane. -/
theorem walk_written {P : Pass (Vector UInt8 200)} {len : Nat} (hb : off + len ≤ 200)
    (hbyte : ∀ k s, k < len → Written st f off k s → P.head (avx2Byte (off + k)) k s = .ok (upd s (avx2Byte (off + k)) (f (off + k))))
    (hlane : ∀ k s, k + 8 ≤ len → (off + k) % 8 = 0 → Written st f off k s →
      ∃ q, (∀ t < 8, g q t = f (off + k + t)) ∧ P.lane (avx2Byte (off + k)) k s = .ok (stqV s (avx2Byte (off + k)) q))
    (hlast : ∀ a i rcx s, P.last a i rcx s = forUp (loopCount rcx) (fun k s => P.head (a + k) (i + k) s) s) :
    Wp False (walkBytes P off len st) (Written st f off len) := by
  refine walkBytes_wp P (Written st f off) off len hb ?_ ?_ ?_ st written_zero
  · intro k s hk hs
    rw [hbyte k s hk hs]
    exact written_byte hs (by omega)
  · intro k s hk h8 hs
    obtain ⟨q, hq, e⟩ := hlane k s hk h8 hs
    rw [e]
    exact written_lane hs h8 (by omega) hq
  · intro k r s hk hr hr8 h8 hs
    rw [hlast, loopCount_eq hr (by omega)]
    refine Wp.forUp (fun t s => Written st f off (k + t) s) hs ?_ fun s hs => by rw [← hk]; exact hs
    intro t s ht hs
    have := hbyte (k + t) s (by omega) hs
    rw [← Nat.add_assoc, avx2Byte_add' (off + k) t h8 (by omega)] at this
    rw [this]
    have := written_byte hs (by omega)
    rwa [← Nat.add_assoc, avx2Byte_add' (off + k) t h8 (by omega)] at this

end

theorem addBytes_wp {n : Nat} (st : Vector UInt8 200) (data : Vector UInt8 n) (off len : Nat) (hb : off + len ≤ 200) (hn : len ≤ n) :
    Wp False (addBytes st data off len) (Written st (fun j => g st (avx2Byte j) ^^^ g data (j - off)) off len) := by
  refine walk_written hb ?_ ?_ (fun _ _ _ _ => rfl)
  · intro k s hk hs
    refine Wp.eq_ok ?_
    unfold addBytesPass
    simp only [Wp.bind_iff, Wp.rd_iff, Wp.wr_iff]
    refine ⟨by omega, avx2Byte_lt (by omega), avx2Byte_lt (by omega), ?_⟩
    rw [written_read hs (by omega) (by omega), Nat.add_sub_cancel_left]
  · intro k s hk h8 hs
    refine ⟨xorq (Vector.ofFn fun i : Fin 8 => g s (avx2Byte (off + k) + i)) (Vector.ofFn fun i : Fin 8 => g data (k + i)), ?_, ?_⟩
    rotate_left
    · unfold addBytesPass
      dsimp only
      rw [ldq_ok _ _ (by omega), ldq_ok _ _ (avx2Byte_room h8 (by omega))]
      exact stq_ok _ _ _ (avx2Byte_room h8 (by omega))
    · intro t ht
      rw [g_xorq _ _ _ ht, g_ldq _ _ _ ht, g_ldq _ _ _ ht, ← avx2Byte_add' _ _ h8 ht, written_read hs (by omega) (by omega),
        show off + k + t - off = k + t by omega]

theorem overwriteBytes_wp {n : Nat} (st : Vector UInt8 200) (data : Vector UInt8 n) (off len : Nat) (hb : off + len ≤ 200) (hn : len ≤ n) :
    Wp False (overwriteBytes st data off len) (Written st (fun j => g data (j - off)) off len) := by
  refine walk_written hb ?_ ?_ (fun _ _ _ _ => rfl)
  · intro k s hk hs
    refine Wp.eq_ok ?_
    unfold overwritePass
    simp only [Wp.bind_iff, Wp.rd_iff, Wp.wr_iff]
    refine ⟨by omega, avx2Byte_lt (by omega), ?_⟩
    rw [Nat.add_sub_cancel_left]
  · intro k s hk h8 hs
    refine ⟨Vector.ofFn fun i : Fin 8 => g data (k + i), ?_, ?_⟩
    rotate_left
    · unfold overwritePass
      dsimp only
      rw [ldq_ok _ _ (by omega)]
      exact stq_ok _ _ _ (avx2Byte_room h8 (by omega))
    · intro t ht
      rw [g_ldq _ _ _ ht, show off + k + t - off = k + t by omega]

theorem overwriteWithZeroes_wp (st : Vector UInt8 200) (len : Nat) (hb : len ≤ 200) :
    Wp False (overwriteWithZeroes st len) (Written st (fun _ => 0) 0 len) := by
  unfold overwriteWithZeroes
  split
  · rename_i h
    rw [h]
    exact written_zero
  have hl : ∀ k s, k + 8 ≤ len → (0 + k) % 8 = 0 → Written st (fun _ => 0) 0 k s →
      Wp False (zeroesPass.lane (avx2Byte (0 + k)) k s) (Written st (fun _ => 0) 0 (k + 8)) := by
    intro k s hk h8 hs
    have e : zeroesPass.lane (avx2Byte (0 + k)) k s = .ok (stqV s (avx2Byte (0 + k)) (Vector.replicate 8 0)) :=
      stq_ok _ _ _ (avx2Byte_room h8 (by omega))
    rw [e]
    exact written_lane hs h8 (by omega) fun t ht => g_replicate _ _ ht
  rw [Wp.bind_iff]
  refine (laneLoop_wp zeroesPass (Written st (fun _ => 0) 0) 0 len (by omega) hl len 0 0 st (by omega) (Or.inr ⟨rfl, rfl⟩)
    written_zero).mono fun r ⟨h1, h2, h3, h4⟩ => lastLane_wp zeroesPass _ 0 len (by omega) ?_ r h1 h2 h3 h4
  intro k r s hk hr hr8 h8 hs
  have e : zeroesPass.last (avx2Byte (0 + k)) k r s = forUp (loopCount r) (fun t s => wr s (avx2Byte (0 + k) + t) 0) s := rfl
  rw [e, loopCount_eq hr (by omega)]
  refine Wp.forUp (fun t s => Written st (fun _ => 0) 0 (k + t) s) hs ?_ fun s hs => by rw [← hk]; exact hs
  intro t s ht hs
  rw [Wp.wr_iff]
  have := written_byte hs (by omega)
  rw [← Nat.add_assoc, avx2Byte_add' (0 + k) t h8 (by omega)] at this
  refine ⟨?_, this⟩
  rw [← avx2Byte_add' (0 + k) t h8 (by omega)]
  exact avx2Byte_lt (by omega)

/-! ## Reading from the state -/

/-- The first `k` bytes are those of the state from `off` on, the others are those of `d`. -/
def Got {n : Nat} (st : Vector UInt8 200) (d : Vector UInt8 n) (off k : Nat) (s : Vector UInt8 n) : Prop :=
  ∀ i, g s i = if i < k then g st (avx2Byte (off + i)) else g d i

theorem extractBytesAsm_wp {n : Nat} (st : Vector UInt8 200) (d : Vector UInt8 n) (off len : Nat) (hb : off + len ≤ 200) (hn : len ≤ n) :
    Wp False (extractBytesAsm st d off len) (Got st d off len) := by
  have hbyte : ∀ k (s : Vector UInt8 n), k < len → Got st d off k s → Got st d off (k + 1) (upd s k (g st (avx2Byte (off + k)))) := by
    intro k s hk hs i
    rw [g_upd _ _ _ _ (by omega)]
    split
    · rename_i e
      rw [← e, if_pos (by omega)]
    · rw [hs i]
      have : i < k ↔ i < k + 1 := by omega
      simp only [this]
  refine walkBytes_wp _ (Got st d off) off len hb ?_ ?_ ?_ d (fun i => by rw [if_neg (by omega)])
  · intro k s hk hs
    unfold extractPass
    simp only [Wp.bind_iff, Wp.rd_iff, Wp.wr_iff]
    exact ⟨avx2Byte_lt (by omega), by omega, hbyte k s hk hs⟩
  · intro k s hk h8 hs
    unfold extractPass
    dsimp only
    rw [ldq_ok _ _ (avx2Byte_room h8 (by omega)), Wp.bind_iff, Wp.ok_iff, stq_ok _ _ _ (by omega), Wp.ok_iff]
    intro i
    rw [g_stqV _ _ _ (by omega)]
    split
    · rename_i e
      rw [g_ldq _ _ _ (by omega), ← avx2Byte_add' _ _ h8 (by omega), if_pos (by omega), show off + k + (i - k) = off + i by omega]
    · rw [hs i]
      have : i < k ↔ i < k + 8 := by omega
      simp only [this]
  · intro k r s hk hr hr8 h8 hs
    unfold extractPass
    dsimp only
    rw [ldq_ok _ _ (avx2Byte_room h8 (by omega)), Wp.bind_iff, Wp.ok_iff, loopCount_eq hr (by omega), Wp.bind_iff]
    refine Wp.forUp (fun t s => Got st d off (k + t) s.1 ∧ ∀ u, t + u < 8 → g s.2 u = g st (avx2Byte (off + k + (t + u)))) ?_ ?_ ?_
    · refine ⟨hs, fun u hu => ?_⟩
      dsimp only
      rw [g_ldq _ _ _ (by omega), ← avx2Byte_add' _ _ h8 (by omega), Nat.zero_add]
    · intro t s ht ⟨h1, h2⟩
      simp only [Wp.bind_iff, Wp.wr_iff, Wp.pure_iff]
      refine ⟨by omega, ?_, ?_⟩
      · rw [h2 0 (by omega)]
        have := hbyte (k + t) s.1 (by omega) h1
        rwa [← Nat.add_assoc] at this
      · intro u hu
        rw [g_shr8 _ _ (by omega), h2 _ (by omega), show t + (u + 1) = t + 1 + u by omega]
    · intro s hs
      rw [← hk]
      exact hs.1

/-- The `k` bytes at `out` are those at `inp` added to those of the state from `off` on. -/
def GotSum {n : Nat} (st : Vector UInt8 200) (m : Vector UInt8 n) (inp out off k : Nat) (s : Vector UInt8 n) : Prop :=
  ∀ i, g s i = if out ≤ i ∧ i < out + k then g st (avx2Byte (off + (i - out))) ^^^ g m (inp + (i - out)) else g m i

theorem extractAndAddBytes_wp {n : Nat} (st : Vector UInt8 200) (m : Vector UInt8 n) (inp out off len : Nat) (hb : off + len ≤ 200)
    (hi : inp + len ≤ n) (ho : out + len ≤ n) (ha : out ≤ inp ∨ inp + len ≤ out) :
    Wp False (extractAndAddBytes st m inp out off len) (GotSum st m inp out off len) := by
  have hread : ∀ k t (s : Vector UInt8 n), k + t < len → GotSum st m inp out off k s → g s (inp + (k + t)) = g m (inp + (k + t)) := by
    intro k t s hk hs
    rw [hs, if_neg (by omega)]
  have hbyte : ∀ k (s : Vector UInt8 n), k < len → GotSum st m inp out off k s →
      GotSum st m inp out off (k + 1) (upd s (out + k) (g st (avx2Byte (off + k)) ^^^ g m (inp + k))) := by
    intro k s hk hs i
    rw [g_upd _ _ _ _ (by omega)]
    split
    · rename_i e
      rw [← e, if_pos (by omega), Nat.add_sub_cancel_left]
    · rw [hs i]
      have : (out ≤ i ∧ i < out + k) ↔ (out ≤ i ∧ i < out + (k + 1)) := by omega
      simp only [this]
  refine walkBytes_wp _ (GotSum st m inp out off) off len hb ?_ ?_ ?_ m (fun i => by rw [if_neg (by omega)])
  · intro k s hk hs
    unfold extractAddPass
    simp only [Wp.bind_iff, Wp.rd_iff, Wp.wr_iff]
    refine ⟨avx2Byte_lt (by omega), by omega, by omega, ?_⟩
    have e : g s (inp + k) = g m (inp + k) := hread k 0 s (by omega) hs
    rw [e]
    exact hbyte k s hk hs
  · intro k s hk h8 hs
    unfold extractAddPass
    dsimp only
    rw [ldq_ok _ _ (avx2Byte_room h8 (by omega)), Wp.bind_iff, Wp.ok_iff, ldq_ok _ _ (by omega), Wp.bind_iff, Wp.ok_iff,
      stq_ok _ _ _ (by omega), Wp.ok_iff]
    intro i
    rw [g_stqV _ _ _ (by omega)]
    split
    · rename_i e
      rw [g_xorq _ _ _ (by omega), g_ldq _ _ _ (by omega), g_ldq _ _ _ (by omega), ← avx2Byte_add' _ _ h8 (by omega),
        if_pos (by omega), Nat.add_assoc inp, hread _ _ _ (by omega) hs, Nat.add_assoc off,
        show k + (i - (out + k)) = i - out by omega]
    · rw [hs i]
      have : (out ≤ i ∧ i < out + k) ↔ (out ≤ i ∧ i < out + (k + 8)) := by omega
      simp only [this]
  · intro k r s hk hr hr8 h8 hs
    unfold extractAddPass
    dsimp only
    rw [ldq_ok _ _ (avx2Byte_room h8 (by omega)), Wp.bind_iff, Wp.ok_iff, loopCount_eq hr (by omega), Wp.bind_iff]
    refine Wp.forUp (fun t s => GotSum st m inp out off (k + t) s.1 ∧ ∀ u, t + u < 8 → g s.2 u = g st (avx2Byte (off + k + (t + u)))) ?_ ?_ ?_
    · refine ⟨hs, fun u hu => ?_⟩
      dsimp only
      rw [g_ldq _ _ _ (by omega), ← avx2Byte_add' _ _ h8 (by omega), Nat.zero_add]
    · intro t s ht ⟨h1, h2⟩
      simp only [Wp.bind_iff, Wp.wr_iff, Wp.rd_iff, Wp.pure_iff]
      refine ⟨by omega, by omega, ?_, ?_⟩
      · rw [g_upd_self _ _ _ (by omega), h2 0 (by omega)]
        have e : g s.1 (inp + (k + t)) = g m (inp + (k + t)) := hread (k + t) 0 s.1 (by omega) h1
        rw [e]
        have := hbyte (k + t) s.1 (by omega) h1
        rwa [← Nat.add_assoc off] at this
      · intro u hu
        rw [g_shr8 _ _ (by omega), g_upd_ne _ _ _ _ (by omega), h2 _ (by omega), show t + (u + 1) = t + 1 + u by omega]
    · intro s hs
      rw [← hk]
      exact hs.1

end LESS.Asm
