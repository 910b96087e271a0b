import Verif.Proofs.KeccakBytes
import Verif.Props.KeccakAsm
/-!
# The absorbing loops of the assembly file
-/
namespace LESS.Asm
open Spec

/-! ## Lanes of the data -/

theorem leNat_testBit (l : Bytes) (z : Nat) : (leNat l).testBit z = (l.getD (z / 8) 0).toNat.testBit (z % 8) := by
  induction l generalizing z with
  | nil => simp [leNat]
  | cons b bs ih =>
    have hb := b.toNat_lt
    rw [leNat, show b.toNat + 256 * leNat bs = 2 ^ 8 * leNat bs + b.toNat by omega, Nat.testBit_two_pow_mul_add _ hb]
    split
    · rename_i h
      rw [show z / 8 = 0 by omega, show z % 8 = z by omega]
      rfl
    · rename_i h
      rw [ih, show z / 8 = (z - 8) / 8 + 1 by omega, show z % 8 = (z - 8) % 8 by omega]
      rfl

theorem laneOfBytes_bit (b : Nat → UInt8) (z : Fin 64) :
    wbit (laneOfBytes b) z = (b (z.val / 8)).toNat.testBit (z.val % 8) := by
  have hz := z.2
  unfold wbit laneOfBytes
  rw [UInt64.toBitVec_ofNat', BitVec.getLsbD_ofNat, leNat_testBit]
  simp only [hz, decide_true, Bool.true_and]
  congr 2
  rw [List.getD_eq_getElem _ _ (by simp; omega)]
  simp

/-- Bit `i` of the data. -/
def dataBit {n : Nat} (data : Vector UInt8 n) (i : Nat) : Bool := (g data (i / 8)).toNat.testBit (i % 8)

/-- The lane of the data at byte `a`. -/
def dl {n : Nat} (data : Vector UInt8 n) (a : Nat) : UInt64 := laneOfBytes fun i => g data (a + i)

theorem ldLane_ok {n : Nat} (data : Vector UInt8 n) (a : Nat) (h : a + 8 ≤ n) : ldLane data a = .ok (dl data a) := by
  unfold ldLane
  rw [if_pos h]
  rfl

theorem dl_bit {n : Nat} (data : Vector UInt8 n) (a : Nat) (z : Fin 64) : wbit (dl data a) z = dataBit data (8 * a + z.val) := by
  unfold dl dataBit
  rw [laneOfBytes_bit, show (8 * a + z.val) / 8 = a + z.val / 8 by omega, show (8 * a + z.val) % 8 = z.val % 8 by omega]

/-- The state `m` with the first `lc` lanes of the data at `rdx` added. -/
def addLanes {n : Nat} (data : Vector UInt8 n) (rdx lc : Nat) (m : Nat → UInt64) (k : Nat) : UInt64 :=
  if laneIdx k < lc then m k ^^^ dl data (rdx + 8 * laneIdx k) else m k

/-- The bits of a state in storage order. -/
def bitsOf (m : Nat → UInt64) : StateArray := fun x y z => wbit (m (avx2Pos x y)) z

theorem bitsOf_std (m : Nat → UInt64) : bitsOf m = arrayOf (std m) := by
  funext x y z
  rw [arrayOf_std]
  rfl

theorem wbit_xor' (a b : UInt64) (z : Fin 64) : wbit (a ^^^ b) z = (wbit a z ^^ wbit b z) := by
  unfold wbit
  rw [UInt64.toBitVec_xor, BitVec.getLsbD_xor]

theorem bitsOf_addLanes {n : Nat} (data : Vector UInt8 n) (rdx lc : Nat) (m : Nat → UInt64) :
    bitsOf (addLanes data rdx lc m) = xorLanes lc (fun i => dataBit data (8 * rdx + i)) (bitsOf m) := by
  funext x y z
  unfold bitsOf addLanes xorLanes
  rw [avx2Pos_eq, laneIdx_pos]
  split
  · rename_i h
    rw [wbit_xor', dl_bit, decide_eq_true h, Bool.true_and, show 8 * (rdx + 8 * (x.val + 5 * y.val)) + z.val =
      8 * rdx + (64 * (x.val + 5 * y.val) + z.val) by omega, ← avx2Pos_eq]
  · rename_i h
    rw [decide_eq_false h, Bool.false_and, Bool.xor_false, ← avx2Pos_eq]

/-! ## Blocks of 21 and of 17 lanes -/

theorem allon_bit : ALLON.testBit 63 = true := by decide +kernel

theorem addBlock21 {n : Nat} (data : Vector UInt8 n) (rdx : Nat) (h : rdx + 168 ≤ n) (y : Nat → V4 UInt64) (m : Nat → UInt64)
    (hy : Holds y m) : ∃ y', addBlock mask2_21 mask3_21 mask4_21 mask5_21 mask6_21 data rdx y = .ok y' ∧
      Holds y' (addLanes data rdx 21 m) := by
  rw [← load_of_holds hy]
  unfold addBlock gather
  simp only [mask2_21, mask3_21, mask4_21, mask5_21, mask6_21, map2, map3, map4, map5, map6, allon_bit, Nat.zero_testBit,
    if_true, Bool.false_eq_true, if_false]
  repeat rw [ldLane_ok data _ (by omega)]
  refine ⟨_, rfl, ?_⟩
  unfold Holds
  simp [load, setAt, V4.map2, addLanes, laneIdx, ops64]

theorem addBlock17 {n : Nat} (data : Vector UInt8 n) (rdx : Nat) (h : rdx + 136 ≤ n) (y : Nat → V4 UInt64) (m : Nat → UInt64)
    (hy : Holds y m) : ∃ y', addBlock mask2_17 mask3_17 mask4_17 mask5_17 mask6_17 data rdx y = .ok y' ∧
      Holds y' (addLanes data rdx 17 m) := by
  rw [← load_of_holds hy]
  unfold addBlock gather
  simp only [mask2_17, mask3_17, mask4_17, mask5_17, mask6_17, map2, map3, map4, map5, map6, allon_bit, Nat.zero_testBit,
    if_true, Bool.false_eq_true, if_false]
  repeat rw [ldLane_ok data _ (by omega)]
  refine ⟨_, rfl, ?_⟩
  unfold Holds
  simp [load, setAt, V4.map2, addLanes, laneIdx, ops64]

/-- The rounds of a variant: `n + 1` rounds, from round `i` on. -/
def roundsFrom (i n : Nat) (A : StateArray) : StateArray := (List.range' i (n + 1)).foldl rnd A

theorem absorbWith_congr (F : StateArray → StateArray) (lc : Nat) {k : Nat} {d d' : Nat → Bool} (h : ∀ i, d i = d' i) (A : StateArray) :
    absorbWith F lc k d A = absorbWith F lc k d' A := by
  have : d = d' := funext h
  rw [this]

theorem blockLoop_run {n : Nat} (data : Vector UInt8 n) (v : Variant) (i r : Nat) (hv : v.iota = 384 + 32 * i) (hr : v.rounds = r + 1)
    (hi : i + (r + 1) = 24) (add : Nat → (Nat → V4 UInt64) → C (Nat → V4 UInt64)) (lc : Nat) (hlc : 0 < lc)
    (hadd : ∀ rdx y m, rdx + lc * 8 ≤ n → Holds y m → ∃ y', add rdx y = .ok y' ∧ Holds y' (addLanes data rdx lc m))
    (mem : Nat → UInt64) (rdi rsi : Nat) :
    ∀ (rcx rdx : Nat) (y : Nat → V4 UInt64) (r10 rax : Nat) (m : Nat → UInt64), rdx + 8 * (rcx + lc) ≤ n → Holds y m →
      ∃ y' r10' m', blockLoop v add lc rcx rdx ⟨y, mem, ⟨96, 288, r10, rdi, rsi, rax⟩⟩ =
          .ok (rdx + 8 * lc * (rcx / lc + 1), ⟨y', mem, ⟨96, 288, r10', rdi, rsi, 0⟩⟩) ∧ Holds y' m' ∧
        bitsOf m' = absorbWith (roundsFrom i r) lc (rcx / lc + 1) (fun t => dataBit data (8 * rdx + t)) (bitsOf m) := by
  intro rcx
  induction rcx using Nat.strongRecOn with
  | _ rcx ih =>
    intro rdx y r10 rax m hn hy
    obtain ⟨y₁, e₁, h₁⟩ := hadd rdx y m (by omega) hy
    obtain ⟨y₂, m₂, r10₂, e₂, h₂, hs⟩ := loop_run r i (r + 1) y₁ _ mem rdi rsi h₁ hi (Nat.le_refl _)
    have hb : bitsOf m₂ = roundsFrom i r (xorLanes lc (fun t => dataBit data (8 * rdx + t)) (bitsOf m)) := by
      rw [bitsOf_std, hs, arrayOf_rounds _ (fun x hx => by have := List.mem_range'_1.mp hx; omega), ← bitsOf_std, bitsOf_addLanes]
      rfl
    unfold blockLoop
    rw [e₁, okBind]
    dsimp only
    rw [hv, hr, e₂, okBind]
    split
    · rename_i hlt
      have h0 : rcx / lc = 0 := Nat.div_eq_of_lt (by omega)
      refine ⟨y₂, r10₂, m₂, ?_, h₂, ?_⟩
      · rw [h0, show rdx + 8 * lc * (0 + 1) = rdx + lc * 8 by omega]
        rfl
      · rw [h0, hb]
        rfl
    · rename_i hge
      obtain ⟨y₃, r10₃, m₃, e₃, h₃, hb₃⟩ := ih (rcx - lc) (by omega) (rdx + lc * 8) y₂ r10₂ 0 m₂ (by omega) h₂
      have hd : rcx / lc = (rcx - lc) / lc + 1 := by
        rw [Nat.div_eq_sub_div hlc (by omega)]
      refine ⟨y₃, r10₃, m₃, ?_, h₃, ?_⟩
      · rw [e₃, hd]
        congr 2
        rw [Nat.mul_add (8 * lc) ((rcx - lc) / lc + 1) 1]
        omega
      · rw [hb₃, hb, hd]
        show _ = absorbWith (roundsFrom i r) lc ((rcx - lc) / lc + 1) (fun t => dataBit data (8 * rdx + (64 * lc + t))) _
        exact absorbWith_congr _ _ (fun t => by
          rw [show 8 * (rdx + lc * 8) + t = 8 * rdx + (64 * lc + t) by omega]) _

theorem enterAbsorb_run (y : Nat → V4 UInt64) (mem : Nat → UInt64) (r8 r9 r10 rsi rax : Nat) :
    ∃ y', run ops64 (.vzeroupper :: enterAbsorb) ⟨y, mem, ⟨r8, r9, r10, 0, rsi, rax⟩⟩ =
      .ok ⟨y', mem, ⟨96, 288, r10, 96, rsi, rax⟩⟩ ∧ Holds y' mem :=
  ⟨_, rfl, rfl, rfl, rfl, rfl, rfl, rfl, rfl⟩

theorem avx2Bit_of_mem (s : Machine UInt64) (m : Nat → UInt64) (h : ∀ k : Fin 25, s.mem k = m k) : avx2Bit (stateOf s) = bitsOf m := by
  rw [avx2Bit_stateOf, std_of_mem _ _ h, bitsOf_std]

/-- The part of the function for 21 and for 17 lanes. -/
theorem blocks_run {n : Nat} (data : Vector UInt8 n) (v : Variant) (i r : Nat) (hv : v.iota = 384 + 32 * i) (hr : v.rounds = r + 1)
    (hi : i + (r + 1) = 24) (add : Nat → (Nat → V4 UInt64) → C (Nat → V4 UInt64)) (lc : Nat) (hlc : 0 < lc)
    (hadd : ∀ rdx y m, rdx + lc * 8 ≤ n → Holds y m → ∃ y', add rdx y = .ok y' ∧ Holds y' (addLanes data rdx lc m))
    (s : Machine UInt64) (st : Lanes) (rsi : Nat) (h : lc ≤ n / 8) :
    ∃ t, (do
        let s ← run ops64 (.vzeroupper :: enterAbsorb) (call s st rsi)
        let (rdx, s) ← blockLoop v add lc (n / 8 - lc) 0 s
        let s ← run ops64 leave s
        pure (stateOf s, rdx) : C (Lanes × Nat)) = .ok (t, 8 * lc * (n / 8 / lc)) ∧
      avx2Bit t = absorbWith (roundsFrom i r) lc (n / 8 / lc) (dataBit data) (avx2Bit st) := by
  obtain ⟨y, e, hy⟩ := enterAbsorb_run s.ymm (g st) s.gpr.r8 s.gpr.r9 s.gpr.r10 rsi s.gpr.rax
  obtain ⟨y', r10, m', e', hy', hb⟩ := blockLoop_run data v i r hv hr hi add lc hlc hadd (g st) 96 rsi (n / 8 - lc) 0 y _ _ _ (by omega) hy
  obtain ⟨s', e'', hm⟩ := leave_run ops64 y' m' (g st) hy' 96 288 r10 rsi 0
  have hd : (n / 8 - lc) / lc + 1 = n / 8 / lc := (Nat.div_eq_sub_div hlc h).symm
  refine ⟨stateOf s', ?_, ?_⟩
  · have e : run ops64 (.vzeroupper :: enterAbsorb) (call s st rsi) = _ := e
    rw [e, okBind, e', okBind]
    dsimp only
    rw [e'', okBind, hd, Nat.zero_add]
    rfl
  · rw [avx2Bit_of_mem s' m' hm, hb, hd, avx2Bit_std, bitsOf_std]
    exact absorbWith_congr _ _ (fun t => by rw [Nat.mul_zero, Nat.zero_add]) _

/-! ## Other numbers of lanes -/

theorem mapState_lane : ∀ k : Fin 25, rdMap (8 * k.val) = .ok (mapState.getD k.val 0 * 8) ∧ mapState.getD k.val 0 < 25 ∧
    laneIdx (mapState.getD k.val 0) = k.val := by
  have h : ∀ k : Fin 25, (mapState[k.val]?).map (· * 8) = some (mapState.getD k.val 0 * 8) ∧ mapState.getD k.val 0 < 25 ∧
      laneIdx (mapState.getD k.val 0) = k.val := by decide +kernel
  intro k
  obtain ⟨h1, h2⟩ := h k
  refine ⟨?_, h2⟩
  unfold rdMap
  rw [if_pos (by omega), show 8 * k.val / 8 = k.val by omega]
  cases e : mapState[k.val]? with
  | none => rw [e] at h1; cases h1
  | some a => rw [e] at h1; exact congrArg _ (Option.some.inj h1)

theorem lanesAdd_wp {n : Nat} (data : Vector UInt8 n) (lc rdx : Nat) (h0 : 0 < lc) (h25 : lc ≤ 25) (hn : rdx + 8 * lc ≤ n) (st : Lanes) :
    Wp False (lanesAdd data lc rdx st) fun t => ∀ k < 25, g t k = addLanes data rdx lc (g st) k := by
  unfold lanesAdd
  rw [loopCount_eq h0 (by omega)]
  refine Wp.forUp (fun i t => ∀ k < 25, g t k = addLanes data rdx i (g st) k) ?_ ?_ fun t ht => ht
  · intro k _
    unfold addLanes
    rw [if_neg (by omega)]
  · intro i t hi ht
    obtain ⟨e1, e2, e3⟩ := mapState_lane ⟨i, by omega⟩
    dsimp only at e1 e2 e3
    rw [ldLane_ok _ _ (by omega), Wp.bind_iff, Wp.ok_iff, e1, Wp.bind_iff, Wp.ok_iff]
    simp only [Wp.bind_iff, Wp.rd_iff, Wp.wr_iff, Nat.mul_div_cancel _ (show 0 < 8 by omega)]
    refine ⟨e2, e2, fun k hk => ?_⟩
    rw [g_upd _ _ _ _ e2]
    split
    · rename_i e
      rw [ht _ e2, ← e]
      unfold addLanes
      rw [e3, if_neg (by omega), if_pos (by omega)]
    · rename_i e
      rw [ht k hk]
      have hne : laneIdx k ≠ i := by
        intro h
        apply e
        have : ∀ k : Fin 25, mapState.getD (laneIdx k) 0 = k.val := by decide +kernel
        have := this ⟨k, hk⟩
        rw [← h]
        exact this
      unfold addLanes
      have : laneIdx k < i ↔ laneIdx k < i + 1 := by omega
      simp only [this]

theorem lanesAdd_run {n : Nat} (data : Vector UInt8 n) (lc rdx : Nat) (h0 : 0 < lc) (h25 : lc ≤ 25) (hn : rdx + 8 * lc ≤ n) (st : Lanes) :
    ∃ t, lanesAdd data lc rdx st = .ok t ∧ ∀ k < 25, g t k = addLanes data rdx lc (g st) k := by
  have h := lanesAdd_wp data lc rdx h0 h25 hn st
  generalize lanesAdd data lc rdx st = x at h
  exact h.exists_ok

theorem avx2Bit_addLanes {n : Nat} {data : Vector UInt8 n} {rdx lc : Nat} {st t : Lanes}
    (h : ∀ k < 25, g t k = addLanes data rdx lc (g st) k) :
    avx2Bit t = xorLanes lc (fun i => dataBit data (8 * rdx + i)) (avx2Bit st) := by
  have e : ∀ s : Lanes, avx2Bit s = bitsOf (g s) := fun s => by rw [avx2Bit_std, bitsOf_std]
  rw [e st, ← bitsOf_addLanes]
  funext x y z
  unfold avx2Bit bitsOf
  rw [h _ (avx2Pos_lt x y)]
  rfl

theorem otherLoop_run {n : Nat} (data : Vector UInt8 n) (v : Variant) (F : StateArray → StateArray)
    (hv : ∀ s st, ∃ t, v.permute s st = .ok t ∧ avx2Bit t = F (avx2Bit st)) (regs : Nat → Machine UInt64) (lc : Nat)
    (h0 : 0 < lc) (h25 : lc ≤ 25) : ∀ (rcx rdx : Nat) (st : Lanes), lc ≤ rcx → rdx + 8 * rcx ≤ n →
      ∃ t, otherLoop v data regs lc rcx rdx st = .ok (rdx + 8 * lc * (rcx / lc), t) ∧
        avx2Bit t = absorbWith F lc (rcx / lc) (fun i => dataBit data (8 * rdx + i)) (avx2Bit st) := by
  intro rcx
  induction rcx using Nat.strongRecOn with
  | _ rcx ih =>
    intro rdx st hlc hn
    obtain ⟨t₁, e₁, h₁⟩ := lanesAdd_run data lc rdx h0 h25 (by omega) st
    obtain ⟨t₂, e₂, h₂⟩ := hv (regs rcx) t₁
    rw [avx2Bit_addLanes h₁] at h₂
    have hd : rcx / lc = (rcx - lc) / lc + 1 := Nat.div_eq_sub_div h0 hlc
    unfold otherLoop
    rw [e₁, okBind, e₂, okBind]
    split
    · rename_i hlt
      have hz : (rcx - lc) / lc = 0 := Nat.div_eq_of_lt (by omega)
      refine ⟨t₂, ?_, ?_⟩
      · rw [hd, hz, show rdx + 8 * lc * (0 + 1) = rdx + 8 * lc by omega]
        rfl
      · rw [hd, hz, h₂]
        rfl
    · rename_i hge
      obtain ⟨t₃, e₃, h₃⟩ := ih (rcx - lc) (by omega) (rdx + 8 * lc) t₂ (by omega) (by omega)
      refine ⟨t₃, ?_, ?_⟩
      · rw [e₃, hd]
        congr 2
        rw [Nat.mul_add (8 * lc) ((rcx - lc) / lc) 1]
        omega
      · rw [h₃, h₂, hd]
        show _ = absorbWith F lc ((rcx - lc) / lc) (fun t => dataBit data (8 * rdx + (64 * lc + t))) _
        exact absorbWith_congr _ _ (fun t => by
          rw [show 8 * (rdx + 8 * lc) + t = 8 * rdx + (64 * lc + t) by omega]) _

/-- The whole function. -/
theorem fastLoopAbsorb_run {n : Nat} (data : Vector UInt8 n) (v : Variant) (i r : Nat) (hv : v.iota = 384 + 32 * i) (hr : v.rounds = r + 1)
    (hi : i + (r + 1) = 24) (hp : ∀ s st, ∃ t, v.permute s st = .ok t ∧ avx2Bit t = roundsFrom i r (avx2Bit st))
    (s : Machine UInt64) (regs : Nat → Machine UInt64) (st : Lanes) (lc : Nat) (h0 : 0 < lc) (h25 : lc ≤ 25) :
    ∃ t, fastLoopAbsorb v s regs st lc data = .ok (t, 8 * lc * (n / 8 / lc)) ∧
      avx2Bit t = absorbWith (roundsFrom i r) lc (n / 8 / lc) (dataBit data) (avx2Bit st) := by
  unfold fastLoopAbsorb
  dsimp only
  split
  · rename_i h
    rw [Nat.div_eq_of_lt h]
    exact ⟨st, rfl, rfl⟩
  rename_i h
  split
  · rename_i h21
    subst h21
    exact blocks_run data v i r hv hr hi _ 21 (by omega) (fun rdx y m hn hy => addBlock21 data rdx (by omega) y m hy) s st 21 (by omega)
  split
  · rename_i h17
    subst h17
    exact blocks_run data v i r hv hr hi _ 17 (by omega) (fun rdx y m hn hy => addBlock17 data rdx (by omega) y m hy) s st 17 (by omega)
  obtain ⟨t, e, ht⟩ := otherLoop_run data v _ hp regs lc h0 h25 (n / 8) 0 st (by omega) (by omega)
  refine ⟨t, ?_, ?_⟩
  · rw [e, okBind, Nat.zero_add]
    rfl
  · rw [ht]
    exact absorbWith_congr _ _ (fun t => by rw [Nat.mul_zero, Nat.zero_add]) _

end LESS.Asm
