import Verif.Props.HashMem
/-!
# C93: calls on a hash context in any order
-/
namespace LESS.Mem
open LESS Spec

/-- A call on an incremental context (fips202.c:91-203); `finalize` with the domain byte. -/
inductive Call where
  | init
  | absorb (x : Part)
  | finalize (d : UInt8)
  | squeeze (x : Part)

/-- Calls one after the other; the buffers squeezed into, afterwards, and the context. -/
def runCalls (r : Nat) : List Call → Ctx → C (List Part × Ctx)
  | [], s => pure ([], s)
  | .init :: l, s => do
    let s ← incInit s
    runCalls r l s
  | .absorb x :: l, s => do
    let s ← incAbsorb r s x.buf x.off x.len
    runCalls r l s
  | .finalize d :: l, s => do
    let s ← incFinalize r d s
    runCalls r l s
  | .squeeze x :: l, s => do
    let (buf, s) ← incSqueeze r x.buf x.off x.len s
    let (rest, s) ← runCalls r l s
    pure (⟨x.size, buf, x.off, x.len, x.inside⟩ :: rest, s)

/-- The parts that calls squeeze into. -/
def outParts : List Call → List Part
  | [] => []
  | .squeeze x :: l => x :: outParts l
  | _ :: l => outParts l

theorem squeezeN_pos_lt (r : Nat) (h0 : 0 < r) (n : Nat) (st : Inc) (h : st.pos < r) : (squeezeN r n st).2.pos < r := by
  induction n generalizing st with
  | zero => exact h
  | succ n ih =>
    rw [squeezeN]
    apply ih
    unfold squeeze1
    split
    · show r - 1 < r; omega
    · show st.pos - 1 < r; omega

theorem runCalls_safe (r : Nat) (h0 : 0 < r) (hr' : r ≤ 200) (l : List Call) (hl : ∀ x, .absorb x ∈ l → x.len + 200 ≤ 2 ^ 64)
    (s : Ctx) (st : Inc) (h : Rep s st) (hp : st.pos < r) :
    ∃ outs s', runCalls r l s = .ok (outs, s') ∧ List.Forall₂ OnlyPart (outParts l) outs ∧ (g s' 25).toNat < r := by
  induction l generalizing s st with
  | nil => exact ⟨[], s, rfl, List.Forall₂.nil, by rw [h.2]; exact hp⟩
  | cons c l ih =>
    have ih := ih fun x hx => hl x (List.mem_cons_of_mem _ hx)
    cases c with
    | init =>
      obtain ⟨s1, e1, h1⟩ := incInit_eq s
      obtain ⟨o, s2, e2, h2⟩ := ih s1 _ h1 h0
      exact ⟨o, s2, by unfold runCalls; rw [e1, Kat.ok_bind, e2], h2⟩
    | absorb x =>
      have := hl x (List.mem_cons_self ..)
      obtain ⟨s1, e1, h1⟩ := incAbsorb_eq r hr' x.buf s st x.off x.len h hp x.inside (by omega)
      obtain ⟨o, s2, e2, h2⟩ := ih s1 _ h1 (incAbsorb_pos r _ _ hp)
      exact ⟨o, s2, by unfold runCalls; rw [e1, Kat.ok_bind, e2], h2⟩
    | finalize d =>
      obtain ⟨s1, e1, h1⟩ := incFinalize_eq r h0 hr' d s st h hp
      obtain ⟨o, s2, e2, h2⟩ := ih s1 _ h1 (by rw [incFinalize_pos]; exact h0)
      exact ⟨o, s2, by unfold runCalls; rw [e1, Kat.ok_bind, e2], h2⟩
    | squeeze x =>
      obtain ⟨s1, e1, h1⟩ := incSqueeze_mem r h0 hr' x.buf x.off x.len s st h hp.le x.inside
      have hlen := C34_squeeze_length r h0 st hp.le x.len
      obtain ⟨o, s2, e2, h2, h3⟩ := ih s1 _ h1 (by rw [incSqueeze_eq r h0 _ _ hp.le]; exact squeezeN_pos_lt r h0 _ _ hp)
      refine ⟨_, s2, by unfold runCalls; rw [e1, Kat.ok_bind]; dsimp only; rw [e2]; rfl, ?_, h3⟩
      exact List.Forall₂.cons ⟨rfl, rfl, rfl, (wrote_blit x.buf x.off x.len x.inside _ hlen.1).2⟩ h2

/-- C93: a context that was initialised once may be used by any calls in any order, for any of the rates of the library: no call
accesses memory outside the context, its input and its output, every one returns, and only the outputs are written. -/
theorem C93_safe_partial (r : Nat) (hr : r ∈ [168, 136, 104, 72]) (s : Ctx) (l : List Call)
    (hl : ∀ x, .absorb x ∈ l → x.len + 200 ≤ 2 ^ 64) :
    ∃ outs s', runCalls r (.init :: l) s = .ok (outs, s') ∧ List.Forall₂ OnlyPart (outParts l) outs ∧ (g s' 25).toNat < r := by
  have h : 0 < r ∧ r ≤ 200 := by simp only [List.mem_cons, List.not_mem_nil, or_false] at hr; omega
  obtain ⟨s1, e1, h1⟩ := incInit_eq s
  obtain ⟨o, s2, e2, h2⟩ := runCalls_safe r h.1 h.2 l hl s1 _ h1 h.1
  exact ⟨o, s2, by unfold runCalls; rw [e1, Kat.ok_bind, e2], h2⟩

theorem rep_inj {s t : Ctx} {st : Inc} (hs : Rep s st) (ht : Rep t st) : s = t := by
  apply vec_ext
  intro i hi
  by_cases c : i < 25
  · rw [← g_lanes s i c, ← g_lanes t i c, hs.1, ht.1]
  · obtain rfl : i = 25 := by omega
    exact UInt64.toNat_inj.mp (hs.2.trans ht.2.symm)

theorem incInit_any (s t : Ctx) : incInit s = incInit t := by
  obtain ⟨s1, e1, h1⟩ := incInit_eq s
  obtain ⟨s2, e2, h2⟩ := incInit_eq t
  rw [e1, e2, rep_inj h1 h2]

theorem call_ok {α β : Type} {x : C α} {f : α → C β} {b : β} (h : x >>= f = .ok b) : ∃ a, x = .ok a ∧ f a = .ok b := by
  cases x with
  | error e => cases h
  | ok a => exact ⟨a, rfl, h⟩

theorem runCalls_append (r : Nat) (l l' : List Call) (s s1 : Ctx) (o : List Part) (h : runCalls r l s = .ok (o, s1)) (o' : List Part)
    (s2 : Ctx) (h' : runCalls r l' s1 = .ok (o', s2)) : runCalls r (l ++ l') s = .ok (o ++ o', s2) := by
  induction l generalizing s o with
  | nil =>
    cases h
    exact h'
  | cons c l ih =>
    rw [List.cons_append]
    cases c with
    | init | absorb | finalize =>
      rw [runCalls] at h ⊢
      obtain ⟨t, e, h⟩ := call_ok h
      rw [e, Kat.ok_bind, ih t o h]
    | squeeze x =>
      rw [runCalls] at h ⊢
      obtain ⟨⟨b, t⟩, e, h⟩ := call_ok h
      dsimp only at h
      obtain ⟨⟨p, u⟩, e', h⟩ := call_ok h
      cases h
      rw [e, Kat.ok_bind]
      dsimp only
      rw [ih t p e']; rfl

/-- C93: initialising a context that is in use makes it as good as a fresh one: whatever was done before, in whatever order, what
the calls afterwards write, and the context they leave, are those of the same calls on any other context. -/
theorem C93_reuse (r : Nat) (hr : r ∈ [168, 136, 104, 72]) (s fresh : Ctx) (l l' : List Call)
    (hl : ∀ x, .absorb x ∈ l → x.len + 200 ≤ 2 ^ 64) (hl' : ∀ x, .absorb x ∈ l' → x.len + 200 ≤ 2 ^ 64) :
    ∃ o o' s', runCalls r (.init :: l ++ .init :: l') s = .ok (o ++ o', s') ∧ runCalls r (.init :: l') fresh = .ok (o', s') ∧
      o.length = (outParts l).length := by
  obtain ⟨o, s1, e1, h1, -⟩ := C93_safe_partial r hr s l hl
  obtain ⟨o', s2, e2, -, -⟩ := C93_safe_partial r hr s1 l' hl'
  refine ⟨o, o', s2, runCalls_append r _ _ _ _ _ e1 _ _ e2, ?_, h1.length_eq.symm⟩
  rw [← e2, runCalls, runCalls, incInit_any fresh s1]

/-- A part with given bytes. -/
def partOf (m : Bytes) : Part := ⟨m.length, ⟨m.toArray, rfl⟩, 0, m.length, by omega⟩

theorem partOf_bytes (m : Bytes) : (partOf m).bytes = m := by
  show seg (⟨m.toArray, rfl⟩ : Vector UInt8 m.length) 0 m.length = m
  rw [seg_full]; rfl

theorem extract_message (m : Bytes) (hm : m.length ≤ 200) : extractBytes (xorBytes (Vector.replicate 25 0) m 0) 0 m.length = m := by
  apply bits_inj
  rw [extract_bits _ _ hm, strOf_xorBlock, strOf_zero]
  apply list_ext_getD
  · rw [bits_length, Spec.truncate, List.length_take, List.length_map, List.length_finRange]; omega
  · intro i hi
    rw [Spec.truncate, List.length_take] at hi
    have hf : (List.finRange 1600)[i]? = some ⟨i, by omega⟩ := by
      rw [List.getElem?_eq_getElem (by simp; omega)]; simp
    rw [Spec.truncate, List.getD_eq_getElem?_getD, List.getElem?_take, if_pos (by omega), List.getElem?_map, hf]
    simp only [Option.map_some, Option.getD_some, Spec.xorBlock, Bool.false_xor]

/-- C93: squeezing without `finalize` hands out the input: after fewer than `r` bytes, more than half of that, the output begins
with the bytes of the input from number `r` minus their count on. -/
theorem C93_fails_early_squeeze (r : Nat) (hr : r ∈ [168, 136, 104, 72]) (s : Ctx) (m : Bytes) (hm : m.length < r) (x : Part)
    (hx : x.len + r ≤ 2 * m.length) :
    ∃ x' s', runCalls r [.init, .absorb (partOf m), .squeeze x] s = .ok ([x'], s') ∧ OnlyPart x x' ∧
      x'.bytes = (m.drop (r - m.length)).take x.len := by
  have h : 0 < r ∧ r ≤ 200 := by simp only [List.mem_cons, List.not_mem_nil, or_false] at hr; omega
  obtain ⟨s1, e1, h1⟩ := incInit_eq s
  obtain ⟨s2, e2, h2⟩ := incAbsorb_eq r h.2 (partOf m).buf s1 _ (partOf m).off (partOf m).len h1 h.1 (partOf m).inside
    (by show m.length + 0 < _; omega)
  have hb : seg (partOf m).buf (partOf m).off (partOf m).len = m := partOf_bytes m
  rw [hb] at h2
  have ha : LESS.incAbsorb r LESS.incInit m = ⟨xorBytes (Vector.replicate 25 0) m 0, m.length⟩ := by
    rw [LESS.incAbsorb, dif_neg (by show ¬ (r ≤ m.length + 0 ∧ _); omega)]
    show (⟨_, 0 + m.length⟩ : Inc) = _
    rw [Nat.zero_add]; rfl
  rw [ha] at h2
  obtain ⟨s3, e3, -⟩ := incSqueeze_mem r h.1 h.2 x.buf x.off x.len s2 _ h2 hm.le x.inside
  have hq : (LESS.incSqueeze r ⟨xorBytes (Vector.replicate 25 0) m 0, m.length⟩ x.len).1 = (m.drop (r - m.length)).take x.len := by
    rw [incSqueeze_eq r h.1 _ _ hm.le, squeezeN_block r x.len _ (by show x.len ≤ m.length; omega) hm.le]
    show extractBytes _ (r - m.length) x.len = _
    have hm' := extract_message m (by omega)
    have hs : m.length = (r - m.length) + (x.len + (2 * m.length - r - x.len)) := by omega
    generalize xorBytes (Vector.replicate 25 0) m 0 = t at hm' ⊢
    generalize r - m.length = a at hs ⊢
    rw [hs, extractBytes_add, extractBytes_add, Nat.zero_add] at hm'
    rw [← hm', List.drop_left' (extractBytes_length ..), List.take_left' (extractBytes_length ..)]
  rw [hq] at e3
  have hl : ((m.drop (r - m.length)).take x.len).length = x.len := by rw [List.length_take, List.length_drop]; omega
  refine ⟨⟨x.size, blitV x.buf x.off ((m.drop (r - m.length)).take x.len), x.off, x.len, x.inside⟩, s3, ?_, ⟨rfl, rfl, rfl, (wrote_blit x.buf x.off x.len x.inside _ hl).2⟩,
    seg_blitV_same _ _ _ _ hl x.inside⟩
  simp only [runCalls]
  rw [e1, Kat.ok_bind, e2, Kat.ok_bind, e3]; rfl

theorem xor1_twice (s : Lanes) (a b : UInt8) (i j : Nat) :
    xorBytes (xorBytes (xorBytes (xorBytes s [a] i) [b] j) [a] i) [b] j = s := by
  apply strOf_inj
  funext k
  simp only [strOf_xor1]
  generalize (decide (k.val / 8 = i) && _) = x
  generalize (decide (k.val / 8 = j) && _) = y
  cases strOf s k <;> cases x <;> cases y <;> rfl

/-- C93: finalizing twice undoes the padding if the input consists of whole blocks: the context is as if never finalized. -/
theorem C93_fails_finalize_twice (r : Nat) (hr : r ∈ [168, 136, 104, 72]) (s : Ctx) (h : g s 25 = 0) (d : UInt8) :
    runCalls r [.finalize d, .finalize d] s = .ok ([], s) := by
  have hh : 1 < r ∧ r ≤ 200 := by simp only [List.mem_cons, List.not_mem_nil, or_false] at hr; omega
  have h0 : Rep s ⟨lanes s, 0⟩ := ⟨rfl, by rw [h]; rfl⟩
  obtain ⟨s1, e1, h1⟩ := incFinalize_eq r (by omega) hh.2 d s _ h0 (by show 0 < r; omega)
  obtain ⟨s2, e2, h2⟩ := incFinalize_eq r (by omega) hh.2 d s1 _ h1 (by rw [incFinalize_pos]; omega)
  have e : LESS.incFinalize r d (LESS.incFinalize r d ⟨lanes s, 0⟩) = ⟨lanes s, 0⟩ := by
    have : ∀ t : Lanes, LESS.incFinalize r d ⟨t, 0⟩ = ⟨xorBytes (xorBytes t [d] 0) [128] (r - 1), 0⟩ := fun t => by
      rw [LESS.incFinalize, if_neg (by show ¬ 0 = r - 1; omega)]
    rw [this, this, xor1_twice]
  rw [e] at h2
  simp only [runCalls]
  rw [e1, Kat.ok_bind, e2, rep_inj h2 h0]; rfl

/-- A message of 100 bytes and then 64 bytes of output before `finalize`, at rate 136: bytes 36 to 99 of the message. -/
example (s : Ctx) : ∃ x' s', runCalls 136 [.init, .absorb (partOf (List.replicate 50 1 ++ List.replicate 50 2)),
    .squeeze (partOf (List.replicate 64 0))] s = .ok ([x'], s') ∧ x'.bytes = List.replicate 14 1 ++ List.replicate 50 2 := by
  obtain ⟨x', s', e, -, h⟩ := C93_fails_early_squeeze 136 (by decide) s (List.replicate 50 1 ++ List.replicate 50 2) (by decide)
    (partOf (List.replicate 64 0)) (by decide)
  exact ⟨x', s', e, by rw [h]; decide⟩

/-- Squeezing first, finalizing twice, absorbing afterwards: eight calls in an order no caller should use. -/
example (s : Ctx) : ∃ outs s', runCalls 168 [.init, .squeeze (partOf [1, 2, 3]), .finalize 0x1F, .finalize 0x06, .absorb (partOf [7]),
    .squeeze (partOf []), .squeeze (partOf [9, 9]), .absorb (partOf [1, 1])] s = .ok (outs, s') ∧
    List.Forall₂ OnlyPart [partOf [1, 2, 3], partOf [], partOf [9, 9]] outs ∧ (g s' 25).toNat < 168 :=
  C93_safe_partial 168 (by decide) s _ fun x hx => by
    simp only [List.mem_cons, List.not_mem_nil, or_false, reduceCtorEq, false_or, Call.absorb.injEq] at hx
    rcases hx with rfl | rfl <;> decide

/-- A context whose position is 0 but whose lanes are not. -/
example : runCalls 136 [.finalize 0x1F, .finalize 0x1F] (upd (Vector.replicate 26 0) 3 5) =
    .ok ([], upd (Vector.replicate 26 0) 3 5) :=
  C93_fails_finalize_twice 136 (by decide) _ (by decide) _

end LESS.Mem
