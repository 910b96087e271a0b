import Verif.Proofs.Threads
/-!
# Calls that share the generator without a lock
-/
namespace LESS

open Spec

variable {p : Params}

/-- A program that draws twice. -/
def twice {α : Type} (n k : Nat) (f : Bytes → Bytes → C α) : Prog α := .draw n fun a => .draw k fun b => .done (f a b)

theorem fed_twice {α : Type} {n k : Nat} {f : Bytes → Bytes → C α} {bs : List Bytes} {c : Prog α} (h : (twice n k f).Fed bs c) :
    (bs = [] ∧ c = twice n k f) ∨ (∃ a, bs = [a] ∧ a.length = n ∧ c = .draw k fun b => .done (f a b)) ∨
    (∃ a b, bs = [a, b] ∧ a.length = n ∧ b.length = k ∧ c = .done (f a b)) := by
  induction h with
  | nil => exact .inl ⟨rfl, rfl⟩
  | @snoc bs n' next b h1 h2 ih =>
    rcases ih with ⟨rfl, e⟩ | ⟨a, rfl, ha, e⟩ | ⟨a, b', rfl, ha, hb, e⟩
    · cases e
      exact .inr (.inl ⟨b, rfl, h2, rfl⟩)
    · cases e
      exact .inr (.inr ⟨a, b, rfl, ha, h2, rfl⟩)
    · cases e

/-! ## Calls in turn -/

/-- Call 0 and call 1 take steps in turn, `k` each. -/
def inTurn {α : Type} : Nat → List (Event α)
  | 0 => []
  | k + 1 => .step 0 :: .step 1 :: inTurn k

theorem begun_inTurn {α : Type} (k : Nat) : begun (inTurn k : List (Event α)) = [] := by
  induction k with
  | zero => rfl
  | succ k ih => exact ih

theorem inTurn_add {α : Type} (j k : Nat) : (inTurn (j + k) : List (Event α)) = inTurn j ++ inTurn k := by
  induction j with
  | zero => rw [Nat.zero_add]; rfl
  | succ j ih => rw [Nat.succ_add]; simp only [inTurn, ih, List.cons_append]

theorem turn {α : Type} {A B A' B' : Phase α} {rest : List (Phase α)} {st st₁ st₂ : Inc} (k : Nat) (hA : A.step p st = (A', st₁))
    (hB : B.step p st₁ = (B', st₂)) :
    Flight.run (p := p) false ⟨st, A :: B :: rest⟩ (inTurn (k + 1)) = Flight.run false ⟨st₂, A' :: B' :: rest⟩ (inTurn k) := by
  have e : (⟨st, A :: B :: rest⟩ : Flight p α).event false (.step 0) = ⟨st₁, A' :: B :: rest⟩ := by
    show (⟨(A.step p st).2, (A.step p st).1 :: B :: rest⟩ : Flight p α) = _
    rw [hA]
  have e' : (⟨st₁, A' :: B :: rest⟩ : Flight p α).event false (.step 1) = ⟨st₂, A' :: B' :: rest⟩ := by
    show (⟨(B.step p st₁).2, A' :: (B.step p st₁).1 :: rest⟩ : Flight p α) = _
    rw [hB]
  show (((⟨st, A :: B :: rest⟩ : Flight p α).event false (.step 0)).event false (.step 1)).run false (inTurn k) = _
  rw [e, e']

theorem first {α : Type} {A A' : Phase α} {rest : List (Phase α)} {st st₁ : Inc} (evs : List (Event α)) (hA : A.step p st = (A', st₁)) :
    Flight.run (p := p) false ⟨st, A :: rest⟩ (.step 0 :: evs) = Flight.run false ⟨st₁, A' :: rest⟩ evs := by
  show (⟨(A.step p st).2, (A.step p st).1 :: rest⟩ : Flight p α).run false evs = _
  rw [hA]

theorem second {α : Type} {A B B' : Phase α} {rest : List (Phase α)} {st st₁ : Inc} (evs : List (Event α)) (hB : B.step p st = (B', st₁)) :
    Flight.run (p := p) false ⟨st, A :: B :: rest⟩ (.step 1 :: evs) = Flight.run false ⟨st₁, A :: B' :: rest⟩ evs := by
  show (⟨(B.step p st).2, A :: (B.step p st).1 :: rest⟩ : Flight p α).run false evs = _
  rw [hB]

section
variable {α : Type} {st : Inc} {n len : Nat} {out : Bytes} {k : Bytes → Prog α}

theorem step_draw : (Phase.outside (.draw n k)).step p st = (.inside ⟨.enter, n, []⟩ k, st) := rfl
theorem step_enter {l : Nat} (h : l = if n < st.pos then n else st.pos) :
    (Phase.inside ⟨.enter, n, out⟩ k).step p st = (.inside ⟨.copy l, n, out⟩ k, st) := by
  subst h; simp only [Phase.step, Squeeze.step, pure, Except.pure]
theorem step_inl {q q' : Squeeze} {st' : Inc} (h : q.step p.xofRate st = .ok (.inl q', st')) :
    (Phase.inside q k).step p st = (.inside q' k, st') := by simp only [Phase.step, h]
theorem step_oob {q : Squeeze} (h : q.step p.xofRate st = .error .oob) :
    (Phase.inside q k).step p st = (.outside (.done (.error .oob)), st) := by simp only [Phase.step, h]
theorem step_copy {x : Nat} {b : Bytes} (hx : Mem.sub64 p.xofRate st.pos = x) (h : st.extract x len = .ok b) :
    (Phase.inside ⟨.copy len, n, out⟩ k).step p st = (.inside ⟨.advance len, n - len, out ++ b⟩ k, st) := by
  refine step_inl ?_
  unfold Squeeze.step; dsimp only; rw [hx, h]; rfl
theorem step_copy_oob {x : Nat} (hx : Mem.sub64 p.xofRate st.pos = x) (h : st.extract x len = .error .oob) :
    (Phase.inside ⟨.copy len, n, out⟩ k).step p st = (.outside (.done (.error .oob)), st) := by
  refine step_oob ?_
  unfold Squeeze.step; dsimp only; rw [hx, h]; rfl
theorem step_advance : (Phase.inside ⟨.advance len, n, out⟩ k).step p st = (.inside ⟨.loop, n, out⟩ k, ⟨st.s, Mem.sub64 st.pos len⟩) := by
  simp only [Phase.step, Squeeze.step, pure, Except.pure]
theorem step_loop {l : Nat} (h0 : 0 < n) (h : l = if n < p.xofRate then n else p.xofRate) :
    (Phase.inside ⟨.loop, n, out⟩ k).step p st = (.inside ⟨.block l, n, out⟩ k, ⟨permute st.s, st.pos⟩) := by
  subst h; simp only [Phase.step, Squeeze.step, pure, Except.pure, if_pos h0]
theorem step_return : (Phase.inside ⟨.loop, 0, out⟩ k).step p st = (.outside (k out), st) := by
  simp only [Phase.step, Squeeze.step, pure, Except.pure, gt_iff_lt, Nat.lt_irrefl, if_false]
theorem step_block {b : Bytes} (h : st.extract 0 len = .ok b) :
    (Phase.inside ⟨.block len, n, out⟩ k).step p st = (.inside ⟨.store len, n - len, out ++ b⟩ k, st) := by
  simp only [Phase.step, Squeeze.step, pure, Except.pure, bind, Except.bind, h]
theorem step_store : (Phase.inside ⟨.store len, n, out⟩ k).step p st =
    (.inside ⟨.loop, n, out⟩ k, ⟨st.s, Mem.sub64 p.xofRate len⟩) := by
  simp only [Phase.step, Squeeze.step, pure, Except.pure]
end

/-- Two calls at the end of a block, in turn: both permute, then both copy. -/
theorem race_fresh {α : Type} (s : Lanes) {n : Nat} (hn : 0 < n) (hr : n ≤ p.xofRate) (k k' : Bytes → Prog α) :
    Flight.run (p := p) false ⟨⟨s, 0⟩, [.outside (.draw n k), .outside (.draw n k')]⟩ (inTurn 8) =
      ⟨⟨permute (permute s), p.xofRate - n⟩, [.outside (k (extractBytes (permute (permute s)) 0 n)),
        .outside (k' (extractBytes (permute (permute s)) 0 n))]⟩ := by
  have hle := xofRate_le p
  have e : Mem.sub64 p.xofRate 0 = p.xofRate := sub64_le (Nat.zero_le _) (by omega)
  have e0 : Inc.extract ⟨s, 0⟩ p.xofRate 0 = .ok [] := by
    rw [Inc.extract_eq _ (by omega)]
    unfold extractBytes; rw [List.range_zero, List.map_nil]
  have e1 : ∀ (s : Lanes) (c : Nat), Inc.extract ⟨s, c⟩ 0 n = .ok (extractBytes s 0 n) := fun s c => Inc.extract_eq _ (by omega)
  have e2 : Mem.sub64 p.xofRate n = p.xofRate - n := sub64_le hr (by omega)
  have e3 : Mem.sub64 0 0 = 0 := rfl
  have e4 : n = (if n < p.xofRate then n else p.xofRate) := by split <;> omega
  have e5 : 0 = (if n < 0 then n else 0) := (if_neg (by omega)).symm
  rw [turn 7 step_draw step_draw, turn 6 (step_enter (st := ⟨s, 0⟩) e5) (step_enter (st := ⟨s, 0⟩) e5), turn 5 (step_copy (st := ⟨s, 0⟩) e e0) (step_copy (st := ⟨s, 0⟩) e e0),
    turn 4 step_advance step_advance]
  dsimp only
  rw [e3, Nat.sub_zero, List.append_nil, turn 3 (step_loop hn e4) (step_loop hn e4), turn 2 (step_block (e1 _ _)) (step_block (e1 _ _)),
    turn 1 step_store step_store, Nat.sub_self, turn 0 step_return step_return]
  dsimp only
  rw [e2, List.nil_append]
  rfl

/-- Two calls in the middle of a block, in turn: both copy the same bytes, both advance. -/
theorem race_inside {α : Type} (s : Lanes) {c n : Nat} (hn : n ≤ c) (hr : c ≤ p.xofRate) (k k' : Bytes → Prog α)
    (rest : List (Phase α)) :
    Flight.run (p := p) false ⟨⟨s, c⟩, .outside (.draw n k) :: .outside (.draw n k') :: rest⟩ (inTurn 5) =
      ⟨⟨s, Mem.sub64 (c - n) n⟩,
        .outside (k (extractBytes s (p.xofRate - c) n)) :: .outside (k' (extractBytes s (p.xofRate - c) n)) :: rest⟩ := by
  have hle := xofRate_le p
  have e : Mem.sub64 p.xofRate c = p.xofRate - c := sub64_le hr (by omega)
  have e1 : Inc.extract ⟨s, c⟩ (p.xofRate - c) n = .ok (extractBytes s (p.xofRate - c) n) := Inc.extract_eq _ (by omega)
  have e5 : n = (if n < c then n else c) := by split <;> omega
  rw [turn 4 step_draw step_draw, turn 3 (step_enter (st := ⟨s, c⟩) e5) (step_enter (st := ⟨s, c⟩) e5), turn 2 (step_copy (st := ⟨s, c⟩) e e1) (step_copy (st := ⟨s, c⟩) e e1),
    turn 1 step_advance step_advance]
  dsimp only
  rw [sub64_le hn (by omega), Nat.sub_self, turn 0 step_return step_return, List.nil_append]
  rfl

/-- Two calls that draw twice, in turn, from a generator that has just been seeded: both are given the same bytes. -/
theorem race_twice {α : Type} (s : Lanes) {n k : Nat} (hn : 0 < n) (hr : n + k ≤ p.xofRate) (f f' : Bytes → Bytes → C α) :
    ∃ a b c, a.length = n ∧ b.length = k ∧
      Flight.run (p := p) false ⟨⟨s, 0⟩, [.outside (twice n k f), .outside (twice n k f')]⟩ (inTurn 13) =
        ⟨⟨permute (permute s), c⟩, [.outside (.done (f a b)), .outside (.done (f' a b))]⟩ := by
  refine ⟨extractBytes (permute (permute s)) 0 n, extractBytes (permute (permute s)) (p.xofRate - (p.xofRate - n)) k, Mem.sub64 (p.xofRate - n - k) k,
    extractBytes_length _ _ _, extractBytes_length _ _ _, ?_⟩
  rw [show (13 : Nat) = 8 + 5 from rfl, inTurn_add, Flight.run_append]
  unfold twice
  rw [race_fresh s hn (by omega), race_inside _ (by omega) (by omega)]

/-- The position in the block after `n` bytes. -/
def backPos (r : Nat) : Nat → Nat → Nat
  | 0, c => c
  | n + 1, c => backPos r n (if c = 0 then r - 1 else c - 1)

theorem backPos_add (r a b c : Nat) : backPos r (a + b) c = backPos r b (backPos r a c) := by
  induction a generalizing c with
  | zero => rw [Nat.zero_add]; rfl
  | succ a ih => rw [Nat.succ_add]; exact ih _

theorem csprngBytes_pos {st : Inc} (h : RngOk p st) (n : Nat) : (csprngBytes p n st).2.pos = backPos p.xofRate n st.pos := by
  have main : ∀ (n : Nat) (st : Inc), (squeezeN p.xofRate n st).2.pos = backPos p.xofRate n st.pos := by
    intro n
    induction n with
    | zero => intro st; rfl
    | succ n ih =>
      intro st
      rw [squeezeN, backPos]
      dsimp only
      rw [ih]
      congr 1
      unfold squeeze1
      split <;> rfl
  unfold csprngBytes
  rw [incSqueeze_eq _ (xofRate_pos p) _ _ h, main]

/-- `j` calls one after the other, while the two calls in front wait. -/
theorem warm {α : Type} {n k : Nat} (f : Bytes → Bytes → C α) {A B : Prog α} (j : Nat) : ∀ (st : Inc) (rest : List (Phase α)), RngOk p st →
    (∀ ph ∈ rest, ph.isInside = false) →
    ∃ evs st' rest', begun evs = List.replicate j (twice n k f) ∧ st'.pos = backPos p.xofRate (j * (n + k)) st.pos ∧ RngOk p st' ∧
      Flight.run (p := p) false ⟨st, .outside A :: .outside B :: rest⟩ evs = ⟨st', .outside A :: .outside B :: rest'⟩ := by
  induction j with
  | zero => exact fun st rest h _ => ⟨[], st, rest, rfl, by rw [Nat.zero_mul]; rfl, h, rfl⟩
  | succ j ih =>
    intro st rest h hrest
    obtain ⟨K, r, rng', h1, h2, -, h4⟩ := finish_call (p := p) false (i := rest.length + 2) (twice n k f)
      ⟨st, .outside A :: .outside B :: (rest ++ [.outside (twice n k f)])⟩ h (by
        intro ph hph
        simp only [List.mem_cons, List.mem_append, List.not_mem_nil, or_false] at hph
        rcases hph with rfl | rfl | hph | rfl
        · rfl
        · rfl
        · exact hrest ph hph
        · rfl) (by simp)
    obtain ⟨evs, st', rest', g1, g2, g3, g4⟩ := ih rng' (rest ++ [.outside (.done r)]) h2 (by
      intro ph hph
      simp only [List.mem_append, List.mem_cons, List.not_mem_nil, or_false] at hph
      rcases hph with hph | rfl
      · exact hrest ph hph
      · rfl)
    refine ⟨.begin (twice n k f) :: (List.replicate K (.step (rest.length + 2)) ++ evs), st', rest', ?_, ?_, g3, ?_⟩
    · have : begun (List.replicate K (.step (rest.length + 2)) ++ evs : List (Event α)) = begun evs := by
        clear h1
        induction K with
        | zero => rfl
        | succ K ihK => rw [List.replicate_succ]; exact ihK
      rw [List.replicate_succ, ← g1, ← this]
      rfl
    · have e : rng'.pos = backPos p.xofRate (n + k) st.pos := by
        rw [h4]
        show (csprngBytes p k (csprngBytes p n st).2).2.pos = _
        rw [csprngBytes_pos (csprngBytes_ok p n st h), csprngBytes_pos h, backPos_add]
      rw [g2, e, ← backPos_add, Nat.succ_mul, Nat.add_comm]
    · show Flight.run false ⟨st, .outside A :: .outside B :: (rest ++ [.outside (twice n k f)])⟩ _ = _
      rw [Flight.run_append, h1, ← g4]
      congr 2
      simp

/-- Two calls that draw in turn near the end of a block make the position wrap around; soon one of them leaves the context. -/
theorem race_wrap {α : Type} (s : Lanes) {c n k : Nat} (hn : n ≤ c) (hc : c < 2 * n) (hr : c ≤ p.xofRate) (hn' : n ≤ 200) (hk : k ≤ 200)
    (hx : 208 < p.xofRate - c + 2 * n + 2 * k) (f f' : Bytes → Bytes → C α) (rest : List (Phase α)) :
    ∃ (evs : List (Event α)) (i : Nat), begun evs = [] ∧
      (Flight.run (p := p) false ⟨⟨s, c⟩, .outside (twice n k f) :: .outside (twice n k f') :: rest⟩ evs).calls[i]? =
        some (Phase.outside (.done (.error .oob))) := by
  have hle := xofRate_le p
  obtain ⟨P, hP⟩ : ∃ P, P + 2 * n = c + 18446744073709551616 := ⟨c + 18446744073709551616 - 2 * n, by omega⟩
  have hsub : Mem.sub64 (c - n) n = P := by unfold Mem.sub64 Mem.u64; omega
  have hoff : ∀ d, d ≤ 200 → Mem.sub64 p.xofRate (P - d) = p.xofRate - c + 2 * n + d := by
    intro d hd; unfold Mem.sub64 Mem.u64; omega
  have hext : ∀ (st : Inc) x, x < 4294967296 → 208 < x + k → st.extract x k = .error .oob := by
    intro st x h1 h2
    unfold Inc.extract
    rw [if_neg]
    unfold u32
    rw [Nat.mod_eq_of_lt h1, Nat.mod_eq_of_lt (by omega)]
    omega
  have hent : ∀ d, d ≤ 200 → k = if k < P - d then k else P - d := by
    intro d hd
    rw [if_pos (by omega)]
  have h0 := hoff 0 (by omega)
  have h0' := hent 0 (by omega)
  rw [Nat.sub_zero] at h0 h0'
  unfold twice
  by_cases hA : 208 < p.xofRate - c + 2 * n + k
  · refine ⟨inTurn 5 ++ [.step 0, .step 0, .step 0], 0, ?_, ?_⟩
    · rfl
    · rw [Flight.run_append, race_inside s hn hr, hsub, first _ step_draw, first _ (step_enter (st := ⟨s, P⟩) h0'),
        first _ (step_copy_oob (st := ⟨s, P⟩) h0 (hext _ _ (by omega) (by omega)))]
      rfl
  · obtain ⟨b, hb⟩ : ∃ b, Inc.extract ⟨s, P⟩ (p.xofRate - c + 2 * n) k = .ok b := by
      unfold Inc.extract u32
      rw [if_pos (by omega)]
      exact ⟨_, rfl⟩
    refine ⟨inTurn 5 ++ [.step 0, .step 0, .step 0, .step 0, .step 0, .step 1, .step 1, .step 1], 1, ?_, ?_⟩
    · rfl
    · rw [Flight.run_append, race_inside s hn hr, hsub, first _ step_draw, first _ (step_enter (st := ⟨s, P⟩) h0'), first _ (step_copy (st := ⟨s, P⟩) h0 hb),
        first _ step_advance]
      dsimp only
      rw [Nat.sub_self, first _ step_return, second _ step_draw]
      have e : Mem.sub64 (P) k = P - k := by
        unfold Mem.sub64 Mem.u64; omega
      rw [e, second _ (step_enter (st := ⟨s, P - k⟩) (hent k hk)), second _ (step_copy_oob (st := ⟨s, P - k⟩) (hoff k hk) (hext _ _ (by omega) (by omega)))]
      rfl

end LESS
