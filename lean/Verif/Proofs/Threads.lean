import Verif.Proofs.Keygen
import Verif.Proofs.Sign
/-!
# Calls in several threads: invariants

`Squeeze.Ok` relates a position inside `keccak_inc_squeeze` to the bytes the function will have written when it returns;
`Flight.Ok` is the invariant of the locked system.
-/
namespace LESS
open Spec

variable {p : Params} {α : Type}

/-! ## Programs alone -/

theorem keygenProg_run (fuel : Nat) (sl : Nat → Stale p) (rng : Inc) :
    (keygenProg fuel sl).run p rng = (do
      let r ← lessKeygen fuel sl rng
      pure ((r.1, r.2.1), r.2.2)) := by
  unfold keygenProg lessKeygen
  simp only [Prog.run]
  cases privateSeeds p (csprngBytes p p.skSeedLen rng).1 with
  | error e => rfl
  | ok seeds =>
    simp only [Prog.compute, Prog.run, keygenRest, bind_assoc, pure_bind]
    rfl

theorem signProg_run {n : Nat} (fuel : Nat) (sl : Nat → Stale p) (sk : PriKey p) (m : Bytes) (sig : SignT p n) (rng : Inc) :
    (signProg fuel sl sk m sig).run p rng = (do
      let r ← lessSign fuel sl rng sk m sig
      pure ((r.1, r.2.1), r.2.2)) := by
  unfold signProg lessSign
  cases privateSeeds p sk.compressedSk.toList with
  | error e => rfl
  | ok seeds =>
    simp only [Prog.compute, Prog.run, signRest, bind_assoc, pure_bind]
    rfl

/-! ## One squeeze -/

theorem Inc.extract_eq (st : Inc) {offset length : Nat} (h : offset + length ≤ 200) :
    st.extract offset length = .ok (extractBytes st.s offset length) := by
  have h1 : u32 offset = offset := Nat.mod_eq_of_lt (by omega)
  have h2 : u32 length = length := Nat.mod_eq_of_lt (by omega)
  unfold Inc.extract extractBytes
  rw [h1, h2, if_pos (by omega)]
  congr 1
  apply List.map_congr_left
  intro i hi
  have hi := List.mem_range.mp hi
  have hlt : (offset + i) >>> 3 < 25 := by rw [Nat.shiftRight_eq_div_pow]; omega
  have : g st.words ((offset + i) >>> 3) = g st.s ((offset + i) >>> 3) := by
    unfold Inc.words
    rw [g_ofFn _ _ (by omega), if_pos hlt]
  rw [this]

theorem sub64_le {a b : Nat} (h : b ≤ a) (ha : a < 2 ^ 64) : Mem.sub64 a b = a - b := by
  unfold Mem.sub64 Mem.u64
  omega

/-- The squeeze at `q`, with the context `st`, will have written `b` when it returns, and leave the context `st'`. -/
def Squeeze.Ok (r : Nat) (q : Squeeze) (st : Inc) (b : Bytes) (st' : Inc) : Prop :=
  match q.pc with
  | .enter => q.out = [] ∧ st.pos ≤ r ∧ incSqueeze r st q.outlen = (b, st')
  | .copy len => q.out = [] ∧ st.pos ≤ r ∧ len = (if q.outlen < st.pos then q.outlen else st.pos) ∧
      incSqueeze r st q.outlen = (b, st')
  | .advance len => len ≤ st.pos ∧ st.pos ≤ r ∧ b = q.out ++ (squeezeLoop r ⟨st.s, st.pos - len⟩ q.outlen).1 ∧
      st' = (squeezeLoop r ⟨st.s, st.pos - len⟩ q.outlen).2
  | .loop => b = q.out ++ (squeezeLoop r st q.outlen).1 ∧ st' = (squeezeLoop r st q.outlen).2
  | .block len => 0 < q.outlen ∧ len = (if q.outlen < r then q.outlen else r) ∧
      b = q.out ++ (extractBytes st.s 0 len ++ (squeezeLoop r ⟨st.s, r - len⟩ (q.outlen - len)).1) ∧
      st' = (squeezeLoop r ⟨st.s, r - len⟩ (q.outlen - len)).2
  | .store len => len ≤ r ∧ b = q.out ++ (squeezeLoop r ⟨st.s, r - len⟩ q.outlen).1 ∧
      st' = (squeezeLoop r ⟨st.s, r - len⟩ q.outlen).2

theorem Squeeze.Ok.step {r : Nat} (hr0 : 0 < r) (hr : r ≤ 200) {q : Squeeze} {st : Inc} {b : Bytes} {st' : Inc} (h : q.Ok r st b st') :
    (∃ q' st₁, q.step r st = .ok (.inl q', st₁) ∧ q'.Ok r st₁ b st') ∨ (q.step r st = .ok (.inr b, st')) := by
  obtain ⟨pc, outlen, out⟩ := q
  cases pc with
  | enter =>
    obtain ⟨h1, h2, h3⟩ := h
    exact .inl ⟨_, _, rfl, h1, h2, rfl, h3⟩
  | copy len =>
    obtain ⟨h1, h2, h3, h4⟩ := h
    dsimp only at h1 h2 h3 h4
    have hlen : len ≤ st.pos := by rw [h3]; split <;> omega
    refine .inl ⟨⟨.advance len, outlen - len, out ++ extractBytes st.s (r - st.pos) len⟩, st, ?_, hlen, h2, ?_, ?_⟩
    · unfold Squeeze.step
      dsimp only
      rw [sub64_le h2 (by omega), Inc.extract_eq _ (by omega)]
      rfl
    · dsimp only
      rw [h1]
      unfold incSqueeze at h4
      rw [← h3] at h4
      exact (congrArg Prod.fst h4).symm
    · unfold incSqueeze at h4
      dsimp only at h4 ⊢
      rw [← h3] at h4
      exact (congrArg Prod.snd h4).symm
  | advance len =>
    obtain ⟨h1, h2, h3, h4⟩ := h
    refine .inl ⟨⟨.loop, outlen, out⟩, ⟨st.s, st.pos - len⟩, ?_, h3, h4⟩
    unfold Squeeze.step
    dsimp only
    rw [sub64_le h1 (by omega)]
    rfl
  | loop =>
    obtain ⟨h1, h2⟩ := h
    dsimp only at h1 h2
    by_cases h0 : 0 < outlen
    · refine .inl ⟨⟨.block (if outlen < r then outlen else r), outlen, out⟩, ⟨permute st.s, st.pos⟩, ?_, h0, rfl, ?_, ?_⟩
      · unfold Squeeze.step
        dsimp only
        rw [if_pos h0]
        rfl
      · rw [squeezeLoop, dif_neg (by omega)] at h1
        exact h1
      · rw [squeezeLoop, dif_neg (by omega)] at h2
        exact h2
    · refine .inr ?_
      rw [squeezeLoop, dif_pos (Or.inl (by omega)), List.append_nil] at h1
      rw [squeezeLoop, dif_pos (Or.inl (by omega))] at h2
      unfold Squeeze.step
      dsimp only
      rw [if_neg h0, h1, h2]
      rfl
  | block len =>
    obtain ⟨h0, h1, h2, h3⟩ := h
    dsimp only at h0 h1 h2 h3
    have hlen : len ≤ r := by rw [h1]; split <;> omega
    refine .inl ⟨⟨.store len, outlen - len, out ++ extractBytes st.s 0 len⟩, st, ?_, hlen, ?_, h3⟩
    · unfold Squeeze.step
      dsimp only
      rw [Inc.extract_eq _ (by omega)]
      rfl
    · rw [h2, ← List.append_assoc]
  | store len =>
    obtain ⟨h1, h2, h3⟩ := h
    refine .inl ⟨⟨.loop, outlen, out⟩, ⟨st.s, r - len⟩, ?_, h2, h3⟩
    unfold Squeeze.step
    dsimp only
    rw [sub64_le h1 (by omega)]
    rfl

/-! ## Several calls -/

/-- `c` has become `c'` after drawing the byte strings `bs`, each as long as asked for. -/
inductive Prog.Fed (c : Prog α) : List Bytes → Prog α → Prop where
  | nil : Fed c [] c
  | snoc {bs : List Bytes} {n : Nat} {next : Bytes → Prog α} {b : Bytes} :
      Fed c bs (.draw n next) → b.length = n → Fed c (bs ++ [b]) (next b)

/-- The bytes of a stretch (position and length) of a stream. -/
def stretch (s : Stream) (x : Nat × Nat) : Bytes := (s.drop x.1).take x.2

theorem stretch_length (s : Stream) (x : Nat × Nat) : (stretch s x).length = x.2 := take_length _ _

/-- One ends where the other begins, or before. -/
def Apart (x y : Nat × Nat) : Prop := x.1 + x.2 ≤ y.1 ∨ y.1 + y.2 ≤ x.1

/-- A call that began as `c` and has used the stretches `d`. -/
def Phase.Ok (s : Stream) (c : Prog α) (d : List (Nat × Nat)) : Phase α → Prop
  | .outside c' => c.Fed (d.map (stretch s)) c'
  | .inside _ next => ∃ n, c.Fed (d.map (stretch s)) (.draw n next)

/-- The programs of the calls begun. -/
def begun (evs : List (Event α)) : List (Prog α) :=
  evs.filterMap fun e => match e with
    | .begin c => some c
    | .step _ => none

/-- The invariant of the locked system: `cs` are the programs of the calls, `D` the stretches each has used, `pos` the position
in the stream. -/
structure Flight.Ok (s : Stream) (w : Flight p α) (cs : List (Prog α)) (D : List (List (Nat × Nat))) (pos : Nat) : Prop where
  lenD : D.length = w.calls.length
  lenC : cs.length = w.calls.length
  each : ∀ (i : Nat) (ph : Phase α) (c : Prog α) (d : List (Nat × Nat)), w.calls[i]? = some ph → cs[i]? = some c → D[i]? = some d → ph.Ok s c d
  apart : D.flatten.Pairwise Apart
  below : ∀ x ∈ D.flatten, x.1 + x.2 ≤ pos
  free : (∀ ph ∈ w.calls, ph.isInside = false) → StreamAt p w.rng (s.drop pos)
  one : ∀ (i j : Nat) (ph ph' : Phase α), w.calls[i]? = some ph → w.calls[j]? = some ph' → ph.isInside = true → ph'.isInside = true → i = j
  busy : ∀ (i : Nat) (q : Squeeze) (next : Bytes → Prog α), w.calls[i]? = some (Phase.inside q next) →
    ∃ (n : Nat) (c : Prog α) (d : List (Nat × Nat)) (st' : Inc), cs[i]? = some c ∧ D[i]? = some d ∧
    c.Fed (d.map (stretch s)) (.draw n next) ∧ q.Ok p.xofRate w.rng ((s.drop pos).take n) st' ∧ StreamAt p st' (s.drop (pos + n))

theorem flatten_set_snoc {β : Type} (D : List (List β)) (i : Nat) (d : List β) (x : β) (h : D[i]? = some d) :
    (D.set i (d ++ [x])).flatten.Perm (x :: D.flatten) := by
  induction D generalizing i with
  | nil => simp at h
  | cons a D ih =>
    cases i with
    | zero =>
      simp only [List.getElem?_cons_zero, Option.some.injEq] at h
      subst h
      simp only [List.set_cons_zero, List.flatten_cons, List.append_assoc, List.singleton_append]
      exact List.perm_middle
    | succ i =>
      simp only [List.getElem?_cons_succ] at h
      simp only [List.set_cons_succ, List.flatten_cons]
      exact ((ih i h).append_left a).trans List.perm_middle

theorem Flight.Ok.init {s : Stream} {rng : Inc} (h : StreamAt p rng s) : Flight.Ok s (⟨rng, []⟩ : Flight p α) [] [] 0 where
  lenD := rfl
  lenC := rfl
  each := by simp
  apart := by simp
  below := by simp
  free := fun _ => by rw [drop_zero]; exact h
  one := by simp
  busy := by simp

theorem Flight.Ok.begin {s : Stream} {w : Flight p α} {cs : List (Prog α)} {D : List (List (Nat × Nat))} {pos : Nat}
    (h : w.Ok s cs D pos) (c : Prog α) : Flight.Ok s (w.event true (.begin c)) (cs ++ [c]) (D ++ [[]]) pos := by
  have key : ∀ {i : Nat} {ph : Phase α}, (w.calls ++ [Phase.outside c])[i]? = some ph →
      w.calls[i]? = some ph ∨ (i = w.calls.length ∧ ph = .outside c) := by
    intro i ph hi
    rcases Nat.lt_or_ge i w.calls.length with hlt | hge
    · rw [List.getElem?_append_left hlt] at hi; exact .inl hi
    · rw [List.getElem?_append_right hge] at hi
      rcases Nat.eq_zero_or_pos (i - w.calls.length) with e | e
      · rw [e] at hi
        simp at hi
        exact .inr ⟨by omega, hi.symm⟩
      · rw [List.getElem?_eq_none (by simp; omega)] at hi
        cases hi
  refine ⟨?_, ?_, ?_, ?_, ?_, ?_, ?_, ?_⟩
  · simp [Flight.event, h.lenD]
  · simp [Flight.event, h.lenC]
  · intro i ph c' d hi hc hd
    rcases key hi with hi | ⟨rfl, rfl⟩
    · have hlt : i < w.calls.length := (List.getElem?_eq_some_iff.mp hi).1
      rw [List.getElem?_append_left (by rw [h.lenC]; exact hlt)] at hc
      rw [List.getElem?_append_left (by rw [h.lenD]; exact hlt)] at hd
      exact h.each i ph c' d hi hc hd
    · rw [List.getElem?_append_right (by rw [h.lenC]), h.lenC] at hc
      rw [List.getElem?_append_right (by rw [h.lenD]), h.lenD] at hd
      simp at hc hd
      subst hc hd
      exact .nil
  · simpa using h.apart
  · simpa using h.below
  · intro hfree
    refine h.free fun ph hph => hfree ph ?_
    exact List.mem_append_left _ hph
  · intro i j ph ph' hi hj h1 h2
    rcases key hi with hi | ⟨_, rfl⟩
    · rcases key hj with hj | ⟨_, rfl⟩
      · exact h.one i j ph ph' hi hj h1 h2
      · cases h2
    · cases h1
  · intro i q next hi
    rcases key hi with hi | ⟨_, hh⟩
    · obtain ⟨n, c', d, st', hc, hd, rest⟩ := h.busy i q next hi
      refine ⟨n, c', d, st', ?_, ?_, rest⟩
      · rw [List.getElem?_append_left (List.getElem?_eq_some_iff.mp hc).1]; exact hc
      · rw [List.getElem?_append_left (List.getElem?_eq_some_iff.mp hd).1]; exact hd
    · cases hh

/-- A step that changes neither the stretches nor the position. -/
theorem Flight.Ok.quiet {s : Stream} {w : Flight p α} {cs : List (Prog α)} {D : List (List (Nat × Nat))} {pos : Nat}
    (h : w.Ok s cs D pos) {i : Nat} {q : Squeeze} {next : Bytes → Prog α} {rng : Inc} (hi : i < w.calls.length)
    (hothers : ∀ j ph, j ≠ i → w.calls[j]? = some ph → ph.isInside = false)
    (hbusy : ∃ n c d st', cs[i]? = some c ∧ D[i]? = some d ∧
      c.Fed (d.map (stretch s)) (.draw n next) ∧ q.Ok p.xofRate rng ((s.drop pos).take n) st' ∧ StreamAt p st' (s.drop (pos + n))) :
    Flight.Ok s (⟨rng, w.calls.set i (.inside q next)⟩ : Flight p α) cs D pos := by
  obtain ⟨n, c, d, st', hc, hd, hfed, hq, hst⟩ := hbusy
  refine ⟨by simp [h.lenD], by simp [h.lenC], ?_, h.apart, h.below, ?_, ?_, ?_⟩
  · intro j ph c' d' hj hc' hd'
    by_cases e : i = j
    · subst e
      rw [List.getElem?_set_self hi] at hj
      cases hj
      rw [hc] at hc'; rw [hd] at hd'
      cases hc'; cases hd'
      exact ⟨n, hfed⟩
    · rw [List.getElem?_set_ne e] at hj
      exact h.each j ph c' d' hj hc' hd'
  · intro hfree
    have := hfree (.inside q next) (List.mem_set hi _)
    cases this
  · intro j k ph ph' hj hk h1 h2
    by_cases e : i = j
    · by_cases e' : i = k
      · omega
      · rw [List.getElem?_set_ne e'] at hk
        rw [hothers k ph' (Ne.symm e') hk] at h2
        cases h2
    · rw [List.getElem?_set_ne e] at hj
      rw [hothers j ph (Ne.symm e) hj] at h1
      cases h1
  · intro j q' next' hj
    by_cases e : i = j
    · subst e
      rw [List.getElem?_set_self hi] at hj
      cases hj
      exact ⟨n, c, d, st', hc, hd, hfed, hq, hst⟩
    · rw [List.getElem?_set_ne e] at hj
      have := hothers j _ (Ne.symm e) hj
      cases this

theorem Flight.Ok.step {s : Stream} {w : Flight p α} {cs : List (Prog α)} {D : List (List (Nat × Nat))} {pos : Nat}
    (h : w.Ok s cs D pos) (i : Nat) :
    ∃ D' pos', Flight.Ok s (w.event true (.step i)) cs D' pos' := by
  unfold Flight.event
  dsimp only
  cases hcall : w.calls[i]? with
  | none => exact ⟨D, pos, h⟩
  | some ph =>
    dsimp only
    have hi : i < w.calls.length := (List.getElem?_eq_some_iff.mp hcall).1
    obtain ⟨c, hc⟩ : ∃ c, cs[i]? = some c := ⟨_, List.getElem?_eq_getElem (by rw [h.lenC]; exact hi)⟩
    obtain ⟨d, hd⟩ : ∃ d, D[i]? = some d := ⟨_, List.getElem?_eq_getElem (by rw [h.lenD]; exact hi)⟩
    have hok := h.each i ph c d hcall hc hd
    cases ph with
    | outside c' =>
      cases c' with
      | done r =>
        refine ⟨D, pos, ?_⟩
        split
        · exact h
        · have : w.calls.set i (.outside (.done r)) = w.calls := by
            obtain ⟨hlt, e⟩ := List.getElem?_eq_some_iff.mp hcall
            rw [← e, List.set_getElem_self]
          show Flight.Ok s ⟨w.rng, w.calls.set i (.outside (.done r))⟩ cs D pos
          rw [this]
          exact h
      | draw n next =>
        refine ⟨D, pos, ?_⟩
        split
        · exact h
        next hlock =>
          have hfree : ∀ ph ∈ w.calls, ph.isInside = false := by
            simpa [Phase.isInside] using hlock
          have hs := h.free hfree
          have e := hs.2 n
          have hn := hs.next n
          rw [drop_drop] at hn
          refine h.quiet hi (fun j ph _ hj => hfree ph (List.mem_of_getElem? hj)) ⟨n, c, d, _, hc, hd, hok, ⟨rfl, hs.1, ?_⟩, hn⟩
          exact Prod.ext e rfl
    | inside q next =>
      rw [if_neg (by simp [Phase.isInside])]
      obtain ⟨n, c', d', st', hc', hd', hfed, hq, hst⟩ := h.busy i q next hcall
      have hothers : ∀ j ph, j ≠ i → w.calls[j]? = some ph → ph.isInside = false := by
        intro j ph hji hj
        by_contra hne
        exact hji (h.one j i ph _ hj hcall (by simpa using hne) rfl)
      rcases hq.step (xofRate_pos p) (xofRate_le p) with ⟨q', st₁, e, hq'⟩ | e
      · refine ⟨D, pos, ?_⟩
        simp only [Phase.step, e]
        exact h.quiet hi hothers ⟨n, c', d', st', hc', hd', hfed, hq', hst⟩
      · refine ⟨D.set i (d' ++ [(pos, n)]), pos + n, ?_⟩
        simp only [Phase.step, e]
        have hperm := flatten_set_snoc D i d' (pos, n) hd'
        have hin : ∀ ph ∈ w.calls.set i (.outside (next ((s.drop pos).take n))), ph.isInside = false := by
          intro ph hph
          obtain ⟨j, hj⟩ := List.mem_iff_getElem?.mp hph
          by_cases e : i = j
          · subst e
            rw [List.getElem?_set_self hi] at hj
            cases hj; rfl
          · rw [List.getElem?_set_ne e] at hj
            exact hothers j ph (Ne.symm e) hj
        refine ⟨by simp [h.lenD], by simp [h.lenC], ?_, ?_, ?_, fun _ => hst, ?_, ?_⟩
        · intro j ph c₂ d₂ hj hc₂ hd₂
          by_cases e : i = j
          · subst e
            rw [List.getElem?_set_self hi] at hj
            rw [List.getElem?_set_self (by rw [h.lenD]; exact hi)] at hd₂
            rw [hc'] at hc₂
            cases hj; cases hd₂; cases hc₂
            show c'.Fed ((d' ++ [(pos, n)]).map (stretch s)) _
            rw [List.map_append]
            exact hfed.snoc (take_length _ _)
          · rw [List.getElem?_set_ne e] at hj hd₂
            exact h.each j ph c₂ d₂ hj hc₂ hd₂
        · rw [hperm.pairwise_iff (fun {x y} (hxy : Apart x y) => hxy.symm), List.pairwise_cons]
          exact ⟨fun x hx => .inr (h.below x hx), h.apart⟩
        · intro x hx
          rcases List.mem_cons.mp (hperm.mem_iff.mp hx) with rfl | hx
          · exact Nat.le_refl _
          · have := h.below x hx; omega
        · intro j k ph ph' hj _ h1 _
          rw [hin ph (List.mem_of_getElem? hj)] at h1
          cases h1
        · intro j q' next' hj
          have := hin _ (List.mem_of_getElem? hj)
          cases this

theorem Flight.Ok.run {s : Stream} (evs : List (Event α)) {w : Flight p α} {cs : List (Prog α)} {D : List (List (Nat × Nat))} {pos : Nat}
    (h : w.Ok s cs D pos) : ∃ D' pos', Flight.Ok s (w.run true evs) (cs ++ begun evs) D' pos' := by
  induction evs generalizing w cs D pos with
  | nil => exact ⟨D, pos, by simpa [begun, Flight.run] using h⟩
  | cons e evs ih =>
    cases e with
    | «begin» c =>
      obtain ⟨D', pos', h'⟩ := ih (h.begin c)
      refine ⟨D', pos', ?_⟩
      rw [show begun (Event.begin c :: evs) = c :: begun evs from rfl]
      rw [List.append_assoc] at h'
      exact h'
    | step i =>
      obtain ⟨D₁, pos₁, h₁⟩ := h.step i
      exact ih h₁

/-! ## Calls come to an end -/

/-- Bounds the number of statements left of a squeeze. -/
def Squeeze.left (q : Squeeze) : Nat := 4 * q.outlen + match q.pc with
  | .enter => 5
  | .copy _ => 4
  | .advance _ => 3
  | .loop => 2
  | .block _ => 1
  | .store _ => 3

theorem Squeeze.Ok.left_lt {r : Nat} (hr0 : 0 < r) {q q' : Squeeze} {st st₁ st' : Inc} {b : Bytes} (h : q.Ok r st b st')
    (e : q.step r st = .ok (.inl q', st₁)) : q'.left < q.left := by
  obtain ⟨pc, outlen, out⟩ := q
  unfold Squeeze.step at e
  cases pc with
  | enter => cases e; simp only [Squeeze.left]; omega
  | copy len =>
    dsimp only at e
    cases hx : st.extract (Mem.sub64 r st.pos) len with
    | error x => rw [hx] at e; cases e
    | ok x => rw [hx] at e; cases e; simp only [Squeeze.left]; omega
  | advance len => cases e; simp only [Squeeze.left]; omega
  | loop =>
    dsimp only at e
    split at e
    · cases e; simp only [Squeeze.left]; omega
    · cases e
  | block len =>
    obtain ⟨h0, h1, -⟩ := h
    dsimp only at e h0 h1
    have : 0 < len ∧ len ≤ outlen := by rw [h1]; split <;> omega
    cases hx : st.extract 0 len with
    | error x => rw [hx] at e; cases e
    | ok x => rw [hx] at e; cases e; simp only [Squeeze.left]; omega
  | store len => cases e; simp only [Squeeze.left]; omega

theorem Flight.run_append (locked : Bool) (w : Flight p α) (a b : List (Event α)) :
    w.run locked (a ++ b) = (w.run locked a).run locked b := by
  unfold Flight.run
  rw [List.foldl_append]

/-- A call inside `randombytes` that goes on undisturbed leaves it. -/
theorem finish_inside (locked : Bool) {i : Nat} {next : Bytes → Prog α} {b : Bytes} {st' : Inc} (N : Nat) :
    ∀ (q : Squeeze) (w : Flight p α), q.left ≤ N → w.calls[i]? = some (.inside q next) → q.Ok p.xofRate w.rng b st' →
      ∃ k, w.run locked (List.replicate k (.step i)) = ⟨st', w.calls.set i (.outside (next b))⟩ := by
  induction N with
  | zero =>
    intro q w hN
    unfold Squeeze.left at hN
    split at hN <;> omega
  | succ N ih =>
    intro q w hN hcall hq
    have hev : ∀ ph st₁, (Phase.inside q next).step p w.rng = (ph, st₁) →
        w.event locked (.step i) = ⟨st₁, w.calls.set i ph⟩ := by
      intro ph st₁ e
      unfold Flight.event
      dsimp only
      rw [hcall]
      dsimp only
      rw [if_neg (by simp [Phase.isInside]), e]
    have hi : i < w.calls.length := (List.getElem?_eq_some_iff.mp hcall).1
    rcases hq.step (xofRate_pos p) (xofRate_le p) with ⟨q', st₁, e, hq'⟩ | e
    · have hw := hev (.inside q' next) st₁ (by simp only [Phase.step, e])
      have hlt := hq.left_lt (xofRate_pos p) e
      obtain ⟨k, hk⟩ := ih q' ⟨st₁, w.calls.set i (.inside q' next)⟩ (by omega) (List.getElem?_set_self hi) hq'
      refine ⟨k + 1, ?_⟩
      rw [List.replicate_succ]
      show (w.event locked (.step i)).run locked _ = _
      rw [hw, hk, List.set_set]
    · refine ⟨1, ?_⟩
      show w.event locked (.step i) = _
      exact hev (.outside (next b)) st' (by simp only [Phase.step, e])

/-- What a program leaves of the generator. -/
def Prog.leaves (p : Params) : Prog α → Inc → Inc
  | .done _, rng => rng
  | .draw n next, rng => (next (csprngBytes p n rng).1).leaves p (csprngBytes p n rng).2

/-- A call that goes on undisturbed does what the program does alone. -/
theorem finish_call (locked : Bool) {i : Nat} (c : Prog α) :
    ∀ w : Flight p α, RngOk p w.rng → (∀ ph ∈ w.calls, ph.isInside = false) → w.calls[i]? = some (.outside c) →
      ∃ k r rng', w.run locked (List.replicate k (.step i)) = ⟨rng', w.calls.set i (.outside (.done r))⟩ ∧ RngOk p rng' ∧
        c.run p w.rng = (r >>= fun a => pure (a, rng')) ∧ rng' = c.leaves p w.rng := by
  induction c with
  | done r =>
    intro w hr _ hcall
    refine ⟨0, r, w.rng, ?_, hr, rfl, rfl⟩
    obtain ⟨hlt, e⟩ := List.getElem?_eq_some_iff.mp hcall
    rw [← e, List.set_getElem_self]
    rfl
  | draw n next ih =>
    intro w hr hfree hcall
    have hi : i < w.calls.length := (List.getElem?_eq_some_iff.mp hcall).1
    have hw : w.event locked (.step i) = ⟨w.rng, w.calls.set i (.inside ⟨.enter, n, []⟩ next)⟩ := by
      unfold Flight.event
      dsimp only
      rw [hcall]
      dsimp only
      rw [if_neg]
      · rfl
      · simp only [Bool.and_eq_true, List.any_eq_true, not_and, not_exists]
        intro _ ph hph
        rw [hfree ph hph]
        decide
    obtain ⟨k, hk⟩ := finish_inside locked (b := (csprngBytes p n w.rng).1) (st' := (csprngBytes p n w.rng).2) _
      ⟨.enter, n, []⟩ ⟨w.rng, w.calls.set i (.inside ⟨.enter, n, []⟩ next)⟩ (Nat.le_refl _) (List.getElem?_set_self hi)
      ⟨rfl, hr, rfl⟩
    dsimp only at hk
    rw [List.set_set] at hk
    obtain ⟨k', r, rng', h1, h2, h3, h4⟩ := ih (csprngBytes p n w.rng).1
      ⟨(csprngBytes p n w.rng).2, w.calls.set i (.outside (next (csprngBytes p n w.rng).1))⟩ (csprngBytes_ok p n _ hr) (by
        intro ph hph
        rcases List.mem_or_eq_of_mem_set hph with h | rfl
        · exact hfree ph h
        · rfl) (List.getElem?_set_self hi)
    refine ⟨1 + (k + k'), r, rng', ?_, h2, h3, h4⟩
    rw [List.replicate_add, List.replicate_add, Flight.run_append, Flight.run_append]
    rw [show w.run locked (List.replicate 1 (.step i)) = _ from hw, hk, h1, List.set_set]

/-- From any state of the locked system all calls can be brought to an end. -/
theorem finish_all {s : Stream} {w : Flight p α} {cs : List (Prog α)} {D : List (List (Nat × Nat))} {pos : Nat}
    (h : w.Ok s cs D pos) :
    ∃ evs : List (Event α), begun evs = [] ∧ ∀ ph ∈ (w.run true evs).calls, ∃ r, ph = .outside (.done r) := by
  have steps : ∀ k i, begun (List.replicate k (Event.step i : Event α)) = [] := by
    intro k i
    induction k with
    | zero => rfl
    | succ k ih => rw [List.replicate_succ]; exact ih
  have happ : ∀ a b : List (Event α), begun a = [] → begun b = [] → begun (a ++ b) = [] := by
    intro a b ha hb
    unfold begun at *
    rw [List.filterMap_append, ha, hb]; rfl
  obtain ⟨evs, hevs, hfree, hr⟩ : ∃ evs : List (Event α), begun evs = [] ∧
      (∀ ph ∈ (w.run true evs).calls, ph.isInside = false) ∧ RngOk p (w.run true evs).rng := by
    by_cases hin : ∀ ph ∈ w.calls, ph.isInside = false
    · exact ⟨[], rfl, hin, (h.free hin).1⟩
    · push Not at hin
      obtain ⟨ph, hph, hne⟩ := hin
      obtain ⟨i, hi⟩ := List.mem_iff_getElem?.mp hph
      cases ph with
      | outside c => exact absurd rfl hne
      | inside q next =>
        obtain ⟨n, c, d, st', -, -, -, hq, hst⟩ := h.busy i q next hi
        obtain ⟨k, hk⟩ := finish_inside true _ q w (Nat.le_refl _) hi hq
        refine ⟨_, steps k i, ?_, ?_⟩
        · rw [hk]
          intro ph' hph'
          obtain ⟨j, hj⟩ := List.mem_iff_getElem?.mp hph'
          dsimp only at hj
          by_cases e : i = j
          · subst e
            rw [List.getElem?_set_self (List.getElem?_eq_some_iff.mp hi).1] at hj
            cases hj; rfl
          · rw [List.getElem?_set_ne e] at hj
            by_contra hne'
            exact e (h.one i j _ _ hi hj rfl (by simpa using hne'))
        · rw [hk]; exact hst.1
  generalize hw : w.run true evs = w₁ at hfree hr
  have main : ∀ m : Nat, ∃ evs' : List (Event α), begun evs' = [] ∧ (∀ ph ∈ (w₁.run true evs').calls, ph.isInside = false) ∧
      RngOk p (w₁.run true evs').rng ∧ ∀ j : Nat, j < m → ∀ ph : Phase α, (w₁.run true evs').calls[j]? = some ph → ∃ r, ph = Phase.outside (.done r) := by
    intro m
    induction m with
    | zero => exact ⟨[], rfl, hfree, hr, by simp⟩
    | succ m ih =>
      obtain ⟨evs', g1, g2, g3, g4⟩ := ih
      cases hm : (w₁.run true evs').calls[m]? with
      | none =>
        refine ⟨evs', g1, g2, g3, fun j hj ph hph => ?_⟩
        rcases Nat.lt_succ_iff_lt_or_eq.mp hj with hj | rfl
        · exact g4 j hj ph hph
        · rw [hm] at hph; cases hph
      | some ph₀ =>
        cases ph₀ with
        | inside q next => exact absurd (g2 _ (List.mem_of_getElem? hm)) (by simp [Phase.isInside])
        | outside c =>
          obtain ⟨k, r, rng', e1, e2, -⟩ := finish_call true c _ g3 g2 hm
          refine ⟨evs' ++ List.replicate k (.step m), happ _ _ g1 (steps k m), ?_, ?_, ?_⟩
          · rw [Flight.run_append, e1]
            intro ph hph
            rcases List.mem_or_eq_of_mem_set hph with h | rfl
            · exact g2 ph h
            · rfl
          · rw [Flight.run_append, e1]; exact e2
          · rw [Flight.run_append, e1]
            intro j hj ph hph
            dsimp only at hph
            by_cases e : m = j
            · subst e
              rw [List.getElem?_set_self (List.getElem?_eq_some_iff.mp hm).1] at hph
              cases hph; exact ⟨r, rfl⟩
            · rw [List.getElem?_set_ne e] at hph
              exact g4 j (by omega) ph hph
  obtain ⟨evs', g1, -, -, g4⟩ := main w₁.calls.length
  refine ⟨evs ++ evs', happ _ _ hevs g1, ?_⟩
  rw [Flight.run_append, hw]
  intro ph hph
  obtain ⟨j, hj⟩ := List.mem_iff_getElem?.mp hph
  have hlen : ∀ (es : List (Event α)) (v : Flight p α), begun es = [] → (v.run true es).calls.length = v.calls.length := by
    intro es
    induction es with
    | nil => intro v _; rfl
    | cons e es ih =>
      intro v hv
      cases e with
      | «begin» c => exact absurd hv (by simp [begun])
      | step i =>
        show ((v.event true (.step i)).run true es).calls.length = _
        rw [ih _ hv]
        unfold Flight.event
        dsimp only
        split
        · rfl
        · split
          · rfl
          · simp
  have hjlt := (List.getElem?_eq_some_iff.mp hj).1
  rw [hlen evs' w₁ g1] at hjlt
  exact g4 j (by omega) ph hj

end LESS
