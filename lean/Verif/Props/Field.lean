import Verif.Proofs.Stream
/-!
# Field arithmetic and rejection samplers (C30, C31)

Specification: arithmetic modulo 127, and `Spec.Sampled` (Spec/Stream): the stream is cut into 64-bit words, each word
into nine 7-bit fields, fields above the span are dropped, the first `n` of the rest are returned.
-/
namespace LESS
open Spec

/-- C30, reduction: every 16-bit argument is reduced modulo 127. -/
theorem C30_reduction (x : Nat) (h : x < 65536) : fqRed x = x % 127 := fqRed_eq x h

/-- C30, inversion: for every byte `x` not divisible by 127, `fq_inv x` is the one reduced `y` with `x y = 1`
modulo 127. -/
theorem C30_inversion (x : Nat) (h : x < 256) (h0 : ¬ 127 ∣ x) :
    fqInv x < 127 ∧ x * fqInv x % 127 = 1 ∧ ∀ y < 127, x * y % 127 = 1 → y = fqInv x := by
  have hne : (x : Fq) ≠ 0 := by
    intro e
    exact h0 ((ZMod.natCast_eq_zero_iff x 127).mp e)
  have key : x * fqInv x % 127 = 1 := by
    have e : ((x * fqInv x : Nat) : Fq) = ((1 : Nat) : Fq) := by
      rw [Nat.cast_mul, fqInv_cast x h, Nat.cast_one, mul_inv_cancel₀ hne]
    have := (ZMod.natCast_eq_natCast_iff' _ _ 127).mp e
    simpa using this
  refine ⟨fqInv_lt x, key, fun y hy e => ?_⟩
  apply cast_inj hy (fqInv_lt x)
  have e' : ((x * y : Nat) : Fq) = ((x * fqInv x : Nat) : Fq) :=
    (ZMod.natCast_eq_natCast_iff' _ _ 127).mpr (by rw [e, key])
  push_cast at e'
  exact mul_left_cancel₀ hne e'

/-- C30, inversion of zero (0, 127 and 254 are the bytes divisible by 127): the result is 0. -/
theorem C30_inversion_zero (x : Nat) (h : x < 256) (h0 : 127 ∣ x) : fqInv x = 0 := by
  have e : (fqInv x : Fq) = 0 := by
    rw [fqInv_cast x h, (ZMod.natCast_eq_zero_iff x 127).mpr h0, inv_zero]
  exact (cast_eq_zero (fqInv_lt x)).mp e

/-- An unreduced and a reduced argument, and the zero class. -/
example : fqRed 65535 = 3 ∧ fqInv 3 = 85 ∧ fqInv 130 = 85 ∧ fqInv 254 = 0 := by
  refine ⟨by decide, ?_, ?_, C30_inversion_zero _ (by decide) ⟨2, rfl⟩⟩
  · exact ((C30_inversion 3 (by decide) (by decide)).2.2 85 (by decide) (by decide)).symm
  · exact ((C30_inversion 130 (by decide) (by decide)).2.2 85 (by decide) (by decide)).symm

/-! ## Samplers -/

/-- `s` is the sequence of all bytes the generator in state `st` is going to output. -/
def IsOutput (p : Params) (st : Inc) (s : Stream) : Prop := ∀ n, (csprngBytes p n st).1 = s.take n

theorem IsOutput.at {p : Params} {st : Inc} {s : Stream} (hst : RngOk p st) (h : IsOutput p st s) : StreamAt p st s :=
  ⟨hst, h⟩

/-- Every state of the generator reached by seeding and drawing has an output sequence. -/
theorem C31_output_exists (p : Params) (st : Inc) (hst : RngOk p st) : ∃ s, IsOutput p st s := by
  obtain ⟨s, h⟩ := exists_stream p st hst
  exact ⟨s, h.2⟩

/-- What a sampler over `[lo, hi]` (span below 128) must do with its buffer: nothing is accessed out of bounds; if it
returns, the buffer holds the first `n` accepted fields of the generator's output, all in range, and the generator
continues after the last word used; it returns whenever the words drawn suffice. -/
def SamplerSpec (p : Params) (lo hi n : Nat) (fuel : Nat) (st : Inc) (run : C (Vector Nat n × Inc)) : Prop :=
  ∀ s, IsOutput p st s →
    run ≠ .error .oob ∧
    (∀ v st', run = .ok (v, st') → ∃ s', Sampled 7 lo hi n fuel s v.toList s' ∧ IsOutput p st' s' ∧ RngOk p st' ∧
      ∀ i < n, lo ≤ g v i ∧ g v i ≤ hi) ∧
    ((∃ vals s', Sampled 7 lo hi n fuel s vals s') → ∃ r, run = .ok r)

theorem arr_toList (n : Nat) (l : List Nat) (h : l.length = n) : (arr n l).toList = l := by
  apply List.ext_getElem
  · simp [h]
  · intro i h1 h2
    simp [arr, h2]

theorem sampler_spec {p : Params} {lo hi n : Nat} (fuel : Nat) (st : Inc) (buf : Vector Nat n) (hst : RngOk p st)
    (hlo : lo ≤ hi) (hhi : hi < 256) (hn : 0 < n) (hb : bitsToRepresent (hi - lo) = 7) :
    SamplerSpec p lo hi n fuel st (randState p lo hi fuel st buf) := by
  intro s hs
  have h := randState_stream fuel st s buf hlo hhi hn ⟨hst, hs⟩
  rw [hb] at h
  generalize randState p lo hi fuel st buf = run at h ⊢
  cases run with
  | ok r =>
    obtain ⟨v, s', h1, h2, h3⟩ := h
    have hr := h1.range hlo
    refine ⟨by simp, fun v' st' e => ?_, fun _ => ⟨_, rfl⟩⟩
    cases e
    simp only at h2 h3
    subst h2
    refine ⟨s', by rwa [arr_toList _ _ h1.length], h3.2, h3.1, fun i hi => ?_⟩
    rw [arr_g _ _ hi]
    exact hr i hi
  | error e =>
    cases e with
    | oob => exact h.elim
    | fuel => exact ⟨by simp, fun _ _ e => by simp at e, fun e => absurd e h⟩

/-- A sample: of the nine fields of the first word the first two (127, 126) are rejected by the range 1..126. -/
example : ∃ s' : Stream, Sampled 7 1 126 3 1 (fun k => if k = 0 then 127 else if k = 1 then 63 else 0) [1, 1, 1] s' :=
  ⟨_, 1, by decide, by decide +kernel, by decide +kernel, by decide +kernel, rfl⟩

/-- C31 for non-zero elements (`fq_star_rnd_state_elements`, `fq_star_rnd_elements`): range 1..126. -/
theorem C31_nonzero_sampler {p : Params} {n : Nat} (fuel : Nat) (st : Inc) (buf : Vector Nat n) (hst : RngOk p st)
    (hn : 0 < n) : SamplerSpec p 1 126 n fuel st (fqStarRndState p fuel st buf) :=
  sampler_spec fuel st buf hst (by decide) (by decide) hn bits_126.2

/-- C31 for arbitrary elements (`rand_range_q_state_elements`, `rand_range_q_elements`): range 0..126. -/
theorem C31_element_sampler {p : Params} {n : Nat} (fuel : Nat) (st : Inc) (buf : Vector Nat n) (hst : RngOk p st)
    (hn : 0 < n) : SamplerSpec p 0 126 n fuel st (randRangeQState p fuel st buf) :=
  sampler_spec fuel st buf hst (by decide) (by decide) hn bits_126.1

/-- C31, previous contents: they do not matter. -/
theorem C31_ignores_buffer {p : Params} {n : Nat} (fuel : Nat) (st : Inc) (buf buf' : Vector Nat n) (hn : 0 < n) :
    fqStarRndState p fuel st buf = fqStarRndState p fuel st buf' ∧
      randRangeQState p fuel st buf = randRangeQState p fuel st buf' :=
  ⟨randState_stale p 1 126 fuel st buf buf' (by decide) (by decide) hn,
   randState_stale p 0 126 fuel st buf buf' (by decide) (by decide) hn⟩

theorem forRet_first_error {ρ σ : Type} {body : Nat → σ → C (ρ ⊕ σ)} {s : σ} {e : CErr} (h : body 0 s = .error e) (n : Nat) :
    forRet (n + 1) body s = .error e := by
  induction n with
  | zero => exact h
  | succ n ih =>
    show (forRet (n + 1) body s >>= fun o => _) = _
    rw [ih]; rfl

/-- Why `0 < n` is needed: asked for no elements at all, a sampler still writes the first field it accepts (it
compares `count` with `num_elements` only after the write), past the end of an empty buffer. -/
theorem C31_zero_elements_overflow {p : Params} (fuel : Nat) (st : Inc) (s : Stream) (hs : IsOutput p st s)
    (h0 : (s.word 8) % 128 ≤ 126) (buf : Vector Nat 0) :
    randRangeQState p (fuel + 1) st buf = .error .oob := by
  have hw : leNat (csprngBytes p 8 st).1 = s.word 8 := by rw [hs 8, leNat_take]
  show (sampleFields 0 (u8 126) (bitsToRepresent (u8 126)) (leNat (csprngBytes p 8 st).1) buf 0 >>= fun o => _) = _
  rw [hw]
  have : sampleFields 0 (u8 126) (bitsToRepresent (u8 126)) (s.word 8) buf 0 = .error .oob := by
    have e7 : bitsToRepresent (u8 126) = 7 := bits_126.1
    rw [e7]
    apply forRet_first_error
    have hv : u8 (s.word 8 &&& u8 (2 ^ 7 - 1)) = s.word 8 % 128 := by
      show (s.word 8 &&& (2 ^ 7 - 1)) % 256 = _
      rw [Nat.and_two_pow_sub_one_eq_mod]
      omega
    show (if u8 (s.word 8 &&& u8 (2 ^ 7 - 1)) ≤ u8 126 then _ else _) = _
    rw [hv, if_pos (show _ ≤ u8 126 from h0)]
    rfl
  rw [this]; rfl

end LESS
