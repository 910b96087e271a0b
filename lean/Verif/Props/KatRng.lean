import Verif.Proofs.KatRng
/-!
# The NIST test-vector generator (C49)

`aes` is the block cipher, arbitrary.  `temp` and the previous contents of state and output buffers are arbitrary.
-/
namespace LESS.Kat
open LESS Spec.Kat

/-- C49, the counter: the byte-wise increment with early exit is addition of 1 modulo 2^128 on the big-endian
number. -/
theorem C49_counter_increment (V : Vector UInt8 16) :
    ∃ V', bump 0 16 V = .ok V' ∧ num V'.toList = (num V.toList + 1) % 2 ^ 128 := by
  refine ⟨blk (num V.toList + 1), ?_, ?_⟩
  · have := bump_blk (num V.toList)
    rwa [blk_num] at this
  · rw [blk_toList, num_be]

/-- C49, the wrap-around case. -/
example : ∃ V' : Vector UInt8 16, bump 0 16 (Vector.replicate 16 0xff) = .ok V' ∧ num V'.toList = 0 := by
  obtain ⟨V', h, e⟩ := C49_counter_increment (Vector.replicate 16 0xff)
  exact ⟨V', h, by rw [e]; decide +kernel⟩

/-- C49, seeding: key and counter are one CTR_DRBG update of the zero state with the masked entropy, whatever the
generator did before. -/
theorem C49_init (aes : Aes) (st : Drbg) (temp entropy : Vector UInt8 48) (pers : Option (Vector UInt8 48)) :
    ∃ st', randombytesInit aes st temp entropy pers = .ok st' ∧ st'.reseedCounter = 1 ∧
      (st'.key, st'.V) = update aes (Vector.replicate 32 0) 0
        (fun i => g entropy i ^^^ match pers with | none => 0 | some s => g s i) :=
  ⟨_, randombytesInit_eq aes st temp entropy pers, rfl, by cases pers <;> rfl⟩

/-- C49, output: a request for `xlen` bytes stores exactly the first `xlen` bytes of the counter-mode stream, leaves
the rest of the buffer alone, and moves the state as CTR_DRBG does.  `xlen < 2^31`, because the write index is an `int`;
the call counter is an `int` too. -/
theorem C49_randombytes (aes : Aes) (st : Drbg) (temp : Vector UInt8 48) {cap : Nat} (x : Vector UInt8 cap) (xlen : Nat)
    (hcap : xlen ≤ cap) (hlen : xlen < 2 ^ 31) (hc : st.reseedCounter < 2 ^ 31 - 1) :
    ∃ st' y, randombytes aes st temp x xlen = .ok (st', y) ∧
      (∀ k < cap, g y k = if k < xlen then stream aes st.key (num st.V.toList) k else g x k) ∧
      (st'.key, st'.V) = update aes st.key (num st.V.toList + (xlen + 15) / 16) (fun _ => 0) ∧
      st'.reseedCounter = st.reseedCounter + 1 := by
  obtain ⟨⟨st', y⟩, e, h1, h2, h3⟩ := (randombytes_eq aes st temp x xlen hcap (by unfold intMax; omega)
    (by unfold intMax; omega)).exists_ok
  exact ⟨st', y, e, h3, h1, h2⟩

/-- C49, the limit is sharp: a request of 2^31 bytes or more overflows the `int` index, however large the buffer. -/
theorem C49_fails_long_request (aes : Aes) (st : Drbg) (temp : Vector UInt8 48) {cap : Nat} (x : Vector UInt8 cap) (xlen : Nat)
    (hlen : 2 ^ 31 ≤ xlen) : randombytes aes st temp x xlen = .error .oob :=
  randombytes_overflow aes st temp x xlen (by unfold intMax; omega)

/-- A 40-byte request into a 50-byte buffer, with the cipher that adds the first key byte to every byte. -/
example : ∃ st' y, randombytes (fun k b => b.map (· + g k 0)) ⟨Vector.replicate 32 7, Vector.replicate 16 0xff, 1⟩
    (Vector.replicate 48 9) (Vector.replicate 50 3) 40 = .ok (st', y) ∧ g y 31 = 8 ∧ g y 39 = 7 ∧ g y 40 = 3 := by
  obtain ⟨st', y, e, h, -⟩ := C49_randombytes (fun k b => b.map (· + g k 0))
    ⟨Vector.replicate 32 7, Vector.replicate 16 0xff, 1⟩ (Vector.replicate 48 9) (Vector.replicate 50 3) 40
    (by decide) (by decide) (by decide)
  refine ⟨st', y, e, ?_, ?_, ?_⟩
  · rw [h _ (by decide)]; decide +kernel
  · rw [h _ (by decide)]; decide +kernel
  · rw [h _ (by decide)]; decide +kernel

/-! ## The seed expander -/

/-- A history of requests: `(request length, capacity and contents of the buffer passed)`. -/
abbrev Requests := List (Nat × (Σ n, Vector UInt8 n))

/-- Runs the requests in turn; collects return value and the first `length` bytes of the buffer after the call. -/
def runXof (aes : Aes) : Requests → Xof → C (List (Int × Bytes))
  | [], _ => pure []
  | (len, ⟨_, x⟩) :: rest, ctx => do
    let (ret, ctx, y) ← seedexpander aes ctx (some x) len
    let tail ← runXof aes rest ctx
    pure ((ret, match y with | some y => seg y 0 len | none => []) :: tail)

/-- What the history must return when `c` bytes have been handed out already: a request that would reach `maxlen` is
refused and changes nothing; any other one returns the next bytes of the stream. -/
def xofAnswers (S : Nat → UInt8) (maxlen : Nat) : Nat → Requests → List (Int × Bytes)
  | _, [] => []
  | c, (len, ⟨_, x⟩) :: rest =>
    if c + len < maxlen then (0, (List.range len).map fun k => S (c + k)) :: xofAnswers S maxlen (c + len) rest
    else (-3, seg x 0 len) :: xofAnswers S maxlen c rest

theorem runXof_eq (aes : Aes) (seed : Vector UInt8 32) (div : Vector UInt8 8) (maxlen : Nat) :
    ∀ (reqs : Requests) (c : Nat) (ctx : Xof), XofAt aes seed div maxlen c ctx → (∀ r ∈ reqs, r.1 ≤ r.2.1) →
      runXof aes reqs ctx = .ok (xofAnswers (xofStream aes seed div maxlen) maxlen c reqs) := by
  intro reqs
  induction reqs with
  | nil => intros; rfl
  | cons r rest ih =>
    obtain ⟨len, cap, x⟩ := r
    intro c ctx hat hcap
    have hlen : len ≤ cap := hcap _ (List.mem_cons_self)
    have hrest : ∀ r ∈ rest, r.1 ≤ r.2.1 := fun r hr => hcap r (List.mem_cons_of_mem _ hr)
    unfold runXof xofAnswers
    obtain ⟨⟨ret, ctx', y⟩, e, h⟩ := (seedexpander_wp aes seed div maxlen c ctx hat x len hlen).exists_ok
    dsimp only
    rw [e, ok_bind]
    dsimp only
    rcases h with ⟨hge, hr⟩ | ⟨hlt, h0, hat', y', hy, hv⟩
    · cases hr
      rw [ih c ctx hat hrest, ok_bind, if_neg (by omega)]
      rfl
    · dsimp only at h0 hat' hy
      subst h0 hy
      rw [ih _ ctx' hat' hrest, ok_bind, if_pos hlt]
      dsimp only
      have : seg y' 0 len = (List.range len).map fun k => xofStream aes seed div maxlen (c + k) := by
        unfold seg
        apply List.map_congr_left
        intro k hk
        have hk := List.mem_range.1 hk
        rw [Nat.zero_add, hv k (by omega), if_pos hk]
      rw [this]
      rfl

/-- C49, the seed expander: after `seedexpander_init`, every history of requests receives consecutive pieces of one
stream, determined by seed, diversifier and `maxlen`, so the output does not depend on how the requests are split;
requests that would reach `maxlen` are refused. -/
theorem C49_seedexpander_history (aes : Aes) (ctx : Xof) (seed : Vector UInt8 32) (div : Vector UInt8 8) (maxlen : Nat)
    (hmax : maxlen < 2 ^ 32) : ∃ ctx', seedexpanderInit ctx seed div maxlen = .ok (0, ctx') ∧
      ∀ reqs : Requests, (∀ r ∈ reqs, r.1 ≤ r.2.1) →
        runXof aes reqs ctx' = .ok (xofAnswers (xofStream aes seed div maxlen) maxlen 0 reqs) := by
  obtain ⟨⟨ret, ctx'⟩, e, rfl, hat⟩ := (seedexpanderInit_wp aes ctx seed div maxlen (by omega)).exists_ok
  exact ⟨ctx', e, fun reqs h => runXof_eq aes seed div maxlen reqs 0 ctx' hat h⟩

/-- C49, refused initialisation: a `maxlen` of 2^32 or more is refused and the state is left alone. -/
theorem C49_init_refuses (ctx : Xof) (seed : Vector UInt8 32) (div : Vector UInt8 8) (maxlen : Nat) (hmax : 2 ^ 32 ≤ maxlen) :
    seedexpanderInit ctx seed div maxlen = .ok (-1, ctx) := by
  unfold seedexpanderInit
  rw [if_pos (by omega)]
  rfl

/-- C49, the declared maximum is never exceeded: all successful requests of a history together return fewer than
`maxlen` bytes, and the bytes they return are the stream from its start. -/
theorem C49_output_is_stream_prefix (S : Nat → UInt8) (maxlen : Nat) : ∀ (reqs : Requests) (c : Nat), c < maxlen →
    ∃ n, c + n < maxlen ∧ (((xofAnswers S maxlen c reqs).filter (fun r => r.1 = 0)).map (·.2)).flatten =
      (List.range n).map fun k => S (c + k) := by
  intro reqs
  induction reqs with
  | nil => intro c hc; exact ⟨0, hc, rfl⟩
  | cons r rest ih =>
    obtain ⟨len, cap, x⟩ := r
    intro c hc
    unfold xofAnswers
    by_cases h : c + len < maxlen
    · obtain ⟨n, hn, e⟩ := ih (c + len) h
      refine ⟨len + n, by omega, ?_⟩
      rw [if_pos h, List.filter_cons_of_pos (by simp), List.map_cons, List.flatten_cons, e, List.range_add, List.map_append]
      congr 1
      rw [List.map_map]
      apply List.map_congr_left
      intro k _
      simp [Nat.add_assoc]
    · obtain ⟨n, hn, e⟩ := ih c hc
      refine ⟨n, hn, ?_⟩
      rw [if_neg h, List.filter_cons_of_neg (by simp), e]

/-- Three requests against a maximum of 40: 5 and 20 bytes are served, 15 more would reach 40. -/
example (S : Nat → UInt8) : (xofAnswers S 40 0 [(5, ⟨5, Vector.replicate 5 0⟩), (20, ⟨30, Vector.replicate 30 0⟩),
    (15, ⟨15, Vector.replicate 15 1⟩)]).map (·.1) = [0, 0, -3] := by
  simp [xofAnswers]

end LESS.Kat
