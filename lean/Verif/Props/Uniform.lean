import Verif.Proofs.UniformDigest
import Verif.Proofs.Stream
import Verif.Props.Field
import Mathlib.SetTheory.Cardinal.Finite
import Mathlib.Data.Finite.Prod
import Mathlib.Data.Fintype.Pi
/-!
# Uniform samples (C58) and uniform challenges (C59)

The generator's output is pseudorandom by assumption, not by proof.  What the code is responsible for is that it turns
uniform words into uniform samples.  Stated without probabilities: over all sequences of `k` words, each of the allowed
results occurs equally often.
-/
namespace LESS

open Spec

/-- All sequences of `k` numbers of `b` bits. -/
def Words (b k : Nat) : Type := {ws : List Nat // ws.length = k ∧ ∀ w ∈ ws, w < 2 ^ b}

instance (b k : Nat) : Finite (Words b k) :=
  Finite.of_injective (β := Fin k → Fin (2 ^ b))
    (fun ws i => ⟨ws.1[i.val]'(by rw [ws.2.1]; exact i.2), ws.2.2 _ (List.getElem_mem _)⟩) (by
      intro a b h
      apply Subtype.ext
      apply List.ext_getElem
      · rw [a.2.1, b.2.1]
      · intro i h1 h2
        have := congrFun h ⟨i, by rw [← a.2.1]; exact h1⟩
        exact congrArg Fin.val this)

/-- If the word sequences with one result can be turned injectively into sequences with another result and back, both
results are equally frequent. -/
theorem card_eq_of_maps {b k : Nat} {P P' : List Nat → Prop} (f f' : List Nat → List Nat)
    (hf : ∀ ws, ws.length = k → (∀ w ∈ ws, w < 2 ^ b) → P ws → (f ws).length = k ∧ (∀ w ∈ f ws, w < 2 ^ b) ∧ P' (f ws))
    (hf' : ∀ ws, ws.length = k → (∀ w ∈ ws, w < 2 ^ b) → P' ws → (f' ws).length = k ∧ (∀ w ∈ f' ws, w < 2 ^ b) ∧ P (f' ws))
    (inj : Function.Injective f) (inj' : Function.Injective f') :
    Nat.card {ws : Words b k // P ws.1} = Nat.card {ws : Words b k // P' ws.1} := by
  apply le_antisymm
  · refine Nat.card_le_card_of_injective
      (fun x => ⟨⟨f x.1.1, (hf _ x.1.2.1 x.1.2.2 x.2).1, (hf _ x.1.2.1 x.1.2.2 x.2).2.1⟩, (hf _ x.1.2.1 x.1.2.2 x.2).2.2⟩) ?_
    intro x y h
    exact Subtype.ext (Subtype.ext (inj (congrArg (fun z => z.1.1) h)))
  · refine Nat.card_le_card_of_injective
      (fun x => ⟨⟨f' x.1.1, (hf' _ x.1.2.1 x.1.2.2 x.2).1, (hf' _ x.1.2.1 x.1.2.2 x.2).2.1⟩, (hf' _ x.1.2.1 x.1.2.2 x.2).2.2⟩) ?_
    intro x y h
    exact Subtype.ext (Subtype.ext (inj' (congrArg (fun z => z.1.1) h)))

/-! ## Field elements -/

/-- The loop of `DEF_RAND_STATE` (fq_arith.h:54-62, `sampleLoop`) with the 64-bit words it draws given as a list. -/
def sampleWords {n : Nat} (minV span reqBits : Nat) : List Nat → Vector Nat n → (count : Nat) → C (Vector Nat n)
  | [], _, _ => .error .fuel
  | w :: ws, buf, count => do
    match ← sampleFields minV span reqBits w buf count with
    | .inl buf => pure buf
    | .inr (_, buf, count) => sampleWords minV span reqBits ws buf count

/-- `DEF_RAND_STATE` (fq_arith.h:43-62, `randState`) on given words. -/
def randOn {n : Nat} (minV maxV : Nat) (ws : List Nat) (buf : Vector Nat n) : C (Vector Nat n) :=
  sampleWords minV (u8 (maxV - minV)) (bitsToRepresent (u8 (maxV - minV))) ws buf 0

theorem sampleLoop_words {p : Params} {n : Nat} (lo span b fuel : Nat) (st : Inc) (buf : Vector Nat n) (c : Nat) :
    Prod.fst <$> sampleLoop p lo span b fuel st buf c = sampleWords lo span b (drawn p 8 fuel st) buf c := by
  induction fuel generalizing st buf c with
  | zero => rfl
  | succ fuel ih =>
    unfold sampleLoop
    rw [drawn]
    unfold sampleWords
    dsimp only
    cases sampleFields lo span b (leNat (csprngBytes p 8 st).1) buf c with
    | error e => rfl
    | ok o =>
      rcases o with buf' | ⟨w, buf', c'⟩
      · rfl
      · exact ih _ _ _

/-- C58, what the samplers compute: the elements drawn are a function of the 64-bit words the generator outputs. -/
theorem C58_words {p : Params} {n : Nat} (fuel : Nat) (st : Inc) (buf : Vector Nat n) :
    Prod.fst <$> randRangeQState p fuel st buf = randOn 0 126 (drawn p 8 fuel st) buf ∧
    Prod.fst <$> fqStarRndState p fuel st buf = randOn 1 126 (drawn p 8 fuel st) buf :=
  ⟨sampleLoop_words _ _ _ _ _ _ _, sampleLoop_words _ _ _ _ _ _ _⟩

theorem acc1_accept (lo hi w : Nat) : acc1 7 lo (hi - lo) w (64 / 7) = accept 7 lo hi w := by
  unfold acc1 accept fields
  rfl

theorem sampleWords_eq {n : Nat} (lo hi : Nat) (hhi : lo + (hi - lo) < 256) (ws : List Nat) (buf : Vector Nat n) (acc : List Nat)
    (hacc : acc.length < n) (hbuf : Pre buf acc) :
    sampleWords lo (hi - lo) 7 ws buf acc.length =
      if n ≤ (acc ++ ws.flatMap (accept 7 lo hi)).length then
        .ok (arr n ((acc ++ ws.flatMap (accept 7 lo hi)).take n)) else .error .fuel := by
  induction ws generalizing buf acc with
  | nil => rw [List.flatMap_nil, List.append_nil, if_neg (by omega)]; rfl
  | cons w ws ih =>
    unfold sampleWords
    obtain ⟨o, ho, hP⟩ := (sampleFields_spec lo (hi - lo) 7 w buf acc hhi (by decide) hacc hbuf).exists_ok
    rw [ho, Kat.ok_bind]
    rw [acc1_accept] at hP
    rw [List.flatMap_cons, ← List.append_assoc]
    rcases o with buf' | ⟨w', buf', c'⟩
    · simp only at hP
      rw [if_pos (by rw [List.length_append]; omega), hP.2, List.take_append_of_le_length hP.1]
      rfl
    · simp only at hP
      obtain ⟨h1, rfl, h3⟩ := hP
      exact ih _ _ h1 h3

theorem randOn_eq {n : Nat} (lo hi : Nat) (hlo : lo ≤ hi) (hhi : hi < 256) (h7 : bitsToRepresent (hi - lo) = 7) (hn : 0 < n)
    (ws : List Nat) (buf : Vector Nat n) :
    randOn lo hi ws buf = match firstAccepted lo hi n ws with
      | some l => .ok (arr n l)
      | none => .error .fuel := by
  unfold randOn firstAccepted
  have hu : u8 (hi - lo) = hi - lo := by unfold u8; omega
  rw [hu, h7]
  have := sampleWords_eq lo hi (by omega) ws buf [] hn (by intro k hk; simp at hk)
  rw [List.nil_append] at this
  rw [show (0 : Nat) = ([] : List Nat).length from rfl, this]
  split <;> rfl

theorem firstAccepted_length {lo hi n : Nat} {ws l : List Nat} (h : firstAccepted lo hi n ws = some l) : l.length = n := by
  unfold firstAccepted at h
  split at h
  · injection h with h
    rw [← h, List.length_take]; omega
  · cases h

theorem randOn_iff {n : Nat} (lo hi : Nat) (hlo : lo ≤ hi) (hhi : hi < 256) (h7 : bitsToRepresent (hi - lo) = 7) (hn : 0 < n)
    (ws : List Nat) (buf a : Vector Nat n) : randOn lo hi ws buf = .ok a ↔ firstAccepted lo hi n ws = some a.toList := by
  rw [randOn_eq lo hi hlo hhi h7 hn]
  cases h : firstAccepted lo hi n ws with
  | none => simp
  | some l =>
    have hl := firstAccepted_length h
    simp only [Except.ok.injEq, Option.some.injEq]
    constructor
    · rintro rfl; rw [arr_toList _ _ hl]
    · intro e
      apply vec_ext
      intro i hi
      rw [arr_g _ _ hi, e]
      simp [g, hi]

theorem toList_range {n lo hi : Nat} {a : Vector Nat n} (ha : ∀ i < n, lo ≤ g a i ∧ g a i ≤ hi) :
    ∀ x ∈ a.toList, lo ≤ x ∧ x ≤ hi := by
  intro x hx
  obtain ⟨i, hi', rfl⟩ := List.getElem_of_mem hx
  have hi : i < n := by simpa using hi'
  have := ha i hi
  simpa [g, hi] using this

theorem pairs_le {lo hi : Nat} {a b : List Nat} (ha : ∀ x ∈ a, lo ≤ x ∧ x ≤ hi) (hb : ∀ x ∈ b, lo ≤ x ∧ x ≤ hi) :
    PairsLe (hi - lo) ((a.map (· - lo)).zip (b.map (· - lo))) := by
  rintro ⟨x, y⟩ hq
  obtain ⟨hx, hy⟩ := List.of_mem_zip hq
  obtain ⟨x', hx', rfl⟩ := List.mem_map.mp hx
  obtain ⟨y', hy', rfl⟩ := List.mem_map.mp hy
  have := ha x' hx'
  have := hb y' hy'
  dsimp only
  omega

theorem randOn_counts {n : Nat} (lo hi : Nat) (hlo : lo ≤ hi) (hhi : hi < 256) (h7 : bitsToRepresent (hi - lo) = 7)
    (hS : hi - lo < 128) (hn : 0 < n) (k : Nat) (buf buf' : Vector Nat n) (a b : Vector Nat n)
    (ha : ∀ i < n, lo ≤ g a i ∧ g a i ≤ hi) (hb : ∀ i < n, lo ≤ g b i ∧ g b i ≤ hi) :
    Nat.card {ws : Words 64 k // randOn lo hi ws.1 buf = .ok a} = Nat.card {ws : Words 64 k // randOn lo hi ws.1 buf' = .ok b} := by
  have la := toList_range ha
  have lb := toList_range hb
  have hl : a.toList.length = b.toList.length := by simp
  have hn' : a.toList.length = n := by simp
  have p1 := pairs_le la lb
  have p2 := pairs_le lb la
  refine card_eq_of_maps
    (P := fun ws => randOn lo hi ws buf = .ok a) (P' := fun ws => randOn lo hi ws buf' = .ok b)
    (swapW (hi - lo) ((a.toList.map (· - lo)).zip (b.toList.map (· - lo))))
    (swapW (hi - lo) ((b.toList.map (· - lo)).zip (a.toList.map (· - lo)))) ?_ ?_ ?_ ?_
  · intro ws h1 h2 h
    rw [randOn_iff lo hi hlo hhi h7 hn] at h
    refine ⟨by rw [swapW_length, h1], swapW_lt hS p1 h2, ?_⟩
    rw [randOn_iff lo hi hlo hhi h7 hn]
    have := firstAccepted_swap hS hl la lb (ws := ws) (by rw [hn']; exact h)
    rwa [hn'] at this
  · intro ws h1 h2 h
    rw [randOn_iff lo hi hlo hhi h7 hn] at h
    refine ⟨by rw [swapW_length, h1], swapW_lt hS p2 h2, ?_⟩
    rw [randOn_iff lo hi hlo hhi h7 hn]
    have := firstAccepted_swap hS hl.symm lb la (ws := ws) (by rw [← hl, hn']; exact h)
    rwa [← hl, hn'] at this
  · exact (Function.LeftInverse.injective (g := swapW _ _) (swapW_swapW hS p1))
  · exact (Function.LeftInverse.injective (g := swapW _ _) (swapW_swapW hS p2))

/-- C58 for arbitrary elements: every vector of field elements is the result for equally many sequences of words. -/
theorem C58_elements {n : Nat} (hn : 0 < n) (k : Nat) (buf buf' a b : Vector Nat n) (ha : ∀ i < n, g a i < 127)
    (hb : ∀ i < n, g b i < 127) :
    Nat.card {ws : Words 64 k // randOn 0 126 ws.1 buf = .ok a} = Nat.card {ws : Words 64 k // randOn 0 126 ws.1 buf' = .ok b} :=
  randOn_counts 0 126 (by decide) (by decide) bits_126.1 (by decide) hn k buf buf' a b
    (fun i hi => ⟨Nat.zero_le _, by have := ha i hi; omega⟩) (fun i hi => ⟨Nat.zero_le _, by have := hb i hi; omega⟩)

/-- C58 for non-zero elements: every vector of non-zero field elements is the result for equally many sequences of words. -/
theorem C58_nonzero {n : Nat} (hn : 0 < n) (k : Nat) (buf buf' a b : Vector Nat n) (ha : ∀ i < n, 0 < g a i ∧ g a i < 127)
    (hb : ∀ i < n, 0 < g b i ∧ g b i < 127) :
    Nat.card {ws : Words 64 k // randOn 1 126 ws.1 buf = .ok a} = Nat.card {ws : Words 64 k // randOn 1 126 ws.1 buf' = .ok b} :=
  randOn_counts 1 126 (by decide) (by decide) bits_126.2 (by decide) hn k buf buf' a b
    (fun i hi => by have := ha i hi; omega) (fun i hi => by have := hb i hi; omega)

/-- The word whose first field is `x` and whose other fields are rejected. -/
theorem accept_single {lo hi x : Nat} (hS : hi - lo < 127) (hx : lo ≤ x ∧ x ≤ hi) :
    accept 7 lo hi (withFields ((x - lo) :: List.replicate 8 127) 0) = [x] := by
  unfold accept
  rw [fields_withFields (by simp) (by
    intro f hf
    rcases List.mem_cons.mp hf with rfl | hf
    · omega
    · rw [List.eq_of_mem_replicate hf]; decide)]
  rw [List.filter_cons_of_pos (by simpa using by omega), List.filter_eq_nil_iff.mpr (by
    intro f hf
    rw [List.eq_of_mem_replicate hf]
    simpa using by omega)]
  simp only [List.map_cons, List.map_nil, List.cons.injEq, and_true]
  omega

theorem randOn_possible {n : Nat} (lo hi : Nat) (hlo : lo ≤ hi) (hhi : hi < 256) (h7 : bitsToRepresent (hi - lo) = 7)
    (hS : hi - lo < 127) (hn : 0 < n) (k : Nat) (hk : n ≤ k) (buf a : Vector Nat n)
    (ha : ∀ i < n, lo ≤ g a i ∧ g a i ≤ hi) :
    0 < Nat.card {ws : Words 64 k // randOn lo hi ws.1 buf = .ok a} := by
  have la := toList_range ha
  let one : Nat → Nat := fun x => withFields ((x - lo) :: List.replicate 8 127) 0
  have hone : ∀ x ∈ a.toList, one x < 2 ^ 64 := by
    intro x hx
    have := la x hx
    refine withFields_lt (by simp) ?_ (by decide)
    intro f hf
    rcases List.mem_cons.mp hf with rfl | hf
    · omega
    · rw [List.eq_of_mem_replicate hf]; decide
  have hflat : ∀ l : List Nat, (∀ x ∈ l, lo ≤ x ∧ x ≤ hi) → (l.map one).flatMap (accept 7 lo hi) = l := by
    intro l
    induction l with
    | nil => intro _; rfl
    | cons x l ih =>
      intro hl
      rw [List.map_cons, List.flatMap_cons, ih (fun y hy => hl y (List.mem_cons_of_mem _ hy)),
        accept_single hS (hl x List.mem_cons_self)]
      rfl
  rw [Nat.card_pos_iff]
  refine ⟨⟨⟨⟨a.toList.map one ++ List.replicate (k - n) 0, ?_, ?_⟩, ?_⟩⟩, inferInstance⟩
  · simp; omega
  · intro w hw
    rcases List.mem_append.mp hw with hw | hw
    · obtain ⟨x, hx, rfl⟩ := List.mem_map.mp hw
      exact hone x hx
    · rw [List.eq_of_mem_replicate hw]; decide
  · rw [randOn_iff lo hi hlo hhi h7 hn]
    unfold firstAccepted
    rw [List.flatMap_append, hflat _ la]
    have : a.toList.length = n := by simp
    rw [if_pos (by rw [List.length_append]; omega), List.take_left' this]

/-- C58, none is missing: from as many words as elements on, every vector is the result for some sequence. -/
theorem C58_all_possible {n : Nat} (hn : 0 < n) (k : Nat) (hk : n ≤ k) (buf a : Vector Nat n) (ha : ∀ i < n, g a i < 127) :
    0 < Nat.card {ws : Words 64 k // randOn 0 126 ws.1 buf = .ok a} ∧
    ((∀ i < n, 0 < g a i) → 0 < Nat.card {ws : Words 64 k // randOn 1 126 ws.1 buf = .ok a}) :=
  ⟨randOn_possible 0 126 (by decide) (by decide) bits_126.1 (by decide) hn k hk buf a
    (fun i hi => ⟨Nat.zero_le _, by have := ha i hi; omega⟩),
   fun h0 => randOn_possible 1 126 (by decide) (by decide) bits_126.2 (by decide) hn k hk buf a
    (fun i hi => by have := ha i hi; have := h0 i hi; omega)⟩

/-- The first vector is the result for the word whose fields are 5, 127 (rejected), 126, 1, 0, …, the second for the
word with 5 and 9, 126 and 2, 1 and 0 exchanged in those places. -/
example : randOn 0 126 [5 + 127 * 2 ^ 7 + 126 * 2 ^ 14 + 1 * 2 ^ 21] (Vector.replicate 3 77) = .ok #v[5, 126, 1] ∧
    randOn 0 126 [9 + 127 * 2 ^ 7 + 2 * 2 ^ 14 + 0 * 2 ^ 21] (Vector.replicate 3 0) = .ok #v[9, 2, 0] := by
  decide +kernel

example : Nat.card {ws : Words 64 7 // randOn 1 126 ws.1 (Vector.replicate 3 0) = .ok #v[1, 1, 1]} =
    Nat.card {ws : Words 64 7 // randOn 1 126 ws.1 (Vector.replicate 3 0) = .ok #v[126, 5, 77]} :=
  C58_nonzero (by decide) 7 _ _ _ _ (by decide) (by decide)

/-! ## Challenges -/

/-- A challenge: `W` non-zero entries, all entries indices of keys. -/
def Challenge (p : Params) (v : Vector Nat p.T) : Prop :=
  ((List.range p.T).filter fun i => decide (g v i ≠ 0)).length = p.W ∧ ∀ i < p.T, g v i < p.numKeypairs

/-- The array the callers pass (LESS.c, `{0}`). -/
def noChallenge (p : Params) : Vector Nat p.T := Vector.replicate p.T 0

/-- C59, what the code computes: the challenge is a function of the 16-bit numbers the generator outputs. -/
theorem C59_words {p : Params} (fuel : Nat) (digest : Bytes) (fws : Vector Nat p.T) :
    expandDigest fuel fws digest = digestWords p (drawn p 2 fuel (initCsprng p digest)) 0 fws :=
  expandDigestLoop_words _ _ _ _

/-- The bits of one number suffice for a value and a position in all parameter sets. -/
theorem challenge_bits : ∀ p ∈ Params.all, width (p.numKeypairs - 1) + width (p.T - 1) ≤ 16 := by decide +kernel

theorem lt_two_pow_width {n : Nat} (hn : 0 < n) : n ≤ 2 ^ width (n - 1) := by
  unfold width
  have := Nat.lt_log2_self (n := n - 1)
  omega

theorem challenge_support {p : Params} {v : Vector Nat p.T} (h : Challenge p v) : (support v).card = p.W := by
  rw [← h.1, ← weight_support v (fun _ _ => rfl)]
  rfl

theorem digestWords_map {p : Params} (hp : p.WF) {v v' : Vector Nat p.T} (hv : Challenge p v) (hv' : Challenge p v')
    (hb : width (p.numKeypairs - 1) + width (p.T - 1) ≤ 16) (k : Nat) :
    ∃ f : List Nat → List Nat, Function.Injective f ∧ ∀ ws, ws.length = k → (∀ w ∈ ws, w < 2 ^ 16) →
      digestWords p ws 0 (noChallenge p) = .ok v →
      (f ws).length = k ∧ (∀ w ∈ f ws, w < 2 ^ 16) ∧ digestWords p (f ws) 0 (noChallenge p) = .ok v' := by
  have hK : 0 < p.numKeypairs := by have := hp.numKeypairs_ge; omega
  have hT0 : 0 < p.T := by have := hp.W_pos; have := hp.W_le_T; omega
  have hn := lt_two_pow_width hK
  have hT := lt_two_pow_width hT0
  obtain ⟨r, hr⟩ := exists_renaming v v' hv.2 hv'.2 (by rw [challenge_support hv, challenge_support hv'])
  have hinj : Function.Injective (r.word (width (p.numKeypairs - 1)) (width (p.T - 1))) := fun x y e => r.word_inj hn hT e
  refine ⟨List.map (r.word (width (p.numKeypairs - 1)) (width (p.T - 1))), hinj.list_map, ?_⟩
  intro ws h1 h2 h
  refine ⟨by rw [List.length_map, h1], ?_, ?_⟩
  · intro w hw
    obtain ⟨x, hx, rfl⟩ := List.mem_map.mp hw
    exact r.word_lt hn hT hb (h2 x hx)
  · have h0 : ∀ i, g (noChallenge p) i = 0 := by
      intro i
      unfold noChallenge g
      by_cases hi : i < p.T
      · simp [hi]
      · simp [hi]
    obtain ⟨res', e, hres⟩ := digestWords_rename hp r hn hT ws 0 (noChallenge p) (noChallenge p) v
      (fun i _ => by rw [h0]; exact hK) (fun i hi => by rw [h0, h0, r.val_zero i hi]) h
    rw [e]
    congr 1
    apply vec_ext
    intro j hj
    have hsurj : ∃ i < p.T, r.pos i = j := by
      have : Function.Surjective (fun i : Fin p.T => (⟨r.pos i, r.pos_lt i i.2⟩ : Fin p.T)) :=
        Finite.surjective_of_injective fun a b h => Fin.ext (r.pos_inj a a.2 b b.2 (congrArg Fin.val h))
      obtain ⟨i, hi⟩ := this ⟨j, hj⟩
      exact ⟨i, i.2, congrArg Fin.val hi⟩
    obtain ⟨i, hi, rfl⟩ := hsurj
    rw [hres i hi, hr i hi]

/-- C59: every challenge is the result for equally many sequences of numbers. -/
theorem C59_challenges {p : Params} (hp : p.WF) (hb : width (p.numKeypairs - 1) + width (p.T - 1) ≤ 16) (k : Nat)
    {v v' : Vector Nat p.T} (hv : Challenge p v) (hv' : Challenge p v') :
    Nat.card {ws : Words 16 k // digestWords p ws.1 0 (noChallenge p) = .ok v} =
      Nat.card {ws : Words 16 k // digestWords p ws.1 0 (noChallenge p) = .ok v'} := by
  obtain ⟨f, hf, h⟩ := digestWords_map hp hv hv' hb k
  obtain ⟨f', hf', h'⟩ := digestWords_map hp hv' hv hb k
  exact card_eq_of_maps (P := fun ws => digestWords p ws 0 (noChallenge p) = .ok v)
    (P' := fun ws => digestWords p ws 0 (noChallenge p) = .ok v') f f' h h' hf hf'

/-- C59 for the seven parameter sets. -/
theorem C59_parameter_sets {p : Params} (hp : p ∈ Params.all) (k : Nat) {v v' : Vector Nat p.T} (hv : Challenge p v)
    (hv' : Challenge p v') :
    Nat.card {ws : Words 16 k // digestWords p ws.1 0 (noChallenge p) = .ok v} =
      Nat.card {ws : Words 16 k // digestWords p ws.1 0 (noChallenge p) = .ok v'} :=
  C59_challenges (Params.all_WF p hp) (challenge_bits p hp) k hv hv'

theorem digestWords_place {p : Params} (hp : p.WF) {v : Vector Nat p.T} (hv : ∀ i < p.T, g v i < p.numKeypairs)
    (L : List Nat) (rest : List Nat) : ∀ (placed : Nat) (fws : Vector Nat p.T), L.Nodup →
      (∀ i ∈ L, i < p.T ∧ g v i ≠ 0 ∧ g fws i = 0) → placed + L.length = p.W →
      ∃ res, digestWords p (L.map (fun i => g v i + 2 ^ width (p.numKeypairs - 1) * i) ++ rest) placed fws = .ok res ∧
        ∀ j, g res j = if j ∈ L then g v j else g fws j := by
  have hK : 0 < p.numKeypairs := by have := hp.numKeypairs_ge; omega
  have hT0 : 0 < p.T := by have := hp.W_pos; have := hp.W_le_T; omega
  have hn := lt_two_pow_width hK
  have hT := lt_two_pow_width hT0
  induction L with
  | nil =>
    intro placed fws _ _ hp'
    refine ⟨fws, ?_, fun j => by simp⟩
    rw [List.map_nil, List.nil_append]
    simp only [List.length_nil, Nat.add_zero] at hp'
    cases rest with
    | nil => unfold digestWords; rw [if_neg (by omega)]; rfl
    | cons x ws => rw [digestWords_cons hp, if_neg (by omega)]
  | cons i L ih =>
    intro placed fws hnd h hp'
    obtain ⟨hi, hv0, hf0⟩ := h i List.mem_cons_self
    rw [List.nodup_cons] at hnd
    rw [List.length_cons] at hp'
    have hs := split3 (t := 0) (lt_of_lt_of_le (hv i hi) hn) (lt_of_lt_of_le hi hT)
    rw [Nat.mul_zero, Nat.add_zero] at hs
    rw [List.map_cons, List.cons_append, digestWords_cons hp, if_pos (by omega), hs.1, hs.2.1, if_pos ⟨hv i hi, hi, hf0⟩]
    have hb : b2n (g v i ≠ 0) = 1 := by simp [b2n, hv0]
    rw [hb]
    obtain ⟨res, e, hres⟩ := ih (placed + 1) (upd fws i (g v i)) hnd.2 (by
      intro j hj
      have hne : i ≠ j := fun e => hnd.1 (e ▸ hj)
      obtain ⟨a, b, c⟩ := h j (List.mem_cons_of_mem _ hj)
      exact ⟨a, b, by rw [g_upd_ne _ _ _ _ hne]; exact c⟩) (by omega)
    refine ⟨res, e, fun j => ?_⟩
    rw [hres j]
    by_cases hj : j ∈ L
    · rw [if_pos hj, if_pos (List.mem_cons_of_mem _ hj)]
    · rw [if_neg hj]
      by_cases hij : i = j
      · subst hij; rw [g_upd_self _ _ _ hi, if_pos List.mem_cons_self]
      · rw [g_upd_ne _ _ _ _ hij, if_neg (by simp [hj, Ne.symm hij])]

/-- C59, none is missing: from `W` numbers on, every challenge is the result for some sequence. -/
theorem C59_all_possible {p : Params} (hp : p.WF) (hb : width (p.numKeypairs - 1) + width (p.T - 1) ≤ 16) {k : Nat}
    (hk : p.W ≤ k) {v : Vector Nat p.T} (hv : Challenge p v) :
    0 < Nat.card {ws : Words 16 k // digestWords p ws.1 0 (noChallenge p) = .ok v} := by
  have hK : 0 < p.numKeypairs := by have := hp.numKeypairs_ge; omega
  have hT0 : 0 < p.T := by have := hp.W_pos; have := hp.W_le_T; omega
  have hn := lt_two_pow_width hK
  have hT := lt_two_pow_width hT0
  have h0 : ∀ i, g (noChallenge p) i = 0 := by
    intro i
    unfold noChallenge g
    by_cases hi : i < p.T
    · simp [hi]
    · simp [hi]
  let L := (List.range p.T).filter fun i => decide (g v i ≠ 0)
  have hL : ∀ i, i ∈ L ↔ i < p.T ∧ g v i ≠ 0 := by intro i; simp [L]
  obtain ⟨res, e, hres⟩ := digestWords_place hp hv.2 L (List.replicate (k - p.W) 0) 0 (noChallenge p)
    (List.nodup_range.filter _) (fun i hi => ⟨((hL i).mp hi).1, ((hL i).mp hi).2, h0 i⟩) (by rw [Nat.zero_add]; exact hv.1)
  have : res = v := by
    apply vec_ext
    intro j hj
    rw [hres j, h0]
    split
    · rfl
    · rename_i h
      rw [hL] at h
      by_contra hc
      exact h ⟨hj, fun e => hc e.symm⟩
  subst this
  rw [Nat.card_pos_iff]
  refine ⟨⟨⟨⟨_, ?_, ?_⟩, e⟩⟩, inferInstance⟩
  · rw [List.length_append, List.length_map, List.length_replicate]
    have : L.length = p.W := hv.1
    omega
  · intro w hw
    rcases List.mem_append.mp hw with hw | hw
    · obtain ⟨i, hi, rfl⟩ := List.mem_map.mp hw
      have hi := ((hL i).mp hi).1
      have h1 : g res i < 2 ^ width (p.numKeypairs - 1) := lt_of_lt_of_le (hv.2 i hi) hn
      have h2 : i + 1 ≤ 2 ^ width (p.T - 1) := lt_of_lt_of_le hi hT
      have h3 : 2 ^ width (p.numKeypairs - 1) * (i + 1) ≤ 2 ^ 16 :=
        (Nat.mul_le_mul_left _ h2).trans (by rw [← Nat.pow_add]; exact Nat.pow_le_pow_right (by decide) hb)
      rw [Nat.mul_succ] at h3
      omega
    · rw [List.eq_of_mem_replicate hw]; decide

/-- Two challenges: value 1 in the first `W` places, the largest value in the last `W` places. -/
def firstPlaces (p : Params) : Vector Nat p.T := Vector.ofFn fun i => if i.val < p.W then 1 else 0
def lastPlaces (p : Params) : Vector Nat p.T := Vector.ofFn fun i => if p.T - p.W ≤ i.val then p.numKeypairs - 1 else 0

theorem challenge_of_support {p : Params} {v : Vector Nat p.T} (h : (support v).card = p.W)
    (hv : ∀ i < p.T, g v i < p.numKeypairs) : Challenge p v :=
  ⟨by rw [← h, ← weight_support v (fun _ _ => rfl)]; rfl, hv⟩

theorem firstPlaces_challenge {p : Params} (hp : p.WF) : Challenge p (firstPlaces p) := by
  have h1 := hp.numKeypairs_ge
  have h2 := hp.W_le_T
  have hg : ∀ i < p.T, g (firstPlaces p) i = if i < p.W then 1 else 0 := fun i hi => by rw [firstPlaces, g_ofFn _ _ hi]
  refine challenge_of_support ?_ fun i hi => by rw [hg i hi]; split <;> omega
  have : support (firstPlaces p) = Finset.range p.W := by
    ext i
    simp only [support, Finset.mem_filter, Finset.mem_range]
    constructor
    · rintro ⟨a, b⟩
      rw [hg i a] at b
      by_contra hc
      rw [if_neg hc] at b
      exact b rfl
    · intro a
      refine ⟨by omega, ?_⟩
      rw [hg i (by omega), if_pos a]
      decide
  rw [this, Finset.card_range]

theorem lastPlaces_challenge {p : Params} (hp : p.WF) : Challenge p (lastPlaces p) := by
  have h1 := hp.numKeypairs_ge
  have h2 := hp.W_le_T
  have hg : ∀ i < p.T, g (lastPlaces p) i = if p.T - p.W ≤ i then p.numKeypairs - 1 else 0 := fun i hi => by
    rw [lastPlaces, g_ofFn _ _ hi]
  refine challenge_of_support ?_ fun i hi => by rw [hg i hi]; split <;> omega
  have : support (lastPlaces p) = Finset.Ico (p.T - p.W) p.T := by
    ext i
    simp only [support, Finset.mem_filter, Finset.mem_range, Finset.mem_Ico]
    constructor
    · rintro ⟨a, b⟩
      rw [hg i a] at b
      by_contra hc
      rw [if_neg (by omega)] at b
      exact b rfl
    · rintro ⟨a, b⟩
      refine ⟨b, ?_⟩
      rw [hg i b, if_pos a]
      omega
  rw [this, Nat.card_Ico]
  omega

/-- These two are equally frequent and do occur, in every parameter set. -/
example {p : Params} (hp : p ∈ Params.all) :
    0 < Nat.card {ws : Words 16 1000 // digestWords p ws.1 0 (noChallenge p) = .ok (firstPlaces p)} ∧
    Nat.card {ws : Words 16 1000 // digestWords p ws.1 0 (noChallenge p) = .ok (firstPlaces p)} =
      Nat.card {ws : Words 16 1000 // digestWords p ws.1 0 (noChallenge p) = .ok (lastPlaces p)} :=
  ⟨C59_all_possible (Params.all_WF p hp) (challenge_bits p hp) (by
      revert p; decide +kernel) (firstPlaces_challenge (Params.all_WF p hp)),
   C59_parameter_sets hp 1000 (firstPlaces_challenge (Params.all_WF p hp)) (lastPlaces_challenge (Params.all_WF p hp))⟩

end LESS
