import Verif.Model.Sampler
import Verif.Spec.Stream
import Verif.Proofs.Params
/-!
# Rejection samplers: proofs
-/
namespace LESS
open Spec

/-- A list as an array of `n` cells. -/
def arr (n : Nat) (l : List Nat) : Vector Nat n := Vector.ofFn fun i => l.getD i.val 0

/-- The first `m` fields of a word that are accepted. -/
def acc1 (b lo span word m : Nat) : List Nat :=
  (((List.range m).map fun k => word / 2 ^ (b * k) % 2 ^ b).filter (· ≤ span)).map (· + lo)

theorem acc1_succ (b lo span word m : Nat) :
    acc1 b lo span word (m + 1) = acc1 b lo span word m ++
      if word / 2 ^ (b * m) % 2 ^ b ≤ span then [word / 2 ^ (b * m) % 2 ^ b + lo] else [] := by
  unfold acc1
  rw [List.range_succ, List.map_append, List.filter_append, List.map_append]
  congr 1
  by_cases h : word / 2 ^ (b * m) % 2 ^ b ≤ span <;> simp [h]

theorem acc1_prefix (b lo span word : Nat) {m m' : Nat} (h : m ≤ m') :
    ∃ l, acc1 b lo span word m' = acc1 b lo span word m ++ l := by
  obtain ⟨d, rfl⟩ := Nat.exists_eq_add_of_le h
  induction d with
  | zero => exact ⟨[], by simp⟩
  | succ d ih =>
    obtain ⟨l, hl⟩ := ih (by omega)
    rw [← Nat.add_assoc, acc1_succ, hl, List.append_assoc]
    exact ⟨_, rfl⟩

/-- The first `l.length` cells of `buf` hold `l`. -/
def Pre {n : Nat} (buf : Vector Nat n) (l : List Nat) : Prop := ∀ k, k < l.length → g buf k = l.getD k 0

theorem Pre.push {n : Nat} {buf : Vector Nat n} {l : List Nat} (h : Pre buf l) (hl : l.length < n) (x : Nat) :
    Pre (upd buf l.length x) (l ++ [x]) := by
  intro k hk
  simp only [List.length_append, List.length_singleton] at hk
  rw [g_upd _ _ _ _ hl]
  by_cases e : l.length = k
  · subst e; simp
  · rw [if_neg e, h k (by omega)]
    rw [List.getD_eq_getElem?_getD, List.getD_eq_getElem?_getD, List.getElem?_append_left (by omega)]

theorem Pre.eq_arr {n : Nat} {buf : Vector Nat n} {l : List Nat} (h : Pre buf l) (hl : l.length = n) :
    buf = arr n l := by
  apply vec_ext
  intro i hi
  rw [h i (by omega), arr, g_ofFn _ _ hi]

theorem sampleFields_spec {n : Nat} (lo span b word : Nat) (buf : Vector Nat n) (acc : List Nat)
    (hlo : lo + span < 256) (hb : b ≤ 8) (hacc : acc.length < n) (hbuf : Pre buf acc) :
    Wp False (sampleFields lo span b word buf acc.length) (fun o =>
      let l := acc ++ acc1 b lo span word (64 / b)
      match o with
      | .inl buf' => n ≤ l.length ∧ buf' = arr n (l.take n)
      | .inr (_, buf', count') => l.length < n ∧ count' = l.length ∧ Pre buf' l) := by
  have hmask : u8 (2 ^ b - 1) = 2 ^ b - 1 := by
    have : 2 ^ b ≤ 2 ^ 8 := Nat.pow_le_pow_right (by decide) hb
    unfold u8; omega
  have hpow : 2 ^ b ≤ 256 := Nat.pow_le_pow_right (n := 2) (by decide) hb
  unfold sampleFields
  simp only [hmask]
  refine Wp.forRet
    (fun i s => s.1 = word / 2 ^ (b * i) ∧ s.2.2 = (acc ++ acc1 b lo span word i).length ∧
      s.2.2 < n ∧ Pre s.2.1 (acc ++ acc1 b lo span word i))
    (fun buf' => n ≤ (acc ++ acc1 b lo span word (64 / b)).length ∧
      buf' = arr n ((acc ++ acc1 b lo span word (64 / b)).take n)) ?_ ?_ ?_ ?_
  · refine ⟨by simp, by simp [acc1], by simpa using hacc, by simpa [acc1] using hbuf⟩
  · rintro i ⟨w, buf', count⟩ hi ⟨h1, h2, h3, h4⟩
    simp only at h1 h2 h3 h4
    subst h1 h2
    have hand : u8 (word / 2 ^ (b * i) &&& 2 ^ b - 1) = word / 2 ^ (b * i) % 2 ^ b := by
      rw [Nat.and_two_pow_sub_one_eq_mod]
      have := Nat.mod_lt (word / 2 ^ (b * i)) (Nat.two_pow_pos b)
      unfold u8; omega
    have hshift : (word / 2 ^ (b * i)) >>> b = word / 2 ^ (b * (i + 1)) := by
      rw [Nat.shiftRight_eq_div_pow, Nat.div_div_eq_div_mul, ← Nat.pow_add, Nat.mul_succ]
    simp only [hand]
    have hs := acc1_succ b lo span word i
    by_cases hc : word / 2 ^ (b * i) % 2 ^ b ≤ span
    · rw [if_pos hc, ← List.singleton_append (l := []), List.append_nil] at hs
      have hu : u8 (word / 2 ^ (b * i) % 2 ^ b + lo) = word / 2 ^ (b * i) % 2 ^ b + lo := by
        unfold u8; omega
      simp only [hc, if_true, Wp.bind_iff, Wp.wr_iff, Wp.pure_iff, hu]
      refine ⟨h3, ?_⟩
      have hp := h4.push h3 (word / 2 ^ (b * i) % 2 ^ b + lo)
      rw [List.append_assoc, ← hs] at hp
      have hlen : (acc ++ acc1 b lo span word (i + 1)).length =
          (acc ++ acc1 b lo span word i).length + 1 := by
        rw [hs]; simp [Nat.add_assoc]
      by_cases hn : n ≤ (acc ++ acc1 b lo span word i).length + 1
      · rw [if_pos hn, Wp.pure_iff]
        show n ≤ _ ∧ _
        obtain ⟨l, hl⟩ := acc1_prefix b lo span word (show i + 1 ≤ 64 / b from hi)
        have heq : (acc ++ acc1 b lo span word (i + 1)).length = n := by omega
        rw [hl, ← List.append_assoc]
        refine ⟨by rw [List.length_append]; omega, ?_⟩
        rw [List.take_left' heq]
        exact hp.eq_arr heq
      · rw [if_neg hn, Wp.pure_iff]
        exact ⟨hshift, hlen.symm, by simp only at *; omega, hp⟩
    · rw [if_neg hc, List.append_nil] at hs
      simp only [hc, if_false, Wp.bind_iff, Wp.pure_iff]
      rw [if_neg (by omega), Wp.pure_iff]
      show _ ∧ _
      rw [hs]
      exact ⟨hshift, rfl, h3, h4⟩
  · intro r hr; exact hr
  · rintro ⟨w, buf', count⟩ ⟨h1, h2, h3, h4⟩
    simp only at h2 h3 h4
    subst h2
    exact ⟨h3, rfl, h4⟩

/-- The sampling loop without its buffer. -/
def sampleRec (p : Params) (b lo span n : Nat) : Nat → Inc → List Nat → C (Vector Nat n × Inc)
  | 0, _, _ => .error .fuel
  | fuel + 1, st, acc =>
    let l := acc ++ acc1 b lo span (leNat (csprngBytes p 8 st).1) (64 / b)
    if n ≤ l.length then .ok (arr n (l.take n), (csprngBytes p 8 st).2)
    else sampleRec p b lo span n fuel (csprngBytes p 8 st).2 l

theorem sampleLoop_eq {n : Nat} (p : Params) (lo span b : Nat) (hlo : lo + span < 256) (hb : b ≤ 8)
    (fuel : Nat) (st : Inc) (buf : Vector Nat n) (acc : List Nat) (hacc : acc.length < n)
    (hbuf : Pre buf acc) :
    sampleLoop p lo span b fuel st buf acc.length = sampleRec p b lo span n fuel st acc := by
  induction fuel generalizing st buf acc with
  | zero => rfl
  | succ fuel ih =>
    unfold sampleLoop sampleRec
    obtain ⟨o, ho, hP⟩ := (sampleFields_spec lo span b (leNat (csprngBytes p 8 st).1) buf acc hlo hb hacc
      hbuf).exists_ok
    simp only [ho]
    rcases o with buf' | ⟨w, buf', count'⟩
    · simp only at hP
      rw [if_pos hP.1, hP.2]; rfl
    · simp only at hP
      obtain ⟨h1, h2, h3⟩ := hP
      subst h2
      rw [if_neg (by omega)]
      exact ih _ _ _ h1 h3

theorem randState_eq {n : Nat} (p : Params) (lo hi fuel : Nat) (st : Inc) (buf : Vector Nat n)
    (hlo : lo ≤ hi) (hhi : hi < 256) (hn : 0 < n) :
    randState p lo hi fuel st buf =
      sampleRec p (bitsToRepresent (hi - lo)) lo (hi - lo) n fuel st [] := by
  unfold randState
  have hu : u8 (hi - lo) = hi - lo := by unfold u8; omega
  rw [hu]
  have hb : bitsToRepresent (hi - lo) ≤ 8 := by
    by_cases h0 : hi - lo = 0
    · rw [h0]; decide
    · obtain ⟨d, h1, h2, h3, h4⟩ := exists_bits 8 (hi - lo) (by omega) (by omega)
      rw [bitsToRepresent_of_range h1 (by omega) h3 h4]; exact h2
  exact sampleLoop_eq p lo (hi - lo) _ (by omega) hb fuel st buf [] hn (by intro k hk; simp at hk)

/-- The sampler's result does not depend on what the buffer held. -/
theorem randState_stale {n : Nat} (p : Params) (lo hi fuel : Nat) (st : Inc) (buf buf' : Vector Nat n)
    (hlo : lo ≤ hi) (hhi : hi < 256) (hn : 0 < n) :
    randState p lo hi fuel st buf = randState p lo hi fuel st buf' := by
  rw [randState_eq p lo hi fuel st buf hlo hhi hn, randState_eq p lo hi fuel st buf' hlo hhi hn]

theorem acc1_mem {b lo span word m x : Nat} (h : x ∈ acc1 b lo span word m) : lo ≤ x ∧ x ≤ lo + span := by
  unfold acc1 at h
  simp only [List.mem_map, List.mem_filter, decide_eq_true_eq] at h
  obtain ⟨y, ⟨_, h1⟩, rfl⟩ := h
  omega

theorem sampleRec_wp (p : Params) (b lo span n fuel : Nat) (st : Inc) (acc : List Nat)
    (hacc : ∀ x ∈ acc, lo ≤ x ∧ x ≤ lo + span) :
    Wp True (sampleRec p b lo span n fuel st acc) (fun r => ∀ i, i < n → lo ≤ g r.1 i ∧ g r.1 i ≤ lo + span) := by
  induction fuel generalizing st acc with
  | zero => trivial
  | succ fuel ih =>
    unfold sampleRec
    have hall : ∀ x ∈ acc ++ acc1 b lo span (leNat (csprngBytes p 8 st).1) (64 / b),
        lo ≤ x ∧ x ≤ lo + span := by
      intro x hx
      rcases List.mem_append.mp hx with h | h
      · exact hacc x h
      · exact acc1_mem h
    simp only [Wp.ite_iff, Wp.ok_iff]
    refine ⟨fun hn i hi => ?_, fun hn => ih _ _ hall⟩
    rw [arr, g_ofFn _ _ hi]
    simp only
    have hlen : i < ((acc ++ acc1 b lo span (leNat (csprngBytes p 8 st).1) (64 / b)).take n).length := by
      rw [List.length_take]; omega
    rw [List.getD_eq_getElem?_getD, List.getElem?_eq_getElem hlen]
    exact hall _ (List.mem_of_mem_take (List.getElem_mem hlen))

theorem randState_wp {n : Nat} (p : Params) (lo hi fuel : Nat) (st : Inc) (buf : Vector Nat n)
    (hlo : lo ≤ hi) (hhi : hi < 256) (hn : 0 < n) :
    Wp True (randState p lo hi fuel st buf) (fun r => ∀ i, i < n → lo ≤ g r.1 i ∧ g r.1 i ≤ hi) := by
  rw [randState_eq p lo hi fuel st buf hlo hhi hn]
  refine (sampleRec_wp p _ lo (hi - lo) n fuel st [] (by simp)).mono ?_
  intro r hr i hi
  have := hr i hi
  omega

end LESS
