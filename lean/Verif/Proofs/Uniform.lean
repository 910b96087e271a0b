import Mathlib.SetTheory.Cardinal.Finite
import Verif.Proofs.Stream
/-! # Counting the generator outputs on which a sampler gives a certain result -/
namespace LESS

open Spec

/-! ## Exchanging accepted fields -/

/-- `x` and `y` exchanged. -/
def swp (x y f : Nat) : Nat := if f = x then y else if f = y then x else f

theorem swp_swp (x y f : Nat) : swp x y (swp x y f) = f := by
  unfold swp; split_ifs <;> omega

theorem swp_le {S x y : Nat} (hx : x ≤ S) (hy : y ≤ S) (f : Nat) : swp x y f ≤ S ↔ f ≤ S := by
  unfold swp; split_ifs <;> omega

/-- The `j`-th field not above `S` goes through the exchange of the `j`-th pair; the others stay. -/
def swapL (S : Nat) : List (Nat × Nat) → List Nat → List Nat
  | [], F => F
  | _ :: _, [] => []
  | q :: ps, f :: F => if f ≤ S then swp q.1 q.2 f :: swapL S ps F else f :: swapL S (q :: ps) F

/-- Both components of all pairs are at most `S`. -/
def PairsLe (S : Nat) (ps : List (Nat × Nat)) : Prop := ∀ q ∈ ps, q.1 ≤ S ∧ q.2 ≤ S

theorem swapL_nil (S : Nat) (ps : List (Nat × Nat)) : swapL S ps [] = [] := by cases ps <;> rfl

theorem swapL_length (S : Nat) (ps : List (Nat × Nat)) (F : List Nat) : (swapL S ps F).length = F.length := by
  induction F generalizing ps with
  | nil => rw [swapL_nil]
  | cons f F ih =>
    cases ps with
    | nil => rfl
    | cons q ps => unfold swapL; split <;> simp [ih]

theorem swapL_swapL {S : Nat} {ps : List (Nat × Nat)} (h : PairsLe S ps) (F : List Nat) :
    swapL S ps (swapL S ps F) = F := by
  induction F generalizing ps with
  | nil => rw [swapL_nil, swapL_nil]
  | cons f F ih =>
    cases ps with
    | nil => rfl
    | cons q ps =>
      have hq := h q (List.mem_cons_self)
      have hps : PairsLe S ps := fun r hr => h r (List.mem_cons_of_mem _ hr)
      by_cases hf : f ≤ S
      · rw [swapL, if_pos hf, swapL, if_pos ((swp_le hq.1 hq.2 f).mpr hf), swp_swp, ih hps]
      · rw [swapL, if_neg hf, swapL, if_neg hf, ih h]

theorem swapL_lt {S : Nat} (hS : S < 128) {ps : List (Nat × Nat)} (h : PairsLe S ps) {F : List Nat} (hF : ∀ f ∈ F, f < 128) :
    ∀ f ∈ swapL S ps F, f < 128 := by
  induction F generalizing ps with
  | nil => rw [swapL_nil]; simp
  | cons f F ih =>
    have hF' : ∀ x ∈ F, x < 128 := fun x hx => hF x (List.mem_cons_of_mem _ hx)
    cases ps with
    | nil => exact hF
    | cons q ps =>
      have hq := h q (List.mem_cons_self)
      have hps : PairsLe S ps := fun r hr => h r (List.mem_cons_of_mem _ hr)
      rw [swapL]
      split
      · rename_i hf
        intro x hx
        rcases List.mem_cons.mp hx with rfl | hx
        · have := (swp_le hq.1 hq.2 f).mpr hf; omega
        · exact ih hps hF' x hx
      · intro x hx
        rcases List.mem_cons.mp hx with rfl | hx
        · exact hF _ (List.mem_cons_self)
        · exact ih h hF' x hx

theorem swapL_filter {S : Nat} {ps : List (Nat × Nat)} (h : PairsLe S ps) (F : List Nat) :
    (swapL S ps F).filter (· ≤ S) = swapL S ps (F.filter (· ≤ S)) := by
  induction F generalizing ps with
  | nil => rw [swapL_nil]; simp [swapL_nil]
  | cons f F ih =>
    cases ps with
    | nil => simp [swapL]
    | cons q ps =>
      have hq := h q (List.mem_cons_self)
      have hps : PairsLe S ps := fun r hr => h r (List.mem_cons_of_mem _ hr)
      by_cases hf : f ≤ S
      · have h2 := (swp_le hq.1 hq.2 f).mpr hf
        rw [swapL, if_pos hf, List.filter_cons_of_pos (by simpa using h2), List.filter_cons_of_pos (by simpa using hf), swapL,
          if_pos hf, ih hps]
      · rw [swapL, if_neg hf, List.filter_cons_of_neg (by simpa using hf), List.filter_cons_of_neg (by simpa using hf), ih h]

theorem swapL_append (S : Nat) (ps : List (Nat × Nat)) (F G : List Nat) :
    swapL S ps (F ++ G) = swapL S ps F ++ swapL S (ps.drop (F.filter (· ≤ S)).length) G := by
  induction F generalizing ps with
  | nil => rw [swapL_nil]; simp
  | cons f F ih =>
    cases ps with
    | nil => simp [swapL]
    | cons q ps =>
      by_cases hf : f ≤ S
      · rw [List.cons_append, swapL, if_pos hf, swapL, if_pos hf, List.filter_cons_of_pos (by simpa using hf), List.length_cons,
          List.drop_succ_cons, ih, List.cons_append]
      · rw [List.cons_append, swapL, if_neg hf, swapL, if_neg hf, List.filter_cons_of_neg (by simpa using hf), ih, List.cons_append]

theorem swapL_take {S : Nat} {a b : List Nat} (hl : a.length = b.length) {L : List Nat} (hL : ∀ x ∈ L, x ≤ S) (h : L.take a.length = a) :
    (swapL S (a.zip b) L).take a.length = b := by
  induction a generalizing b L with
  | nil => cases b with
    | nil => simp
    | cons _ _ => simp at hl
  | cons x a ih =>
    cases b with
    | nil => simp at hl
    | cons y b =>
      cases L with
      | nil => simp at h
      | cons z L =>
        simp only [List.length_cons, List.take_succ_cons, List.cons.injEq] at h
        obtain ⟨rfl, h⟩ := h
        have hz : z ≤ S := hL z (List.mem_cons_self)
        rw [List.zip_cons_cons, swapL, if_pos hz, List.length_cons, List.take_succ_cons,
          ih (by simpa using hl) (fun x hx => hL x (List.mem_cons_of_mem _ hx)) h]
        simp [swp]

/-! ## Words and fields -/

/-- The number with the given digits in base 128. -/
def unf : List Nat → Nat
  | [] => 0
  | f :: F => f + 128 * unf F

theorem unf_lt {F : List Nat} (h : ∀ f ∈ F, f < 128) : unf F < 128 ^ F.length := by
  induction F with
  | nil => simp [unf]
  | cons f F ih =>
    have h1 := h f (List.mem_cons_self)
    have h2 := ih (fun x hx => h x (List.mem_cons_of_mem _ hx))
    rw [unf, List.length_cons, Nat.pow_succ]
    omega

theorem fields_unf (F : List Nat) (h : ∀ f ∈ F, f < 128) (t : Nat) :
    ((List.range F.length).map fun k => (unf F + 128 ^ F.length * t) / 2 ^ (7 * k) % 2 ^ 7) = F := by
  induction F with
  | nil => rfl
  | cons f F ih =>
    have h1 := h f (List.mem_cons_self)
    rw [List.length_cons, List.range_succ_eq_map, List.map_cons, List.map_map]
    congr 1
    · rw [unf, Nat.pow_succ, Nat.mul_zero, Nat.pow_zero, Nat.div_one]
      have : 128 ^ F.length * 128 * t = 128 * (128 ^ F.length * t) := by ring
      rw [this]
      omega
    · rw [← ih (fun x hx => h x (List.mem_cons_of_mem _ hx))]
      simp only [List.length_map, List.length_range]
      apply List.map_congr_left
      intro k _
      rw [ih (fun x hx => h x (List.mem_cons_of_mem _ hx))]
      simp only [Function.comp_apply]
      congr 1
      rw [unf, show 2 ^ (7 * (k + 1)) = 2 ^ 7 * 2 ^ (7 * k) by rw [← Nat.pow_add]; congr 1; omega, ← Nat.div_div_eq_div_mul]
      congr 1
      have : 128 ^ (F.length + 1) * t = 128 * (128 ^ F.length * t) := by rw [Nat.pow_succ]; ring
      rw [this]
      omega

theorem unf_fields (w m : Nat) :
    unf ((List.range m).map fun k => w / 2 ^ (7 * k) % 2 ^ 7) + 128 ^ m * (w / 128 ^ m) = w := by
  induction m generalizing w with
  | zero => simp [unf]
  | succ m ih =>
    rw [List.range_succ_eq_map, List.map_cons, List.map_map, unf]
    have e : (List.range m).map ((fun k => w / 2 ^ (7 * k) % 2 ^ 7) ∘ Nat.succ) =
        (List.range m).map fun k => (w / 128) / 2 ^ (7 * k) % 2 ^ 7 := by
      apply List.map_congr_left
      intro k _
      simp only [Function.comp_apply]
      congr 1
      rw [Nat.succ_eq_add_one, Nat.mul_succ, Nat.add_comm (7 * k) 7, Nat.pow_add, ← Nat.div_div_eq_div_mul]
    rw [e]
    have h := ih (w / 128)
    have e2 : w / 128 ^ (m + 1) = w / 128 / 128 ^ m := by rw [Nat.pow_succ, Nat.mul_comm, Nat.div_div_eq_div_mul]
    rw [e2]
    have e3 : 128 ^ (m + 1) * (w / 128 / 128 ^ m) = 128 * (128 ^ m * (w / 128 / 128 ^ m)) := by rw [Nat.pow_succ]; ring
    rw [e3]
    simp only [Nat.mul_zero, Nat.pow_zero, Nat.div_one]
    omega

theorem fields7 (w : Nat) : fields 7 w = (List.range 9).map fun k => w / 2 ^ (7 * k) % 2 ^ 7 := rfl

theorem fields7_lt (w : Nat) : ∀ f ∈ fields 7 w, f < 128 := by
  intro f hf
  rw [fields7] at hf
  obtain ⟨k, -, rfl⟩ := List.mem_map.mp hf
  exact Nat.mod_lt _ (by decide)

theorem fields7_length (w : Nat) : (fields 7 w).length = 9 := by rw [fields7]; simp

/-- A word with its nine fields replaced; the topmost bit stays. -/
def withFields (F : List Nat) (w : Nat) : Nat := unf F + 128 ^ 9 * (w / 128 ^ 9)

theorem fields_withFields {F : List Nat} (hl : F.length = 9) (h : ∀ f ∈ F, f < 128) (w : Nat) : fields 7 (withFields F w) = F := by
  have := fields_unf F h (w / 128 ^ 9)
  rw [hl] at this
  exact this

theorem withFields_top {F : List Nat} (hl : F.length = 9) (h : ∀ f ∈ F, f < 128) (w : Nat) :
    withFields F w / 128 ^ 9 = w / 128 ^ 9 := by
  have := unf_lt h
  rw [hl] at this
  unfold withFields
  rw [Nat.add_mul_div_left _ _ (by decide), Nat.div_eq_of_lt this, Nat.zero_add]

theorem withFields_fields (w : Nat) : withFields (fields 7 w) w = w := unf_fields w 9

theorem withFields_lt {F : List Nat} (hl : F.length = 9) (h : ∀ f ∈ F, f < 128) {w : Nat} (hw : w < 2 ^ 64) :
    withFields F w < 2 ^ 64 := by
  have h1 := unf_lt h
  rw [hl] at h1
  unfold withFields
  have h2 : w / 128 ^ 9 < 2 := by rw [Nat.div_lt_iff_lt_mul (by decide)]; exact hw
  have h3 : (128 : Nat) ^ 9 * 2 = 2 ^ 64 := by decide
  generalize (128 : Nat) ^ 9 = B at *
  generalize w / B = t at *
  rw [← h3]
  rcases (show t = 0 ∨ t = 1 by omega) with rfl | rfl <;> omega

/-- The exchange applied to the fields of a sequence of words. -/
def swapW (S : Nat) : List (Nat × Nat) → List Nat → List Nat
  | _, [] => []
  | ps, w :: ws => withFields (swapL S ps (fields 7 w)) w ::
      swapW S (ps.drop ((fields 7 w).filter (· ≤ S)).length) ws

theorem PairsLe.drop {S : Nat} {ps : List (Nat × Nat)} (h : PairsLe S ps) (n : Nat) : PairsLe S (ps.drop n) :=
  fun q hq => h q (List.mem_of_mem_drop hq)

section
variable {S : Nat} (hS : S < 128)
include hS

theorem swapW_fields1 {ps : List (Nat × Nat)} (h : PairsLe S ps) (w : Nat) :
    fields 7 (withFields (swapL S ps (fields 7 w)) w) = swapL S ps (fields 7 w) :=
  fields_withFields (by rw [swapL_length, fields7_length]) (swapL_lt hS h (fields7_lt w)) w

theorem swapW_flat {ps : List (Nat × Nat)} (h : PairsLe S ps) (ws : List Nat) :
    (swapW S ps ws).flatMap (fields 7) = swapL S ps (ws.flatMap (fields 7)) := by
  induction ws generalizing ps with
  | nil => rw [swapW]; simp [swapL_nil]
  | cons w ws ih =>
    rw [swapW, List.flatMap_cons, List.flatMap_cons, swapL_append, ih (h.drop _), swapW_fields1 hS h]

theorem swapW_swapW {ps : List (Nat × Nat)} (h : PairsLe S ps) (ws : List Nat) : swapW S ps (swapW S ps ws) = ws := by
  induction ws generalizing ps with
  | nil => rfl
  | cons w ws ih =>
    rw [swapW, swapW, swapW_fields1 hS h, swapL_swapL h]
    have e : ((swapL S ps (fields 7 w)).filter (· ≤ S)).length = ((fields 7 w).filter (· ≤ S)).length := by
      rw [swapL_filter h, swapL_length]
    rw [e, ih (h.drop _)]
    congr 1
    have ht := withFields_top (F := swapL S ps (fields 7 w)) (by rw [swapL_length, fields7_length])
      (swapL_lt hS h (fields7_lt w)) w
    conv_rhs => rw [← withFields_fields w]
    unfold withFields at ht ⊢
    rw [ht]

theorem swapW_lt {ps : List (Nat × Nat)} (h : PairsLe S ps) {ws : List Nat} (hw : ∀ w ∈ ws, w < 2 ^ 64) :
    ∀ w ∈ swapW S ps ws, w < 2 ^ 64 := by
  induction ws generalizing ps with
  | nil => rw [swapW]; simp
  | cons w ws ih =>
    rw [swapW]
    intro x hx
    rcases List.mem_cons.mp hx with rfl | hx
    · exact withFields_lt (by rw [swapL_length, fields7_length]) (swapL_lt hS h (fields7_lt w)) (hw w (List.mem_cons_self))
    · exact ih (h.drop _) (fun x hx => hw x (List.mem_cons_of_mem _ hx)) x hx
end

theorem swapW_length (S : Nat) (ps : List (Nat × Nat)) (ws : List Nat) : (swapW S ps ws).length = ws.length := by
  induction ws generalizing ps with
  | nil => rfl
  | cons w ws ih => rw [swapW, List.length_cons, ih, List.length_cons]

/-! ## A sampler on given words -/

theorem flat_accept (b lo hi : Nat) (ws : List Nat) : ws.flatMap (accept b lo hi) =
    ((ws.flatMap (fields b)).filter (· ≤ hi - lo)).map (· + lo) := by
  induction ws with
  | nil => rfl
  | cons w ws ih => rw [List.flatMap_cons, List.flatMap_cons, List.filter_append, List.map_append, ih]; rfl

/-- The first `n` accepted values of a sequence of words, if there are that many. -/
def firstAccepted (lo hi n : Nat) (ws : List Nat) : Option (List Nat) :=
  if n ≤ (ws.flatMap (accept 7 lo hi)).length then some ((ws.flatMap (accept 7 lo hi)).take n) else none

theorem firstAccepted_swap {lo hi : Nat} (hS : hi - lo < 128) {a b : List Nat} (hl : a.length = b.length)
    (ha : ∀ x ∈ a, lo ≤ x ∧ x ≤ hi) (hb : ∀ x ∈ b, lo ≤ x ∧ x ≤ hi) {ws : List Nat}
    (h : firstAccepted lo hi a.length ws = some a) :
    firstAccepted lo hi a.length (swapW (hi - lo) ((a.map (· - lo)).zip (b.map (· - lo))) ws) = some b := by
  have hps : PairsLe (hi - lo) ((a.map (· - lo)).zip (b.map (· - lo))) := by
    rintro ⟨x, y⟩ hq
    obtain ⟨hx, hy⟩ := List.of_mem_zip hq
    obtain ⟨x', hx', rfl⟩ := List.mem_map.mp hx
    obtain ⟨y', hy', rfl⟩ := List.mem_map.mp hy
    have := ha x' hx'
    have := hb y' hy'
    dsimp only
    omega
  have hback : ∀ c : List Nat, (∀ x ∈ c, lo ≤ x ∧ x ≤ hi) → (c.map (· - lo)).map (· + lo) = c := by
    intro c hc
    rw [List.map_map]
    conv_rhs => rw [← List.map_id c]
    apply List.map_congr_left
    intro x hx
    have := hc x hx
    simp only [Function.comp_apply, id]
    omega
  unfold firstAccepted at h ⊢
  split at h
  · rename_i hn
    injection h with h
    rw [flat_accept] at h hn ⊢
    rw [swapW_flat hS hps, swapL_filter hps]
    rw [List.length_map] at hn
    rw [if_pos (by rw [List.length_map, swapL_length]; exact hn)]
    congr 1
    generalize hL : (ws.flatMap (fields 7)).filter (· ≤ hi - lo) = L at *
    have hLS : ∀ x ∈ L, x ≤ hi - lo := by
      intro x hx
      rw [← hL] at hx
      simpa using (List.mem_filter.mp hx).2
    have ht : L.take a.length = a.map (· - lo) := by
      conv_rhs => rw [← h, ← List.map_take, List.map_map]
      conv_lhs => rw [← List.map_id (L.take a.length)]
      apply List.map_congr_left
      intro x _
      simp
    have := swapL_take (S := hi - lo) (a := a.map (· - lo)) (b := b.map (· - lo)) (by simpa using hl) hLS (by
      rw [List.length_map]; exact ht)
    rw [List.length_map] at this
    rw [← List.map_take, this, hback b hb]
  · cases h

end LESS
