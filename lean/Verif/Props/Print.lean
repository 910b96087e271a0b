import Verif.Model.Print
import Verif.Spec.Numbers
import Verif.Proofs.Monomial
/-!
# What the printing functions print (C74)
-/
namespace LESS

open Spec

variable {p : Params}

/-! ## Reading decimal numbers back -/

theorem digit_props : ∀ d < 10, ('0' ≤ Char.ofNat (48 + d) ∧ Char.ofNat (48 + d) ≤ '9') ∧
    (Char.ofNat (48 + d)).toNat - '0'.toNat = d := by decide

theorem scan_digit (cur : Option Nat) (d : Nat) (hd : d < 10) (s : List Char) :
    scan cur (Char.ofNat (48 + d) :: s) = scan (some (10 * cur.getD 0 + d)) s := by
  obtain ⟨h1, h2⟩ := digit_props d hd
  rw [scan, if_pos h1, h2]

theorem scan_decimal (n : Nat) (s : List Char) : scan none (decimal n ++ s) = scan (some n) s ∧
    scan (some 0) (decimal n ++ s) = scan (some n) s := by
  induction n using Nat.strongRecOn generalizing s with
  | ind n ih =>
    rw [decimal]
    split
    · rename_i h
      rw [List.cons_append, List.nil_append, scan_digit _ _ h, scan_digit _ _ h]
      simp
    · rename_i h
      have e : 10 * (n / 10) + n % 10 = n := Nat.div_add_mod n 10
      obtain ⟨h1, h2⟩ := ih (n / 10) (by omega) ([Char.ofNat (48 + n % 10)] ++ s)
      rw [List.append_assoc, h1, h2, List.cons_append, List.nil_append, scan_digit _ _ (by omega)]
      simp [e]

theorem scan_zeros (k n : Nat) (s : List Char) : scan none (List.replicate k '0' ++ (decimal n ++ s)) = scan (some n) s := by
  have h0 : ∀ k s, scan (some 0) (List.replicate k '0' ++ s) = scan (some 0) s := by
    intro k
    induction k with
    | zero => intro s; rfl
    | succ k ih => intro s; rw [List.replicate_succ, List.cons_append]; exact (scan_digit (some 0) 0 (by decide) _).trans (ih s)
  cases k with
  | zero => exact (scan_decimal n s).1
  | succ k =>
    rw [List.replicate_succ, List.cons_append]
    refine (scan_digit none 0 (by decide) _).trans ?_
    show scan (some 0) _ = _
    rw [h0]
    exact (scan_decimal n s).2

/-- The text `t` contains the numbers `l` and does not end in a digit. -/
def Holds (t : List Char) (l : List Nat) : Prop := ∀ s, scan none (t ++ s) = l ++ scan none s

theorem Holds.append {t u : List Char} {a b : List Nat} (h : Holds t a) (h' : Holds u b) : Holds (t ++ u) (a ++ b) := by
  intro s
  rw [List.append_assoc, h, h', List.append_assoc]

theorem Holds.nil : Holds [] [] := fun _ => rfl

theorem Holds.numbers {t : List Char} {l : List Nat} (h : Holds t l) : numbers t = l := by
  have := h []
  rw [List.append_nil] at this
  rw [Spec.numbers, this]
  simp [scan]

/-- A text without digits. -/
theorem holds_plain : ∀ u : List Char, (∀ c ∈ u, ¬ ('0' ≤ c ∧ c ≤ '9')) → Holds u [] := by
  intro u
  induction u with
  | nil => intro _; exact .nil
  | cons c u ih =>
    intro h s
    rw [List.cons_append, scan, if_neg (h c (by simp))]
    exact ih (fun c hc => h c (by simp [hc])) s

/-- A conversion specification that writes a number so that it is read back. -/
def Fmt (fmt : Nat → List Char) : Prop := ∀ n s, scan none (fmt n ++ s) = scan (some n) s

theorem fmt_decimal : Fmt decimal := fun n s => (scan_decimal n s).1

theorem fmt_decimal3 : Fmt decimal3 := by
  intro n s
  unfold decimal3
  rw [List.append_assoc]
  exact scan_zeros _ _ _

/-- A number followed by a text without digits that is not empty. -/
theorem holds_number {fmt : Nat → List Char} (hf : Fmt fmt) (n : Nat) (c : Char) (u : List Char)
    (h : ∀ d ∈ c :: u, ¬ ('0' ≤ d ∧ d ≤ '9')) : Holds (fmt n ++ (c :: u)) [n] := by
  intro s
  rw [List.append_assoc, hf, List.cons_append, scan, if_neg (h c (by simp))]
  have := holds_plain u (fun d hd => h d (by simp [hd])) s
  rw [this]
  rfl

/-! ## Rows and matrices -/

theorem printRow_wp {n : Nat} (hn : 0 < n) {fmt : Nat → List Char} (hf : Fmt fmt) (v : Vector Nat n) (c : Char) (u : List Char)
    (h : ∀ d ∈ c :: u, ¬ ('0' ≤ d ∧ d ≤ '9')) (t : List Char) :
    Wp False (printRow fmt v (c :: u) t) (fun o => ∃ r, o = t ++ r ∧ Holds r ((List.range n).map (g v))) := by
  unfold printRow
  rw [Wp.bind_iff]
  refine Wp.forUp (fun k o => ∃ r, o = t ++ r ∧ Holds r ((List.range k).map (g v))) ⟨[], by simp, .nil⟩ ?_ ?_
  · rintro i _ hi ⟨r, rfl, hr⟩
    rw [Wp.bind_iff, Wp.rd_iff]
    refine ⟨by omega, ?_⟩
    rw [Wp.pure_iff]
    refine ⟨r ++ (fmt (g v i) ++ ", ".toList), by simp, ?_⟩
    rw [List.range_succ, List.map_append]
    exact hr.append (holds_number hf _ _ _ (by decide))
  · rintro _ ⟨r, rfl, hr⟩
    rw [Wp.bind_iff, Wp.rd_iff]
    refine ⟨by omega, ?_⟩
    rw [Wp.pure_iff]
    refine ⟨r ++ (fmt (g v (n - 1)) ++ (c :: u)), by simp, ?_⟩
    obtain ⟨k, rfl⟩ : ∃ k, n = k + 1 := ⟨n - 1, by omega⟩
    rw [List.range_succ, List.map_append]
    exact hr.append (holds_number hf _ _ _ h)

theorem printRows_wp {r c : Nat} (hr : 0 < r) (hc : 0 < c) (M : Vector (Vector Nat c) r) (ch : Char) (u : List Char)
    (h : ∀ d ∈ ch :: u, ¬ ('0' ≤ d ∧ d ≤ '9')) (t : List Char) :
    Wp False (printRows M (ch :: u) t) (fun o => ∃ x, o = t ++ x ∧ Holds x (entries r c (g2 M))) := by
  have hb : Holds "[".toList [] := holds_plain _ (by decide)
  have hrow : ∀ i < r, (List.range c).map (g (g M i)) = (List.range c).map (g2 M i) := by
    intro i hi
    apply List.map_congr_left
    intro j _
    unfold g2
    rw [dif_pos hi]
    unfold g
    rw [dif_pos hi]
  unfold printRows
  rw [Wp.bind_iff]
  refine Wp.forUp (fun k o => ∃ x, o = t ++ x ∧ Holds x (entries k c (g2 M))) ⟨[], by simp, .nil⟩ ?_ ?_
  · rintro i _ hi ⟨x, rfl, hx⟩
    rw [Wp.bind_iff, Wp.rd_iff]
    refine ⟨by omega, ?_⟩
    refine (printRow_wp hc fmt_decimal _ _ _ (by decide) _).mono ?_
    rintro _ ⟨y, rfl, hy⟩
    rw [hrow _ (by omega)] at hy
    refine ⟨x ++ ("[".toList ++ y), by simp, ?_⟩
    unfold entries
    rw [List.range_succ, List.flatMap_append, List.flatMap_singleton]
    exact hx.append (hb.append hy)
  · rintro _ ⟨x, rfl, hx⟩
    rw [Wp.bind_iff, Wp.rd_iff]
    refine ⟨by omega, ?_⟩
    refine (printRow_wp hc fmt_decimal _ _ _ h _).mono ?_
    rintro _ ⟨y, rfl, hy⟩
    rw [hrow _ (by omega)] at hy
    refine ⟨x ++ ("[".toList ++ y), by simp, ?_⟩
    obtain ⟨k, rfl⟩ : ∃ k, r = k + 1 := ⟨r - 1, by omega⟩
    unfold entries
    rw [List.range_succ, List.flatMap_append, List.flatMap_singleton]
    exact hx.append (hb.append hy)

theorem toList_map_range {n : Nat} (v : Vector Nat n) : (List.range n).map (g v) = v.toList := by
  apply List.ext_getElem
  · simp
  · intro i h1 h2
    have : i < n := by simpa using h1
    simp [g, this]

theorem entries_inj {r c : Nat} {a b : Nat → Nat → Nat} (h : entries r c a = entries r c b) :
    ∀ i < r, ∀ j < c, a i j = b i j := by
  have key : ∀ n, entries n c a = entries n c b → ∀ i < n, ∀ j < c, a i j = b i j := by
    intro n
    induction n with
    | zero => intro _ i hi; omega
    | succ n ih =>
      intro h i hi j hj
      unfold entries at h
      rw [List.range_succ, List.flatMap_append, List.flatMap_append, List.flatMap_singleton, List.flatMap_singleton] at h
      obtain ⟨h1, h2⟩ := List.append_inj' h (by simp)
      by_cases e : i = n
      · subst e
        have := List.map_inj_left.mp h2 j (List.mem_range.mpr hj)
        exact this
      · exact ih h1 i (by omega) j hj
  exact key r h

/-! ## C74 -/

/-- Printing a generator matrix writes the name and a text whose numbers are the entries, row by row. -/
theorem C74_generator (hp : p.WF) (name : List Char) (G : GenMat p) :
    ∃ t, generatorPrettyPrintName name G = .ok (name ++ t) ∧ numbers t = entries p.K p.N (g2 G) := by
  have hK := hp.K_pos
  have hKN := hp.K_lt_N
  obtain ⟨o, e, x, rfl, hx⟩ := (printRows_wp (by omega) (by omega) G ' ' "] ])\n".toList (by decide) (name ++ " = M([".toList)).exists_ok
  refine ⟨" = M([".toList ++ x, ?_, ?_⟩
  · rw [← List.append_assoc]; exact e
  · exact ((holds_plain _ (by decide)).append hx).numbers

/-- Printing a monomial writes the name and a text whose numbers are the permutation and then the coefficients. -/
theorem C74_monomial (hp : p.WF) (name : List Char) (m : Monomial p) :
    ∃ t, monomialPrettyPrintName name m = .ok (name ++ t) ∧ numbers t = m.permutation.toList ++ m.coefficients.toList := by
  have hKN := hp.K_lt_N
  have : Wp False (monomialPrettyPrintName name m) (fun o => ∃ t, o = name ++ t ∧
      Holds t (m.permutation.toList ++ m.coefficients.toList)) := by
    unfold monomialPrettyPrintName
    rw [Wp.bind_iff]
    refine (printRow_wp (by omega) fmt_decimal3 _ ' ' "]\n".toList (by decide) _).mono ?_
    rintro _ ⟨x, rfl, hx⟩
    refine (printRow_wp (by omega) fmt_decimal3 _ ' ' "]\n".toList (by decide) _).mono ?_
    rintro _ ⟨y, rfl, hy⟩
    rw [toList_map_range] at hx hy
    refine ⟨(" = [".toList ++ x) ++ ("coeffs = [".toList ++ y), by simp, ?_⟩
    exact ((holds_plain " = [".toList (by decide)).append hx).append ((holds_plain "coeffs = [".toList (by decide)).append hy)
  obtain ⟨o, e, t, rfl, h⟩ := this.exists_ok
  exact ⟨t, e, h.numbers⟩

/-- Printing a matrix in reduced form writes the name and a text whose numbers are the entries of the dense columns, row
by row, and then the first `K` column numbers.  These are all of them because `N - K = K` in every parameter set; the
loop would leave the array otherwise. -/
theorem C74_rref (hp : p.WF) (hNK : p.N - p.K = p.K) (name : List Char) (G : RrefMat p) :
    ∃ t, generatorRrefPrettyPrintName name G = .ok (name ++ t) ∧
      numbers t = entries p.K (p.N - p.K) (g2 G.values) ++ G.columnPos.toList := by
  have hK := hp.K_pos
  have hKN := hp.K_lt_N
  have : Wp False (generatorRrefPrettyPrintName name G) (fun o => ∃ t, o = name ++ t ∧
      Holds t (entries p.K (p.N - p.K) (g2 G.values) ++ G.columnPos.toList)) := by
    unfold generatorRrefPrettyPrintName
    rw [Wp.bind_iff]
    refine (printRows_wp (by omega) (by omega) G.values ' ' "] ]\n".toList (by decide) _).mono ?_
    rintro _ ⟨x, rfl, hx⟩
    rw [Wp.bind_iff]
    have h1 : Holds (" =\n[".toList ++ x ++ "column_pos = \n [ ".toList) (entries p.K (p.N - p.K) (g2 G.values)) := by
      have := ((holds_plain " =\n[".toList (by decide)).append hx).append (holds_plain "column_pos = \n [ ".toList (by decide))
      rwa [List.nil_append, List.append_nil] at this
    refine Wp.forUp (fun k o => ∃ t, o = name ++ t ∧
      Holds t (entries p.K (p.N - p.K) (g2 G.values) ++ (List.range k).map (g G.columnPos))) ⟨" =\n[".toList ++ x ++ "column_pos = \n [ ".toList,
        by simp only [List.append_assoc], ?_⟩ ?_ ?_
    · rw [List.range_zero, List.map_nil, List.append_nil]; exact h1
    · rintro i _ hi ⟨t, rfl, ht⟩
      rw [Wp.bind_iff, Wp.rd_iff]
      refine ⟨by omega, ?_⟩
      rw [Wp.pure_iff]
      refine ⟨t ++ (" ".toList ++ (decimal (g G.columnPos i) ++ " ".toList)), by simp, ?_⟩
      rw [List.range_succ, List.map_append, ← List.append_assoc (entries _ _ _)]
      exact ht.append ((holds_plain " ".toList (by decide)).append (holds_number fmt_decimal _ ' ' [] (by decide)))
    · rintro _ ⟨t, rfl, ht⟩
      rw [Wp.pure_iff]
      refine ⟨t ++ "]\n".toList, by simp, ?_⟩
      have := ht.append (holds_plain "]\n".toList (by decide))
      rw [List.append_nil] at this
      have hr : List.range (p.N - p.K) = List.range p.K := by rw [hNK]
      rw [← toList_map_range, hr]
      exact this
  obtain ⟨o, e, t, rfl, h⟩ := this.exists_ok
  exact ⟨t, e, h.numbers⟩

/-- So the text identifies the object: two generator matrices, two monomials or two reduced matrices printed under the
same name with equal texts are equal. -/
theorem C74_identifies (hp : p.WF) (name : List Char) :
    (∀ G H : GenMat p, generatorPrettyPrintName name G = generatorPrettyPrintName name H → G = H) ∧
    (∀ m m' : Monomial p, monomialPrettyPrintName name m = monomialPrettyPrintName name m' → m = m') ∧
    (p.N - p.K = p.K → ∀ A B : RrefMat p, generatorRrefPrettyPrintName name A = generatorRrefPrettyPrintName name B → A = B) := by
  refine ⟨fun G H h => ?_, fun m m' h => ?_, fun hNK A B h => ?_⟩
  · obtain ⟨t, e, ht⟩ := C74_generator hp name G
    obtain ⟨u, e', hu⟩ := C74_generator hp name H
    rw [e, e'] at h
    obtain rfl : t = u := List.append_cancel_left (Except.ok.inj h)
    rw [ht] at hu
    exact mat_ext fun i j hi hj => entries_inj hu i hi j hj
  · obtain ⟨t, e, ht⟩ := C74_monomial hp name m
    obtain ⟨u, e', hu⟩ := C74_monomial hp name m'
    rw [e, e'] at h
    obtain rfl : t = u := List.append_cancel_left (Except.ok.inj h)
    rw [ht] at hu
    obtain ⟨h1, h2⟩ := List.append_inj hu (by simp)
    obtain ⟨c, q⟩ := m
    obtain ⟨c', q'⟩ := m'
    obtain rfl : q = q' := Vector.toList_inj.mp h1
    obtain rfl : c = c' := Vector.toList_inj.mp h2
    rfl
  · obtain ⟨t, e, ht⟩ := C74_rref hp hNK name A
    obtain ⟨u, e', hu⟩ := C74_rref hp hNK name B
    rw [e, e'] at h
    obtain rfl : t = u := List.append_cancel_left (Except.ok.inj h)
    rw [ht] at hu
    obtain ⟨h1, h2⟩ := List.append_inj' hu (by simp)
    obtain ⟨c, q⟩ := A
    obtain ⟨c', q'⟩ := B
    obtain rfl : q = q' := Vector.toList_inj.mp h2
    obtain rfl : c = c' := mat_ext fun i j hi hj => entries_inj h1 i hi j hj
    rfl

/-- The hypothesis of the part about reduced matrices. -/
theorem C74_square : ∀ p ∈ Params.all, p.N - p.K = p.K := by decide

/-- The matrix printed by the expanded form. -/
theorem C74_expanded (hp : p.WF) (name : List Char) (m : Monomial p) (hm : m.Valid) :
    ∃ t, monomialPrintExpName name m = .ok (name ++ t) ∧
      numbers t = entries p.N p.N (fun i j => if g m.permutation j = i then g m.coefficients j else 0) := by
  have hKN := hp.K_lt_N
  have : Wp False (monomialPrintExpName name m) (fun o => ∃ t, o = name ++ t ∧
      Holds t (entries p.N p.N (fun i j => if g m.permutation j = i then g m.coefficients j else 0))) := by
    unfold monomialPrintExpName
    rw [Wp.bind_iff]
    refine Wp.forUp (fun n (mu : Vector (Vector Nat p.N) p.N) => ∀ i j, i < p.N → j < p.N →
      g2 mu i j = if j < n ∧ g m.permutation j = i then g m.coefficients j else 0) ?_ ?_ ?_
    · intro i j hi hj
      rw [if_neg (by omega)]
      unfold g2
      rw [dif_pos hi]
      simp [g, hj]
    · intro k mu hk h
      have hd := hm.1.1 k hk
      simp only [Wp.bind_iff, Wp.rd_iff, Wp.wr2_iff]
      refine ⟨hk, hk, hd, hk, fun i j hi hj => ?_⟩
      rw [g2_upd2 _ _ _ _ _ _ hd hk]
      by_cases e : g m.permutation k = i ∧ k = j
      · rw [if_pos e]
        obtain ⟨e1, rfl⟩ := e
        rw [if_pos ⟨by omega, e1⟩]
      · rw [if_neg e, h i j hi hj]
        by_cases e' : j < k ∧ g m.permutation j = i
        · rw [if_pos e', if_pos ⟨by omega, e'.2⟩]
        · rw [if_neg e', if_neg]
          rintro ⟨h1, h2⟩
          by_cases hjk : j = k
          · subst hjk; exact e ⟨h2, rfl⟩
          · exact e' ⟨by omega, h2⟩
    · intro mu h
      refine (printRows_wp (by omega) (by omega) mu ' ' "] ])\n".toList (by decide) _).mono ?_
      rintro _ ⟨x, rfl, hx⟩
      refine ⟨" = Mon([".toList ++ x, by simp, ?_⟩
      have hx' : entries p.N p.N (g2 mu) = entries p.N p.N (fun i j => if g m.permutation j = i then g m.coefficients j else 0) := by
        unfold entries
        apply List.flatMap_congr
        intro i hi
        apply List.map_congr_left
        intro j hj
        rw [List.mem_range] at hi hj
        rw [h i j hi hj]
        simp only [hj, true_and]
      rw [← hx']
      exact (holds_plain " = Mon([".toList (by decide)).append hx
  obtain ⟨o, e, t, rfl, h⟩ := this.exists_ok
  exact ⟨t, e, h.numbers⟩

/-- What is printed is the transpose of the matrix by which `generator_monomial_mul` multiplies (`Monomial.mat`), and the
two are the same only for symmetric matrices. -/
theorem C74_fails_expanded (hp : p.WF) (name : List Char) (m : Monomial p) (hm : m.Valid) :
    ∃ t, monomialPrintExpName name m = .ok (name ++ t) ∧ ∀ a : Nat → Nat → Nat, numbers t = entries p.N p.N a →
      (∀ i j : Fin p.N, ((a i j : Nat) : ZMod 127) = m.mat j i) ∧
      ((∀ i j : Fin p.N, ((a i j : Nat) : ZMod 127) = m.mat i j) → m.mat.transpose = m.mat) := by
  obtain ⟨t, e, h⟩ := C74_expanded hp name m hm
  refine ⟨t, e, fun a ha => ?_⟩
  rw [ha] at h
  have key : ∀ i j : Fin p.N, ((a i j : Nat) : ZMod 127) = m.mat j i := by
    intro i j
    rw [entries_inj h i i.2 j j.2]
    unfold Monomial.mat
    split <;> simp
  refine ⟨key, fun h' => ?_⟩
  ext i j
  rw [Matrix.transpose_apply, ← key, h']

/-- The rotation by one place: a valid monomial whose matrix is not symmetric. -/
example : ∃ m : Monomial Params.cat1Balanced, m.Valid ∧ m.mat.transpose ≠ m.mat := by
  have hN : Params.cat1Balanced.N = 252 := rfl
  let m : Monomial Params.cat1Balanced := ⟨Vector.ofFn fun _ => 1, Vector.ofFn fun i => (i.val + 1) % 252⟩
  have hc : ∀ i, i < Params.cat1Balanced.N → g m.coefficients i = 1 := fun i hi => g_ofFn _ _ hi
  have hq : ∀ i, i < Params.cat1Balanced.N → g m.permutation i = (i + 1) % 252 := fun i hi => g_ofFn _ _ hi
  refine ⟨m, ⟨⟨fun i hi => ?_, fun i j hi hj h => ?_⟩, fun i hi => ?_⟩, fun h => ?_⟩
  · rw [hq i hi]; omega
  · rw [hq i hi, hq j hj] at h; omega
  · rw [hc i hi]; decide
  · have := congrFun (congrFun h ⟨1, by decide⟩) ⟨0, by decide⟩
    rw [Matrix.transpose_apply] at this
    unfold Monomial.mat at this
    rw [hq _ (by decide), hq _ (by decide), hc _ (by decide), hc _ (by decide), if_pos (by decide), if_neg (by decide)] at this
    exact absurd this (by decide)

/-- What is written for a small monomial. -/
example : (monomialPrettyPrintName "M1".toList (⟨#v[1, 126, 7], #v[2, 0, 1]⟩ : Monomial ⟨.one, 3, 1, 2, 2, 1, 1⟩)).toOption.map String.ofList =
    some "M1 = [002, 000, 001 ]\ncoeffs = [001, 126, 007 ]\n" := by decide +kernel

end LESS
