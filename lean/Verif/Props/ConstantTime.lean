import Verif.Model.Trace
import Verif.Proofs.Challenge
import Verif.Proofs.Lex
import Verif.Proofs.Overread
/-!
# Accesses that do not depend on the data (C42, C50)
-/
namespace LESS

variable {p : Params}

/-! ## Loops that record -/

theorem tr_bind {α β : Type} (x : Tr α) (f : α → Tr β) (l : List Access) : (x >>= f) l = (x l >>= fun r => f r.1 r.2) := rfl

theorem tforUp_run {σ : Type} (n : Nat) (body : Nat → σ → Tr σ) (cbody : Nat → σ → C σ) (log : Nat → σ → List Access)
    (h : ∀ i < n, ∀ s l, body i s l = (cbody i s >>= fun s' => .ok (s', log i s ++ l))) (s : σ) (l : List Access) :
    (tforUp n body s l).map Prod.fst = forUp n cbody s := by
  induction n generalizing l with
  | zero => rfl
  | succ n ih =>
    have h1 := ih (fun i hi => h i (by omega)) l
    show (tforUp n body s l >>= fun r => body n r.1 r.2).map Prod.fst = forUp n cbody s >>= cbody n
    rw [← h1]
    cases e : tforUp n body s l with
    | error x => rfl
    | ok r =>
      show (body n r.1 r.2).map Prod.fst = cbody n r.1
      rw [h n (by omega)]
      cases cbody n r.1 <;> rfl

/-- The accesses of a loop whose rounds always make the same ones. -/
theorem tforUp_log {σ : Type} (n : Nat) (body : Nat → σ → Tr σ) (cbody : Nat → σ → C σ) (log : Nat → List Access)
    (h : ∀ i < n, ∀ s l, body i s l = (cbody i s >>= fun s' => .ok (s', log i ++ l))) (s : σ) (l : List Access) :
    tforUp n body s l = (forUp n cbody s >>= fun s' => .ok (s', ((List.range n).reverse.flatMap log) ++ l)) := by
  induction n generalizing l with
  | zero => rfl
  | succ n ih =>
    have h1 := ih (fun i hi => h i (by omega)) l
    show (tforUp n body s l >>= fun r => body n r.1 r.2) = _
    rw [h1]
    show _ = ((forUp n cbody s >>= cbody n) >>= _)
    cases forUp n cbody s with
    | error x => rfl
    | ok r =>
      show body n r _ = cbody n r >>= _
      rw [h n (by omega)]
      congr 1
      funext s'
      rw [List.range_succ, List.reverse_append]
      simp

theorem trd_run {α : Type} {n : Nat} (arg : Nat) (v : Vector α n) (i : Nat) (l : List Access) :
    trd arg v i l = (rd v i >>= fun x => .ok (x, .read arg i 0 :: l)) := by
  unfold trd note rd
  split <;> rfl

theorem trd2_run {α : Type} {r c : Nat} (arg : Nat) (v : Vector (Vector α c) r) (i j : Nat) (l : List Access) :
    trd2 arg v i j l = (rd2 v i j >>= fun x => .ok (x, .read arg i j :: l)) := rfl

theorem twr2_run {α : Type} {r c : Nat} (arg : Nat) (v : Vector (Vector α c) r) (i j : Nat) (x : α) (l : List Access) :
    twr2 arg v i j x l = (wr2 v i j x >>= fun v' => .ok (v', .write arg i j :: l)) := rfl

/-! ## C42 -/

theorem timingSafeMemcmpT_run {n m : Nat} (a : Vector UInt8 n) (b : Vector UInt8 m) (len : Nat) (l : List Access) :
    timingSafeMemcmpT a b len l = (timingSafeMemcmp a b len >>= fun r =>
      .ok (r, ((List.range len).reverse.flatMap fun i => [.read 1 i 0, .read 0 i 0]) ++ l)) := by
  unfold timingSafeMemcmpT timingSafeMemcmp
  apply tforUp_log
  intro i _ s l
  rw [tr_bind, trd_run]
  cases e : rd a i with
  | error x => rfl
  | ok x =>
    show ((trd 1 b i >>= fun y => pure (s ||| b2n (x ≠ y)) : Tr Nat) (.read 0 i 0 :: l)) = _
    rw [tr_bind, trd_run]
    cases e : rd b i <;> rfl

/-- The comparison of two buffers of at least `len` bytes returns 0 if they agree on the first `len` bytes and 1
otherwise. -/
theorem C42_comparison_exact {n m : Nat} (a : Vector UInt8 n) (b : Vector UInt8 m) (len : Nat) (hn : len ≤ n) (hm : len ≤ m) :
    ∃ r, timingSafeMemcmp a b len = .ok r ∧ (r = 0 ∨ r = 1) ∧
      (r = 0 ↔ ∀ i (h : i < len), a[i] = b[i]) := by
  obtain ⟨r, e, h1, h2⟩ := (timingSafeMemcmp_wp (F := False) a b len hn hm).exists_ok
  refine ⟨r, e, h1, h2.trans ?_⟩
  constructor
  · intro h i hi
    have := h i hi
    rwa [g, g, dif_pos (by omega), dif_pos (by omega)] at this
  · intro h i hi
    rw [g, g, dif_pos (by omega), dif_pos (by omega)]
    exact h i hi

/-- The comparison reads byte 0 of both buffers, then byte 1 of both, and so on up to byte `len - 1`, whatever the
buffers contain, and its value is that of the model. -/
theorem C42_accesses_fixed {n m : Nat} (a : Vector UInt8 n) (b : Vector UInt8 m) (len : Nat) (hn : len ≤ n) (hm : len ≤ m) :
    ∃ r log, timingSafeMemcmpT a b len [] = .ok (r, log) ∧ timingSafeMemcmp a b len = .ok r ∧
      log.reverse = (List.range len).flatMap fun i => [.read 0 i 0, .read 1 i 0] := by
  obtain ⟨r, e, -⟩ := C42_comparison_exact a b len hn hm
  refine ⟨r, _, by rw [timingSafeMemcmpT_run, e]; rfl, e, ?_⟩
  rw [List.append_nil, List.reverse_flatMap, List.reverse_reverse]
  congr 1

/-- Digests of 32 bytes that differ in the last byte only. -/
example : timingSafeMemcmp (Vector.replicate 32 (7 : UInt8)) ((Vector.replicate 32 (7 : UInt8)).set 31 8) 32 = .ok 1 := by
  decide +kernel

/-! ## C50: `lex_minimize` -/

/-- Some entry of the column above row `n` is not zero. -/
def nzBefore (G : GenMat p) (col n : Nat) : Bool := (List.range n).any fun i => decide (g2 G i col ≠ 0)

theorem nzBefore_succ (G : GenMat p) (col n : Nat) :
    nzBefore G col (n + 1) = (nzBefore G col n || decide (g2 G n col ≠ 0)) := by
  unfold nzBefore; rw [List.range_succ, List.any_append]; simp

/-- How often row `i` of the column is read in the search for the first non-zero entry. -/
def searchReads (G : GenMat p) (col i : Nat) : Nat := if nzBefore G col i then 5 else 6

/-- The accesses of `lex_minimize`, exactly: row by row, the entry of the source column is read six times as long
as only zeros were found above it, five times afterwards; then, row by row, it is read once more and the entry of
the destination column is written.  The value computed is that of the model. -/
theorem C50_accesses (V : NormIS p) (dst : Nat) (G : GenMat p) (col : Nat) (hcol : col < p.N) (hdst : dst < p.N - p.K) :
    ∃ R log, lexMinimizeT V dst G col [] = .ok (R, log) ∧ lexMinimize V dst G col = .ok R ∧
      log.reverse = ((List.range p.K).flatMap fun i => List.replicate (searchReads G col i) (.read 2 i col)) ++
        (List.range p.K).flatMap fun i => [.read 2 i col, .write 0 i dst] := by
  have hrd : ∀ i < p.K, rd2 G i col = .ok (g2 G i col) := by
    intro i hi
    have : Wp False (rd2 G i col) (fun x => x = g2 G i col) := by
      rw [Wp.rd2_iff]; exact ⟨hi, hcol, rfl⟩
    exact this.eq_ok
  let cb : Nat → Nat × Bool → C (Nat × Bool) := fun i (s : Nat × Bool) => do
    let (val, found) := s
    let x ← rd2 G i col
    pure (u8 (x * b2n (x ≠ 0 && !found) + val * b2n (x = 0 || found)), found || x ≠ 0)
  let tb : Nat → Nat × Bool → Tr (Nat × Bool) := fun i (s : Nat × Bool) => do
    let (val, found) := s
    let _ ← trd2 2 G i col
    let _ ← trd2 2 G i col
    let _ ← trd2 2 G i col
    let _ ← trd2 2 G i col
    let x ← trd2 2 G i col
    let val := u8 (x * b2n (x ≠ 0 && !found) + val * b2n (x = 0 || found))
    if found then pure (val, true)
    else do
      let y ← trd2 2 G i col
      pure (val, decide (y ≠ 0))
  have hloop : ∀ n ≤ p.K, ∃ val, forUp n cb (0, false) = .ok (val, nzBefore G col n) ∧
      tforUp n tb (0, false) [] = .ok ((val, nzBefore G col n),
        (((List.range n).flatMap fun i => List.replicate (searchReads G col i) (.read 2 i col))).reverse) := by
    intro n
    induction n with
    | zero => intro _; exact ⟨0, rfl, rfl⟩
    | succ n ih =>
      intro hn
      obtain ⟨val, h1, h2⟩ := ih (by omega)
      have hr := hrd n (by omega)
      refine ⟨u8 (g2 G n col * b2n (g2 G n col ≠ 0 && !nzBefore G col n) + val * b2n (g2 G n col = 0 || nzBefore G col n)), ?_, ?_⟩
      · show forUp n cb (0, false) >>= cb n = _
        rw [h1]
        show (rd2 G n col >>= fun x => _) = _
        rw [hr, nzBefore_succ]
        rfl
      · show (tforUp n tb (0, false) [] >>= fun r => tb n r.1 r.2) = _
        rw [h2]
        show tb n (val, nzBefore G col n) _ = _
        simp only [tb, tr_bind, trd2_run, hr]
        rw [List.range_succ, List.flatMap_append, List.reverse_append]
        have e : nzBefore G col (n + 1) = (nzBefore G col n || decide (g2 G n col ≠ 0)) := nzBefore_succ G col n
        rw [e]
        generalize (List.flatMap (fun i => List.replicate (searchReads G col i) (Access.read 2 i col)) (List.range n)).reverse = rest
        rw [List.flatMap_cons, List.flatMap_nil, List.append_nil]
        unfold searchReads
        cases nzBefore G col n
        · simp only [Bool.false_eq_true, if_false, tr_bind, trd2_run, hr]
          rfl
        · rfl
  obtain ⟨val, h1, h2⟩ := hloop p.K (Nat.le_refl _)
  let cw : Nat → NormIS p → C (NormIS p) := fun i V => do
    let x ← rd2 G i col
    wr2 V i dst (fqRed (x * fqInv val))
  let tw : Nat → NormIS p → Tr (NormIS p) := fun i V => do
    let x ← trd2 2 G i col
    twr2 0 V i dst (fqRed (x * fqInv val))
  have hw : ∀ l, tforUp p.K tw V l = (forUp p.K cw V >>= fun s' =>
      .ok (s', ((List.range p.K).reverse.flatMap fun i => [Access.write 0 i dst, .read 2 i col]) ++ l)) := by
    intro l
    apply tforUp_log
    intro i _ s l
    simp only [tw, cw, tr_bind, trd2_run]
    cases rd2 G i col with
    | error x => rfl
    | ok x =>
      show twr2 0 s i dst _ _ = _
      rw [twr2_run]
      rfl
  have e1 : lexMinimize V dst G col = forUp p.K cw V := by
    show (forUp p.K cb (0, false) >>= fun r => _) = _
    rw [h1]
    rfl
  have e2 : lexMinimizeT V dst G col [] = tforUp p.K tw V
      (((List.range p.K).flatMap fun i => List.replicate (searchReads G col i) (.read 2 i col))).reverse := by
    show (tforUp p.K tb (0, false) [] >>= fun r => _) = _
    rw [h2]
    rfl
  obtain ⟨R, hR, -⟩ := (Wp.forUp (F := False) (P := fun _ => True) (fun _ (_ : NormIS p) => True) (s := V) trivial (fun i s hi _ => by
    show Wp False (cw i s) _
    simp only [cw, hrd i hi]
    show Wp False (wr2 s i dst _) _
    rw [Wp.wr2_iff]
    exact ⟨hi, hdst, trivial⟩) (fun _ h => h)).exists_ok
  refine ⟨R, _, by rw [e2, hw, hR]; rfl, by rw [e1, hR], ?_⟩
  rw [List.reverse_append, List.reverse_reverse, List.reverse_flatMap, List.reverse_reverse]
  rfl

/-- So the accesses are not the same for all columns: a column starting with a non-zero entry takes fewer reads
than one starting with a zero (the right operand of `||` on codes.c:159 is evaluated only if the left one is
false). -/
theorem C50_reads_depend_on_data (V : NormIS p) (dst : Nat) (G H : GenMat p) (col : Nat) (hcol : col < p.N)
    (hdst : dst < p.N - p.K) (hK : 1 < p.K) (hG : g2 G 0 col ≠ 0) (hH : g2 H 0 col = 0) {R R' log log'}
    (e : lexMinimizeT V dst G col [] = .ok (R, log)) (e' : lexMinimizeT V dst H col [] = .ok (R', log')) :
    log.length < log'.length := by
  obtain ⟨_, _, a, -, hl⟩ := C50_accesses V dst G col hcol hdst
  obtain ⟨_, _, a', -, hl'⟩ := C50_accesses V dst H col hcol hdst
  rw [e] at a; rw [e'] at a'; cases a; cases a'
  rw [← List.length_reverse, hl, ← List.length_reverse (as := log'), hl']
  simp only [List.length_append, List.length_flatMap, List.length_replicate]
  have h0 : ∀ i, searchReads G col (i + 1) = 5 := by
    intro i
    have : nzBefore G col (i + 1) = true := by
      unfold nzBefore
      rw [List.any_eq_true]
      exact ⟨0, List.mem_range.mpr (by omega), by simpa using hG⟩
    unfold searchReads; rw [if_pos this]
  have h1 : searchReads H col 1 = 6 := by
    unfold searchReads nzBefore
    rw [show List.range 1 = [0] from rfl]
    simp [hH]
  have h2 : ∀ i, 5 ≤ searchReads H col i := by
    intro i; unfold searchReads; split <;> omega
  have h3 : searchReads G col 0 = 6 ∧ searchReads H col 0 = 6 := ⟨rfl, rfl⟩
  have key : ∀ n, ((List.range (n + 2)).map (searchReads G col)).sum < ((List.range (n + 2)).map (searchReads H col)).sum := by
    intro n
    induction n with
    | zero =>
      have : searchReads G col 1 = 5 := h0 0
      simp only [show List.range (0 + 2) = [0, 1] from rfl, List.map_cons, List.map_nil, List.sum_cons, List.sum_nil]
      omega
    | succ n ih =>
      rw [List.range_succ, List.map_append, List.map_append, List.sum_append, List.sum_append]
      have : searchReads G col (n + 2) = 5 := h0 (n + 1)
      have := h2 (n + 2)
      simp only [List.map_cons, List.map_nil, List.sum_cons, List.sum_nil]
      omega
  have := key (p.K - 2)
  rw [show p.K - 2 + 2 = p.K by omega] at this
  exact Nat.add_lt_add_right this _

/-- The locations accessed are the same for all columns and all previous contents: entry `col` of every row of the
source, entry `dst` of every row of the destination.  What is missing from the claim of the comment "constant time":
the number of reads, which depends on the data by `C50_reads_depend_on_data`. -/
theorem C50_locations_fixed_partial (V : NormIS p) (dst : Nat) (G : GenMat p) (col : Nat) (hcol : col < p.N)
    (hdst : dst < p.N - p.K) : ∃ R log, lexMinimizeT V dst G col [] = .ok (R, log) ∧
      ∀ a, a ∈ log ↔ ∃ i < p.K, a = .read 2 i col ∨ a = .write 0 i dst := by
  obtain ⟨R, log, e, -, hl⟩ := C50_accesses V dst G col hcol hdst
  refine ⟨R, log, e, fun a => ?_⟩
  rw [← List.mem_reverse, hl]
  simp only [List.mem_append, List.mem_flatMap, List.mem_range, List.mem_replicate, List.mem_cons, List.not_mem_nil, or_false]
  constructor
  · rintro (⟨i, hi, -, rfl⟩ | ⟨i, hi, h⟩)
    · exact ⟨i, hi, .inl rfl⟩
    · exact ⟨i, hi, h⟩
  · exact fun ⟨i, hi, h⟩ => .inr ⟨i, hi, h⟩

/-- The two kinds of columns exist for the parameter sets: first entry 0 and first entry 1. -/
example : ∃ G H : GenMat Params.cat1Balanced, g2 G 0 3 ≠ 0 ∧ g2 H 0 3 = 0 ∧ (3 < Params.cat1Balanced.N) ∧
    1 < Params.cat1Balanced.K := by
  refine ⟨Vector.ofFn fun _ => Vector.ofFn fun _ => 1, Vector.ofFn fun i => Vector.ofFn fun _ => i.val, ?_, ?_, by decide, by decide⟩
  · rw [g2_ofFn _ 0 3 (by decide) (by decide)]; decide
  · rw [g2_ofFn _ 0 3 (by decide) (by decide)]

end LESS
