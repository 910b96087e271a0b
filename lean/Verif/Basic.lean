/-!
# The C execution monad

Deterministic C code over fixed-size arrays.  `CErr.oob` is an out-of-bounds access, `CErr.fuel` means
that a rejection-sampling loop was given fewer iterations than it needs (see DESIGN.md).
-/

namespace LESS

/-- Abnormal outcomes of an execution of the C code. -/
inductive CErr where
  /-- an array was accessed out of bounds (undefined behaviour in C) -/
  | oob
  /-- an unbounded rejection loop did not terminate within the allowed number of draws -/
  | fuel
deriving DecidableEq, Repr

/-- Executions of C code: a value, or an abnormal outcome. -/
abbrev C (α : Type) := Except CErr α

/-- Byte strings. -/
abbrev Bytes := List UInt8

/-- Total read, used in specifications only. -/
def g {α : Type} [Inhabited α] {n : Nat} (v : Vector α n) (i : Nat) : α :=
  if h : i < n then v[i] else default

/-- Total update, used in specifications only. -/
def upd {α : Type} {n : Nat} (v : Vector α n) (i : Nat) (x : α) : Vector α n :=
  if h : i < n then v.set i x h else v

/-- C array read `v[i]`. -/
def rd {α : Type} {n : Nat} (v : Vector α n) (i : Nat) : C α :=
  if h : i < n then .ok v[i] else .error .oob

/-- C array write `v[i] = x`. -/
def wr {α : Type} {n : Nat} (v : Vector α n) (i : Nat) (x : α) : C (Vector α n) :=
  if h : i < n then .ok (v.set i x h) else .error .oob

/-- C two-dimensional array read `m[i][j]`. -/
def rd2 {α : Type} {r c : Nat} (m : Vector (Vector α c) r) (i j : Nat) : C α := do
  let row ← rd m i
  rd row j

/-- C two-dimensional array write `m[i][j] = x`. -/
def wr2 {α : Type} {r c : Nat} (m : Vector (Vector α c) r) (i j : Nat) (x : α) :
    C (Vector (Vector α c) r) := do
  let row ← rd m i
  let row' ← wr row j x
  wr m i row'

/-- `for (i = 0; i < n; i++) s = body i s`. -/
def forUp {σ : Type} : (n : Nat) → (body : Nat → σ → C σ) → σ → C σ
  | 0, _, s => pure s
  | n + 1, body, s => forUp n body s >>= body n

/-- `for (i = 0; i < n; i++)` whose body may `return` a result (`.inl`) or go on (`.inr`). -/
def forRet {ρ σ : Type} : (n : Nat) → (body : Nat → σ → C (ρ ⊕ σ)) → σ → C (ρ ⊕ σ)
  | 0, _, s => pure (.inr s)
  | n + 1, body, s => do
    match ← forRet n body s with
    | .inl r => pure (.inl r)
    | .inr s => body n s

/-- C `memcpy` of `len` bytes out of a buffer, starting at `off`. -/
def slice {n : Nat} (a : Vector UInt8 n) (off len : Nat) : C Bytes :=
  if off + len ≤ n then .ok ((List.range len).map fun i => g a (off + i)) else .error .oob

/-- C `memcpy` of the bytes `b` into a buffer, starting at `off`. -/
def blit {n : Nat} (a : Vector UInt8 n) (off : Nat) (b : Bytes) : C (Vector UInt8 n) :=
  if off + b.length ≤ n then
    .ok (Vector.ofFn fun i : Fin n =>
      if off ≤ i.val ∧ i.val < off + b.length then b.getD (i.val - off) 0 else a[i])
  else .error .oob

/-- C `a[i]` for a byte buffer, promoted to `int`. -/
def rdB {n : Nat} (a : Vector UInt8 n) (i : Nat) : C Nat := do
  let b ← rd a i
  pure b.toNat

/-- C `a[i] = x` for a byte buffer: `x` is truncated to `uint8_t`. -/
def wrB {n : Nat} (a : Vector UInt8 n) (i : Nat) (x : Nat) : C (Vector UInt8 n) :=
  wr a i (UInt8.ofNat x)

/-- The array holding exactly the bytes of a list (used where C code fills an array of known size). -/
def toVec (n : Nat) (l : Bytes) : Vector UInt8 n := Vector.ofFn fun i => l.getD i.val 0

/-- Truncation to `uint8_t`. -/
def u8 (x : Nat) : Nat := x % 256
/-- Truncation to `uint16_t`. -/
def u16 (x : Nat) : Nat := x % 65536
/-- Truncation to `uint32_t`. -/
def u32 (x : Nat) : Nat := x % 4294967296
/-- Conversion of a C boolean expression to `int`. -/
def b2n (b : Bool) : Nat := if b then 1 else 0

/-! ## Weakest preconditions -/

/-- `Wp F x P`: running `x` accesses nothing out of bounds; if it yields a value the value satisfies `P`;
running out of fuel is acceptable only if `F`. -/
def Wp {α : Type} (F : Prop) (x : C α) (P : α → Prop) : Prop :=
  match x with
  | .ok a => P a
  | .error .fuel => F
  | .error .oob => False

namespace Wp

variable {α β σ ρ : Type} {F : Prop}

@[simp] theorem pure_iff {a : α} {P : α → Prop} : Wp F (pure a) P ↔ P a := Iff.rfl
@[simp] theorem ok_iff {a : α} {P : α → Prop} : Wp F (.ok a) P ↔ P a := Iff.rfl
@[simp] theorem oob_iff {P : α → Prop} : Wp F (.error .oob : C α) P ↔ False := Iff.rfl
@[simp] theorem fuel_iff {P : α → Prop} : Wp F (.error .fuel : C α) P ↔ F := Iff.rfl

@[simp] theorem bind_iff {x : C α} {f : α → C β} {P : β → Prop} :
    Wp F (x >>= f) P ↔ Wp F x (fun a => Wp F (f a) P) := by
  cases x with
  | ok a => rfl
  | error e => cases e <;> rfl

@[simp] theorem map_iff {x : C α} {f : α → β} {P : β → Prop} :
    Wp F (f <$> x) P ↔ Wp F x (fun a => P (f a)) := by
  cases x with
  | ok a => rfl
  | error e => cases e <;> rfl

theorem mono {x : C α} {P Q : α → Prop} (h : Wp F x P) (hPQ : ∀ a, P a → Q a) : Wp F x Q := by
  cases x with
  | ok a => exact hPQ a h
  | error e => cases e <;> exact h

theorem monoF {F' : Prop} {x : C α} {P : α → Prop} (h : Wp F x P) (hF : F → F') : Wp F' x P := by
  cases x with
  | ok a => exact h
  | error e => cases e with
    | oob => exact h
    | fuel => exact hF h

theorem conj {x : C α} {P Q : α → Prop} (h : Wp F x P) (h' : Wp F x Q) :
    Wp F x (fun a => P a ∧ Q a) := by
  cases x with
  | ok a => exact ⟨h, h'⟩
  | error e => cases e <;> exact h

/-- With fuel exhaustion excluded, `Wp` says that a value is returned. -/
theorem exists_ok {x : C α} {P : α → Prop} (h : Wp False x P) : ∃ a, x = .ok a ∧ P a := by
  cases x with
  | ok a => exact ⟨a, rfl, h⟩
  | error e => cases e <;> exact h.elim

theorem of_ok {x : C α} {a : α} {P : α → Prop} (h : Wp F x P) (hx : x = .ok a) : P a := by
  subst hx; exact h

theorem eq_ok {x : C α} {a : α} (h : Wp False x (fun b => b = a)) : x = .ok a := by
  obtain ⟨b, hb, rfl⟩ := h.exists_ok; exact hb

/-- `Wp` of a function whose result is known. -/
theorem of_eq {x : C α} {a : α} {P : α → Prop} (hx : x = .ok a) (h : P a) : Wp F x P := by
  subst hx; exact h

/-- A failure-free execution has the same outcome whatever is assumed of fuel. -/
theorem self {x : C α} (h : Wp F x (fun _ => True)) : Wp F x (fun a => x = .ok a) := by
  cases x with
  | ok a => rfl
  | error e => cases e <;> exact h

@[simp] theorem rd_iff [Inhabited α] {n : Nat} {v : Vector α n} {i : Nat} {P : α → Prop} :
    Wp F (rd v i) P ↔ i < n ∧ P (g v i) := by
  unfold rd g
  by_cases h : i < n <;> simp [h]

@[simp] theorem wr_iff {n : Nat} {v : Vector α n} {i : Nat} {x : α} {P : Vector α n → Prop} :
    Wp F (wr v i x) P ↔ i < n ∧ P (upd v i x) := by
  unfold wr upd
  by_cases h : i < n <;> simp [h]

@[simp] theorem ite_iff {c : Prop} [Decidable c] {x y : C α} {P : α → Prop} :
    Wp F (if c then x else y) P ↔ (c → Wp F x P) ∧ (¬ c → Wp F y P) := by
  by_cases h : c <;> simp [h]

/-- `do` blocks copy the continuation into both branches of an `if`; this undoes it. -/
theorem ite_bind {c : Prop} [Decidable c] {x y : C α} {f : α → C β} {P : β → Prop}
    (h : Wp F (if c then x else y) (fun a => Wp F (f a) P)) : Wp F (if c then x >>= f else y >>= f) P := by
  by_cases hc : c
  · simpa [hc] using h
  · simpa [hc] using h

/-- Loop rule with an invariant. -/
theorem forUp {n : Nat} {body : Nat → σ → C σ} {s : σ} {P : σ → Prop} (I : Nat → σ → Prop)
    (h0 : I 0 s) (hstep : ∀ i s, i < n → I i s → Wp F (body i s) (I (i + 1)))
    (hpost : ∀ s, I n s → P s) : Wp F (forUp n body s) P := by
  suffices h : ∀ m, m ≤ n → Wp F (LESS.forUp m body s) (I m) from
    (h n (Nat.le_refl n)).mono hpost
  intro m
  induction m with
  | zero => intro _; exact h0
  | succ m ih =>
    intro hm
    show Wp F (LESS.forUp m body s >>= body m) _
    rw [bind_iff]
    exact (ih (by omega)).mono (fun s hs => hstep m s (by omega) hs)

/-- Loop rule for loops with early return: `I` while running, `R` for returned results. -/
theorem forRet {n : Nat} {body : Nat → σ → C (ρ ⊕ σ)} {s : σ} {P : ρ ⊕ σ → Prop}
    (I : Nat → σ → Prop) (R : ρ → Prop)
    (h0 : I 0 s)
    (hstep : ∀ i s, i < n → I i s → Wp F (body i s) (fun o => match o with
      | .inl r => R r | .inr s => I (i + 1) s))
    (hret : ∀ r, R r → P (.inl r)) (hpost : ∀ s, I n s → P (.inr s)) :
    Wp F (forRet n body s) P := by
  suffices h : ∀ m, m ≤ n → Wp F (LESS.forRet m body s) (fun o => match o with
      | .inl r => R r | .inr s => I m s) by
    refine (h n (Nat.le_refl n)).mono ?_
    intro o ho
    cases o with
    | inl r => exact hret r ho
    | inr s => exact hpost s ho
  intro m
  induction m with
  | zero => intro _; exact h0
  | succ m ih =>
    intro hm
    unfold LESS.forRet
    rw [bind_iff]
    refine (ih (by omega)).mono ?_
    intro o ho
    cases o with
    | inl r => exact ho
    | inr s => exact hstep m s (by omega) ho

end Wp

/-! ## Array lemmas -/

section arrays
variable {α : Type}

theorem g_upd [Inhabited α] {n : Nat} (v : Vector α n) (i j : Nat) (x : α) (hi : i < n) :
    g (upd v i x) j = if i = j then x else g v j := by
  unfold g upd
  by_cases hj : j < n
  · simp only [hi, hj, dite_true]
    rw [Vector.getElem_set]
  · have : i ≠ j := by omega
    simp [hj, this]

theorem g_upd_self [Inhabited α] {n : Nat} (v : Vector α n) (i : Nat) (x : α) (hi : i < n) :
    g (upd v i x) i = x := by rw [g_upd _ _ _ _ hi, if_pos rfl]

theorem g_upd_ne [Inhabited α] {n : Nat} (v : Vector α n) (i j : Nat) (x : α) (hij : i ≠ j) :
    g (upd v i x) j = g v j := by
  unfold g upd
  by_cases hi : i < n <;> by_cases hj : j < n <;> simp [hi, hj, hij]

theorem g_eq_getElem [Inhabited α] {n : Nat} (v : Vector α n) (i : Nat) (h : i < n) : g v i = v[i] := by
  simp [g, h]

theorem vec_ext [Inhabited α] {n : Nat} {v w : Vector α n} (h : ∀ i, i < n → g v i = g w i) : v = w := by
  apply Vector.ext
  intro i hi
  have := h i hi
  rwa [g_eq_getElem _ _ hi, g_eq_getElem _ _ hi] at this

theorem g_replicate [Inhabited α] {n : Nat} (x : α) (i : Nat) (h : i < n) :
    g (Vector.replicate n x) i = x := by
  rw [g_eq_getElem _ _ h]; simp

theorem g_ofFn [Inhabited α] {n : Nat} (f : Fin n → α) (i : Nat) (h : i < n) :
    g (Vector.ofFn f) i = f ⟨i, h⟩ := by
  rw [g_eq_getElem _ _ h]; simp

/-- Total two-dimensional read, used in specifications only. -/
def g2 [Inhabited α] {r c : Nat} (m : Vector (Vector α c) r) (i j : Nat) : α :=
  if h : i < r then g m[i] j else default

/-- Total two-dimensional update, used in specifications only. -/
def upd2 {r c : Nat} (m : Vector (Vector α c) r) (i j : Nat) (x : α) : Vector (Vector α c) r :=
  if h : i < r then m.set i (upd m[i] j x) h else m

theorem g2_upd2 [Inhabited α] {r c : Nat} (m : Vector (Vector α c) r) (i j i' j' : Nat) (x : α)
    (hi : i < r) (hj : j < c) :
    g2 (upd2 m i j x) i' j' = if i = i' ∧ j = j' then x else g2 m i' j' := by
  unfold g2 upd2
  by_cases hi' : i' < r
  · simp only [hi, hi', dite_true, Vector.getElem_set]
    by_cases h : i = i'
    · subst h
      simp only [if_true, true_and]
      exact g_upd _ _ _ _ hj
    · simp [h]
  · have : i ≠ i' := by omega
    simp [hi', this]

theorem mat_ext [Inhabited α] {r c : Nat} {m m' : Vector (Vector α c) r}
    (h : ∀ i j, i < r → j < c → g2 m i j = g2 m' i j) : m = m' := by
  apply Vector.ext
  intro i hi
  apply vec_ext
  intro j hj
  have := h i j hi hj
  simpa [g2, hi] using this

@[simp] theorem Wp.rd2_iff [Inhabited α] {F : Prop} {r c : Nat} {m : Vector (Vector α c) r} {i j : Nat}
    {P : α → Prop} : Wp F (rd2 m i j) P ↔ i < r ∧ j < c ∧ P (g2 m i j) := by
  unfold rd2
  unfold rd g2
  by_cases h : i < r
  · simp only [h, dite_true, true_and]
    rw [Wp.bind_iff, Wp.ok_iff]
    show Wp F (rd m[i] j) P ↔ _
    rw [Wp.rd_iff]
  · simp [h]

@[simp] theorem Wp.wr2_iff {F : Prop} {r c : Nat} {m : Vector (Vector α c) r} {i j : Nat} {x : α}
    {P : Vector (Vector α c) r → Prop} :
    Wp F (wr2 m i j x) P ↔ i < r ∧ j < c ∧ P (upd2 m i j x) := by
  unfold wr2 upd2
  unfold rd
  by_cases h : i < r
  · simp only [h, dite_true, true_and]
    rw [Wp.bind_iff, Wp.ok_iff, Wp.bind_iff, Wp.wr_iff, Wp.wr_iff]
    simp [upd, h]
  · simp [h]

theorem g2_eq [Inhabited α] {r c : Nat} (m : Vector (Vector α c) r) (i j : Nat) (hi : i < r) :
    g2 m i j = g m[i] j := by simp [g2, hi]

theorem g2_replicate [Inhabited α] {r c : Nat} (x : α) (i j : Nat) (hi : i < r) (hj : j < c) :
    g2 (Vector.replicate r (Vector.replicate c x)) i j = x := by
  rw [g2_eq _ _ _ hi]; simp [g_eq_getElem _ _ hj]

end arrays

/-! ## Byte buffer lemmas -/

section bytes

variable {F : Prop} {n : Nat}

@[simp] theorem Wp.rdB_iff {a : Vector UInt8 n} {i : Nat} {P : Nat → Prop} :
    Wp F (rdB a i) P ↔ i < n ∧ P (g a i).toNat := by
  simp [rdB]

@[simp] theorem Wp.wrB_iff {a : Vector UInt8 n} {i x : Nat} {P : Vector UInt8 n → Prop} :
    Wp F (wrB a i x) P ↔ i < n ∧ P (upd a i (UInt8.ofNat x)) := by
  simp [wrB]

theorem getD_of_lt (l : Bytes) (i : Nat) (h : i < l.length) : l.getD i 0 = l[i] := by
  simp [List.getD, h]

/-- The bytes `off .. off+len-1` of a buffer. -/
def seg {n : Nat} (a : Vector UInt8 n) (off len : Nat) : Bytes :=
  (List.range len).map fun i => g a (off + i)

@[simp] theorem seg_length (a : Vector UInt8 n) (off len : Nat) : (seg a off len).length = len := by
  simp [seg]

theorem getElem_seg (a : Vector UInt8 n) (off len i : Nat) (h : i < (seg a off len).length) :
    (seg a off len)[i] = g a (off + i) := by
  simp [seg]

theorem getD_seg (a : Vector UInt8 n) (off len i : Nat) (h : i < len) :
    (seg a off len).getD i 0 = g a (off + i) := by
  rw [getD_of_lt _ _ (by simpa using h), getElem_seg]

@[simp] theorem Wp.slice_iff {a : Vector UInt8 n} {off len : Nat} {P : Bytes → Prop} :
    Wp F (slice a off len) P ↔ off + len ≤ n ∧ P (seg a off len) := by
  unfold slice seg
  by_cases h : off + len ≤ n <;> simp [h]

/-- The buffer with the bytes `b` stored at `off`. -/
def blitV {n : Nat} (a : Vector UInt8 n) (off : Nat) (b : Bytes) : Vector UInt8 n :=
  Vector.ofFn fun i : Fin n =>
    if off ≤ i.val ∧ i.val < off + b.length then b.getD (i.val - off) 0 else a[i]

@[simp] theorem Wp.blit_iff {a : Vector UInt8 n} {off : Nat} {b : Bytes} {P : Vector UInt8 n → Prop} :
    Wp F (blit a off b) P ↔ off + b.length ≤ n ∧ P (blitV a off b) := by
  unfold blit blitV
  by_cases h : off + b.length ≤ n <;> simp [h]

theorem g_blitV (a : Vector UInt8 n) (off : Nat) (b : Bytes) (i : Nat) (h : i < n) :
    g (blitV a off b) i = if off ≤ i ∧ i < off + b.length then b.getD (i - off) 0 else g a i := by
  rw [blitV, g_ofFn _ _ h, g_eq_getElem _ _ h]
  rfl

theorem seg_ext {m : Nat} {a : Vector UInt8 n} {b : Vector UInt8 m} {off off' len : Nat}
    (h : ∀ i, i < len → g a (off + i) = g b (off' + i)) : seg a off len = seg b off' len := by
  apply List.ext_getElem
  · simp
  · intro i h1 h2
    rw [getElem_seg, getElem_seg]
    exact h i (by simpa using h1)

theorem seg_blitV_same (a : Vector UInt8 n) (off len : Nat) (b : Bytes) (hb : b.length = len)
    (h : off + len ≤ n) : seg (blitV a off b) off len = b := by
  apply List.ext_getElem
  · simp [hb]
  · intro i h1 h2
    have hi : i < len := by simpa using h1
    rw [getElem_seg, g_blitV _ _ _ _ (by omega), if_pos (by omega), Nat.add_sub_cancel_left,
      getD_of_lt _ _ h2]

theorem seg_blitV_disj (a : Vector UInt8 n) (off len off' : Nat) (b : Bytes)
    (h : off' + len ≤ n) (hd : off' + len ≤ off ∨ off + b.length ≤ off') :
    seg (blitV a off b) off' len = seg a off' len := by
  apply seg_ext
  intro i hi
  rw [g_blitV _ _ _ _ (by omega), if_neg (by omega)]

theorem seg_append (a : Vector UInt8 n) (off l1 l2 : Nat) :
    seg a off (l1 + l2) = seg a off l1 ++ seg a (off + l1) l2 := by
  simp only [seg, List.range_add, List.map_append, List.map_map]
  congr 1
  apply List.map_congr_left
  intro i _
  simp [Nat.add_assoc]

theorem toVec_toList {l : Bytes} {m : Nat} (h : l.length = m) : (toVec m l).toList = l := by
  apply List.ext_getElem
  · simp [h]
  · intro i h1 h2
    simp [toVec, h2]

theorem toVec_of_toList (v : Vector UInt8 n) : toVec n v.toList = v := by
  apply Vector.ext
  intro i hi
  simp [toVec]

theorem seg_full (v : Vector UInt8 n) : seg v 0 n = v.toList := by
  apply List.ext_getElem
  · simp
  · intro i h1 h2
    have hi : i < n := by simpa using h1
    rw [getElem_seg, Nat.zero_add, g_eq_getElem _ _ hi]
    simp

theorem g_toVec (l : Bytes) (m i : Nat) (h : i < m) : g (toVec m l) i = l.getD i 0 := by
  rw [toVec, g_ofFn _ _ h]

end bytes

end LESS
