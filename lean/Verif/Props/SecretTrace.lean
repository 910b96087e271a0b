import Verif.Model.SecretTrace
import Verif.Props.ConstantTime
import Verif.Props.Scheme
/-!
# What the memory accesses made with private monomials show (C73)
-/
namespace LESS

open Spec

variable {p : Params}

/-! ## Reading a record -/

/-- The indices of the writes to array `arg`, in the order in which they happen. -/
def Spec.writtenTo (arg : Nat) (log : List Access) : List Nat :=
  log.reverse.filterMap fun a => match a with
    | .write b i _ => if b = arg then some i else none
    | .read _ _ _ => none

/-- The matrix with entry `d r` in row `r`, column `σ r`. -/
def Spec.placed {n : Nat} (σ : Fin n → Fin n) (d : Fin n → ZMod 127) : Matrix (Fin n) (Fin n) (ZMod 127) :=
  fun r c => if σ r = c then d r else 0

theorem writtenTo_append (arg : Nat) (l l' : List Access) : writtenTo arg (l' ++ l) = writtenTo arg l ++ writtenTo arg l' := by
  unfold writtenTo
  rw [List.reverse_append, List.filterMap_append]

theorem writtenTo_reverse (arg : Nat) (l : List Access) :
    writtenTo arg l.reverse = l.filterMap fun a => match a with
      | .write b i _ => if b = arg then some i else none
      | .read _ _ _ => none := by
  unfold writtenTo; rw [List.reverse_reverse]

theorem map_g_range {α : Type} [Inhabited α] {n : Nat} (v : Vector α n) : (List.range n).map (g v) = v.toList := by
  apply List.ext_getElem
  · simp
  · intro i h1 h2
    have : i < n := by simpa using h1
    simp [g, this]

/-! ## Exact records -/

/-- The accesses of `monomial_mat_inv`, in order. -/
def invAccesses (perm : Vector Nat p.N) : List Access :=
  (List.range p.N).flatMap fun i => [.read 12 i 0, .write 10 (g perm i) 0, .read 12 i 0, .read 13 i 0, .write 11 (g perm i) 0]

/-- The accesses of `generator_monomial_mul`, in order. -/
def mulAccesses (perm : Vector Nat p.N) : List Access :=
  (List.range p.N).flatMap fun s => (List.range p.K).flatMap fun r =>
    [.read 22 s 0, .read 21 r s, .read 23 s 0, .write 20 r (g perm s)]

/-- The accesses of `monomial_compose_action`, in order. -/
def composeAccesses (perm : Vector Nat p.N) (act : Vector Nat p.K) : List Access :=
  ((List.range p.N).flatMap fun i =>
    [.read 32 i 0, .write 30 (g perm i) 0, .read 32 i 0, .read 33 i 0, .write 31 (g perm i) 0]) ++
  (List.range p.K).flatMap fun i => [.read 34 i 0, .read 30 (g act i) 0, .write 36 i 0, .read 35 i 0, .read 34 i 0,
    .read 31 (g act i) 0, .write 37 i 0]

theorem twr_run {α : Type} {n : Nat} (arg : Nat) (v : Vector α n) (i : Nat) (x : α) (l : List Access) :
    twr arg v i x l = (wr v i x >>= fun v' => .ok (v', .write arg i 0 :: l)) := by
  unfold twr note wr
  split <;> rfl

theorem rd_at {α : Type} [Inhabited α] {n : Nat} (v : Vector α n) (i : Nat) (h : i < n) : rd v i = .ok (g v i) := by
  have : Wp False (rd v i) (fun x => x = g v i) := by
    rw [Wp.rd_iff]; exact ⟨h, rfl⟩
  exact this.eq_ok

theorem reverse_log (n : Nat) (f : Nat → List Access) :
    (List.range n).reverse.flatMap (fun i => (f i).reverse) = ((List.range n).flatMap f).reverse := by
  rw [List.reverse_flatMap]; rfl

theorem monomialInvT_run (stale m : Monomial p) (l : List Access) :
    monomialInvT stale m l = (monomialInv stale m >>= fun r => .ok (r, (invAccesses m.permutation).reverse ++ l)) := by
  unfold monomialInvT monomialInv invAccesses
  rw [← reverse_log]
  apply tforUp_log
  intro i hi s l
  simp only [tr_bind, trd_run, twr_run, rd_at _ i hi]
  show (wr s.permutation (g m.permutation i) _ >>= _) >>= _ = (wr s.permutation (g m.permutation i) _ >>= _) >>= _
  cases wr s.permutation (g m.permutation i) (i % p.posMod) with
  | error x => rfl
  | ok a =>
    show (wr s.coefficients (g m.permutation i) _ >>= _) >>= _ = (wr s.coefficients (g m.permutation i) _ >>= _) >>= _
    cases wr s.coefficients (g m.permutation i) (fqInv (g m.coefficients i)) <;> rfl

theorem generatorMonomialMulT_run (res G : GenMat p) (m : Monomial p) (l : List Access) :
    generatorMonomialMulT res G m l =
      (generatorMonomialMul res G m >>= fun r => .ok (r, (mulAccesses m.permutation).reverse ++ l)) := by
  unfold generatorMonomialMulT generatorMonomialMul mulAccesses
  rw [← reverse_log]
  apply tforUp_log
  intro c hc s l
  rw [← reverse_log]
  apply tforUp_log
  intro r hr s l
  simp only [tr_bind, trd_run, trd2_run, rd_at _ c hc]
  show (rd2 G r c >>= _) >>= _ = (rd2 G r c >>= _) >>= _
  cases rd2 G r c with
  | error x => rfl
  | ok x => rfl

theorem composeActionT_run (stale : Monomial p) (out : MonoAction p) (m : Monomial p) (a : MonoAction p) (l : List Access) :
    composeActionT stale out m a l =
      (composeAction stale out m a >>= fun r => .ok (r, (composeAccesses m.permutation a.permutation).reverse ++ l)) := by
  unfold composeActionT composeAction composeAccesses
  rw [tr_bind]
  have h1 : ∀ l, tforUp p.N (fun i (rev : Monomial p) => (do
      let d ← trd 32 m.permutation i
      let perm ← twr 30 rev.permutation d (i % p.posMod)
      let d ← trd 32 m.permutation i
      let c ← trd 33 m.coefficients i
      let coefs ← twr 31 rev.coefficients d c
      pure ⟨coefs, perm⟩ : Tr (Monomial p))) stale l = ((forUp p.N (fun i (rev : Monomial p) => do
      let d ← rd m.permutation i
      let perm ← wr rev.permutation d (i % p.posMod)
      let c ← rd m.coefficients i
      let coefs ← wr rev.coefficients d c
      pure ⟨coefs, perm⟩) stale) >>= fun r => .ok (r, ((List.range p.N).flatMap fun i => [Access.read 32 i 0,
        .write 30 (g m.permutation i) 0, .read 32 i 0, .read 33 i 0, .write 31 (g m.permutation i) 0]).reverse ++ l)) := by
    intro l
    rw [← reverse_log]
    apply tforUp_log
    intro i hi s l
    simp only [tr_bind, trd_run, twr_run, rd_at _ i hi]
    show (wr s.permutation (g m.permutation i) _ >>= _) >>= _ = (wr s.permutation (g m.permutation i) _ >>= _) >>= _
    cases wr s.permutation (g m.permutation i) (i % p.posMod) with
    | error x => rfl
    | ok a =>
      show (wr s.coefficients (g m.permutation i) _ >>= _) >>= _ = (wr s.coefficients (g m.permutation i) _ >>= _) >>= _
      cases wr s.coefficients (g m.permutation i) (g m.coefficients i) <;> rfl
  rw [h1, bind_assoc, bind_assoc]
  congr 1
  funext rev
  rw [List.reverse_append, List.append_assoc]
  rw [← reverse_log p.K]
  show tforUp p.K _ out _ = _
  apply tforUp_log
  intro i hi s l
  simp only [tr_bind, trd_run, twr_run, rd_at _ i hi]
  show (rd rev.permutation (g a.permutation i) >>= _) >>= _ = (rd rev.permutation (g a.permutation i) >>= _) >>= _
  cases rd rev.permutation (g a.permutation i) with
  | error x => rfl
  | ok x =>
    show (wr s.permutation i x >>= _) >>= _ = (wr s.permutation i x >>= _) >>= _
    cases wr s.permutation i x with
    | error x => rfl
    | ok v =>
      show (rd rev.coefficients (g a.permutation i) >>= _) >>= _ = (rd rev.coefficients (g a.permutation i) >>= _) >>= _
      cases rd rev.coefficients (g a.permutation i) with
      | error x => rfl
      | ok y =>
        show (wr s.coefficients i _ >>= _) >>= _ = (wr s.coefficients i _ >>= _) >>= _
        cases wr s.coefficients i (fqRed (g a.coefficients i * y)) <;> rfl

/-! ## The indices written -/

theorem written_inv (perm : Vector Nat p.N) : writtenTo 10 (invAccesses perm).reverse = perm.toList := by
  rw [writtenTo_reverse, invAccesses, List.filterMap_flatMap, ← map_g_range]
  simp [← List.map_eq_flatMap]

theorem written_mul (perm : Vector Nat p.N) : writtenTo 10 (mulAccesses perm).reverse = [] := by
  rw [writtenTo_reverse, mulAccesses, List.filterMap_eq_nil_iff]
  intro a ha
  simp only [List.mem_flatMap, List.mem_cons, List.not_mem_nil, or_false] at ha
  obtain ⟨_, _, _, _, rfl | rfl | rfl | rfl⟩ := ha <;> rfl

theorem written_compose (perm : Vector Nat p.N) (act : Vector Nat p.K) :
    writtenTo 30 (composeAccesses perm act).reverse = perm.toList := by
  rw [writtenTo_reverse, composeAccesses, List.filterMap_append, List.filterMap_flatMap, ← map_g_range]
  rw [List.filterMap_eq_nil_iff.mpr, List.append_nil]
  · simp [← List.map_eq_flatMap]
  · intro a ha
    simp only [List.mem_flatMap, List.mem_cons, List.not_mem_nil, or_false] at ha
    obtain ⟨_, _, rfl | rfl | rfl | rfl | rfl | rfl | rfl⟩ := ha <;> rfl

/-! ## Key generation -/

theorem lift_run {α : Type} (x : C α) (l : List Access) : (StateT.lift x : Tr α) l = (x >>= fun a => .ok (a, l)) := rfl

theorem tr_bind_ok {α β : Type} {x : Tr α} {f : α → Tr β} {l l' : List Access} {b : β} (h : (x >>= f) l = .ok (b, l')) :
    ∃ a l₁, x l = .ok (a, l₁) ∧ f a l₁ = .ok (b, l') := by
  rw [tr_bind] at h
  cases e : x l with
  | error y => rw [e] at h; cases h
  | ok q => rw [e] at h; exact ⟨q.1, q.2, rfl, h⟩

theorem lift_ok {α : Type} {x : C α} {a : α} {l l' : List Access} (h : (StateT.lift x : Tr α) l = .ok (a, l')) :
    x = .ok a ∧ l' = l := by
  cases x with
  | error y => cases h
  | ok b => cases h; exact ⟨rfl, rfl⟩

theorem run_ok {α : Type} {x : C α} {log : List Access} {a : α} {l' : List Access}
    (h : (x >>= fun r => .ok (r, log)) = (.ok (a, l') : C (α × List Access))) : x = .ok a ∧ l' = log := by
  cases x with
  | error y => cases h
  | ok b => cases h; exact ⟨rfl, rfl⟩

theorem ok_then {α β : Type} (a : α) (f : α → C β) : ((.ok a : C α) >>= f) = f a := rfl

theorem keygenOneT_run {fuel : Nat} {sl : Stale p} {G0 : GenMat p} {seed : Bytes} {buf b : Vector UInt8 p.rrefBytes}
    {l l' : List Access} (h : keygenOneT fuel sl G0 seed buf l = .ok (b, l')) :
    keygenOne fuel sl G0 seed buf = .ok b ∧ ∃ m, monomialSeedExpandPrikey fuel sl.mono seed = .ok m ∧
      writtenTo 10 l' = writtenTo 10 l ++ m.permutation.toList := by
  obtain ⟨m, l1, e1, h⟩ := tr_bind_ok h
  obtain ⟨r, l2, e2, h⟩ := tr_bind_ok h
  obtain ⟨G, l3, e3, h⟩ := tr_bind_ok h
  obtain ⟨⟨o, R, f⟩, l4, e4, hl⟩ := tr_bind_ok h
  obtain ⟨q1, rfl⟩ := lift_ok e1
  rw [monomialInvT_run] at e2
  obtain ⟨q2, rfl⟩ := run_ok e2
  rw [generatorMonomialMulT_run] at e3
  obtain ⟨q3, rfl⟩ := run_ok e3
  obtain ⟨q4, rfl⟩ := lift_ok e4
  obtain ⟨q5, rfl⟩ := lift_ok hl
  refine ⟨?_, m, q1, ?_⟩
  · simp only [keygenOne, q1, q2, q3, q4, q5, ok_then]
  · rw [writtenTo_append, writtenTo_append, written_mul, written_inv, List.append_nil]

theorem keygenLoop_run {fuel : Nat} {sl : Nat → Stale p} {G0 : GenMat p}
    {seeds : Vector (Vector UInt8 p.skSeedLen) (p.numKeypairs - 1)} (n : Nat) (hn : n ≤ p.numKeypairs - 1)
    {sfg sfg' : Vector (Vector UInt8 p.rrefBytes) (p.numKeypairs - 1)} {l l' : List Access}
    (h : tforUp n (fun i sfg => (do
      let seed ← StateT.lift (rd seeds i)
      let buf ← StateT.lift (rd sfg i)
      let buf ← keygenOneT fuel (sl (i + 1)) G0 seed.toList buf
      StateT.lift (wr sfg i buf) : Tr _)) sfg l = .ok (sfg', l')) :
    forUp n (fun i sfg => (do
      let seed ← rd seeds i
      let buf ← rd sfg i
      let buf ← keygenOne fuel (sl (i + 1)) G0 seed.toList buf
      wr sfg i buf : C _)) sfg = .ok sfg' ∧
    ∃ perms : Nat → List Nat, writtenTo 10 l' = writtenTo 10 l ++ (List.range n).flatMap perms ∧
      ∀ i < n, ∃ m, monomialSeedExpandPrikey fuel (sl (i + 1)).mono (g seeds i).toList = .ok m ∧
        perms i = m.permutation.toList := by
  induction n generalizing sfg' l' with
  | zero => cases h; exact ⟨rfl, fun _ => [], by simp, by simp⟩
  | succ n ih =>
    obtain ⟨s, l1, e1, h⟩ := tr_bind_ok h
    obtain ⟨h1, perms, h2, h3⟩ := ih (by omega) e1
    obtain ⟨seed, l2, e2, h⟩ := tr_bind_ok h
    obtain ⟨buf, l3, e3, h⟩ := tr_bind_ok h
    obtain ⟨b, l4, e4, hl⟩ := tr_bind_ok h
    obtain ⟨q2, rfl⟩ := lift_ok e2
    obtain ⟨q3, rfl⟩ := lift_ok e3
    obtain ⟨q5, rfl⟩ := lift_ok hl
    obtain ⟨k1, m, k2, k3⟩ := keygenOneT_run e4
    have eseed : seed = g seeds n := by
      rw [rd_at _ n (by omega)] at q2; cases q2; rfl
    subst eseed
    constructor
    · show forUp n _ sfg >>= _ = _
      rw [h1]
      simp only [ok_then, q2, q3, k1, q5]
    · refine ⟨fun i => if i = n then m.permutation.toList else perms i, ?_, ?_⟩
      · rw [k3, h2, List.range_succ, List.flatMap_append, List.append_assoc]
        congr 2
        · apply List.flatMap_congr
          intro i hi
          rw [if_neg (by have := List.mem_range.mp hi; omega)]
        · simp
      · intro i hi
        by_cases ei : i = n
        · subst ei; exact ⟨m, k2, if_pos rfl⟩
        · obtain ⟨m', a, b⟩ := h3 i (by omega)
          exact ⟨m', a, (if_neg ei).trans b⟩

theorem getD_flatMap_blocks {n N : Nat} (f : Nat → List Nat) (h : ∀ i < n, (f i).length = N) (i r : Nat) (hi : i < n) (hr : r < N)
    (d : Nat) : ((List.range n).flatMap f).getD (i * N + r) d = (f i).getD r d := by
  have hlen : ∀ k ≤ n, ((List.range k).flatMap f).length = k * N := by
    intro k hk
    rw [List.length_flatMap, List.map_congr_left (g := fun _ => N) (fun j hj => h j (by have := List.mem_range.mp hj; omega))]
    simp
  obtain ⟨t, rfl⟩ : ∃ t, n = i + 1 + t := ⟨n - (i + 1), by omega⟩
  rw [List.range_add, List.flatMap_append, List.range_succ, List.flatMap_append]
  have e := hlen i (by omega)
  rw [List.append_assoc]
  simp only [List.getD_eq_getElem?_getD]
  rw [List.getElem?_append_right (by omega), e, Nat.add_sub_cancel_left, List.flatMap_singleton, List.getElem?_append_left (by rw [h i (by omega)]; exact hr)]

/-- A valid monomial as the matrix of its permutation and coefficients. -/
theorem mat_placed {m : Monomial p} (hm : m.Valid) : ∃ (σ : Fin p.N → Fin p.N) (d : Fin p.N → ZMod 127),
    Function.Injective σ ∧ (∀ r, d r ≠ 0) ∧ m.mat = placed σ d ∧ ∀ r : Fin p.N, m.permutation.toList.getD r p.N = (σ r).val := by
  refine ⟨fun r => ⟨g m.permutation r, hm.1.1 r r.2⟩, fun r => ((g m.coefficients r : Nat) : ZMod 127), ?_, ?_, ?_, ?_⟩
  · intro r s h
    exact Fin.ext (hm.1.2 r s r.2 s.2 (congrArg Fin.val h))
  · intro r h0
    have := hm.2 r r.2
    rw [ZMod.natCast_eq_zero_iff] at h0
    exact absurd (Nat.le_of_dvd (by omega) h0) (by omega)
  · funext r c
    unfold Monomial.mat placed
    simp only [Fin.ext_iff]
  · intro r
    simp [g, r.2]

/-- Key generation writes to memory at places from which the positions of the entries of every private monomial can be
read off: the indices of the writes to the array `permutation` of the inverse are, in order, the columns of the entries
in rows 0, 1, … of the first private monomial, then of the second, and so on.  The keys are those of the model. -/
theorem C73_fails_keygen (hp : p.WF) {fuel : Nat} {sl : Nat → Stale p} {rng rng' : Inc} (hr : RngOk p rng) {sk : PriKey p}
    {pk : PubKey p} {log : List Access} (h : lessKeygenT fuel sl rng [] = .ok ((sk, pk, rng'), log)) :
    lessKeygen fuel sl rng = .ok (sk, pk, rng') ∧ ∀ i < p.numKeypairs - 1, ∃ σ d,
      Function.Injective σ ∧ (∀ r, d r ≠ 0) ∧ IsSecret p fuel sk.spec.secret i (placed σ d) ∧
      ∀ r : Fin p.N, (writtenTo 10 log).getD (i * p.N + r) p.N = (σ r).val := by
  have hN := hp.N_lt
  have hKN := hp.K_lt_N
  have hlen := csprngBytes_length p p.skSeedLen rng hr
  unfold lessKeygenT at h
  unfold lessKeygen
  generalize csprngBytes p p.skSeedLen rng = x at h hlen ⊢
  obtain ⟨skb, rng1⟩ := x
  dsimp only at h hlen ⊢
  generalize csprngBytes p p.seedLen rng1 = y at h ⊢
  obtain ⟨g0, rng2⟩ := y
  dsimp only at h ⊢
  obtain ⟨seeds, l1, e1, h⟩ := tr_bind_ok h
  obtain ⟨G0, l2, e2, h⟩ := tr_bind_ok h
  obtain ⟨sfg, l3, e3, hl⟩ := tr_bind_ok h
  obtain ⟨q1, rfl⟩ := lift_ok e1
  obtain ⟨q2, rfl⟩ := lift_ok e2
  cases hl
  obtain ⟨h1, perms, h2, h3⟩ := keygenLoop_run _ (Nat.le_refl _) e3
  refine ⟨?_, fun i hi => ?_⟩
  · simp only [q1, q2, h1, ok_then]
    rfl
  obtain ⟨m, hm, hperm⟩ := h3 i hi
  have hs := (privateSeeds_wp (p := p) (F := False) skb).of_ok q1 i hi
  have hmono : m.Valid ∧ IsMonomial p fuel (xof p (g seeds i).toList) m.mat := by
    have := monomialFromState_stream fuel (sl (i + 1)).mono _ _ (by omega) (by omega) (xof_at p (g seeds i).toList)
    unfold monomialSeedExpandPrikey at hm
    cases e : monomialFromState fuel (sl (i + 1)).mono (initCsprng p (g seeds i).toList) with
    | error x => rw [e] at hm; cases hm
    | ok q =>
      rw [e] at hm
      cases hm
      exact ⟨(this.of_ok e).1, (this.of_ok e).2.1⟩
  obtain ⟨σ, d, hσ, hd, hmat, hpos⟩ := mat_placed hmono.1
  rw [hmat] at hmono
  refine ⟨σ, d, hσ, hd, ?_, fun r => ?_⟩
  · unfold IsSecret PriKey.spec
    dsimp only
    rw [toVec_toList hlen, ← hs]
    exact hmono.2
  · rw [h2, show writtenTo 10 [] = [] from rfl, List.nil_append, getD_flatMap_blocks perms _ i r hi r.2, hperm, hpos]
    intro j hj
    obtain ⟨m', -, e⟩ := h3 j hj
    rw [e, Vector.length_toList]

/-- So does signing: every response that uses private monomial number `x` (the challenge shows which) writes to
`reverse_Q.permutation` at the columns of its entries, in order. -/
theorem C73_fails_sign (hp : p.WF) {fuel : Nat} {sl : Stale p} {fws : Vector Nat p.T} {secret : Bytes}
    {seeds : Vector (Vector UInt8 p.skSeedLen) (p.numKeypairs - 1)} (hseeds : privateSeeds p secret = .ok seeds)
    {acts : Vector (MonoAction p) p.T} {i : Nat} {s s' : Vector (Vector UInt8 p.monoBytes) p.W × Nat} {log : List Access}
    (hi : i < p.T) (hx : g fws i ≠ 0) (h : signResponseT fuel sl fws seeds acts i s [] = .ok (s', log)) :
    signResponse fuel sl fws seeds acts i s = .ok s' ∧ ∃ σ d,
      Function.Injective σ ∧ (∀ r, d r ≠ 0) ∧ IsSecret p fuel secret (g fws i - 1) (placed σ d) ∧
      ∀ r : Fin p.N, (writtenTo 30 log).getD r p.N = (σ r).val := by
  have hN := hp.N_lt
  have hKN := hp.K_lt_N
  obtain ⟨out, emitted⟩ := s
  obtain ⟨x, l1, e1, h⟩ := tr_bind_ok h
  obtain ⟨q1, rfl⟩ := lift_ok e1
  have ex : x = g fws i := by
    rw [rd_at _ i hi] at q1; cases q1; rfl
  subst ex
  rw [if_pos hx] at h
  obtain ⟨seed, l2, e2, h⟩ := tr_bind_ok h
  obtain ⟨m, l3, e3, h⟩ := tr_bind_ok h
  obtain ⟨a, l4, e4, h⟩ := tr_bind_ok h
  obtain ⟨act, l5, e5, h⟩ := tr_bind_ok h
  obtain ⟨buf, l6, e6, h⟩ := tr_bind_ok h
  obtain ⟨b, l7, e7, h⟩ := tr_bind_ok h
  obtain ⟨o, l8, e8, hl⟩ := tr_bind_ok h
  obtain ⟨q2, rfl⟩ := lift_ok e2
  obtain ⟨q3, rfl⟩ := lift_ok e3
  obtain ⟨q4, rfl⟩ := lift_ok e4
  rw [composeActionT_run] at e5
  obtain ⟨q5, rfl⟩ := run_ok e5
  obtain ⟨q6, rfl⟩ := lift_ok e6
  obtain ⟨q7, rfl⟩ := lift_ok e7
  obtain ⟨q8, rfl⟩ := lift_ok e8
  cases hl
  have hlt : g fws i - 1 < p.numKeypairs - 1 := by
    unfold rd at q2
    split at q2
    · assumption
    · cases q2
  have eseed : seed = g seeds (g fws i - 1) := by
    rw [rd_at _ _ hlt] at q2; cases q2; rfl
  subst eseed
  refine ⟨?_, ?_⟩
  · simp only [signResponse, q1, q2, q3, q4, q5, q6, q7, q8, ok_then, if_pos hx]
    rfl
  have hs := (privateSeeds_wp (p := p) (F := False) secret).of_ok hseeds _ hlt
  have hmono : m.Valid ∧ IsMonomial p fuel (xof p (g seeds (g fws i - 1)).toList) m.mat := by
    have := monomialFromState_stream fuel sl.mono _ _ (by omega) (by omega) (xof_at p (g seeds (g fws i - 1)).toList)
    unfold monomialSeedExpandPrikey at q3
    cases e : monomialFromState fuel sl.mono (initCsprng p (g seeds (g fws i - 1)).toList) with
    | error x => rw [e] at q3; cases q3
    | ok q =>
      rw [e] at q3
      cases q3
      exact ⟨(this.of_ok e).1, (this.of_ok e).2.1⟩
  obtain ⟨σ, d, hσ, hd, hmat, hpos⟩ := mat_placed hmono.1
  rw [hmat] at hmono
  refine ⟨σ, d, hσ, hd, ?_, fun r => ?_⟩
  · unfold IsSecret
    rw [← hs]
    exact hmono.2
  · rw [List.append_nil, written_compose, hpos]

/-! ## The record exists whenever the call returns -/

theorem c_bind_ok {α β : Type} {x : C α} {f : α → C β} {b : β} (h : (x >>= f) = .ok b) : ∃ a, x = .ok a ∧ f a = .ok b := by
  cases x with
  | error y => cases h
  | ok a => exact ⟨a, rfl, h⟩

theorem keygenOneT_exists {fuel : Nat} {sl : Stale p} {G0 : GenMat p} {seed : Bytes} {buf b : Vector UInt8 p.rrefBytes}
    (l : List Access) (h : keygenOne fuel sl G0 seed buf = .ok b) : ∃ l', keygenOneT fuel sl G0 seed buf l = .ok (b, l') := by
  obtain ⟨m, e1, h⟩ := c_bind_ok h
  obtain ⟨r, e2, h⟩ := c_bind_ok h
  obtain ⟨G, e3, h⟩ := c_bind_ok h
  obtain ⟨⟨o, R, f⟩, e4, h⟩ := c_bind_ok h
  refine ⟨(mulAccesses r.permutation).reverse ++ ((invAccesses m.permutation).reverse ++ l), ?_⟩
  simp only [keygenOneT, tr_bind, lift_run, monomialInvT_run, generatorMonomialMulT_run, e1, e2, e3, e4, ok_then]
  dsimp only at h
  rw [h]
  rfl

/-- Whenever key generation returns there is a record, so `C73_fails_keygen` applies to every key pair. -/
theorem C73_record_exists {fuel : Nat} {sl : Nat → Stale p} {rng : Inc} {r : PriKey p × PubKey p × Inc}
    (h : lessKeygen fuel sl rng = .ok r) : ∃ log, lessKeygenT fuel sl rng [] = .ok (r, log) := by
  unfold lessKeygen at h
  unfold lessKeygenT
  generalize csprngBytes p p.skSeedLen rng = x at h ⊢
  obtain ⟨skb, rng1⟩ := x
  dsimp only at h ⊢
  generalize csprngBytes p p.seedLen rng1 = y at h ⊢
  obtain ⟨g0, rng2⟩ := y
  dsimp only at h ⊢
  obtain ⟨seeds, e1, h⟩ := c_bind_ok h
  obtain ⟨G0, e2, h⟩ := c_bind_ok h
  obtain ⟨sfg, e3, h⟩ := c_bind_ok h
  have key : ∀ n ≤ p.numKeypairs - 1, ∀ sfg sfg' : Vector (Vector UInt8 p.rrefBytes) (p.numKeypairs - 1), forUp n (fun i sfg => (do
      let seed ← rd seeds i
      let buf ← rd sfg i
      let buf ← keygenOne fuel (sl (i + 1)) G0 seed.toList buf
      wr sfg i buf : C _)) sfg = .ok sfg' → ∃ log, tforUp n (fun i sfg => (do
      let seed ← StateT.lift (rd seeds i)
      let buf ← StateT.lift (rd sfg i)
      let buf ← keygenOneT fuel (sl (i + 1)) G0 seed.toList buf
      StateT.lift (wr sfg i buf) : Tr _)) sfg [] = .ok (sfg', log) := by
    intro n
    induction n with
    | zero => intro _ s s' h; cases h; exact ⟨[], rfl⟩
    | succ n ih =>
      intro hn s s' h
      obtain ⟨s1, a1, h⟩ := c_bind_ok h
      obtain ⟨seed, a2, h⟩ := c_bind_ok h
      obtain ⟨buf, a3, h⟩ := c_bind_ok h
      obtain ⟨b, a4, h⟩ := c_bind_ok h
      obtain ⟨l1, b1⟩ := ih (by omega) s s1 a1
      obtain ⟨l2, b2⟩ := keygenOneT_exists l1 a4
      refine ⟨l2, ?_⟩
      rw [tforUp, tr_bind, b1]
      simp only [ok_then, tr_bind, lift_run, a2, a3, b2, h]
  obtain ⟨log, e⟩ := key _ (Nat.le_refl _) _ _ e3
  refine ⟨log, ?_⟩
  cases h
  simp only [tr_bind, lift_run, e1, e2, e, ok_then]
  rfl

/-- The same for the responses of the signer and `C73_fails_sign`. -/
theorem C73_response_record_exists {fuel : Nat} {sl : Stale p} {fws : Vector Nat p.T}
    {seeds : Vector (Vector UInt8 p.skSeedLen) (p.numKeypairs - 1)} {acts : Vector (MonoAction p) p.T} {i : Nat}
    {s s' : Vector (Vector UInt8 p.monoBytes) p.W × Nat} (h : signResponse fuel sl fws seeds acts i s = .ok s') :
    ∃ log, signResponseT fuel sl fws seeds acts i s [] = .ok (s', log) := by
  obtain ⟨out, emitted⟩ := s
  obtain ⟨x, e1, h⟩ := c_bind_ok h
  by_cases hx : x ≠ 0
  · rw [if_pos hx] at h
    obtain ⟨seed, e2, h⟩ := c_bind_ok h
    obtain ⟨m, e3, h⟩ := c_bind_ok h
    obtain ⟨a, e4, h⟩ := c_bind_ok h
    obtain ⟨act, e5, h⟩ := c_bind_ok h
    obtain ⟨buf, e6, h⟩ := c_bind_ok h
    obtain ⟨b, e7, h⟩ := c_bind_ok h
    obtain ⟨o, e8, h⟩ := c_bind_ok h
    refine ⟨(composeAccesses m.permutation a.permutation).reverse ++ [], ?_⟩
    simp only [signResponseT, tr_bind, lift_run, e1, ok_then, if_pos hx, e2, e3, e4, composeActionT_run, e5, e6, e7, e8]
    cases h
    rfl
  · rw [if_neg hx] at h
    refine ⟨[], ?_⟩
    simp only [signResponseT, tr_bind, lift_run, e1, ok_then, if_neg hx]
    cases h
    rfl

/-! ## What does not show -/

theorem inverse_perm_eq {m m' r r' : Monomial p} (hm : m.Valid) (hm' : m'.Valid) (hN : p.N ≤ p.posMod) {s s' : Monomial p}
    (e : m.permutation = m'.permutation) (h : monomialInv s m = .ok r) (h' : monomialInv s' m' = .ok r') :
    r.permutation = r'.permutation := by
  have a := (monomialInv_wp s m hm hN).of_ok h
  have a' := (monomialInv_wp s' m' hm' hN).of_ok h'
  apply vec_ext
  intro d hd
  obtain ⟨i, hi, rfl⟩ := hm.1.surj d hd
  rw [(a i hi).1, e, (a' i hi).1]

/-- The part of the claim that holds: of a private monomial only the permutation shows.  The accesses made for one public
code are the same for any two seeds whose monomials have the same permutation, whatever the coefficients, the code and
the previous contents of memory. -/
theorem C73_coefficients_hidden_partial (hp : p.WF) {fuel : Nat} {sl sl' : Stale p} {G0 G0' : GenMat p} {seed seed' : Bytes}
    {buf buf' b b' : Vector UInt8 p.rrefBytes} {m m' : Monomial p} {log log' : List Access}
    (hm : monomialSeedExpandPrikey fuel sl.mono seed = .ok m) (hm' : monomialSeedExpandPrikey fuel sl'.mono seed' = .ok m')
    (e : m.permutation = m'.permutation) (h : keygenOneT fuel sl G0 seed buf [] = .ok (b, log))
    (h' : keygenOneT fuel sl' G0' seed' buf' [] = .ok (b', log')) : log = log' := by
  have hN := hp.N_lt
  have hKN := hp.K_lt_N
  have key : ∀ {sl : Stale p} {G0 : GenMat p} {seed : Bytes} {buf b : Vector UInt8 p.rrefBytes} {m : Monomial p} {log : List Access},
      monomialSeedExpandPrikey fuel sl.mono seed = .ok m → keygenOneT fuel sl G0 seed buf [] = .ok (b, log) →
      m.Valid ∧ ∃ r, monomialInv sl.mono' m = .ok r ∧
        log = (mulAccesses r.permutation).reverse ++ (invAccesses m.permutation).reverse := by
    intro sl G0 seed buf b m log hm h
    obtain ⟨m1, l1, e1, h⟩ := tr_bind_ok h
    obtain ⟨r, l2, e2, h⟩ := tr_bind_ok h
    obtain ⟨G, l3, e3, h⟩ := tr_bind_ok h
    obtain ⟨⟨o, R, f⟩, l4, e4, hl⟩ := tr_bind_ok h
    obtain ⟨q1, rfl⟩ := lift_ok e1
    rw [hm] at q1
    cases q1
    rw [monomialInvT_run] at e2
    obtain ⟨q2, rfl⟩ := run_ok e2
    rw [generatorMonomialMulT_run] at e3
    obtain ⟨q3, rfl⟩ := run_ok e3
    obtain ⟨q4, rfl⟩ := lift_ok e4
    obtain ⟨q5, rfl⟩ := lift_ok hl
    refine ⟨?_, r, q2, by rw [List.append_nil]⟩
    have := monomialFromState_stream fuel sl.mono _ _ (by omega) (by omega) (xof_at p seed)
    unfold monomialSeedExpandPrikey at hm
    cases e : monomialFromState fuel sl.mono (initCsprng p seed) with
    | error x => rw [e] at hm; cases hm
    | ok q =>
      rw [e] at hm
      cases hm
      exact (this.of_ok e).1
  obtain ⟨v, r, h1, rfl⟩ := key hm h
  obtain ⟨v', r', h1', rfl⟩ := key hm' h'
  rw [e, inverse_perm_eq v v' (by omega) e h1 h1']

/-- The same for signing: the composition of a private monomial with the action of a round makes accesses that depend on
the two permutations only. -/
theorem C73_compose_coefficients_hidden_partial {stale stale' : Monomial p} {out out' r r' : MonoAction p} {m m' : Monomial p}
    {a a' : MonoAction p} {log log' : List Access} (e : m.permutation = m'.permutation) (ea : a.permutation = a'.permutation)
    (h : composeActionT stale out m a [] = .ok (r, log)) (h' : composeActionT stale' out' m' a' [] = .ok (r', log')) :
    log = log' := by
  rw [composeActionT_run] at h h'
  obtain ⟨-, rfl⟩ := run_ok h
  obtain ⟨-, rfl⟩ := run_ok h'
  rw [e, ea]

/-! ## From the positions to a usable key -/

theorem placed_mul_apply {k n : Nat} {σ : Fin n → Fin n} (hσ : Function.Injective σ) (A : Matrix (Fin k) (Fin n) (ZMod 127))
    (d : Fin n → ZMod 127) (i : Fin k) (r : Fin n) : (A * placed σ d) i (σ r) = A i r * d r := by
  rw [Matrix.mul_apply, Finset.sum_eq_single r]
  · simp [placed]
  · intro b _ hb
    simp only [placed, if_neg (fun h => hb (hσ h)), mul_zero]
  · simp

theorem placed_add {n : Nat} (σ : Fin n → Fin n) (d e : Fin n → ZMod 127) : placed σ (d + e) = placed σ d + placed σ e := by
  funext r c
  show (if σ r = c then d r + e r else 0) = (if σ r = c then d r else 0) + (if σ r = c then e r else 0)
  split <;> simp

theorem placed_smul {n : Nat} (σ : Fin n → Fin n) (a : ZMod 127) (d : Fin n → ZMod 127) : placed σ (a • d) = a • placed σ d := by
  funext r c
  show (if σ r = c then a * d r else 0) = a * (if σ r = c then d r else 0)
  split <;> simp

/-- The coefficients `d` that, placed at the positions `σ`, take the code of `R` into the code of `A`: a linear space. -/
def Spec.fitting {k n : Nat} (σ : Fin n → Fin n) (A R : Matrix (Fin k) (Fin n) (ZMod 127)) : Submodule (ZMod 127) (Fin n → ZMod 127) where
  carrier := {d | ∃ V : Matrix (Fin k) (Fin k) (ZMod 127), R * placed σ d = V * A}
  zero_mem' := ⟨0, by
    have : placed σ 0 = 0 := by funext r c; simp [placed]
    rw [this, Matrix.mul_zero, Matrix.zero_mul]⟩
  add_mem' := by
    rintro d e ⟨V, hV⟩ ⟨W, hW⟩
    exact ⟨V + W, by rw [placed_add, Matrix.mul_add, hV, hW, Matrix.add_mul]⟩
  smul_mem' := by
    rintro a d ⟨V, hV⟩
    exact ⟨a • V, by rw [placed_smul, Matrix.mul_smul, hV, Matrix.smul_mul]⟩

theorem isUnit_of_fullRank {k : Nat} {V : Matrix (Fin k) (Fin k) (ZMod 127)} (h : FullRank V) : IsUnit V := by
  rw [← Matrix.vecMul_injective_iff_isUnit]
  intro x y hxy
  have : Matrix.vecMul (x - y) V = 0 := by rw [Matrix.sub_vecMul, show Matrix.vecMul x V = Matrix.vecMul y V from hxy, sub_self]
  exact sub_eq_zero.mp (h _ this)

/-- With the positions known, the coefficients of a private monomial are a solution of linear equations in the public
data, and every solution without a zero is as good: it takes the public code to the code of `G_0`. -/
theorem C73_linear_recovery (hp : p.WF) {fuel : Nat} {sl : Nat → Stale p} {rng rng' : Inc} (hr : RngOk p rng) {sk : PriKey p}
    {pk : PubKey p} {log : List Access} (h : lessKeygenT fuel sl rng [] = .ok ((sk, pk, rng'), log)) {i : Nat}
    (hi : i < p.numKeypairs - 1) :
    ∃ (G0 : Matrix (Fin p.K) (Fin p.N) (ZMod 127)) (R : Matrix (Fin p.K) (Fin p.N) (ZMod 127)) (piv : Fin p.K → Fin p.N)
      (σ : Fin p.N → Fin p.N),
      IsG0 p fuel (xof p pk.spec.seed) G0 ∧ IsRREF R piv ∧ pk.spec.codes i = packed p.rrefBytes (codeBits p R piv) ∧
      (∀ r : Fin p.N, (writtenTo 10 log).getD (i * p.N + r) p.N = (σ r).val) ∧
      (∃ d ∈ fitting σ G0 R, (∀ r, d r ≠ 0) ∧ IsSecret p fuel sk.spec.secret i (placed σ d)) ∧
      ∀ d ∈ fitting σ G0 R, (∀ r, d r ≠ 0) → RowEq G0 (R * placed σ d) := by
  obtain ⟨hkey, hall⟩ := C73_fails_keygen hp hr h
  obtain ⟨σ, d, hσ, hd, hM, hpos⟩ := hall i hi
  obtain ⟨hpair, -⟩ := keygen_pair hp hr hkey
  obtain ⟨G0, M', R, piv, hG0, hM', hrow, hR, hcode⟩ := hpair.2 i hi
  obtain rfl : M' = placed σ d := IsMonomial.unique hM' hM
  obtain ⟨P, hP, hPe⟩ := hrow
  refine ⟨G0, R, piv, σ, ?_, hR, hcode, hpos, ⟨d, ⟨P, hPe⟩, hd, hM⟩, ?_⟩
  · rw [hpair.1]; exact hG0
  · rintro e ⟨V, hV⟩ he
    refine ⟨V, isUnit_of_fullRank ?_, hV⟩
    intro v hv
    have h0 : Matrix.vecMul v (R * placed σ e) = 0 := by
      rw [hV, ← Matrix.vecMul_vecMul, hv, Matrix.zero_vecMul]
    apply hR.fullRank
    funext r
    have h1 := congrFun h0 (σ r)
    have h2 : Matrix.vecMul v (R * placed σ e) (σ r) = Matrix.vecMul v R r * e r := by
      simp only [Matrix.vecMul, dotProduct, placed_mul_apply hσ, Finset.sum_mul, mul_assoc]
    rw [h2] at h1
    exact (mul_eq_zero.mp h1).resolve_right (he r)

/-! ## The hypotheses are met -/

theorem monomialInvT_record (s m : Monomial p) (hm : ∀ i, i < p.N → g m.permutation i < p.N) :
    ∃ r, monomialInvT s m [] = .ok (r, (invAccesses m.permutation).reverse) := by
  have : Wp False (monomialInv s m) (fun _ => True) := by
    unfold monomialInv
    refine Wp.forUp (fun _ _ => True) trivial ?_ (fun _ _ => trivial)
    intro i r hi _
    simp only [Wp.bind_iff, Wp.rd_iff, Wp.wr_iff, Wp.pure_iff]
    exact ⟨hi, hm i hi, hi, hm i hi, trivial⟩
  obtain ⟨r, e, -⟩ := this.exists_ok
  exact ⟨r, by rw [monomialInvT_run, e, List.append_nil]; rfl⟩

/-- Two monomials with different permutations give different records: the identity, and the exchange of columns 0
and 1. -/
example : ∃ m m' r r' : Monomial Params.cat1Balanced, ∃ log log', monomialInvT m m [] = .ok (r, log) ∧
    monomialInvT m m' [] = .ok (r', log') ∧ writtenTo 10 log = List.range 252 ∧
    writtenTo 10 log' = 1 :: 0 :: (List.range 250).map (· + 2) := by
  let m : Monomial Params.cat1Balanced := ⟨Vector.ofFn fun _ => 1, Vector.ofFn fun i => i.val⟩
  let m' : Monomial Params.cat1Balanced := ⟨Vector.ofFn fun _ => 1, Vector.ofFn fun i => if i.val < 2 then 1 - i.val else i.val⟩
  have hN : 2 ≤ Params.cat1Balanced.N := by decide
  have b : ∀ i, i < Params.cat1Balanced.N → g m.permutation i < Params.cat1Balanced.N := by
    intro i hi
    rw [g_ofFn _ _ hi]; exact hi
  have b' : ∀ i, i < Params.cat1Balanced.N → g m'.permutation i < Params.cat1Balanced.N := by
    intro i hi
    rw [g_ofFn _ _ hi]
    dsimp only
    split <;> omega
  obtain ⟨r, e⟩ := monomialInvT_record m m b
  obtain ⟨r', e'⟩ := monomialInvT_record m m' b'
  refine ⟨m, m', r, r', _, _, e, e', ?_, ?_⟩
  · rw [written_inv]; decide +kernel
  · rw [written_inv]; decide +kernel

end LESS
