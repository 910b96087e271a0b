import Verif.Proofs.OptFq
import Verif.Proofs.Monomial
/-!
# The vectorised product with a monomial
-/
namespace LESS

variable {p : Params} {F : Prop}

/-- The 32 bytes from `off` on. -/
def vchunk {n : Nat} (a : Vector Nat n) (off : Nat) : Vec := Vector.ofFn fun i => g a (off + i.val)

/-- The array with the 32 bytes from `off` on replaced. -/
def vput {n : Nat} (a : Vector Nat n) (off : Nat) (v : Vec) : Vector Nat n :=
  Vector.ofFn fun i => if off ≤ i.val ∧ i.val < off + 32 then g v (i.val - off) else g a i.val

theorem g_vchunk {n : Nat} (a : Vector Nat n) (off i : Nat) (hi : i < 32) : g (vchunk a off) i = g a (off + i) :=
  g_ofFn _ _ hi

theorem g_vput {n : Nat} (a : Vector Nat n) (off : Nat) (v : Vec) (i : Nat) (hi : i < n) :
    g (vput a off v) i = if off ≤ i ∧ i < off + 32 then g v (i - off) else g a i := g_ofFn _ _ hi

@[simp] theorem Wp.vload_iff {n : Nat} {a : Vector Nat n} {off : Nat} {P : Vec → Prop} :
    Wp F (vload a off) P ↔ off + 32 ≤ n ∧ P (vchunk a off) := by
  unfold vload
  by_cases h : off + 32 ≤ n
  · simp [h, vchunk]
  · simp [h]

@[simp] theorem Wp.vstore_iff {n : Nat} {a : Vector Nat n} {off : Nat} {v : Vec} {P : Vector Nat n → Prop} :
    Wp F (vstore a off v) P ↔ off + 32 ≤ n ∧ P (vput a off v) := by
  unfold vstore
  by_cases h : off + 32 ≤ n
  · simp [h, vput]
  · simp [h]

theorem nPad_mod (p : Params) : 32 * (p.nPad / 32) = p.nPad := by
  unfold Params.nPad; cases p.cat <;> rfl

theorem nw_le (h : p.N ≤ p.nPad) : 32 * p.nw ≤ p.nPad := by
  have := nPad_mod p
  unfold Params.nw
  omega

theorem le_nw (p : Params) : p.N ≤ 32 * p.nw := by
  unfold Params.nw; omega

theorem g_cutRow (v : Vector Nat p.nPad) (j : Nat) (hj : j < p.N) : g (cutRow v) j = g v j := g_ofFn _ _ hj

theorem g2_cut (G : OGen p) (i j : Nat) (hi : i < p.K) (hj : j < p.N) : g2 (cut G) i j = g2 G i j := by
  rw [g2_eq _ _ _ hi, g2_eq _ _ _ hi]
  unfold cut
  rw [Vector.getElem_ofFn]
  exact g_cutRow _ _ hj

theorem g_pasteRow (v : Vector Nat p.N) (old : Vector Nat p.nPad) (j : Nat) (hj : j < p.nPad) :
    g (pasteRow v old) j = if j < p.N then g v j else g old j := g_ofFn _ _ hj

theorem g2_paste (G : GenMat p) (old : OGen p) (i j : Nat) (hi : i < p.K) (hj : j < p.nPad) :
    g2 (paste G old) i j = if j < p.N then g2 G i j else g2 old i j := by
  rw [g2_eq _ _ _ hi, g2_eq _ _ _ hi, g2_eq _ _ _ hi]
  unfold paste
  rw [Vector.getElem_ofFn]
  exact g_pasteRow _ _ _ hj

theorem cut_paste (hN : p.N ≤ p.nPad) (G : GenMat p) (old : OGen p) : cut (paste G old) = G := by
  apply mat_ext
  intro i j hi hj
  rw [g2_cut _ _ _ hi hj, g2_paste _ _ _ _ hi (by omega), if_pos hj]

theorem g2_row {r c : Nat} (m : Vector (Vector Nat c) r) (i j : Nat) (hi : i < r) : g2 m i j = g (g m i) j := by
  rw [g2_eq _ _ _ hi, g_eq_getElem _ _ hi]

/-- The entry left in place `d` when `v 0`, …, `v (n-1)` are written in turn to the places `perm 0`, …. -/
def lastWrite (perm v : Nat → Nat) (old d : Nat) : Nat → Nat
  | 0 => old
  | n + 1 => if perm n = d then v n else lastWrite perm v old d n

theorem generatorMonomialMul_val (res G : GenMat p) (m : Monomial p)
    (hm : ∀ s, s < p.N → g m.permutation s < p.N) :
    Wp False (generatorMonomialMul res G m) (fun R => ∀ r d, r < p.K → d < p.N →
      g2 R r d = lastWrite (g m.permutation) (fun s => fqRed (g2 G r s * g m.coefficients s)) (g2 res r d) d p.N) := by
  unfold generatorMonomialMul
  refine Wp.forUp (fun n (R : GenMat p) => ∀ r d, r < p.K → d < p.N →
      g2 R r d = lastWrite (g m.permutation) (fun s => fqRed (g2 G r s * g m.coefficients s)) (g2 res r d) d n)
    (fun _ _ _ _ => rfl) ?_ (fun _ h => h)
  intro c R hc hR
  have hlt := hm c hc
  refine Wp.forUp (fun n (R' : GenMat p) => ∀ r d, r < p.K → d < p.N →
      g2 R' r d = if r < n ∧ g m.permutation c = d then fqRed (g2 G r c * g m.coefficients c) else g2 R r d)
    (fun _ _ _ _ => by simp) ?_ ?_
  · intro i R' hi h
    simp only [Wp.bind_iff, Wp.rd_iff, Wp.rd2_iff, Wp.wr2_iff]
    refine ⟨hc, hi, hc, hc, hi, hlt, ?_⟩
    intro r d hr hd
    rw [g2_upd2 _ _ _ _ _ _ hi hlt]
    by_cases e : i = r ∧ g m.permutation c = d
    · rw [if_pos e, if_pos ⟨by omega, e.2⟩, e.1]
    · rw [if_neg e, h r d hr hd]
      by_cases e' : g m.permutation c = d
      · have : i ≠ r := fun h => e ⟨h, e'⟩
        have e1 : r < i + 1 ↔ r < i := by omega
        simp only [e1]
      · simp [e']
  · intro R' h r d hr hd
    rw [h r d hr hd]
    unfold lastWrite
    by_cases e : g m.permutation c = d
    · rw [if_pos ⟨hr, e⟩, if_pos e]
    · rw [if_neg (fun hh => e hh.2), if_neg e, hR r d hr hd]

theorem generatorMonomialMulO_val (isa : Isa) (hN : p.N ≤ p.nPad) (res G : OGen p) (coef : Vector Nat p.nPad)
    (perm : Vector Nat p.N) (buf : Vector Nat p.nPad) (hm : ∀ s, s < p.N → g perm s < p.N)
    (hG : Reduced (cut G)) (hc : ∀ s, s < p.N → g coef s < 127) :
    Wp False (generatorMonomialMulO isa res G coef perm buf) (fun R => ∀ r d, r < p.K → d < p.N →
      g2 R r d = lastWrite (g perm) (fun s => fqRed (g2 G r s * g coef s)) (g2 res r d) d p.N) := by
  unfold generatorMonomialMulO
  rw [Wp.bind_iff]
  refine Wp.forUp (fun n (s : OGen p × Vector Nat p.nPad) => ∀ r d, r < p.K → d < p.N →
      g2 s.1 r d = if r < n then lastWrite (g perm) (fun s => fqRed (g2 G r s * g coef s)) (g2 res r d) d p.N
        else g2 res r d) (fun _ _ _ _ => by simp) ?_ ?_
  · rintro row ⟨R, buf⟩ hrow hR
    dsimp only at hR ⊢
    rw [Wp.bind_iff, Wp.rd_iff]
    refine ⟨hrow, ?_⟩
    rw [Wp.bind_iff]
    refine Wp.forUp (fun n (b : Vector Nat p.nPad) => ∀ s, s < p.N → s < 32 * n →
        g b s = fqRed (g2 G row s * g coef s)) (fun s _ hs => by omega) ?_ ?_
    · intro k b hk hb
      have hoff : 32 * k + 32 ≤ p.nPad := by have := nPad_mod p; omega
      simp only [Wp.bind_iff, Wp.vload_iff, Wp.vstore_iff]
      refine ⟨hoff, hoff, hoff, ?_⟩
      intro s hs hlt
      rw [g_vput _ _ _ _ (by omega)]
      by_cases h : 32 * k ≤ s ∧ s < 32 * k + 32
      · have e : 32 * k + (s - 32 * k) = s := by omega
        have hgs : g2 G row s < 127 := by rw [← g2_cut _ _ _ hrow hs]; exact hG _ _ hrow hs
        rw [g2_row _ _ _ hrow] at hgs
        have hcs := hc s hs
        rw [if_pos h, g_mulChunk isa _ _ _ (by omega)
          (by rw [g_vchunk _ _ _ (by omega), e]; omega) (by rw [g_vchunk _ _ _ (by omega), e]; omega),
          g_vchunk _ _ _ (by omega), g_vchunk _ _ _ (by omega), e, brRed_brMul hgs hcs, g2_row _ _ _ hrow]
      · rw [if_neg h]; exact hb s hs (by omega)
    · intro b hb
      have hb' : ∀ s, s < p.N → g b s = fqRed (g2 G row s * g coef s) :=
        fun s hs => hb s hs (by have := nPad_mod p; omega)
      rw [Wp.bind_iff]
      refine Wp.forUp (fun n (R' : OGen p) => ∀ r d, r < p.K → d < p.N →
        g2 R' r d = if r = row then lastWrite (g perm) (fun s => fqRed (g2 G r s * g coef s)) (g2 res r d) d n
          else g2 R r d) ?_ ?_ ?_
      · intro r d hr hd
        by_cases e : r = row
        · rw [if_pos e, hR r d hr hd, if_neg (by omega)]; rfl
        · rw [if_neg e]
      · intro i R' hi hR'
        simp only [Wp.bind_iff, Wp.rd_iff, Wp.wr2_iff]
        have hlt := hm i hi
        refine ⟨hi, by omega, hrow, by omega, ?_⟩
        intro r d hr hd
        rw [g2_upd2 _ _ _ _ _ _ hrow (by omega)]
        by_cases e : r = row
        · subst e
          unfold lastWrite
          by_cases e2 : g perm i = d
          · rw [if_pos ⟨rfl, e2⟩, if_pos rfl, if_pos e2, hb' i hi]
          · rw [if_neg (fun h => e2 h.2), if_pos rfl, if_neg e2, hR' r d hr hd, if_pos rfl]
        · rw [if_neg (fun h => e h.1.symm), if_neg e, hR' r d hr hd, if_neg e]
      · intro R' hR'
        rw [Wp.pure_iff]
        intro r d hr hd
        show g2 R' r d = _
        rw [hR' r d hr hd]
        by_cases e : r = row
        · rw [if_pos e, if_pos (by omega)]
        · rw [if_neg e, hR r d hr hd]
          have : r < row + 1 ↔ r < row := by omega
          simp only [this]
  · rintro ⟨R, b⟩ h
    rw [Wp.pure_iff]
    intro r d hr hd
    rw [h r d hr hd, if_pos hr]

/-- The vectorised product agrees with the reference product on the `N` columns. -/
theorem generatorMonomialMulO_sim (isa : Isa) (hN : p.N ≤ p.nPad) (res G : OGen p) (m : Monomial p)
    (coef buf : Vector Nat p.nPad) (hm : ∀ s, s < p.N → g m.permutation s < p.N) (hG : Reduced (cut G))
    (hc : ∀ s, s < p.N → g m.coefficients s < 127) :
    ∃ R, generatorMonomialMulO isa res G (pasteRow m.coefficients coef) m.permutation buf = .ok R ∧
      generatorMonomialMul (cut res) (cut G) m = .ok (cut R) := by
  have hcp : ∀ s, s < p.N → g (pasteRow m.coefficients coef) s = g m.coefficients s :=
    fun s hs => by rw [g_pasteRow _ _ _ (by omega), if_pos hs]
  obtain ⟨R, hR, h1⟩ := (generatorMonomialMulO_val isa hN res G (pasteRow m.coefficients coef) m.permutation buf hm hG
    (fun s hs => by rw [hcp s hs]; exact hc s hs)).exists_ok
  obtain ⟨R', hR', h2⟩ := (generatorMonomialMul_val (cut res) (cut G) m hm).exists_ok
  refine ⟨R, hR, ?_⟩
  rw [hR']
  congr 1
  apply mat_ext
  intro r d hr hd
  rw [h2 r d hr hd, g2_cut res _ _ hr hd, g2_cut R _ _ hr hd, h1 r d hr hd]
  have : ∀ n, n ≤ p.N →
      lastWrite (g m.permutation) (fun s => fqRed (g2 (cut G) r s * g m.coefficients s)) (g2 res r d) d n =
      lastWrite (g m.permutation) (fun s => fqRed (g2 G r s * g (pasteRow m.coefficients coef) s)) (g2 res r d) d n := by
    intro n
    induction n with
    | zero => intro _; rfl
    | succ n ih =>
      intro hn
      unfold lastWrite
      rw [ih (by omega), g2_cut _ _ _ hr (by omega), hcp n (by omega)]
  exact this p.N (Nat.le_refl _)

end LESS
