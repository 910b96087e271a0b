import Verif.Model.Testbench
import Verif.Props.Codes
import Verif.Props.Monomials
/-!
# Lemmas about the testbench
-/
namespace LESS
open Spec

variable {p : Params}

/-! ## Elimination with any contents of the pivot flags -/

/-- Result of an iteration of the elimination without the flags. -/
def noFlags : (Nat × GenMat p × Vector Nat p.N) ⊕ (GenMat p × Vector Nat p.N) → (Nat × GenMat p) ⊕ GenMat p
  | .inl r => .inl (r.1, r.2.1)
  | .inr s => .inr s.1

/-- The flags are written, never read: the matrix and the returned value do not depend on them. -/
theorem rrefStep_flags (r : Nat) (G : GenMat p) (f f' : Vector Nat p.N) :
    (rrefStep r (G, f)).map noFlags = (rrefStep r (G, f')).map noFlags := by
  unfold rrefStep
  dsimp only
  rcases findPivot G r (2 * p.N + 2) r r with e | ⟨row, col⟩
  · rfl
  · show Except.map noFlags (if p.N ≤ col then _ else _) = Except.map noFlags (if p.N ≤ col then _ else _)
    by_cases h : p.N ≤ col
    · simp only [if_pos h]; rfl
    · simp only [if_neg h]
      have h1 : ∀ f : Vector Nat p.N, wr f col 1 = .ok (upd f col 1) := fun f => by
        unfold wr upd; simp [show col < p.N by omega]
      rw [h1, h1]
      have tail : ∀ G1 : GenMat p, Except.map noFlags (do
            let x ← rd2 G1 r col
            let G ← scaleRow G1 r col (fqInv x)
            let G ← eliminateRows G r col
            pure (.inr (G, upd f col 1))) = Except.map noFlags (do
            let x ← rd2 G1 r col
            let G ← scaleRow G1 r col (fqInv x)
            let G ← eliminateRows G r col
            pure (.inr (G, upd f' col 1))) := by
        intro G1
        rcases rd2 G1 r col with e | x
        · rfl
        · show Except.map noFlags (scaleRow G1 r col (fqInv x) >>= _) = Except.map noFlags (scaleRow G1 r col (fqInv x) >>= _)
          rcases scaleRow G1 r col (fqInv x) with e | G2
          · rfl
          · show Except.map noFlags (eliminateRows G2 r col >>= _) = Except.map noFlags (eliminateRows G2 r col >>= _)
            rcases eliminateRows G2 r col with e | G3 <;> rfl
      show Except.map noFlags (if r ≠ row then _ else _) = Except.map noFlags (if r ≠ row then _ else _)
      by_cases hr : r ≠ row
      · simp only [if_pos hr]
        rcases swapRows G r row with e | G1
        · rfl
        · exact tail G1
      · simp only [if_neg hr]
        exact tail G

theorem rrefLoop_flags (n : Nat) (G : GenMat p) (f f' : Vector Nat p.N) :
    (forRet n rrefStep (G, f)).map noFlags = (forRet n rrefStep (G, f')).map noFlags := by
  induction n with
  | zero => rfl
  | succ n ih =>
    unfold forRet
    rcases h1 : forRet n rrefStep (G, f) with e | a <;> rcases h2 : forRet n rrefStep (G, f') with e' | a' <;>
      rw [h1, h2] at ih
    · cases ih; rfl
    · cases ih
    · cases ih
    · have ih : noFlags a = noFlags a' := by injection ih
      rcases a with a | a <;> rcases a' with a' | a'
      · show Except.ok _ = Except.ok _
        rw [show noFlags (.inl a) = _ from ih]
      · cases ih
      · cases ih
      · obtain ⟨A, fa⟩ := a
        obtain ⟨A', fa'⟩ := a'
        have : A = A' := by injection ih
        subst this
        exact rrefStep_flags n A fa fa'

/-- `generator_RREF` computes the same matrix and returns the same value whatever the flags contain. -/
theorem rref_flags (G : GenMat p) (f f' : Vector Nat p.N) :
    (generatorRREF G f).map (fun r => (r.1, r.2.1)) = (generatorRREF G f').map (fun r => (r.1, r.2.1)) := by
  have h := rrefLoop_flags p.K G f f'
  unfold generatorRREF
  rcases h1 : forRet p.K rrefStep (G, f) with e | a <;> rcases h2 : forRet p.K rrefStep (G, f') with e' | a' <;>
    rw [h1, h2] at h
  · cases h; rfl
  · cases h
  · cases h
  · have h : noFlags a = noFlags a' := by injection h
    rcases a with ⟨a1, a2, a3⟩ | ⟨a1, a2⟩ <;> rcases a' with ⟨b1, b2, b3⟩ | ⟨b1, b2⟩
    · simp only [noFlags, Sum.inl.injEq, Prod.mk.injEq] at h
      obtain ⟨rfl, rfl⟩ := h; rfl
    · cases h
    · cases h
    · simp only [noFlags, Sum.inr.injEq] at h
      subst h; rfl

theorem rref_any (G : GenMat p) (f f' : Vector Nat p.N) {a : Nat} {R : GenMat p} {o : Vector Nat p.N}
    (h : generatorRREF G f = .ok (a, R, o)) : ∃ o', generatorRREF G f' = .ok (a, R, o') := by
  have := rref_flags G f f'
  rw [h] at this
  rcases h2 : generatorRREF G f' with e | ⟨b, S, o'⟩
  · rw [h2] at this; cases this
  · rw [h2] at this
    have : (a, R) = (b, S) := by injection this
    cases this
    exact ⟨o', rfl⟩

/-! ## Random matrices of full rank -/

theorem generatorRnd_wp (hN : 0 < p.N) (fuel : Nat) (res : GenMat p) (st : Inc) :
    Wp True (generatorRnd fuel res st) (fun r => Reduced r.1) := by
  unfold generatorRnd
  refine Wp.forUp (fun i s => ∀ k j, k < i → j < p.N → g2 s.1 k j < 127) ?_ ?_ ?_
  · intro k j hk; omega
  · rintro i ⟨G, st⟩ hi hI
    dsimp only
    rw [Wp.bind_iff, Wp.rd_iff]
    refine ⟨hi, ?_⟩
    rw [Wp.bind_iff]
    refine (randState_wp p 0 126 fuel st _ (by omega) (by omega) hN).mono ?_
    rintro ⟨row, st'⟩ hrow
    rw [Wp.bind_iff, Wp.wr_iff]
    refine ⟨hi, ?_⟩
    intro k j hk hj
    show g2 (upd G i row) k j < 127
    rw [g2_upd _ _ _ _ _ hi]
    split
    · have := (hrow j hj).2; dsimp only at this; omega
    · exact hI k j (by omega) hj
  · intro s hs i j hi hj
    exact hs i j hi hj

/-- The matrix drawn by the testers is in reduced form and the flags mark its pivots. -/
theorem rndFullRank_wp (hp : p.WF) (fuel n : Nat) (G : GenMat p) (rng : Inc) :
    Wp True (rndFullRank fuel n G rng) (fun r => ∃ piv, IsCode r.1 r.2.1 piv) := by
  have hKN := hp.K_lt_N
  induction n generalizing G rng with
  | zero => exact trivial
  | succ n ih =>
    unfold rndFullRank
    rw [Wp.bind_iff]
    refine (generatorRnd_wp (by omega) fuel G rng).mono ?_
    rintro ⟨G1, rng1⟩ h1
    dsimp only at h1 ⊢
    rw [Wp.bind_iff]
    refine ((generatorRREF_wp G1 (by omega) h1).monoF False.elim).mono ?_
    rintro ⟨ok, R, f⟩ ⟨hR, -, h⟩
    dsimp only at hR h ⊢
    rw [Wp.ite_iff]
    refine ⟨fun _ => ih R rng1, fun hok => ?_⟩
    rcases h with ⟨h0, -⟩ | ⟨-, -, piv, hrref, hfl⟩
    · exact absurd h0 hok
    · exact ⟨piv, hR, hrref, hfl⟩

theorem monomialRnd_wp (hp : p.WF) (fuel : Nat) (s : Monomial p) (st : Inc) :
    Wp True (monomialRnd fuel s st) (fun r => r.1.Valid) :=
  monomialFromState_wp fuel s st (by have := hp.K_lt_N; omega) hp.N_lt.le

theorem Monomial.ext' {a b : Monomial p} (h : a = b) :
    a.coefficients = b.coefficients ∧ a.permutation = b.permutation := ⟨by rw [h], by rw [h]⟩

end LESS
