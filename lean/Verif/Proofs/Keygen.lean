import Verif.Model.Threads
import Verif.Proofs.Verify
/-!
# Key generation against the specification
-/
namespace LESS
open Spec

variable {p : Params} {F : Prop}

/-! ## The encoding of a code -/

theorem finRange_map_val {α : Type} (n : Nat) (f : Nat → α) : (List.finRange n).map (fun i => f i.val) = (List.range n).map f := by
  rw [← List.map_coe_finRange_eq_range, List.map_map]; rfl

theorem codeBits_eq {A : Matrix (Fin p.K) (Fin p.N) Fq} {R : GenMat p} {f : Vector Nat p.N} {piv : Fin p.K → Fin p.N}
    (h : RrefOut A R f piv) : codeBits p (matOf R) piv = rrefBits R f := by
  unfold codeBits rrefBits flagBits denseEntries
  rw [← finRange_map_val, nonPiv_finRange h.flags]
  congr 1
  · congr 1
    apply List.map_congr_left
    intro j _
    have := h.flags.ne_zero_iff j j.2
    rw [decide_eq_decide]
    exact this.symm
  · congr 1
    rw [← List.map_coe_finRange_eq_range, List.flatMap_map]
    apply List.flatMap_congr
    intro i _
    rw [List.map_map]
    apply List.map_congr_left
    intro j _
    exact zmod_val_cast (h.reduced i j i.2 j.2)

/-- The encoding of a reduced code is well-formed and decodes to the code. -/
theorem canonCode_codeBits (p : Params) {R : Matrix (Fin p.K) (Fin p.N) Fq} {piv : Fin p.K → Fin p.N} (h : IsRREF R piv) :
    CanonCode p (packed p.rrefBytes (codeBits p R piv)) ∧ decodeCode p (packed p.rrefBytes (codeBits p R piv)) = R := by
  obtain ⟨R', f, hO, rfl⟩ := exists_out (RowEq.refl R) h
  rw [codeBits_eq hO]
  have hrt := hO.roundTrip
  have hdec : decodeCode p (packed p.rrefBytes (rrefBits R' f)) = matOf R' := by rw [← decodeRref_mat, hrt]
  refine ⟨⟨?_, ?_⟩, hdec⟩
  · rw [← denseBelow_eq _ _ (Nat.le_refl _), decFlags_packed R' f hO.fits.flag, hO.fits.count]
  · intro i hi j hj
    rw [← decodeRref_entry _ i j hi hj, hrt]
    exact hO.reduced i j hi hj

theorem Spec.IsPublic.canon {B : Nat} {sk : SK p} {i : Nat} {buf : Vector UInt8 p.rrefBytes} (h : IsPublic p B sk i buf) :
    CanonCode p buf := by
  obtain ⟨G0, M, R, piv, _, _, _, hR, rfl⟩ := h
  exact (canonCode_codeBits p hR).1

theorem Spec.IsPublic.good {B : Nat} {sk : SK p} {i : Nat} {buf : Vector UInt8 p.rrefBytes} (h : IsPublic p B sk i buf) :
    GoodCode p buf := h.canon.good

/-! ## Seeds of the private monomials -/

theorem privateSeeds_wp (sk : Bytes) :
    Wp F (privateSeeds p sk) (fun seeds => ∀ i < p.numKeypairs - 1,
      (g seeds i).toList = ((xof p sk).drop (i * p.skSeedLen)).take p.skSeedLen) := by
  unfold privateSeeds
  rw [Wp.bind_iff]
  refine Wp.forUp (fun n (s : Vector (Vector UInt8 p.skSeedLen) (p.numKeypairs - 1) × Inc) =>
    StreamAt p s.2 ((xof p sk).drop (n * p.skSeedLen)) ∧
    ∀ i < n, (g s.1 i).toList = ((xof p sk).drop (i * p.skSeedLen)).take p.skSeedLen) ?_ ?_ ?_
  · refine ⟨?_, by simp⟩
    rw [Nat.zero_mul, drop_zero]; exact xof_at p sk
  · rintro n ⟨seeds, st⟩ hn ⟨h1, h2⟩
    dsimp only at h1 h2 ⊢
    rw [← Prod.mk.eta (p := csprngBytes p p.skSeedLen st)]
    simp only [Wp.bind_iff, Wp.wr_iff, Wp.pure_iff]
    refine ⟨hn, ?_, ?_⟩
    · rw [Nat.succ_mul, ← drop_drop]; exact h1.next _
    · intro i hi
      rw [g_upd _ _ _ _ hn]
      by_cases e : n = i
      · subst e
        rw [if_pos rfl, toVec_toList, h1.2]
        exact csprngBytes_length _ _ _ h1.1
      · rw [if_neg e]; exact h2 i (by omega)
  · rintro ⟨seeds, st⟩ ⟨-, h2⟩
    exact h2

/-! ## One public code -/

theorem keygenOne_wp (hp : p.WF) (fuel : Nat) (sl : Stale p) (G0 : GenMat p) (hG : Reduced G0) (hrank : FullRank (matOf G0))
    (seed : Bytes) (buf : Vector UInt8 p.rrefBytes) :
    Wp (¬ ∃ M, IsMonomial p fuel (xof p seed) M) (keygenOne fuel sl G0 seed buf) (fun b => ∃ M R piv,
      IsMonomial p fuel (xof p seed) M ∧ RowEq (matOf G0) (R * M) ∧ IsRREF R piv ∧
        b = packed p.rrefBytes (codeBits p R piv)) := by
  have hN := hp.N_lt
  have hKN := hp.K_lt_N
  unfold keygenOne monomialSeedExpandPrikey
  simp only [Wp.bind_iff, Wp.pure_iff]
  refine (monomialFromState_stream fuel sl.mono _ _ (by omega) (by omega) (xof_at p seed)).mono ?_
  rintro ⟨m, st⟩ ⟨hm, hmono, -⟩
  refine ((monomialInv_wp sl.mono' m hm (by omega)).monoF False.elim).mono ?_
  intro r hr
  have hinv := mat_inv hm hr
  have hinv' : r.mat * m.mat = 1 := mul_eq_one_comm.mp hinv
  refine ((generatorMonomialMul_mat sl.gen G0 r (inv_valid hm hr) hG).monoF False.elim).mono ?_
  rintro G ⟨hGr, hGm⟩
  have hfr : FullRank (matOf G) := by rw [hGm]; exact fullRank_mul hrank hinv'
  refine ((generatorRREF_full G (Nat.le_of_lt hKN) hGr hfr).monoF False.elim).mono ?_
  rintro ⟨ok, R, f⟩ ⟨-, piv, hO⟩
  dsimp only at hO ⊢
  rw [compressRref_eq hp _ _ _ hO.fits, Wp.ok_iff]
  refine ⟨m.mat, matOf R, piv, hmono, ?_, hO.rref, ?_⟩
  · obtain ⟨P, hP, e⟩ := hO.rowEq
    refine ⟨P, hP, ?_⟩
    rw [e, hGm, Matrix.mul_assoc, Matrix.mul_assoc, hinv', Matrix.mul_one]
  · rw [codeBits_eq hO]

/-! ## Key generation -/

/-- The private key drawn from a stream. -/
def skOf (p : Params) (s : Stream) : SK p := ⟨s.take p.skSeedLen, (s.drop p.skSeedLen).take p.seedLen⟩

/-- Key generation from given random bytes. -/
def keygenWith (fuel : Nat) (sl : Nat → Stale p) (sk g0 : Bytes) : C (PriKey p × PubKey p) := do
  let seeds ← privateSeeds p sk
  keygenRest fuel sl sk seeds g0

theorem lessKeygen_eq (fuel : Nat) (sl : Nat → Stale p) (rng : Inc) :
    lessKeygen fuel sl rng = (do
      let r ← keygenWith fuel sl (csprngBytes p p.skSeedLen rng).1 (csprngBytes p p.seedLen (csprngBytes p p.skSeedLen rng).2).1
      pure (r.1, r.2, (csprngBytes p p.seedLen (csprngBytes p p.skSeedLen rng).2).2)) := by
  unfold lessKeygen keygenWith keygenRest
  simp only [bind_assoc, pure_bind]

theorem keygenWith_wp (hp : p.WF) (fuel : Nat) (sl : Nat → Stale p) {sk g0 : Bytes} (hsk : sk.length = p.skSeedLen)
    (hg0 : g0.length = p.seedLen) :
    Wp (¬ KeyFits p fuel ⟨sk, g0⟩) (keygenWith fuel sl sk g0) (fun r => r.1.spec = ⟨sk, g0⟩ ∧ KeyPair p fuel ⟨sk, g0⟩ r.2.spec) := by
  have hKN := hp.K_lt_N
  unfold keygenWith keygenRest
  rw [Wp.bind_iff]
  refine (privateSeeds_wp _).mono ?_
  intro seeds hseeds
  rw [Wp.bind_iff]
  refine ((expandG0_wp hp fuel (sl 0) _).monoF ?_).mono ?_
  · rintro hno ⟨h, -⟩; exact hno h
  rintro G0 ⟨hG, hG0⟩
  rw [Wp.bind_iff]
  refine Wp.forUp (fun n (sfg : Vector (Vector UInt8 p.rrefBytes) (p.numKeypairs - 1)) =>
    ∀ i < n, IsPublic p fuel (⟨sk, g0⟩) i (g sfg i)) (by simp) ?_ ?_
  · intro i sfg hi hI
    rw [Wp.bind_iff, Wp.rd_iff]
    refine ⟨hi, ?_⟩
    rw [Wp.bind_iff, Wp.rd_iff]
    refine ⟨hi, ?_⟩
    rw [Wp.bind_iff]
    refine ((keygenOne_wp hp fuel (sl (i + 1)) G0 hG (IsRREF.fullRank (hG0.rref (Nat.le_of_lt hKN))) _ _).monoF ?_).mono ?_
    · rintro hno ⟨-, h⟩
      rw [hseeds i hi] at hno
      exact hno (h i hi)
    · rintro b ⟨M, R, piv, hM, hrow, hR, rfl⟩
      rw [hseeds i hi] at hM
      rw [Wp.wr_iff]
      refine ⟨hi, fun j hj => ?_⟩
      rw [g_upd _ _ _ _ hi]
      by_cases e : i = j
      · subst e
        rw [if_pos rfl]
        exact ⟨_, M, R, piv, hG0, hM, hrow, hR, rfl⟩
      · rw [if_neg e]; exact hI j (by omega)
  · intro sfg hsfg
    rw [Wp.pure_iff]
    have e1 : (toVec p.seedLen g0).toList = g0 := toVec_toList hg0
    have e0 : (toVec p.skSeedLen sk).toList = sk := toVec_toList hsk
    refine ⟨?_, ?_, ?_⟩
    · unfold PriKey.spec; dsimp only; rw [e0, e1]
    · unfold PubKey.spec; dsimp only; rw [e1]
    · intro i hi
      exact hsfg i hi

theorem lessKeygen_wp (hp : p.WF) (fuel : Nat) (sl : Nat → Stale p) (rng : Inc) (s : Stream) (hs : StreamAt p rng s) :
    Wp (¬ KeyFits p fuel (skOf p s)) (lessKeygen fuel sl rng) (fun r =>
      r.1.spec = skOf p s ∧ KeyPair p fuel (skOf p s) r.2.1.spec ∧
        StreamAt p r.2.2 (s.drop (p.skSeedLen + p.seedLen))) := by
  rw [lessKeygen_eq]
  have h1 := hs.next p.skSeedLen
  have h2 := h1.next p.seedLen
  rw [drop_drop] at h2
  rw [hs.2, h1.2, Wp.bind_iff]
  refine (keygenWith_wp hp fuel sl (take_length _ _) (take_length _ _)).mono ?_
  rintro r ⟨h, h'⟩
  exact ⟨h, h', h2⟩

end LESS
