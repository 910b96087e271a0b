import Verif.Proofs.Testbench
import Verif.Props.Api
import Verif.Props.Field
import Verif.Proofs.KatRun
/-!
# C70: the functional tests of the project never raise a false alarm

Every test of less_test.c, run in any state of the random generator and with any contents of its uninitialised
variables, stays inside its buffers and, if its rejection loops end, reports success.  (What the project runs is
one single state, see C69.)
-/
namespace LESS
open Spec

variable {p : Params}

/-- The run stays inside all buffers, and if it ends it reports `v`. -/
def Reports {α σ : Type} (x : C (α × σ)) (v : α) : Prop := x ≠ .error .oob ∧ ∀ r, x = .ok r → r.1 = v

theorem reports_of_wp {α σ : Type} {x : C (α × σ)} {v : α} (h : Wp True x (fun r => r.1 = v)) : Reports x v := by
  refine ⟨fun e => ?_, fun r e => h.of_ok e⟩
  rw [e] at h
  exact h

/-- The test of all inverses ends and succeeds. -/
theorem C70_inverses : inverseModTester = .ok true := by
  have h : ∀ n ≤ 126, inverseTest n = .ok true := by
    intro n hn
    refine Wp.eq_ok ?_
    unfold inverseTest
    rw [Wp.bind_iff]
    refine Wp.forUp (fun i s => ∀ j < i, g s.1 j = j + 1 ∧ g s.2 j = fqInv (j + 1)) (fun j hj => by omega) ?_ ?_
    · rintro i ⟨v, w⟩ hi hI
      dsimp only
      rw [Wp.bind_iff, Wp.wr_iff]
      refine ⟨hi, ?_⟩
      rw [Wp.bind_iff, Wp.wr_iff]
      refine ⟨hi, ?_⟩
      intro j hj
      show g (upd v i (i + 1)) j = _ ∧ g (upd w i (fqInv (i + 1))) j = _
      rw [g_upd _ _ _ _ hi, g_upd _ _ _ _ hi]
      by_cases e : i = j
      · subst e; simp
      · rw [if_neg e, if_neg e]; exact hI j (by omega)
    · rintro ⟨v, w⟩ h
      dsimp only at h ⊢
      refine Wp.forUp (fun _ b => b = true) rfl ?_ (fun s h => h)
      rintro i b hi rfl
      rw [Wp.bind_iff, Wp.rd_iff]
      refine ⟨hi, ?_⟩
      rw [Wp.bind_iff, Wp.rd_iff]
      refine ⟨hi, ?_⟩
      rw [(h i hi).1, (h i hi).2]
      obtain ⟨h1, h2, -⟩ := C30_inversion (i + 1) (by omega) (by omega)
      have h3 : (i + 1) * fqInv (i + 1) < 127 * 127 := Nat.mul_lt_mul'' (by omega) h1
      show (if u32 _ % Q ≠ 1 then false else true) = true
      unfold u32
      rw [Nat.mod_eq_of_lt (show (i + 1) * fqInv (i + 1) < 4294967296 by omega), show Q = 127 from rfl, h2]
      rfl
  unfold inverseModTester
  exact h (Q - 1) (by decide)

theorem C70_monomials (hp : p.WF) (fuel : Nat) (sl sl' : Stale p) (rng : Inc) :
    Reports (monomialTester fuel sl sl' rng) true := by
  refine reports_of_wp ?_
  unfold monomialTester
  obtain ⟨I, hI, -⟩ := exists_id hp sl.mono
  rw [hI]
  show Wp True (monomialRnd fuel sl.mono' rng >>= _) _
  rw [Wp.bind_iff]
  refine (monomialRnd_wp hp fuel _ rng).mono ?_
  rintro ⟨A, rng1⟩ hA
  dsimp only at hA ⊢
  obtain ⟨I', B, h1, h2, -, -, h3⟩ := C19_inverse hp hA sl.mono sl'.mono sl'.mono' sl'.mono'
  rw [hI] at h1
  cases h1
  rw [h2]
  show Wp True (monomialMul sl'.mono' B A >>= _) _
  rw [h3]
  show decide _ = true
  simp

theorem C70_matrix_by_monomial (hp : p.WF) (fuel : Nat) (sl sl' : Stale p) (rng : Inc) :
    Reports (genByMonomTester fuel sl sl' rng) true := by
  refine reports_of_wp ?_
  unfold genByMonomTester
  rw [Wp.bind_iff]
  refine (rndFullRank_wp hp fuel fuel _ rng).mono ?_
  rintro ⟨G, f, rng1⟩ ⟨piv, hG⟩
  dsimp only at hG ⊢
  rw [Wp.bind_iff]
  refine (monomialRnd_wp hp fuel _ rng1).mono ?_
  rintro ⟨A, rng2⟩ hA
  dsimp only at hA ⊢
  obtain ⟨GA, A', h1, h2, h3⟩ := (C20_right_action hp G hG.reduced hA hA sl.gen sl.gen sl.gen sl'.gen sl.mono sl.mono').2
  rw [h2]
  show Wp True (generatorMonomialMul sl.gen G A >>= _) _
  rw [h1]
  show Wp True (generatorMonomialMul sl'.gen GA A' >>= _) _
  rw [h3]
  show decide _ = true
  simp

theorem C70_compact_form (hp : p.WF) (fuel : Nat) (sl : Stale p) (rng : Inc) :
    Reports (rrefGenCompressTester fuel sl rng) true := by
  refine reports_of_wp ?_
  unfold rrefGenCompressTester
  rw [Wp.bind_iff]
  refine (rndFullRank_wp hp fuel fuel _ rng).mono ?_
  rintro ⟨G, f, rng1⟩ ⟨piv, hG⟩
  dsimp only at hG ⊢
  obtain ⟨c, h1, -⟩ := C26_compact_round_trip hp hG sl.rref G
  rw [h1]
  show Wp True (generatorRnd fuel G rng1 >>= _) _
  rw [Wp.bind_iff]
  refine (generatorRnd_wp (by have := hp.K_lt_N; omega) fuel G rng1).mono ?_
  rintro ⟨J, rng2⟩ -
  dsimp only
  obtain ⟨c', h1', h2⟩ := C26_compact_round_trip hp hG sl.rref J
  rw [h1] at h1'
  cases h1'
  rw [h2]
  show decide _ = true
  simp

theorem C70_byte_form (hp : p.WF) (fuel : Nat) (buf : Vector UInt8 p.rrefBytes) (rng : Inc) :
    Reports (rrefGenByteCompressTester fuel buf rng) true := by
  refine reports_of_wp ?_
  unfold rrefGenByteCompressTester
  rw [Wp.bind_iff]
  refine (rndFullRank_wp hp fuel fuel _ rng).mono ?_
  rintro ⟨G, f, rng1⟩ ⟨piv, hG⟩
  dsimp only at hG ⊢
  obtain ⟨b, h1, h2, -⟩ := C25_code_round_trip hp hG
  rw [h1]
  show Wp True (generatorRnd fuel G rng1 >>= _) _
  rw [Wp.bind_iff]
  refine (generatorRnd_wp (by have := hp.K_lt_N; omega) fuel G rng1).mono ?_
  rintro ⟨J, rng2⟩ -
  dsimp only
  rw [h2]
  show decide _ = true
  simp

theorem C70_action_form (hp : p.WF) (fuel : Nat) (sl : Stale p) (buf : Vector UInt8 p.monoBytes) (rng : Inc) :
    Reports (monoIsCompressTester fuel sl buf rng) true := by
  have hKN := hp.K_lt_N
  refine reports_of_wp ?_
  unfold monoIsCompressTester
  rw [Wp.bind_iff]
  refine (monomialRnd_wp hp fuel _ rng).mono ?_
  rintro ⟨A, rng1⟩ ⟨hA1, hA2⟩
  dsimp only at hA1 hA2 ⊢
  rw [Wp.bind_iff]
  refine Wp.forUp (fun i s => ∀ j < i, g s.1 j = g A.coefficients j ∧ g s.2 j = g A.permutation j) (fun j hj => by omega) ?_ ?_
  · rintro i ⟨co, pe⟩ hi hI
    dsimp only
    rw [Wp.bind_iff, Wp.rd_iff]
    refine ⟨by omega, ?_⟩
    rw [Wp.bind_iff, Wp.wr_iff]
    refine ⟨hi, ?_⟩
    rw [Wp.bind_iff, Wp.rd_iff]
    refine ⟨by omega, ?_⟩
    rw [Wp.bind_iff, Wp.wr_iff]
    refine ⟨hi, ?_⟩
    intro j hj
    show g (upd co i _) j = _ ∧ g (upd pe i _) j = _
    rw [g_upd _ _ _ _ hi, g_upd _ _ _ _ hi]
    by_cases e : i = j
    · subst e; simp
    · rw [if_neg e, if_neg e]; exact hI j (by omega)
  · rintro ⟨co, pe⟩ h
    dsimp only at h ⊢
    obtain ⟨enc, h1, h2⟩ := C21_action_round_trip hp ⟨co, pe⟩ (fun i hi => by
        show g pe i < p.N
        rw [(h i hi).2]; exact hA1.1 i (by omega)) (fun i hi => by
        show g co i < 128
        rw [(h i hi).1]; have := (hA2 i (by omega)).2; omega) buf sl.act'
    rw [h1]
    show Wp True (expandToMonomAction sl.act' enc >>= _) _
    rw [h2]
    show decide _ = true
    simp

/-! ## Gaussian elimination -/

theorem pivotScan_wp {R : GenMat p} {f : Vector Nat p.N} {piv : Fin p.K → Fin p.N} (h : IsCode R f piv) (t : Fin p.K)
    (n col : Nat) (hc : col ≤ piv t) (hn : (piv t).val < n + col) :
    Wp False (pivotScan R t n col) (fun c => c = piv t) := by
  induction n generalizing col with
  | zero => exact absurd hn (by omega)
  | succ n ih =>
    unfold pivotScan
    have := (piv t).2
    rw [Wp.bind_iff, Wp.rd2_iff]
    refine ⟨t.2, by omega, ?_⟩
    rw [Wp.ite_iff]
    have hred := fun j (hj : j < p.N) => h.reduced t j t.2 hj
    constructor
    · rintro ⟨h0, -⟩
      refine ih (col + 1) ?_ (by omega)
      rcases Nat.lt_or_ge col (piv t) with hlt | hge
      · exact hlt
      · exfalso
        have e : col = (piv t).val := by omega
        have := h.rref.unit t t
        rw [if_pos rfl] at this
        unfold matOf at this
        rw [e] at h0
        rw [h0] at this
        exact absurd this (by decide)
    · intro h0
      rcases Nat.lt_or_ge col (piv t) with hlt | hge
      · exfalso
        have hz := h.rref.left t ⟨col, by omega⟩ hlt
        unfold matOf at hz
        rw [ZMod.natCast_eq_zero_iff] at hz
        have := hred col (by omega)
        exact h0 ⟨Nat.eq_zero_of_dvd_of_lt hz this, by omega⟩
      · show col = _; omega

theorem rowCheck_wp {R : GenMat p} {f : Vector Nat p.N} {piv : Fin p.K → Fin p.N} (h : IsCode R f piv) (t : Nat)
    (ht : t < p.K) : Wp False (rowCheck R f t true) (fun b => b = true) := by
  unfold rowCheck
  rw [Wp.bind_iff]
  refine (pivotScan_wp h ⟨t, ht⟩ (p.N + 2) 0 (by omega) (by have := (piv ⟨t, ht⟩).2; omega)).mono ?_
  rintro c rfl
  have hc := (piv ⟨t, ht⟩).2
  rw [Wp.bind_iff, Wp.rd2_iff]
  refine ⟨ht, hc, ?_⟩
  rw [Wp.bind_iff, Wp.rd_iff]
  refine ⟨hc, ?_⟩
  have h1 : g2 R t (piv ⟨t, ht⟩) = 1 := by
    have hu := h.rref.unit ⟨t, ht⟩ ⟨t, ht⟩
    rw [if_pos rfl] at hu
    have hlt := h.reduced t (piv ⟨t, ht⟩) ht hc
    have hcast : ((g2 R t (piv ⟨t, ht⟩) : Nat) : Fq) = ((1 : Nat) : Fq) := by rw [Nat.cast_one]; exact hu
    rw [ZMod.natCast_eq_natCast_iff'] at hcast
    omega
  have h2 : g f (piv ⟨t, ht⟩) = 1 := by rw [h.flags, if_pos ⟨_, rfl⟩]
  rw [h1, h2]
  show (if (1 : Nat) ≠ 1 then false else if p.N ≤ (piv ⟨t, ht⟩).val then false else if (1 : Nat) ≠ 1 then false else true) = true
  rw [if_neg (by simp), if_neg (by omega), if_neg (by simp)]

theorem gausselimStep_wp (hp : p.WF) (fuel : Nat) (sl : Nat → Stale p) (i : Nat) (G : GenMat p) (rng : Inc) (hG : Reduced G)
    (hr : FullRank (matOf G)) : Wp True (gausselimStep fuel sl i (G, true, rng)) (fun s =>
      Reduced s.1 ∧ FullRank (matOf s.1) ∧ s.2.1 = true) := by
  have hKN := hp.K_lt_N
  unfold gausselimStep
  dsimp only
  rw [if_pos rfl, Wp.bind_iff]
  refine (monomialRnd_wp hp fuel _ rng).mono ?_
  rintro ⟨A, rng1⟩ hA
  dsimp only at hA ⊢
  obtain ⟨GA, h1, h2, h3⟩ := C20_matrix_product (sl i).gen G A hA hG
  rw [h1]
  have hfull : FullRank (matOf GA) := by rw [h3]; exact fullRank_valid hr hA hp.N_lt.le
  show Wp True (generatorRREF GA (Vector.replicate _ 0) >>= _) _
  rw [Wp.bind_iff]
  refine ((generatorRREF_full GA hKN.le h2 hfull).monoF False.elim).mono ?_
  rintro ⟨ok, R, f⟩ ⟨hok, piv, hout⟩
  dsimp only at hok hout ⊢
  subst hok
  have hcode : IsCode R f piv := ⟨hout.reduced, hout.rref, hout.flags⟩
  rw [Wp.bind_iff]
  refine Wp.forUp (fun _ b => b = true) rfl ?_ ?_
  · rintro t b ht rfl
    exact (rowCheck_wp hcode t ht).monoF False.elim
  · rintro b rfl
    exact ⟨h2, hfull, rfl⟩

theorem C70_elimination (hp : p.WF) (fuel tests : Nat) (sl : Nat → Stale p) (G : GenMat p) (rng : Inc) :
    Reports (gausselimTester fuel tests sl G rng) true := by
  refine reports_of_wp ?_
  unfold gausselimTester
  rw [Wp.bind_iff]
  refine (rndFullRank_wp hp fuel fuel _ rng).mono ?_
  rintro ⟨G1, f, rng1⟩ ⟨piv, hG⟩
  dsimp only at hG ⊢
  rw [Wp.bind_iff]
  refine Wp.forUp (fun _ s => Reduced s.1 ∧ FullRank (matOf s.1) ∧ s.2.1 = true) ⟨hG.reduced, hG.rref.fullRank, rfl⟩ ?_ ?_
  · rintro i ⟨G2, b, rng2⟩ - ⟨h1, h2, h3⟩
    dsimp only at h1 h2 h3
    subst h3
    exact gausselimStep_wp hp fuel sl i G2 rng2 h1 h2
  · rintro ⟨G2, b, rng2⟩ ⟨-, -, h3⟩
    exact h3

theorem C70_normal_forms (hp : p.WF) (fuel : Nat) (sl : Nat → Stale p) (G : GenMat p) (rng : Inc) :
    Reports (rrefGenByMonomTester fuel sl G rng) true := by
  have hKN := hp.K_lt_N
  have hN := hp.N_lt.le
  refine reports_of_wp ?_
  unfold rrefGenByMonomTester
  rw [Wp.bind_iff]
  refine (monomialRnd_wp hp fuel _ rng).mono ?_
  rintro ⟨Qa, rng1⟩ hQa
  dsimp only at hQa ⊢
  obtain ⟨Qi, hi1, hi2, hi3⟩ := exists_inv hp (sl 1).mono Qa hQa
  rw [hi1]
  show Wp True (monomialRnd fuel (sl 2).mono rng1 >>= _) _
  rw [Wp.bind_iff]
  refine (monomialRnd_wp hp fuel _ rng1).mono ?_
  rintro ⟨Qb, rng2⟩ hQb
  dsimp only at hQb ⊢
  rw [Wp.bind_iff]
  refine (rndFullRank_wp hp fuel fuel _ rng2).mono ?_
  rintro ⟨G1, f, rng3⟩ ⟨piv, hG⟩
  dsimp only at hG ⊢
  have hfull := hG.rref.fullRank
  -- the products
  obtain ⟨A, ha1, ha2, ha3⟩ := C20_matrix_product (sl 3).gen G1 Qa hQa hG.reduced
  obtain ⟨B, hb1, hb2, hb3⟩ := C20_matrix_product (sl 4).gen G1 Qb hQb hG.reduced
  obtain ⟨mu, hm1, hm2, hm3⟩ := exists_mul (sl 5).mono Qi Qb hi2 hQb
  obtain ⟨Qc, hc1, hc2, hc3⟩ := exists_mul (sl 6).mono Qa mu hQa hm2
  have hQc : Qc = Qb := mat_inj hc2 hQb (by rw [hc3, hm3, ← Matrix.mul_assoc, hi3, Matrix.one_mul])
  -- the reduced forms
  have hfa : FullRank (matOf A) := by rw [ha3]; exact fullRank_valid hfull hQa hN
  have hfb : FullRank (matOf B) := by rw [hb3]; exact fullRank_valid hfull hQb hN
  obtain ⟨⟨oa, RA, fa⟩, ea, eoa, pa, houtA⟩ := (generatorRREF_full A hKN.le ha2 hfa).exists_ok
  obtain ⟨⟨ob, RB, fb⟩, eb, eob, pb, houtB⟩ := (generatorRREF_full B hKN.le hb2 hfb).exists_ok
  dsimp only at eoa eob houtA houtB
  subst eoa eob
  obtain ⟨C1, hd1, hd2, hd3⟩ := C20_matrix_product (sl 7).gen RA mu hm2 houtA.reduced
  have hsame : SameCode (matOf B) (matOf C1) := by
    have h1 : RowEq (matOf A * mu.mat) (matOf RA * mu.mat) := houtA.rowEq.mul_right mu.mat
    have h2 : matOf A * mu.mat = matOf B := by
      rw [ha3, hb3, Matrix.mul_assoc, ← hc3, hQc]
    rw [hd3, ← h2]
    exact h1.sameCode
  obtain ⟨S, fs, es1, es2⟩ := C24_rref_canonical B C1 hKN.le hb2 hd2 hfb hsame
  rw [eb] at es1
  cases es1
  have hsame2 : SameCode (matOf B) (matOf RB) := houtB.rowEq.sameCode
  obtain ⟨S2, fs2, es3, es4⟩ := C24_rref_canonical B RB hKN.le hb2 houtB.reduced hfb hsame2
  rw [eb] at es3
  cases es3
  rw [ha1]
  show Wp True (generatorRREF A f >>= _) _
  obtain ⟨f1, e1⟩ := rref_any A _ f ea
  rw [e1]
  show Wp True (generatorMonomialMul (sl 4).gen G1 Qb >>= _) _
  rw [hb1]
  show Wp True (generatorRREF B f1 >>= _) _
  obtain ⟨f2, e2⟩ := rref_any B _ f1 eb
  rw [e2]
  show Wp True (monomialMul (sl 5).mono Qi Qb >>= _) _
  rw [hm1]
  show Wp True (monomialMul (sl 6).mono Qa mu >>= _) _
  rw [hc1]
  show Wp True (generatorMonomialMul (sl 7).gen RA mu >>= _) _
  rw [hd1]
  show Wp True (generatorRREF C1 f2 >>= _) _
  obtain ⟨f3, e3⟩ := rref_any C1 _ f2 es2
  rw [e3]
  show Wp True (generatorRREF RB f3 >>= _) _
  obtain ⟨f4, e4⟩ := rref_any RB _ f3 es4
  rw [e4]
  show decide _ = true
  rw [hQc]
  simp

/-! ## Signing and verifying -/

theorem C70_sign_verify (hp : p.WF) (fuel : Nat) (sl₁ sl₂ sl₃ : Nat → Stale p) (sig : SignT p p.storageLen) {rng : Inc}
    (hr : RngOk p rng) : Reports (signVerifyTest fuel sl₁ sl₂ sl₃ sig rng) 1 := by
  refine reports_of_wp ?_
  unfold signVerifyTest
  rcases hk : lessKeygen fuel sl₁ rng with e | ⟨sk, pk, rng1⟩
  · cases e with
    | oob => exact absurd hk (C05_keygen_memory_safe hp fuel sl₁ hr)
    | fuel => trivial
  have hr1 := (keygen_pair hp hr hk).2
  show Wp True (lessSign fuel sl₂ rng1 sk signme sig >>= _) _
  rcases hs : lessSign fuel sl₂ rng1 sk signme sig with e | ⟨sig', num, rng2⟩
  · cases e with
    | oob => exact absurd hs (C05_sign_memory_safe hp (Nat.le_refl _) fuel sl₂ hr1 sk signme sig)
    | fuel => trivial
  show Wp True (lessVerify fuel sl₃ pk signme sig' >>= _) _
  rw [C01_honest_signature_verifies hp (Nat.le_refl _) hr hr1 hk hs (Nat.le_refl _) (Nat.le_refl _) sl₃]
  exact rfl

theorem openArg_eq {k : Nat} (sm : Vector UInt8 k) (n : Nat) : openArg sm n = firstBytes sm n := by
  apply vec_ext
  intro i hi
  rw [g_firstBytes _ _ _ hi]
  unfold openArg
  rw [g_ofFn _ _ hi]

/-- Generating a key, signing `msg` with it and opening the result, as the two tests do (less_test.c:402-418 and
449-465): in a state `rng`, with buffers of `k` and `mcap` bytes. -/
def roundTrip {k : Nat} (fuel : Nat) (sl : Nat → Nat → Stale p) (mcap : Nat) (sm : Vector UInt8 k) (msg : Bytes) (rng : Inc) :
    C (Int × Option Bytes × Vector UInt8 k × Inc) := do
  let (pk, sk, rng) ← cryptoSignKeypair fuel (sl 0) rng
  let (sm, smlen, rng) ← cryptoSign fuel (sl 1) rng sm msg sk
  let (ret, out) ← cryptoSignOpen fuel (sl 2) mcap (openArg sm smlen) pk
  pure (ret, out, sm, rng)

/-- A key generated in state `rng` signs `msg` with as many published seeds as `crypto_sign_open` refuses. -/
def SignsAtLimit (p : Params) (fuel : Nat) (sl : Nat → Nat → Stale p) (k : Nat) (msg : Bytes) (rng : Inc) : Prop :=
  ∃ pk sk rng₁ rng₂ smlen, ∃ sm sm' : Vector UInt8 k, cryptoSignKeypair fuel (sl 0) rng = .ok (pk, sk, rng₁) ∧
    cryptoSign fuel (sl 1) rng₁ sm msg sk = .ok (sm', smlen, rng₂) ∧ p.maxPublishedSeeds ≤ (g sm' (smlen - 1)).toNat

theorem roundTrip_wp (hp : p.WF) {k : Nat} (fuel : Nat) (sl : Nat → Nat → Stale p) (mcap : Nat) (sm : Vector UInt8 k) (msg : Bytes)
    {rng : Inc} (hr : RngOk p rng) (hk : msg.length + p.sigLen ≤ k) (h64 : msg.length < 2 ^ 40) (hm : msg.length ≤ mcap) :
    Wp True (roundTrip fuel sl mcap sm msg rng) (fun r => RngOk p r.2.2.2 ∧
      ((r.1 = 0 ∧ r.2.1 = some msg) ∨ (r.1 = -1 ∧ r.2.1 = none ∧ SignsAtLimit p fuel sl k msg rng))) := by
  have hsig := Kat.sigLen_small hp
  obtain ⟨s, hs⟩ := exists_stream p rng hr
  unfold roundTrip
  rw [Wp.bind_iff]
  refine (((cryptoSignKeypair_wp hp fuel (sl 0) rng s hs).monoF fun _ => trivial).andEq).mono ?_
  rintro ⟨pk, sk, rng1⟩ ⟨hk1, -, -, hs1⟩
  dsimp only at hs1 ⊢
  rw [Wp.bind_iff]
  refine (((cryptoSign_wp hp fuel (sl 1) rng1 sm msg sk _ hs1 hk).monoF fun _ => trivial).andEq).mono ?_
  rintro ⟨sm', smlen, rng2⟩ ⟨hk2, -, hs2⟩
  dsimp only at hs2 ⊢
  rw [openArg_eq, C02_round_trip_partial hp (Nat.le_refl _) (Nat.le_refl _) hr hs1.1 hk1 hk (by omega) hk2 (sl 2) hm]
  by_cases hlim : (g sm' (smlen - 1)).toNat < p.maxPublishedSeeds
  · rw [if_pos hlim]
    exact ⟨hs2.1, .inl ⟨rfl, rfl⟩⟩
  · rw [if_neg hlim]
    exact ⟨hs2.1, .inr ⟨rfl, rfl, pk, sk, rng1, rng2, smlen, sm, sm', hk1, hk2, by omega⟩⟩

theorem not_signsAtLimit (hp : p.WF) (hstrict : p.worstSeeds < p.maxPublishedSeeds) {fuel : Nat} {sl : Nat → Nat → Stale p} {k : Nat}
    {msg : Bytes} {rng : Inc} (hr : RngOk p rng) (hk : msg.length + p.sigLen ≤ k) : ¬ SignsAtLimit p fuel sl k msg rng := by
  rintro ⟨pk, sk, rng1, rng2, smlen, sm, sm', h1, h2, h3⟩
  obtain ⟨s, hs⟩ := exists_stream p rng hr
  have hs1 := ((cryptoSignKeypair_wp hp fuel (sl 0) rng s hs).of_ok h1).2.2
  obtain ⟨root, salt, ⟨count, hc1, hc2, hlen, hcb, hS, -⟩, -, -⟩ := sign_signedMessage hp hs1.1 hk h2
  rw [hcb] at h3
  obtain ⟨-, v, coms, G0, -, hv, -, -, hcount, -⟩ := hS
  have := pubCount_le_worst hp (hides v) (by rw [hiddenSet_card, hv.weight])
  unfold pubCount at this
  omega

theorem multipleStep_wp (hp : p.WF) (fuel : Nat) (sl : Nat → Nat → Nat → Stale p) (rand : Nat → Nat) (i : Nat) (s : MultState p)
    (hr : RngOk p s.rng) : Wp True (multipleStep fuel sl rand i s) (fun o => match o with
      | .inl r => r = -1 ∧ ∃ msg rng, RngOk p rng ∧ msg.length < 160 ∧ SignsAtLimit p fuel (sl i) (160 + p.sigLen) msg rng
      | .inr s => RngOk p s.rng) := by
  have hlen : rand i % 160 < 160 := Nat.mod_lt _ (by omega)
  unfold multipleStep
  generalize rand i % 160 = len at hlen
  have hb := csprngBytes_length p len s.rng hr
  have hr1 := csprngBytes_ok p len s.rng hr
  generalize csprngBytes p len s.rng = br at hb hr1
  obtain ⟨bytes, rng⟩ := br
  dsimp only at hb hr1 ⊢
  rw [Wp.bind_iff, Wp.blit_iff]
  refine ⟨by omega, ?_⟩
  have hsl : slice (blitV s.m 0 bytes) 0 len = .ok (seg (blitV s.m 0 bytes) 0 len) := by
    unfold slice seg; rw [if_pos (by omega)]
  have hseg : seg (blitV s.m 0 bytes) 0 len = bytes := seg_blitV_same _ _ _ _ hb (by omega)
  have h := roundTrip_wp hp fuel (sl i) 160 s.sm bytes hr1 (by omega) (by omega) (by omega)
  unfold roundTrip at h
  rw [Wp.bind_iff] at h ⊢
  refine h.mono ?_
  rintro ⟨pk, sk, rng1⟩ h
  dsimp only at h ⊢
  rw [hsl, hseg]
  rw [Wp.bind_iff] at h
  rw [Wp.bind_iff, Wp.ok_iff, Wp.bind_iff]
  refine h.mono ?_
  rintro ⟨sm', smlen, rng2⟩ h
  dsimp only at h ⊢
  rw [Wp.bind_iff] at h ⊢
  refine h.mono ?_
  rintro ⟨ret, out⟩ h
  dsimp only at h ⊢
  rw [Wp.pure_iff] at h
  rcases h with ⟨hr2, ⟨h1, h2⟩ | ⟨h1, h2, h3⟩⟩ <;> dsimp only at h1 h2 hr2 <;> subst h1 h2
  · dsimp only
    rw [Wp.bind_iff, Wp.blit_iff]
    refine ⟨by omega, ?_⟩
    rw [if_neg (by simp), if_neg (by simp [hb])]
    exact hr2
  · dsimp only
    rw [Wp.bind_iff, Wp.pure_iff, if_pos (by decide)]
    exact ⟨rfl, bytes, rng, hr1, by omega, h3⟩

/-- The test through the public functions stays inside its buffers and returns 0, except if a signature publishes
as many seeds as `crypto_sign_open` refuses; then it returns -1. -/
theorem C70_multiple_partial (hp : p.WF) (fuel tests : Nat) (sl : Nat → Nat → Nat → Stale p) (rand : Nat → Nat) {rng : Inc}
    (hr : RngOk p rng) : signVerifyTestMultiple fuel tests sl rand rng ≠ .error .oob ∧
      ∀ r, signVerifyTestMultiple fuel tests sl rand rng = .ok r → r.1 = 0 ∨ (r.1 = -1 ∧ ∃ i < tests, ∃ msg rng', RngOk p rng' ∧
        msg.length < 160 ∧ SignsAtLimit p fuel (sl i) (160 + p.sigLen) msg rng') := by
  have h : Wp True (signVerifyTestMultiple fuel tests sl rand rng) (fun r => r.1 = 0 ∨ (r.1 = -1 ∧ ∃ i < tests, ∃ msg rng',
      RngOk p rng' ∧ msg.length < 160 ∧ SignsAtLimit p fuel (sl i) (160 + p.sigLen) msg rng')) := by
    unfold signVerifyTestMultiple
    rw [Wp.bind_iff]
    refine Wp.forRet (fun _ s => RngOk p s.rng) (fun r => r = -1 ∧ ∃ i < tests, ∃ msg rng', RngOk p rng' ∧
        msg.length < 160 ∧ SignsAtLimit p fuel (sl i) (160 + p.sigLen) msg rng') hr ?_ ?_ ?_
    · intro i s hi hs
      refine (multipleStep_wp hp fuel sl rand i s hs).mono ?_
      rintro (r | s') h
      · exact ⟨h.1, i, hi, h.2⟩
      · exact h
    · rintro r h
      exact .inr h
    · intro s _
      exact .inl rfl
  exact ⟨fun e => by rw [e] at h; exact h, fun r e => h.of_ok e⟩

/-- For the sets of `C02_strict_sets` it always returns 0. -/
theorem C70_multiple (hp : p.WF) (hstrict : p.worstSeeds < p.maxPublishedSeeds) (fuel tests : Nat)
    (sl : Nat → Nat → Nat → Stale p) (rand : Nat → Nat) {rng : Inc} (hr : RngOk p rng) :
    Reports (signVerifyTestMultiple fuel tests sl rand rng) 0 := by
  have h := C70_multiple_partial hp fuel tests sl rand hr
  refine ⟨h.1, fun r e => ?_⟩
  rcases h.2 r e with h | ⟨-, i, -, msg, rng', hr', hm, hlim⟩
  · exact h
  · exact absurd hlim (not_signsAtLimit hp hstrict hr' (by omega))

/-- The test with fixed seed and message (`LESS_sign_verify_test_KAT`). -/
theorem C70_known_answer_partial (hp : p.WF) (fuel : Nat) (sl : Nat → Nat → Stale p) :
    signVerifyTestKAT p fuel sl ≠ .error .oob ∧ ∀ r, signVerifyTestKAT p fuel sl = .ok r →
      r.1 = 0 ∨ (r.1 = -1 ∧ SignsAtLimit p fuel sl (33 + p.sigLen) katMessage (initCsprng p katTestSeed)) := by
  have hlen : katMessage.length = 33 := by decide
  have h : Wp True (signVerifyTestKAT p fuel sl) (fun r =>
      r.1 = 0 ∨ (r.1 = -1 ∧ SignsAtLimit p fuel sl (33 + p.sigLen) katMessage (initCsprng p katTestSeed))) := by
    have h := roundTrip_wp hp fuel sl (33 + p.sigLen) (Vector.replicate (33 + p.sigLen) 0) katMessage (initCsprng_ok p katTestSeed)
      (by omega) (by omega) (by omega)
    unfold roundTrip at h
    unfold signVerifyTestKAT
    rw [Wp.bind_iff] at h ⊢
    refine h.mono ?_
    rintro ⟨pk, sk, rng1⟩ h
    dsimp only at h ⊢
    rw [Wp.bind_iff] at h ⊢
    refine h.mono ?_
    rintro ⟨sm', smlen, rng2⟩ h
    dsimp only at h ⊢
    rw [Wp.bind_iff] at h ⊢
    refine h.mono ?_
    rintro ⟨ret, out⟩ h
    dsimp only at h ⊢
    rw [Wp.pure_iff] at h ⊢
    rcases h with ⟨-, ⟨h1, -⟩ | ⟨h1, -, h3⟩⟩ <;> dsimp only at h1 <;> subst h1
    · exact .inl rfl
    · exact .inr ⟨rfl, h3⟩
  exact ⟨fun e => by rw [e] at h; exact h, fun r e => h.of_ok e⟩

/-- For the sets of `C02_strict_sets` it always returns 0. -/
theorem C70_known_answer (hp : p.WF) (hstrict : p.worstSeeds < p.maxPublishedSeeds) (fuel : Nat) (sl : Nat → Nat → Stale p) :
    Reports (signVerifyTestKAT p fuel sl) 0 := by
  have hlen : katMessage.length = 33 := by decide
  have h := C70_known_answer_partial hp fuel sl
  refine ⟨h.1, fun r e => ?_⟩
  rcases h.2 r e with h | ⟨-, hlim⟩
  · exact h
  · exact absurd hlim (not_signsAtLimit hp hstrict (initCsprng_ok p _) (by omega))

end LESS
