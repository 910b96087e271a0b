import Verif.Proofs.OptBad
import Verif.Props.Api
import Verif.Props.Field
import Verif.Props.Toy
/-!
# The optimized implementation against the reference (C38 to C41, C51)

`isa` is the instruction set (AVX2 or NEON), `p.nPad` the padded row length.  `p.N ≤ p.nPad` holds for the seven
parameter sets (`C40_padding`).  Padding, tables and other uninitialised memory (`sl : OStale p`) are arbitrary.
-/
namespace LESS
open Spec

variable {p : Params}

/-! ## C38 -/

/-- C38, product: `br_red(br_mul(a, b))` is the reduced product, the same as the reference computes. -/
theorem C38_product {a b : Nat} (ha : a < 127) (hb : b < 127) :
    brRed (brMul a b) = a * b % 127 ∧ brRed (brMul a b) = fqRed (a * b) := by
  have h := brRed_brMul ha hb
  have : a * b ≤ 126 * 126 := Nat.mul_le_mul (by omega) (by omega)
  exact ⟨by rw [h, fqRed_eq _ (by omega)], h⟩

/-- C38, inversion: the optimized `fq_inv` is the reference one, hence the inverse modulo 127. -/
theorem C38_inverse {x : Nat} (hx : x < 127) :
    brInv x = fqInv x ∧ brInv x < 127 ∧ (x ≠ 0 → x * brInv x % 127 = 1) := by
  rw [brInv_eq hx]
  exact ⟨rfl, fqInv_lt x, fun h0 => (C30_inversion x (by omega) (by omega)).2.1⟩

/-- C38, the vector reduction `W_RED127_`: every lane below 254 (a sum of two reduced entries is at most 252) is
reduced modulo 127, whatever the other lanes contain, although the code shifts 16-bit lanes. -/
theorem C38_vector_reduction (v : Vec) (i : Nat) (hi : i < 32) (h : g v i < 254) :
    g (wRed127 v (vset8 0x01) (vset8 0x7f)) i = g v i % 127 := by
  rw [g_wRed127 v i hi, wRedLane_eq h]

/-- C38, the vector product: 32 lane-wise products, on both instruction sets, whatever the other lanes contain. -/
theorem C38_vector_product (isa : Isa) (v w : Vec) (i : Nat) (hi : i < 32) (ha : g v i < 127) (hb : g w i < 127) :
    g (mulChunk isa v w) i = g v i * g w i % 127 := by
  rw [g_mulChunk isa v w i hi (by omega) (by omega)]
  exact (C38_product ha hb).1

/-- C38, sharpness: on the 7-bit value 127, which is not reduced, both differ from the reference. -/
theorem C38_unreduced_differs : brRed (brMul 127 1) = 127 ∧ fqRed (127 * 1) = 0 ∧
    g (wRed127 (vset8 254) (vset8 0x01) (vset8 0x7f)) 0 = 127 := by
  refine ⟨by decide, by decide, ?_⟩
  rw [g_wRed127 _ _ (by decide), g_vset8 _ _ (by decide)]
  decide

/-- Reduced lanes next to lanes full of ones. -/
example : g (mulChunk .neon (upd (vset8 255) 5 126) (upd (vset8 255) 5 125)) 5 = 2 := by
  rw [C38_vector_product .neon _ _ 5 (by decide)] <;> simp [g_upd]

example : brRed (brMul 126 125) = 2 ∧ brInv 3 = 85 := by
  refine ⟨(C38_product (by decide) (by decide)).1, ?_⟩
  rw [(C38_inverse (x := 3) (by decide)).1]
  exact ((C30_inversion 3 (by decide) (by decide)).2.2 85 (by decide) (by decide)).symm

/-! ## C39 -/

/-- C39: the table-driven `generator_RREF` returns the value, the matrix and the pivot flags of the reference, for any
contents of the padding and of the uninitialised tables. -/
theorem C39_rref_same (hN : p.N ≤ p.nPad) (hKN : p.K ≤ p.N) (G : OGen p) (hG : Reduced (cut G)) (em : EmTab p) :
    ∃ ret R flags, generatorRREFO G (Vector.replicate p.N 0) em = .ok (ret, R, flags) ∧
      generatorRREF (cut G) (Vector.replicate p.N 0) = .ok (ret, cut R, flags) :=
  generatorRREFO_sim hN hKN G hG em

/-- C39, directly against the definition of the reduced row echelon form. -/
theorem C39_rref_correct (hN : p.N ≤ p.nPad) (hKN : p.K ≤ p.N) (G : OGen p) (hG : Reduced (cut G)) (em : EmTab p) :
    ∃ ret R flags, generatorRREFO G (Vector.replicate p.N 0) em = .ok (ret, R, flags) ∧
      Reduced (cut R) ∧ RowEq (matOf (cut G)) (matOf (cut R)) ∧
      ((ret = 0 ∧ ¬ FullRank (matOf (cut G))) ∨
       (ret = 1 ∧ FullRank (matOf (cut G)) ∧ ∃ piv : Fin p.K → Fin p.N, IsRREF (matOf (cut R)) piv ∧
          ∀ j : Fin p.N, g flags j = if ∃ t, piv t = j then 1 else 0)) := by
  obtain ⟨ret, R, f, h1, h2⟩ := generatorRREFO_sim hN hKN G hG em
  exact ⟨ret, R, f, h1, (generatorRREF_wp _ hKN hG).of_ok h2⟩

/-- A padded matrix with reduced entries, a zero corner (so that rows are exchanged) and dirty padding. -/
def toyPadded : OGen toy := Vector.ofFn fun i => Vector.ofFn fun j => if j.val < 132 then (j.val * (i.val + 3) + 5 * i.val) % 127 else 200

theorem toyPadded_reduced : Reduced (cut toyPadded) := by
  intro i j hi hj
  rw [g2_cut _ _ _ hi hj]
  unfold toyPadded
  rw [g2_ofFn _ i j hi (show j < toy.nPad from Nat.lt_trans hj (by decide))]
  have : j < 132 := hj
  rw [if_pos this]
  exact Nat.mod_lt _ (by decide)

example (em : EmTab toy) : g2 toyPadded 0 0 = 0 ∧ g2 toyPadded 1 140 = 200 ∧
    ∃ ret R flags, generatorRREFO toyPadded (Vector.replicate _ 0) em = .ok (ret, R, flags) ∧
      generatorRREF (cut toyPadded) (Vector.replicate _ 0) = .ok (ret, cut R, flags) :=
  ⟨by decide +kernel, by decide +kernel, C39_rref_same (by decide) (by decide) _ toyPadded_reduced em⟩

/-! ## C40 -/

theorem C40_padding : ∀ p ∈ Params.all, p.N ≤ p.nPad ∧ p.nPad % 32 = 0 := by decide

/-- C40: the vectorised product equals the reference product on reduced inputs, for any contents of the padding, of
the buffer and of the result. -/
theorem C40_product_same (isa : Isa) (hN : p.N ≤ p.nPad) (res G : OGen p) (m : Monomial p) (coef buf : Vector Nat p.nPad)
    (hm : ∀ s < p.N, g m.permutation s < p.N) (hc : ∀ s < p.N, g m.coefficients s < 127) (hG : Reduced (cut G)) :
    ∃ R, generatorMonomialMulO isa res G (pasteRow m.coefficients coef) m.permutation buf = .ok R ∧
      generatorMonomialMul (cut res) (cut G) m = .ok (cut R) :=
  generatorMonomialMulO_sim isa hN res G m coef buf hm hG hc

/-- C40, directly against the matrix product. -/
theorem C40_product_correct (isa : Isa) (hN : p.N ≤ p.nPad) (res G : OGen p) (m : Monomial p) (coef buf : Vector Nat p.nPad)
    (hm : m.Valid) (hG : Reduced (cut G)) :
    ∃ R, generatorMonomialMulO isa res G (pasteRow m.coefficients coef) m.permutation buf = .ok R ∧
      Reduced (cut R) ∧ matOf (cut R) = matOf (cut G) * m.mat := by
  obtain ⟨R, h1, h2⟩ := generatorMonomialMulO_sim isa hN res G m coef buf hm.1.1 hG (fun s hs => (hm.2 s hs).2)
  exact ⟨R, h1, (generatorMonomialMul_mat _ _ m hm hG).of_ok h2⟩

/-- The monomial that reverses the columns and multiplies them by 1, …, 126, 1, …. -/
def toyMono : Monomial toy := ⟨Vector.ofFn fun i => i.val % 126 + 1, Vector.ofFn fun i => 131 - i.val⟩

theorem toyMono_valid : toyMono.Valid := by
  refine ⟨⟨?_, ?_⟩, ?_⟩
  · intro i hi
    unfold toyMono
    rw [g_ofFn _ _ hi]
    show 131 - i < 132
    omega
  · intro i j hi hj
    unfold toyMono
    rw [g_ofFn _ _ hi, g_ofFn _ _ hj]
    have : i < 132 := hi
    have : j < 132 := hj
    dsimp only
    omega
  · intro i hi
    unfold toyMono
    rw [g_ofFn _ _ hi]
    dsimp only
    omega

example (coef buf : Vector Nat toy.nPad) : ∃ R, generatorMonomialMulO .avx2 toyPadded toyPadded
    (pasteRow toyMono.coefficients coef) toyMono.permutation buf = .ok R ∧ Reduced (cut R) ∧
      matOf (cut R) = matOf (cut toyPadded) * toyMono.mat :=
  C40_product_correct _ (by decide) _ _ _ _ _ toyMono_valid toyPadded_reduced

/-! ## C41 -/

/-- Every run of the optimized key generation is a run of the reference (with some contents of uninitialised
memory): the same keys, the same generator state, the same number of draws, the same failure. -/
theorem C41_keygen_is_reference_run (isa : Isa) (hp : p.WF) (hN : p.N ≤ p.nPad) (fuel : Nat) (sl : Nat → OStale p) :
    ∃ sl', ∀ rng, cryptoSignKeypairO isa fuel sl rng = cryptoSignKeypair fuel sl' rng := by
  refine ⟨fun i => if i = 0 then (sl 0).atG else (sl i).atG', fun rng => ?_⟩
  unfold cryptoSignKeypairO
  rw [lessKeygenO_eq isa hp hN]
  rfl

/-- Every run of the optimized signer is a run of the reference. -/
theorem C41_sign_is_reference_run (isa : Isa) (hp : p.WF) (hN : p.N ≤ p.nPad) (fuel : Nat) (sl : Nat → OStale p) :
    ∃ sl', ∀ {k : Nat} (rng : Inc) (sm : Vector UInt8 k) (m : Bytes) (sk : Vector UInt8 p.skLen),
      cryptoSignO isa fuel sl rng sm m sk = cryptoSign fuel sl' rng sm m sk := by
  refine ⟨fun i => (sl i).atG, fun rng sm m sk => ?_⟩
  unfold cryptoSignO cryptoSign
  refine bind_congr_ok fun sm _ => bind_congr_ok fun sig _ => ?_
  rw [lessSignO_eq isa hp hN]

theorem reducedCode_of_canon (hp : p.WF) {buf : Vector UInt8 p.rrefBytes} (h : CanonCode p buf) : ReducedCode buf := by
  intro old G e
  rw [expandToRref_eq hp old buf (by rw [denseBelow_eq buf p.N (Nat.le_refl _)]; exact h.1)] at e
  cases e
  exact CanonCode.reduced h.2

/-- Every run of the optimized verifier under a key of well-formed codes (which every key of `crypto_sign_keypair`
has) is a run of the reference, for any signed message of any length. -/
theorem C41_open_is_reference_run (isa : Isa) (hp : p.WF) (hN : p.N ≤ p.nPad) (fuel : Nat) (sl : Nat → OStale p) :
    ∃ sl', ∀ {smlen : Nat} (mcap : Nat) (sm : Vector UInt8 smlen) (pk : Vector UInt8 p.pkLen),
      (∀ j < p.numKeypairs - 1, CanonCode p (g (readPub pk).SFG j)) →
      cryptoSignOpenO isa fuel sl mcap sm pk = cryptoSignOpen fuel sl' mcap sm pk := by
  refine ⟨fun i => (sl i).atG, fun mcap sm pk hpk => ?_⟩
  unfold cryptoSignOpenO cryptoSignOpen
  refine bind_congr_ok fun num _ => ?_
  split
  · rfl
  · refine bind_congr_ok fun m _ => ?_
    split
    · rfl
    · refine bind_congr_ok fun sig _ => ?_
      rw [lessVerifyO_eq isa hp hN _ _ _ _ _ (fun i hi => reducedCode_of_canon hp (hpk i hi))]

/-- From the same generator state both implementations produce the same keys. -/
theorem C41_same_keys (isa : Isa) (hp : p.WF) (hN : p.N ≤ p.nPad) {fuel fuel' : Nat} {sl : Nat → OStale p}
    {sl' : Nat → Stale p} {rng : Inc} (hr : RngOk p rng) {sk sk' : PriKey p} {pk pk' : PubKey p} {r r' : Inc}
    (h : lessKeygenO isa fuel sl rng = .ok (sk, pk, r)) (h' : lessKeygen fuel' sl' rng = .ok (sk', pk', r')) :
    sk = sk' ∧ pk = pk' := by
  rw [lessKeygenO_eq isa hp hN] at h
  exact C47_keygen_no_stale_dependence hp hr h h'

/-- From the same generator state, with the same key and message, both implementations produce the same signed
message. -/
theorem C41_same_signatures (isa : Isa) (hp : p.WF) (hN : p.N ≤ p.nPad) {k k' : Nat} {fuel fuel' : Nat}
    {sl : Nat → OStale p} {sl' : Nat → Stale p} {rng r r' : Inc} (hr : RngOk p rng) {m : Bytes}
    {sm sm₁ : Vector UInt8 k} {sm' sm₁' : Vector UInt8 k'} {sk : Vector UInt8 p.skLen} {smlen smlen' : Nat}
    (hk : m.length + p.sigLen ≤ k) (hk' : m.length + p.sigLen ≤ k')
    (h : cryptoSignO isa fuel sl rng sm m sk = .ok (sm₁, smlen, r))
    (h' : cryptoSign fuel' sl' rng sm' m sk = .ok (sm₁', smlen', r')) :
    smlen = smlen' ∧ ∀ i < smlen, g sm₁ i = g sm₁' i := by
  obtain ⟨sl₁, e⟩ := C41_sign_is_reference_run isa hp hN fuel sl
  rw [e] at h
  exact (C47_no_stale_dependence hp hr hk hk' h h').1

/-- Under an honest key both verifiers give the same answer to every signature and message. -/
theorem C41_same_verdict (isa : Isa) (hp : p.WF) (hN : p.N ≤ p.nPad) {n : Nat} (hn : p.maxPublishedBytes ≤ n) {fuel₁ : Nat}
    {sl₁ : Nat → Stale p} {rng rng' : Inc} (hr : RngOk p rng) {sk : PriKey p} {pk : PubKey p}
    (hkeygen : lessKeygen fuel₁ sl₁ rng = .ok (sk, pk, rng')) (fuel : Nat) (sl : Nat → OStale p) (sl' : Nat → Stale p)
    (m : Bytes) (sig : SignT p n) {r r' : Nat} (h : lessVerifyO isa fuel sl pk m sig = .ok r)
    (h' : lessVerify fuel sl' pk m sig = .ok r') : r = r' := by
  rw [lessVerifyO_eq isa hp hN _ _ _ _ _ (fun i hi => reducedCode_of_canon hp (keygen_canon hp hr hkeygen i hi))] at h
  obtain ⟨a1, a2⟩ := (C09_accept_iff_digest_matches hp hn hr hkeygen fuel _ m sig).1 r h
  obtain ⟨b1, b2⟩ := (C09_accept_iff_digest_matches hp hn hr hkeygen fuel _ m sig).1 r' h'
  rcases a1 with rfl | rfl <;> rcases b1 with rfl | rfl
  · rfl
  · exact absurd (a2.2 (b2.1 rfl)) (by decide)
  · exact absurd (b2.2 (a2.1 rfl)) (by decide)
  · rfl

/-- Keys and signatures of the optimized implementation are accepted by the reference. -/
theorem C41_reference_accepts_optimized (isa : Isa) (hp : p.WF) (hN : p.N ≤ p.nPad) {n : Nat} (hn : p.storageLen ≤ n)
    {fuel₁ fuel₂ : Nat} {sl₁ sl₂ : Nat → OStale p} {rng₁ rng₂ rng₁' rng₂' : Inc} (hr₁ : RngOk p rng₁) (hr₂ : RngOk p rng₂)
    {sk : PriKey p} {pk : PubKey p} (hkeygen : lessKeygenO isa fuel₁ sl₁ rng₁ = .ok (sk, pk, rng₁'))
    {m : Bytes} {out sig : SignT p n} {num : Nat} (hsign : lessSignO isa fuel₂ sl₂ rng₂ sk m out = .ok (sig, num, rng₂'))
    {fuel₃ : Nat} (h₁ : fuel₁ ≤ fuel₃) (h₂ : fuel₂ ≤ fuel₃) (sl₃ : Nat → Stale p) :
    lessVerify fuel₃ sl₃ pk m sig = .ok 1 := by
  rw [lessKeygenO_eq isa hp hN] at hkeygen
  rw [lessSignO_eq isa hp hN] at hsign
  exact C01_honest_signature_verifies hp hn hr₁ hr₂ hkeygen hsign h₁ h₂ sl₃

/-- Keys and signatures of the reference are accepted by the optimized implementation. -/
theorem C41_optimized_accepts_reference (isa : Isa) (hp : p.WF) (hN : p.N ≤ p.nPad) {n : Nat} (hn : p.storageLen ≤ n)
    {fuel₁ fuel₂ : Nat} {sl₁ sl₂ : Nat → Stale p} {rng₁ rng₂ rng₁' rng₂' : Inc} (hr₁ : RngOk p rng₁) (hr₂ : RngOk p rng₂)
    {sk : PriKey p} {pk : PubKey p} (hkeygen : lessKeygen fuel₁ sl₁ rng₁ = .ok (sk, pk, rng₁'))
    {m : Bytes} {out sig : SignT p n} {num : Nat} (hsign : lessSign fuel₂ sl₂ rng₂ sk m out = .ok (sig, num, rng₂'))
    {fuel₃ : Nat} (h₁ : fuel₁ ≤ fuel₃) (h₂ : fuel₂ ≤ fuel₃) (sl₃ : Nat → OStale p) :
    lessVerifyO isa fuel₃ sl₃ pk m sig = .ok 1 := by
  rw [lessVerifyO_eq isa hp hN _ _ _ _ _ (fun i hi => reducedCode_of_canon hp (keygen_canon hp hr₁ hkeygen i hi))]
  exact C01_honest_signature_verifies hp hn hr₁ hr₂ hkeygen hsign h₁ h₂ _

/-! ## C51 -/

/-- Optimized key generation and signing access nothing out of bounds and use no unset pointer. -/
theorem C51_keygen_sign_safe (isa : Isa) (hp : p.WF) (hN : p.N ≤ p.nPad) {n : Nat} (hn : p.storageLen ≤ n) (fuel : Nat)
    (sl : Nat → OStale p) {rng : Inc} (hr : RngOk p rng) (sk : PriKey p) (m : Bytes) (out : SignT p n) :
    lessKeygenO isa fuel sl rng ≠ .error .oob ∧ lessSignO isa fuel sl rng sk m out ≠ .error .oob := by
  rw [lessKeygenO_eq isa hp hN, lessSignO_eq isa hp hN]
  exact ⟨C05_keygen_memory_safe hp _ _ hr, C05_sign_memory_safe hp hn _ _ hr _ _ _⟩

/-- C51 fails: under a public key whose codes have no more than N-K dense columns (so that the reference reads nothing
out of bounds while decoding) but contain the 7-bit value 127, the optimized verifier follows a pointer it never set,
if the first response used starts with a column whose entry in row 0 is 127. -/
theorem C51_fails_unreduced_key (isa : Isa) (hp : p.WF) (hN : p.N ≤ p.nPad) (fuel : Nat) (sl : Nat → OStale p)
    (pk : PubKey p) (m : Bytes) (sig : SignT p p.storageLen)
    (hvalid : (Spec.decodeAction p (g sig.monomActions 0)).Valid)
    (hpk : ∀ j < p.numKeypairs - 1, (denseBelow (g pk.SFG j) p.N).length ≤ p.N - p.K ∧
      codeEntry p (g pk.SFG j) 0 ((Spec.decodeAction p (g sig.monomActions 0)).perm 0) = 127)
    (hfits : VerifierFits p fuel pk.spec sig.spec) : lessVerifyO isa fuel sl pk m sig = .error .oob := by
  have hK := hp.K_pos
  refine lessVerifyO_badKey isa hp hN (by unfold Params.storageLen; omega) fuel sl pk m sig (fun j hj sl => ?_) hfits
  obtain ⟨h1, h2⟩ := hpk j hj
  have e1 : ∀ t < p.K, g (LESS.decodeAction (p := p) (g sig.monomActions 0)).permutation t =
      (Spec.decodeAction p (g sig.monomActions 0)).perm t := fun t ht => by
    unfold LESS.decodeAction
    rw [g_ofFn _ _ ht]
    rfl
  have e2 : ∀ t < p.K, g (LESS.decodeAction (p := p) (g sig.monomActions 0)).coefficients t =
      (Spec.decodeAction p (g sig.monomActions 0)).coef t := fun t ht => by
    unfold LESS.decodeAction
    rw [g_ofFn _ _ ht]
    rfl
  refine verifyResponseO_127 hp hN sl _ _ h1 ⟨fun t ht => ?_, fun t ht => ?_, fun s t hs ht e => ?_⟩ ?_
  · rw [e2 t ht]; exact hvalid.1 t ht
  · rw [e1 t ht]; exact hvalid.2.1 t ht
  · rw [e1 s hs, e1 t ht] at e; exact hvalid.2.2 s hs t ht e
  · rw [e1 0 hK]; exact h2

/-- The code with pivots in the first `K` columns and all other entries 127. -/
def code127 (p : Params) : Vector UInt8 p.rrefBytes :=
  packed _ ((List.range (8 * p.rrefBytes)).map fun k => decide (k < p.K ∨ p.N ≤ k))

/-- The response that names the last `K` columns, last one first, with factors 1. -/
def resp127 (p : Params) : Vector UInt8 p.monoBytes :=
  packed _ (bitFields (indexBits p) ((List.range p.K).map fun t => p.N - 1 - t) ++
    bitFields 7 ((List.range p.K).map fun _ => 1))

theorem resp127_decode (hp : p.WF) : ∀ t < p.K, (Spec.decodeAction p (resp127 p)).perm t = p.N - 1 - t ∧
    (Spec.decodeAction p (resp127 p)).coef t = 1 := by
  have hKN := hp.K_lt_N
  have hfit := N_lt_idxBits hp
  let a : MonoAction p := ⟨Vector.replicate _ 1, Vector.ofFn fun t => p.N - 1 - t.val⟩
  have ha1 : ∀ t, t < p.K → g a.permutation t = p.N - 1 - t := fun t ht => g_ofFn _ _ ht
  have ha2 : ∀ t, t < p.K → g a.coefficients t = 1 := fun t ht => g_replicate _ _ ht
  have ha : a.Fits := ⟨fun t ht => by rw [ha1 t ht]; omega, fun t ht => by rw [ha2 t ht]; decide⟩
  have hbits : resp127 p = packed p.monoBytes (actionBits a) := by
    rw [actionBits_eq]
    unfold resp127
    congr 3
    · exact List.map_congr_left fun t ht => (ha1 t (List.mem_range.1 ht)).symm
    · exact List.map_congr_left fun t ht => (ha2 t (List.mem_range.1 ht)).symm
  have hd := decode_packed hp a ha
  rw [← hbits] at hd
  intro t ht
  constructor
  · have : g (LESS.decodeAction (p := p) (resp127 p)).permutation t = g a.permutation t := by rw [hd]
    rw [ha1 t ht] at this
    rw [← this]
    unfold LESS.decodeAction
    rw [g_ofFn _ _ ht]
    rfl
  · have : g (LESS.decodeAction (p := p) (resp127 p)).coefficients t = g a.coefficients t := by rw [hd]
    rw [ha2 t ht] at this
    rw [← this]
    unfold LESS.decodeAction
    rw [g_ofFn _ _ ht]
    rfl

theorem code127_bit (k : Nat) (hk : k < 8 * p.rrefBytes) : bitAt (code127 p) k = decide (k < p.K ∨ p.N ≤ k) := by
  unfold code127
  rw [bitAt_packed _ _ hk]
  simp [List.getD, hk]

/-- Such keys and responses exist for every parameter set: `C51_fails_unreduced_key` applies to `code127` and
`resp127`. -/
theorem C51_witness (hp : p.WF) : (Spec.decodeAction p (resp127 p)).Valid ∧
    (denseBelow (code127 p) p.N).length ≤ p.N - p.K ∧
      codeEntry p (code127 p) 0 ((Spec.decodeAction p (resp127 p)).perm 0) = 127 := by
  have hKN := hp.K_lt_N
  have hK := hp.K_pos
  have hd := resp127_decode hp
  have hrb := rrefBytes_eq (p := p)
  have hprod : p.N - p.K ≤ (p.N - p.K) * p.K := Nat.le_mul_of_pos_right _ hK
  have hbytes : 8 * ((p.N + 7) / 8) + 7 * ((p.N - p.K) * p.K) ≤ 8 * p.rrefBytes := by omega
  have hlen : (denseBelow (code127 p) p.N).length = p.N - p.K := by
    have e : decFlags (code127 p) = sysFlags p := by
      apply vec_ext
      intro i hi
      unfold decFlags sysFlags
      rw [g_ofFn _ _ hi, g_ofFn _ _ hi]
      dsimp only
      rw [code127_bit _ (by omega)]
      by_cases h : i < p.K
      · simp [h]
      · have : ¬ p.N ≤ i := by omega
        simp [h, this]
    rw [← denseBelow_eq _ _ (Nat.le_refl _), e, nonPiv_sys _ (Nat.le_refl _)]
    simp
  refine ⟨⟨fun t ht => ?_, fun t ht => ?_, fun s hs t ht e => ?_⟩, by omega, ?_⟩
  · rw [(hd t ht).2]; decide
  · rw [(hd t ht).1]; omega
  · rw [(hd s hs).1, (hd t ht).1] at e; omega
  · rw [(hd 0 hK).1]
    unfold codeEntry
    rw [code127_bit _ (by omega), if_neg (by simp; omega)]
    apply fieldAt_of_getD (by decide)
    intro b hb
    have hdl : (denseBelow (code127 p) (p.N - 1 - 0)).length ≤ p.N - p.K - 1 := by
      have hs : denseBelow (code127 p) p.N = denseBelow (code127 p) (p.N - 1) ++ [p.N - 1] := by
        unfold denseBelow
        conv => lhs; rw [show p.N = (p.N - 1) + 1 by omega]
        rw [List.range_succ, List.filter_append]
        congr 1
        rw [List.filter_cons_of_pos, List.filter_nil]
        rw [code127_bit _ (by omega)]
        simp; omega
      rw [hs, List.length_append] at hlen
      simp only [List.length_singleton] at hlen
      rw [Nat.sub_zero]
      omega
    rw [code127_bit]
    · have : (127 : Nat).testBit b = true := by
        have : b < 7 := hb
        revert b; decide
      rw [this]
      simp; omega
    · rw [Nat.zero_mul, Nat.zero_add]
      omega

/-- Under a key of well-formed codes the optimized verifier is safe.  Missing: other keys
(`C51_fails_unreduced_key`). -/
theorem C51_verify_safe_partial (isa : Isa) (hp : p.WF) (hN : p.N ≤ p.nPad) (fuel : Nat) (sl : Nat → OStale p) (pk : PubKey p)
    (hpk : ∀ j < p.numKeypairs - 1, CanonCode p (g pk.SFG j)) (m : Bytes) (sig : SignT p p.storageLen) :
    lessVerifyO isa fuel sl pk m sig ≠ .error .oob := by
  rw [lessVerifyO_eq isa hp hN _ _ _ _ _ (fun i hi => reducedCode_of_canon hp (hpk i hi))]
  exact C44_verify_safe_partial hp fuel _ pk (fun j hj => (hpk j hj).good) m sig

end LESS
