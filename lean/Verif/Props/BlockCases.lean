import Verif.Props.Codes
import Verif.Props.Field
import Verif.Props.Hash
import Verif.Props.HashMem
import Verif.Props.ConstantTime
import Verif.Props.Opt
/-!
# Concrete cases for the building blocks

Each example names the theorems it applies; the data are not trivial (columns move, coefficients differ from 1, buffers are not empty).
-/
namespace LESS
open Spec

/-! ## Monomial matrices -/

/-- `C18_expand_salt_round`, `C18_expand_private`, `C18_random`: expansions of a toy seed never leave their buffers, for every step bound;
what they give has all columns. -/
example (fuel : Nat) : monomialSeedExpandSaltRnd (p := toy) fuel (shiftMono toy) [1, 2, 3] [4, 5] 70000 ≠ .error .oob :=
  (C18_expand_salt_round toy_WF fuel _ _ _ _).1
example (fuel : Nat) (m : Monomial toy) (h : monomialSeedExpandSaltRnd fuel (shiftMono toy) [1, 2, 3] [4, 5] 70000 = .ok m) :
    ∃ i < 132, g m.permutation i = 131 := by
  obtain ⟨i, ⟨h1, h2⟩, -⟩ := ((C18_expand_salt_round toy_WF fuel _ _ _ _).2 m h).1 131 (by decide)
  exact ⟨i, h1, h2⟩
example (fuel : Nat) (m : Monomial toy) (h : monomialSeedExpandPrikey fuel (shiftMono toy) [1, 2, 3] = .ok m) : g m.coefficients 77 ≠ 0 := by
  have := (((C18_expand_private toy_WF fuel _ _).2 m h).2.2.1 77 (by decide)).1
  omega
example (fuel : Nat) : monomialRnd fuel (shiftMono toy) (initCsprng toy [9]) ≠ .error .oob := (C18_random toy_WF fuel _ _).1

/-- The draws that always exchange with the last position. -/
def lastDraws : Vector Nat toy.N := Vector.replicate _ 131

theorem lastDraws_range : ∀ i < toy.N - 1, i ≤ g lastDraws i ∧ g lastDraws i < toy.N := by
  intro i hi
  have h : i < 131 := hi
  unfold lastDraws
  rw [g_replicate _ _ (by show i < 132; omega)]
  exact ⟨by omega, by decide⟩

/-- `C32_shuffle_bijective`: these draws give a permutation, and no other draws give the same one. -/
example : ∃ π, shuffleLoop lastDraws (Vector.ofFn fun i : Fin toy.N => i.val) = .ok π ∧ (∀ x < toy.N, g π x < toy.N) ∧
    ∀ draws : Vector Nat toy.N, (∀ i < toy.N - 1, i ≤ g draws i ∧ g draws i < toy.N) →
      shuffleLoop draws (Vector.ofFn fun i : Fin toy.N => i.val) = .ok π → g draws 5 = 131 := by
  obtain ⟨h1, -, h3⟩ := C32_shuffle_bijective (p := toy) (Vector.ofFn fun i : Fin toy.N => i.val) (fun x hx => g_ofFn _ _ hx)
  obtain ⟨π, e, hr, -⟩ := h1 lastDraws lastDraws_range
  refine ⟨π, e, hr, fun draws hd e' => ?_⟩
  rw [h3 draws lastDraws hd lastDraws_range (e'.trans e.symm) 5 (by decide)]
  exact g_replicate _ _ (by decide)

/-- `C32_draws`: the first draw is the first word modulo 132. -/
example : ∃ (draws : Vector Nat toy.N) (π : Vector Nat toy.N), g draws 0 = 0 + leNat (((csprngBytes toy (4 * toy.N) (initCsprng toy [7])).1.drop (4 * 0)).take 4) % (toy.N - 0) ∧
    ytShuffleState toy (initCsprng toy [7]) (Vector.ofFn fun i : Fin toy.N => i.val) =
      .ok (π, (csprngBytes toy (4 * toy.N) (initCsprng toy [7])).2) := by
  obtain ⟨draws, π, h, -, e⟩ := C32_draws (p := toy) (by decide) (initCsprng toy [7]) (Vector.ofFn fun i : Fin toy.N => i.val)
    (fun x hx => g_ofFn _ _ hx)
  exact ⟨draws, π, (h 0 (by decide)).2.2, e⟩

/-- `C19_associative`, `C19_identity`, `C19_inverse`: a shift with two coefficients, and a reversal with all coefficients. -/
example : ∃ AB BC R, monomialMul toyMono (shiftMono toy) toyMono = .ok AB ∧ monomialMul toyMono toyMono (shiftMono toy) = .ok BC ∧
    monomialMul toyMono AB (shiftMono toy) = .ok R ∧ monomialMul toyMono (shiftMono toy) BC = .ok R ∧ R.Valid := by
  obtain ⟨AB, BC, R, h1, h2, h3, h4, -, h5⟩ :=
    C19_associative (shiftMono_valid toy) toyMono_valid (shiftMono_valid toy) toyMono toyMono toyMono toyMono
  exact ⟨AB, BC, R, h1, h2, h3, h4, h5⟩
example : ∃ I B, monomialId toyMono = .ok I ∧ monomialInv toyMono (shiftMono toy) = .ok B ∧ monomialMul I (shiftMono toy) B = .ok I ∧
    monomialMul I I toyMono = .ok toyMono := by
  obtain ⟨I, B, h1, h2, -, h3, -⟩ := C19_inverse toy_WF (shiftMono_valid toy) toyMono (shiftMono toy) (shiftMono toy) toyMono
  obtain ⟨I', h1', -, h4, -⟩ := C19_identity toy_WF toyMono_valid toyMono I toyMono
  obtain ⟨I₂, B₂, e1, e2, -, e3, -⟩ := C19_inverse toy_WF (shiftMono_valid toy) toyMono toyMono I toyMono
  obtain rfl : I = I₂ := Except.ok.inj (h1.symm.trans e1)
  obtain rfl : I = I' := Except.ok.inj (h1.symm.trans h1')
  exact ⟨I, B₂, h1, e2, e3, h4⟩

/-- `C20_matrix_product`, `C20_right_action`: a generator in reduced form times the shift; multiplying by the inverse gives it back. -/
example : ∃ R, generatorMonomialMul (stdCode2 toy) (stdCode toy) (shiftMono toy) = .ok R ∧
    matOf R = matOf (stdCode toy) * (shiftMono toy).mat := by
  obtain ⟨R, e, -, h⟩ := C20_matrix_product (stdCode2 toy) (stdCode toy) _ (shiftMono_valid toy) stdCode_reduced
  exact ⟨R, e, h⟩
example : ∃ GA A', generatorMonomialMul (stdCode2 toy) (stdCode toy) toyMono = .ok GA ∧ monomialInv toyMono toyMono = .ok A' ∧
    generatorMonomialMul (stdCode2 toy) GA A' = .ok (stdCode toy) :=
  (C20_right_action toy_WF _ stdCode_reduced toyMono_valid (shiftMono_valid toy) _ (stdCode2 toy) (stdCode2 toy) _ toyMono _).2

/-- Indices in descending order, coefficients up to 127. -/
def descAction : MonoAction toy := ⟨Vector.ofFn fun i => 127 - i.val % 3, Vector.ofFn fun i => 131 - i.val⟩

theorem descAction_perm (i : Nat) (hi : i < toy.K) : g descAction.permutation i = 131 - i := g_ofFn _ _ hi
theorem descAction_coef (i : Nat) (hi : i < toy.K) : g descAction.coefficients i = 127 - i % 3 := g_ofFn _ _ hi

/-- `C21_action_round_trip`, `C21_encoding_layout`, `C21_decoding_total`. -/
example : ∃ enc, compressMonomAction (Vector.replicate _ 0xFF) descAction = .ok enc ∧ expandToMonomAction default enc = .ok descAction :=
  C21_action_round_trip toy_WF _ (fun i hi => by rw [descAction_perm i hi]; show 131 - i < 132; omega)
    (fun i hi => by rw [descAction_coef i hi]; omega) _ _
example : compressMonomAction (Vector.replicate _ 0xFF) descAction = .ok (packed toy.monoBytes
    (bitFields (indexBits toy) descAction.permutation.toList ++ bitFields 7 descAction.coefficients.toList)) :=
  C21_encoding_layout toy_WF _ (fun i hi => by rw [descAction_perm i hi]; show 131 - i < 132; omega)
    (fun i hi => by rw [descAction_coef i hi]; omega) _
example : ∃ a, expandToMonomAction default (Vector.replicate toy.monoBytes 0xA5) = .ok a ∧
    expandToMonomAction descAction (Vector.replicate toy.monoBytes 0xA5) = .ok a := C21_decoding_total toy_WF _ _ _

/-! ## Codes -/

/-- `C24_rref_separates`: the two generators have the same reduced form, so they generate the same code. -/
example : SameCode (matOf (stdCode2 toy)) (matOf (stdCode toy)) := by
  obtain ⟨R, f, e, e'⟩ := C24_rref_canonical (stdCode toy) (stdCode2 toy) (by decide) stdCode_reduced stdCode2_reduced
    ((stdCode_isCode toy_WF).rref.fullRank) stdCode_same
  exact C24_rref_separates _ _ (by decide) stdCode2_reduced stdCode_reduced e' e

/-- `C25_code_injective`, `C26_compact_round_trip`. -/
example (R : GenMat toy) (f : Vector Nat toy.N) (piv : Fin toy.K → Fin toy.N) (h : IsCode R f piv)
    (e : compressRref (Vector.replicate _ 0) R f = compressRref (Vector.replicate _ 0xFF) (stdCode toy) (stdFlags toy)) : R = stdCode toy :=
  (C25_code_injective toy_WF h (stdCode_isCode toy_WF) _ _ e).1
example (stale : RrefMat toy) : ∃ c, generatorRrefCompact stale (stdCode toy) (stdFlags toy) = .ok c ∧
    generatorRrefExpand (stdCode2 toy) c = .ok (stdCode toy) := C26_compact_round_trip toy_WF (stdCode_isCode toy_WF) _ _

/-- Column 100 of the first generator and of its double. -/
theorem stdCode_col (i : Nat) (hi : i < toy.K) : g2 (stdCode toy) i 100 = (i + 200) % 127 ∧ g2 (stdCode2 toy) i 100 = 2 * ((i + 200) % 127) % 127 := by
  have e : g2 (stdCode toy) i 100 = (i + 200) % 127 := by
    rw [stdCode_entry i 100 hi (by decide), if_neg (by decide), if_neg (by decide)]
  refine ⟨e, ?_⟩
  rw [← e]
  unfold stdCode2
  rw [g2_ofFn _ _ _ hi (by decide)]

/-- `C27_normalise`, `C27_same_iff_multiple`: a column and its double have the same normal form. -/
example (V : NormIS toy) : ∃ R R', lexMinimize V 3 (stdCode toy) 100 = .ok R ∧ lexMinimize V 5 (stdCode2 toy) 100 = .ok R' ∧
    ∀ i < toy.K, g2 R i 3 = g2 R' i 5 := by
  obtain ⟨R, e, -⟩ := C27_normalise V (stdCode toy) 3 100 (by decide) (by decide) stdCode_reduced
  obtain ⟨R', e', -⟩ := C27_normalise V (stdCode2 toy) 5 100 (by decide) (by decide) stdCode2_reduced
  refine ⟨R, R', e, e', (C27_same_iff_multiple V V _ _ 3 5 100 100 (by decide) (by decide) (by decide) (by decide) stdCode_reduced
    stdCode2_reduced e e').mpr ⟨2, by decide, fun i hi => ?_⟩⟩
  rw [(stdCode_col i hi).1, (stdCode_col i hi).2]
  push_cast [ZMod.natCast_mod]
  rfl

/-- Columns in descending order. -/
def descCols : NormIS toy := Vector.ofFn fun i => Vector.ofFn fun j => 200 - i.val - j.val

theorem descCols_lt (i j : Nat) (hi : i < toy.K) (hj : j < toy.N - toy.K) : g2 descCols i j < 256 := by
  unfold descCols
  rw [g2_ofFn _ _ _ hi hj]
  omega

/-- `C28_sorts`, `C28_depends_on_multiset`: they are sorted, and sorting again changes nothing. -/
example : ∃ R, lexSortCols descCols = .ok R ∧ (colsOf R).Perm (colsOf descCols) ∧ (colsOf R).Pairwise (· ≤ ·) :=
  C28_sorts toy_WF _ descCols_lt
example (W : NormIS toy) (hW : ∀ i j, i < toy.K → j < toy.N - toy.K → g2 W i j < 256) (h : lexSortCols descCols = lexSortCols W) :
    (colsOf descCols).Perm (colsOf W) := (C28_depends_on_multiset toy_WF _ _ descCols_lt hW).mp h

/-! ## Field elements and samplers -/

/-- `C30_reduction`: the largest 16-bit value. -/
example : fqRed 65535 = 3 := C30_reduction 65535 (by decide)

/-- `C31_nonzero_sampler`, `C31_element_sampler`, `C31_ignores_buffer`. -/
example (fuel : Nat) : fqStarRndState toy fuel (initCsprng toy [1]) (Vector.replicate 132 0) ≠ .error .oob := by
  obtain ⟨s, hs⟩ := C31_output_exists toy (initCsprng toy [1]) (initCsprng_ok toy [1])
  exact (C31_nonzero_sampler fuel _ _ (initCsprng_ok toy [1]) (by decide) s hs).1
example (fuel : Nat) (v : Vector Nat 132) (st : Inc) (h : randRangeQState toy fuel (initCsprng toy [1]) (Vector.replicate 132 200) = .ok (v, st)) :
    g v 131 ≤ 126 := by
  obtain ⟨s, hs⟩ := C31_output_exists toy (initCsprng toy [1]) (initCsprng_ok toy [1])
  obtain ⟨s', -, -, -, hr⟩ := (C31_element_sampler fuel _ _ (initCsprng_ok toy [1]) (by decide) s hs).2.1 v st h
  exact (hr 131 (by decide)).2
example (fuel : Nat) : fqStarRndState toy fuel (initCsprng toy [1]) (Vector.replicate 132 0) =
    fqStarRndState toy fuel (initCsprng toy [1]) (Vector.replicate 132 77) := (C31_ignores_buffer fuel _ _ _ (by decide)).1

/-! ## Hash functions -/

/-- `C33_absorb_split`, `C33_reachable`: two pieces, the second absorbed into a state that is not fresh. -/
example : [[4, 5], [6]].foldl (incAbsorb 136) ([[1, 2, 3]].foldl (incAbsorb 136) incInit) =
    incAbsorb 136 ([[1, 2, 3]].foldl (incAbsorb 136) incInit) [4, 5, 6] :=
  C33_absorb_split 136 _ (C33_reachable 136 (by decide) _) [[4, 5], [6]]

/-- `C34_squeeze_split`: across the end of a block. -/
example : squeezePieces 168 [100, 100, 3] (initCsprng toy [1, 2]) = incSqueeze 168 (initCsprng toy [1, 2]) 203 :=
  C34_squeeze_split 168 (by decide) _ (initCsprng_ok toy [1, 2]) [100, 100, 3]

/-- `C35_fips202`, `C35_digest`: a message of three bytes. -/
example : bits (sha3_256 [0x61, 0x62, 0x63]) = Spec.sha3 256 [0x61, 0x62, 0x63] := (C35_fips202 [0x61, 0x62, 0x63] 0).2.2.1
example : bits (hashFinalize .cat3Balanced ([[0x61], [0x62, 0x63]].foldl (hashAbsorb .cat3Balanced) hashInit)) = Spec.sha3 384 [0x61, 0x62, 0x63] :=
  C35_digest .cat3Balanced [[0x61], [0x62, 0x63]]

/-- `C36_keccak_f`: the permutation of the state with one bit set. -/
example : stateBit (permute (Vector.replicate 25 0 |>.set 7 1)) = Spec.keccakF (stateBit (Vector.replicate 25 0 |>.set 7 1)) := C36_keccak_f _

/-- `C37_one_shot`, `C37_squeezeblocks`. -/
example : shake128 300 [1, 2, 3] = (incSqueeze 168 (incFinalize 168 0x1F ([[1], [2, 3]].foldl (incAbsorb 168) incInit)) 300).1 :=
  (C37_one_shot [[1], [2, 3]] 300).1
example : (squeezeBlocks 136 2 (shake256Absorb [1])).1 ++ (squeezeBlocks 136 3 (squeezeBlocks 136 2 (shake256Absorb [1])).2).1 =
    shake256 680 [1] := (C37_squeezeblocks [1] 2 3).2.2.2

/-! ## Comparisons and traces -/

/-- `C42_comparison_exact`: the first two bytes agree, the third does not. -/
example : timingSafeMemcmp #v[1, 2, 3] #v[1, 2, 4] 2 = .ok 0 ∧ timingSafeMemcmp #v[1, 2, 3] #v[1, 2, 4] 3 = .ok 1 := by
  obtain ⟨r, e, -, h⟩ := C42_comparison_exact #v[1, 2, 3] #v[1, 2, 4] 2 (by decide) (by decide)
  obtain ⟨r', e', h', h''⟩ := C42_comparison_exact #v[1, 2, 3] #v[1, 2, 4] 3 (by decide) (by decide)
  rw [h.mpr (by decide)] at e
  refine ⟨e, ?_⟩
  rcases h' with rfl | rfl
  · exact absurd (h''.mp rfl 2 (by decide)) (by decide)
  · exact e'

/-- `C50_accesses`, `C50_reads_depend_on_data`: column 100 starts with a non-zero entry, column 0 with zero. -/
example (V : NormIS toy) : ∃ R R' log log', lexMinimizeT V 0 (stdCode toy) 100 [] = .ok (R, log) ∧
    lexMinimizeT V 0 (Vector.replicate _ (Vector.replicate _ 0)) 100 [] = .ok (R', log') ∧ log.length < log'.length := by
  obtain ⟨R, log, e, -⟩ := C50_accesses V 0 (stdCode toy) 100 (by decide) (by decide)
  obtain ⟨R', log', e', -⟩ := C50_accesses V 0 (Vector.replicate toy.K (Vector.replicate toy.N 0)) 100 (by decide) (by decide)
  refine ⟨R, R', log, log', e, e', C50_reads_depend_on_data V 0 _ _ 100 (by decide) (by decide) (by decide) ?_ ?_ e e'⟩
  · rw [(stdCode_col 0 (by decide)).1]; decide
  · rw [g2, dif_pos (by decide), Vector.getElem_replicate, g_replicate _ _ (by decide)]

end LESS
