import Verif.Props.ToolCases
import Verif.Props.Threads
import Verif.Props.Testbench
import Verif.Props.SeedGame
import Verif.Props.MemBench
import Verif.Props.Params
/-!
# Concrete cases for threads, games and the test programs
-/
namespace LESS
open Spec

/-- `C66_locked_no_deadlock`: two key generations and a signature, stopped in the middle, can all be finished. -/
example (sl : Nat → Stale toy) (sk : PriKey toy) (out : SignT toy toy.storageLen) : ∃ more : List (Event (Reply toy)), begun more = [] ∧
    ∀ ph ∈ ((⟨initCsprng toy [1], []⟩ : Flight toy (Reply toy)).run true ([.begin ((Request.keygen sl).prog 9), .begin ((Request.keygen sl).prog 9),
      .step 1, .begin ((Request.sign sk [1, 2] sl out).prog 9), .step 0, .step 1, .step 2] ++ more)).calls, ∃ r, ph = .outside (.done r) :=
  C66_locked_no_deadlock [1] _

/-- Sees the streams of the first of three signatures, hides its round 0, expands the first published seed, and guesses. -/
def peek (k : Nat) : Asks (SeedQuestion 3 toy.T (Vector UInt8 toy.seedLen)) (SeedAnswer 3 toy.T (Vector UInt8 toy.seedLen) (Vector UInt8 k))
    (Fin 3 × Fin toy.T × Vector UInt8 toy.seedLen) :=
  .ask (.streams 0) fun _ => .ask (.reveal 0 fun i => decide (i = 0)) fun (l : List (Vector UInt8 toy.seedLen)) =>
    .ask (.node 0 (l.headD (Vector.replicate _ 0))) fun (s : Vector UInt8 toy.seedLen × Vector UInt8 toy.seedLen) => .done (0, ⟨0, by decide⟩, s.1)

theorem peek_atMost (k : Nat) : (peek k).AtMost 3 := fun _ _ _ => trivial

/-- `C83_hidden_rounds`, `C83_seed_not_found`. -/
example (k : Nat) : (Nat.card {x : Expansions 3 toy.T (Vector UInt8 toy.seedLen) (Vector UInt8 k) × (Fin 3 → Vector UInt8 toy.seedLen) //
      FindsSeed toy.numLeaves x.1 x.2 (peek k)} : ℚ) /
    Nat.card (Expansions 3 toy.T (Vector UInt8 toy.seedLen) (Vector UInt8 k) × (Fin 3 → Vector UInt8 toy.seedLen)) ≤ 39 / 2 ^ 128 := by
  refine (C83_seed_not_found toy_WF (peek k) (peek_atMost k)).trans ?_
  have h1 : toy.numLeaves = 4 := by decide
  have h2 : toy.seedLen = 16 := by decide
  rw [h1, h2]
  norm_num
example (k : Nat) (v : Vector UInt8 toy.seedLen) :
    |(Nat.card {x : Expansions 3 toy.T (Vector UInt8 toy.seedLen) (Vector UInt8 k) × (Fin 3 → Vector UInt8 toy.seedLen) //
          (treePlay toy.numLeaves x.1 x.2 (fun _ => none) (peek k)).2.2 = v} : ℚ) /
        Nat.card (Expansions 3 toy.T (Vector UInt8 toy.seedLen) (Vector UInt8 k) × (Fin 3 → Vector UInt8 toy.seedLen)) -
      Nat.card {x : Expansions 3 toy.T (Vector UInt8 toy.seedLen) (Vector UInt8 k) × SeedDraw 3 toy.T toy.numLeaves (Vector UInt8 toy.seedLen) (Vector UInt8 k) //
          (drawnPlay toy.numLeaves x.1 x.2 (fun _ => none) (peek k)).2.2 = v} /
        Nat.card (Expansions 3 toy.T (Vector UInt8 toy.seedLen) (Vector UInt8 k) × SeedDraw 3 toy.T toy.numLeaves (Vector UInt8 toy.seedLen) (Vector UInt8 k))| ≤
      (toy.numLeaves - 1 : Nat) * ((3 : Nat) + (3 : Nat) * (toy.numLeaves - 1 : Nat)) / 2 ^ (8 * toy.seedLen) :=
  C83_hidden_rounds toy_WF (peek k) (peek_atMost k) (fun r => r.2.2 = v)

/-- `C70_inverses`, `C70_monomials`, `C70_matrix_by_monomial`, `C70_compact_form`, `C70_byte_form`, `C70_action_form`, `C70_elimination`, `C70_normal_forms`,
`C70_sign_verify`, `C70_multiple`, `C70_multiple_partial`, `C70_known_answer`, `C70_known_answer_partial` with the toy parameters: none of the tests fails,
whatever memory contains. -/
example (fuel : Nat) (sl : Stale toy) : Reports (monomialTester fuel sl sl (initCsprng toy [1])) true := C70_monomials toy_WF fuel _ _ _
example (fuel : Nat) (sl : Stale toy) : Reports (genByMonomTester fuel sl sl (initCsprng toy [1])) true := C70_matrix_by_monomial toy_WF fuel _ _ _
example (fuel : Nat) (sl : Nat → Stale toy) : Reports (gausselimTester fuel 100 sl (stdCode toy) (initCsprng toy [1])) true :=
  C70_elimination toy_WF fuel 100 sl _ _
example (fuel : Nat) (sl : Nat → Stale toy) (sig : SignT toy toy.storageLen) : Reports (signVerifyTest fuel sl sl sl sig (initCsprng toy [1])) 1 :=
  C70_sign_verify toy_WF fuel sl sl sl sig (initCsprng_ok toy [1])
example (fuel : Nat) (sl : Nat → Nat → Nat → Stale toy) : Reports (signVerifyTestMultiple fuel 5 sl (fun i => 7 * i) (initCsprng toy [1])) 0 :=
  C70_multiple toy_WF (by decide) fuel 5 sl _ (initCsprng_ok toy [1])
example (fuel : Nat) (sl : Nat → Nat → Stale toy) : Reports (signVerifyTestKAT toy fuel sl) 0 := C70_known_answer toy_WF (by decide) fuel sl

/-- `C77_sign`: the first of the signatures measured is valid. -/
example (fuel : Nat) (clk : Nat → UInt64 × UInt64) (sl₀ : Nat → Stale toy) (sl : Nat → Nat → Stale toy) (r)
    (h : memSign fuel 5 clk sl₀ sl = .ok r) : ∃ sig ∈ r.2.2, lessVerify fuel (sl 0) r.2.1 signme sig = .ok 1 := by
  have hw := C77_sign toy_WF fuel 5 clk sl₀ sl
  rw [h] at hw
  obtain ⟨-, hl, hv⟩ := hw
  have h0 : 0 < r.2.2.length := by omega
  exact ⟨r.2.2[0], List.getElem_mem h0, hv _ (List.getElem_mem h0) _⟩

/-- `C38_vector_reduction`, `C40_product_same`, `C40_padding`: an unreduced sum of two elements; padding bytes that are not zero. -/
example : g (wRed127 (vset8 250) (vset8 0x01) (vset8 0x7f)) 31 = 123 := by
  have e : g (vset8 250) 31 = 250 := g_vset8 _ _ (by decide)
  rw [C38_vector_reduction _ 31 (by decide) (by rw [e]; decide), e]
example (isa : Isa) (buf : Vector Nat toy.nPad) : ∃ R, generatorMonomialMulO isa toyPadded toyPadded (pasteRow toyMono.coefficients (Vector.replicate _ 99))
      toyMono.permutation buf = .ok R ∧ generatorMonomialMul (cut toyPadded) (cut toyPadded) toyMono = .ok (cut R) :=
  C40_product_same isa (by decide) _ _ _ _ _ (fun s hs => toyMono_valid.1.1 s hs) (fun s hs => by
    have : g toyMono.coefficients s = s % 126 + 1 := g_ofFn _ _ hs
    omega) toyPadded_reduced

/-- `C43_code_bytes`, `C43_action_bytes`, `C43_script_matches`. -/
example : toy.rrefBytes = ((codeBits toy (matOf (stdCode toy)) (stdPiv toy_WF)).length + 7) / 8 := C43_code_bytes (stdCode_isCode toy_WF).rref
example : toy.monoBytes = ((bitFields (indexBits toy) ((List.range toy.K).map fun i => 131 - i) ++
    bitFields 7 ((List.range toy.K).map fun i => i + 1)).length + 7) / 8 := C43_action_bytes toy_WF ⟨fun i => 131 - i, fun i => i + 1⟩
example : Params.cat1Balanced.maxPublishedBytes = 16 * scriptSeeds 247 30 := (C43_script_matches _ (by decide)).2

end LESS
