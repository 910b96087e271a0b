import Verif.Props.BlockCases
import Verif.Props.Uniform
import Verif.Props.Shuffle
import Verif.Props.Termination
import Verif.Props.Challenges
import Verif.Props.Randomness
import Verif.Props.Print
import Verif.Props.Bench
import Verif.Props.KatRng
import Verif.Props.KatFile
import Verif.Props.KeccakAsm
import Verif.Props.KeccakBytes
import Verif.Props.ParamScript
/-!
# Concrete cases for distributions, tools and programs
-/
namespace LESS
open Spec

/-! ## Distributions -/

/-- `C58_words`, `C58_elements`: three elements drawn with up to four words. -/
example : Prod.fst <$> randRangeQState toy 4 (initCsprng toy [1]) (Vector.replicate 3 0) =
    randOn 0 126 (drawn toy 8 4 (initCsprng toy [1])) (Vector.replicate 3 0) := (C58_words 4 _ _).1
example : Nat.card {ws : Words 64 4 // randOn 0 126 ws.1 (Vector.replicate 3 9) = .ok #v[0, 0, 0]} =
    Nat.card {ws : Words 64 4 // randOn 0 126 ws.1 (Vector.replicate 3 0) = .ok #v[126, 5, 77]} :=
  C58_elements (by decide) 4 _ _ _ _ (by decide) (by decide)

/-- `C59_words`, `C59_challenges`: the toy challenges. -/
example : expandDigest 5 (noChallenge toy) [1, 2] = digestWords toy (drawn toy 2 5 (initCsprng toy [1, 2])) 0 (noChallenge toy) := C59_words 5 _ _
example (k : Nat) : Nat.card {ws : Words 16 k // digestWords toy ws.1 0 (noChallenge toy) = .ok (firstPlaces toy)} =
    Nat.card {ws : Words 16 k // digestWords toy ws.1 0 (noChallenge toy) = .ok (lastPlaces toy)} :=
  C59_challenges toy_WF (by decide) k (firstPlaces_challenge toy_WF) (lastPlaces_challenge toy_WF)

/-- `C64_nonzero`: one element from at most 20 words. -/
example : 2 ^ 20 * Nat.card {ws : Words 64 20 // ¬ ∃ a, randOn 1 126 ws.1 (Vector.replicate 1 0) = .ok a} ≤ 2 ^ 1 * (2 ^ 64 + 2 ^ 10) ^ 20 :=
  C64_nonzero (by decide) 20 _

/-- The columns in reverse order. -/
def reversed : Vector Nat toy.N := Vector.ofFn fun i => 131 - i.val

theorem reversed_permutes : Permutes reversed := by
  refine ⟨fun x hx => ?_, fun x hx y hy h => ?_⟩
  · rw [reversed, g_ofFn _ _ hx]; show 131 - x < 132; omega
  · rw [reversed, g_ofFn _ _ hx, g_ofFn _ _ hy] at h
    have hx : x < 132 := hx
    have hy : y < 132 := hy
    have h : 131 - x = 131 - y := h
    omega

theorem ordered_permutes : Permutes (Vector.ofFn fun i : Fin toy.N => i.val) :=
  ⟨fun x hx => by rw [g_ofFn _ _ hx]; exact hx, fun x hx y hy h => by rwa [g_ofFn _ _ hx, g_ofFn _ _ hy] at h⟩

/-- `C60_frequency`, `C60_close_partial`: the order kept and the order reversed. -/
example : ∃ d : Vector Nat toy.N, (∀ i < toy.N - 1, i ≤ g d i ∧ g d i < toy.N) ∧
    shuffleLoop d (Vector.ofFn fun i : Fin toy.N => i.val) = .ok reversed := by
  obtain ⟨d, h1, h2, -⟩ := C60_frequency (p := toy) (by decide) reversed_permutes
  exact ⟨d, h1, h2⟩
example : shuffleCount toy reversed * (2 ^ 32 / 132) ^ 132 ≤
    shuffleCount toy (Vector.ofFn fun i : Fin toy.N => i.val) * (2 ^ 32 / 132 + 1) ^ 132 :=
  C60_close_partial (p := toy) (by decide) reversed_permutes ordered_permutes

/-- `C65_apart`: two keys, three signatures, a verification, and a call for a key that does not exist. -/
example : ((Ledger.after toy [.keygen, .sign 0 [1], .keygen, .sign 1 [1], .verify 0, .sign 7 [2], .sign 0 [1]]).stretches toy).Pairwise Apart ∧
    ((Ledger.after toy [.keygen, .sign 0 [1], .keygen, .sign 1 [1], .verify 0, .sign 7 [2], .sign 0 [1]]).stretches toy).length = 5 :=
  ⟨C65_apart toy _, by decide⟩

/-! ## Printing -/

/-- `C74_generator`, `C74_monomial`, `C74_rref`, `C74_identifies`, `C74_expanded`, `C74_square`. -/
example : ∃ t, generatorPrettyPrintName "G".toList (stdCode toy) = .ok ("G".toList ++ t) ∧ numbers t = entries 2 132 (g2 (stdCode toy)) :=
  C74_generator toy_WF _ _
example : ∃ t, monomialPrettyPrintName "M".toList toyMono = .ok ("M".toList ++ t) ∧
    numbers t = toyMono.permutation.toList ++ toyMono.coefficients.toList := C74_monomial toy_WF _ _
example (G : RrefMat Params.cat3Balanced) : ∃ t, generatorRrefPrettyPrintName "R".toList G = .ok ("R".toList ++ t) ∧
    numbers t = entries 200 200 (g2 G.values) ++ G.columnPos.toList :=
  C74_rref (Params.all_WF _ (by decide)) (C74_square _ (by decide)) _ _
example : monomialPrettyPrintName "M".toList toyMono ≠ monomialPrettyPrintName "M".toList (shiftMono toy) := by
  intro h
  have h := congrArg (fun m => g m.permutation 0) ((C74_identifies toy_WF _).2.1 _ _ h)
  have h1 : g toyMono.permutation 0 = 131 := g_ofFn _ _ (by decide)
  have h2 : g (shiftMono toy).permutation 0 = 1 := g_ofFn _ _ (by decide)
  have h : g toyMono.permutation 0 = g (shiftMono toy).permutation 0 := h
  rw [h1, h2] at h
  exact absurd h (by decide)
example : ∃ t, monomialPrintExpName "M".toList toyMono = .ok ("M".toList ++ t) ∧
    numbers t = entries 132 132 (fun i j => if g toyMono.permutation j = i then g toyMono.coefficients j else 0) :=
  C74_expanded toy_WF _ _ toyMono_valid

/-! ## Benchmarks -/

/-- `C75_statistics`: average 5, squared deviations 9, 1, 1, 1, 0, 0, 4, 16. -/
example : welfordPrint ([2, 4, 4, 4, 5, 5, 7, 9].foldl welfordUpdate welfordInit) = (5, 32 / 7) := by
  rw [C75_statistics]
  decide +kernel

/-- `C75_elimination`, `C75_speed`: a counter that takes 7 more steps in each repetition. -/
example (fuel : Nat) (f : Vector Nat toy.N) (r) (h : microbench fuel 64 (fun i => (0, 7 * UInt64.ofNat i)) (stdCode toy) f (initCsprng toy [1]) = .ok r) :
    r.1.1 = average (samples 64 fun i => (0, 7 * UInt64.ofNat i)) := by
  have hw := C75_elimination toy_WF fuel 64 (fun i => (0, 7 * UInt64.ofNat i)) (stdCode toy) f (initCsprng_ok toy [1])
  rw [h] at hw
  exact congrArg Prod.fst hw.1
example (fuel : Nat) (sl : Nat → Nat → Nat → Stale toy) (l : SpeedLocals toy) (r)
    (h : signVerifySpeed fuel 5 (fun _ _ => (100, 350)) sl l (initCsprng toy [1]) = .ok r) : r.1.ok = 1 := by
  have hw := C75_speed toy_WF fuel (show 0 < 5 by decide) (fun _ _ => (100, 350)) sl l (initCsprng_ok toy [1])
  rw [h] at hw
  exact hw.2.2.2

/-! ## The parameter script -/

/-- `C76_upper_bound_partial`, `C76_constants`: 100 rounds, 60 of them hidden; the constants of the smallest parameter set. -/
example : ∃ x, printedSize 100 60 (8 * 16) = some x ∧ Bounds 100 60 16 x := by
  refine C76_upper_bound_partial (by decide) (fun k h => ?_) (by decide) (by decide) 16
  have : k < 7 := by
    by_contra hc
    have := Nat.pow_le_pow_right (show 0 < 2 by decide) (show 7 ≤ k by omega)
    omega
  interval_cases k <;> exact absurd h (by decide)
example : printedSize 247 30 128 = some 1472 := C76_constants _ (by decide : Params.cat1Balanced ∈ Params.all)

namespace Kat
open Spec.Kat

/-! ## The programs for known answers -/

/-- `C49_init`: with and without personalisation the counter of requests is 1. -/
example (aes : Aes) : ∃ st', randombytesInit aes ⟨Vector.replicate 32 1, Vector.replicate 16 2, 9⟩ (Vector.replicate 48 3) (Vector.replicate 48 4)
    (some (Vector.replicate 48 5)) = .ok st' ∧ st'.reseedCounter = 1 ∧
    (st'.key, st'.V) = update aes (Vector.replicate 32 0) 0 (fun i => g (Vector.replicate 48 4) i ^^^ g (Vector.replicate 48 5) i) :=
  C49_init aes _ _ _ _

/-- `C49_seedexpander_history`, `C49_init_refuses`: three requests, the third one beyond the limit. -/
example (aes : Aes) (ctx : Xof) (seed : Vector UInt8 32) (div : Vector UInt8 8) : ∃ ctx', seedexpanderInit ctx seed div 40 = .ok (0, ctx') ∧
    runXof aes [(5, ⟨5, Vector.replicate 5 0⟩), (20, ⟨30, Vector.replicate 30 0⟩), (15, ⟨15, Vector.replicate 15 1⟩)] ctx' =
      .ok (xofAnswers (xofStream aes seed div 40) 40 0
        [(5, ⟨5, Vector.replicate 5 0⟩), (20, ⟨30, Vector.replicate 30 0⟩), (15, ⟨15, Vector.replicate 15 1⟩)]) := by
  obtain ⟨ctx', e, h⟩ := C49_seedexpander_history aes ctx seed div 40 (by decide)
  exact ⟨ctx', e, h _ (by decide)⟩
example (ctx : Xof) (seed : Vector UInt8 32) (div : Vector UInt8 8) : seedexpanderInit ctx seed div (2 ^ 32) = .ok (-1, ctx) :=
  C49_init_refuses ctx seed div _ (Nat.le_refl _)

/-- `C52_read_hex`: more digits than the buffer takes; the last four bytes remain. -/
example : ∃ A', readHex (Vector.replicate _ 9) (text "sk = 00112233445566\nx") (Vector.replicate 6 1) 4 (text "sk = ") = .ok (1, A', text "x") ∧
    num (seg A' 0 4) = 0x33445566 ∧ g A' 5 = 1 := by
  obtain ⟨A', e, h1, h2⟩ := C52_read_hex (Vector.replicate _ 9) (text "sk = 00112233445566\nx") (Vector.replicate 6 1) 4 (text "sk = ")
    (by decide) (by decide) (by decide) (by decide) (by decide)
  have ha : afterFirst (text "sk = ") (text "sk = 00112233445566\nx") = some (text "00112233445566\nx") := by decide +kernel
  rw [ha] at e h1
  dsimp only at e h1
  refine ⟨A', ?_, ?_, ?_⟩
  · rw [e, show fieldRest (text "00112233445566\nx") = text "x" by decide +kernel]
  · rw [h1]; decide +kernel
  · rw [h2 5 (by decide) (by decide)]; rfl

/-- `C52_decimal_round_trip`, `C52_files`, `C52_reproducible`: two requests of the toy parameters. -/
example : fscanDec (dec 3300 ++ 10 :: text "x") = (1, some 3300, 10 :: text "x") := (C52_decimal_round_trip 3300 _).2
example (aes : Aes) (tmp : Nat → Vector UInt8 48) (st : Drbg) (msg : Vector UInt8 3300) (v : KatVars) (fuel : Nat) (sl : Nat → KatStale toy) :
    katMain aes tmp (Vector.replicate 48 1) st (Vector.replicate 48 2) msg v fuel sl 2 ≠ .error .oob :=
  (C52_files toy_WF aes tmp _ st _ msg v fuel sl 2 (by decide)).1
example (aes : Aes) (tmp : Nat → Vector UInt8 48) (st : Drbg) (msg : Vector UInt8 3300) (v : KatVars) (fuel fuel' : Nat) (sl : Nat → KatStale toy)
    (r r') (h : katMain aes tmp (Vector.replicate 48 1) st (Vector.replicate 48 2) msg v fuel sl 2 = .ok r)
    (h' : katMain aes tmp (Vector.replicate 48 7) st (Vector.replicate 48 8) (msg.map (· + 1)) v fuel' sl 2 = .ok r') : r = r' :=
  C52_reproducible toy_WF aes (by decide) h h'

end Kat

/-! ## The assembly code of Keccak -/

namespace Asm

/-- Registers that are not zero. -/
def busy : Machine UInt64 := ⟨fun _ => ⟨7, 7, 7, 7⟩, fun _ => 0, ⟨1, 2, 3, 4, 5, 6⟩⟩

/-- `C78_24rounds`, `C78_12rounds`, `C78_same_as_portable`. -/
example : ∃ t, permute24 busy (Vector.ofFn fun i : Fin 25 => UInt64.ofNat i) = .ok t ∧
    avx2Bit t = Spec.keccakF (avx2Bit (Vector.ofFn fun i : Fin 25 => UInt64.ofNat i)) := C78_24rounds _ _
example : ∃ t, permute12 busy (Vector.ofFn fun i : Fin 25 => UInt64.ofNat i) = .ok t ∧
    avx2Bit t = ((List.range 24).drop 12).foldl Spec.rnd (avx2Bit (Vector.ofFn fun i : Fin 25 => UInt64.ofNat i)) := C78_12rounds _ _
example : permute24 busy (toAvx2 (Vector.ofFn fun i : Fin 25 => UInt64.ofNat i)) =
    .ok (toAvx2 (permute (Vector.ofFn fun i : Fin 25 => UInt64.ofNat i))) := C78_same_as_portable _ _

/-- A state with 200 different bytes. -/
def bytes200 : Vector UInt8 200 := Vector.ofFn fun i => UInt8.ofNat i

/-- `C79_initialize`, `C79_bytes`: the state with all bytes zero is the only one. -/
example (s : Vector UInt8 200) (h : ∀ j < 200, Spec.stateByte s j = Spec.stateByte (Vector.replicate 200 0) j) :
    initState bytes200 = .ok s := by rw [C79_bytes h]; exact C79_initialize _

/-- `C79_overwrite_bytes`, `C79_overwrite_with_zeroes`: 30 bytes from byte 5 on; the first 13 bytes. -/
example : ∃ t, overwriteBytes bytes200 (Vector.replicate 30 9) 5 30 = .ok t ∧ Spec.stateByte t 34 = 9 ∧ Spec.stateByte t 35 = Spec.stateByte bytes200 35 := by
  obtain ⟨t, e, h⟩ := C79_overwrite_bytes bytes200 (Vector.replicate 30 9) 5 30 (by decide) (by decide)
  refine ⟨t, e, ?_, ?_⟩
  · rw [h 34 (by decide), if_pos (by decide)]; exact g_replicate _ _ (by decide)
  · rw [h 35 (by decide), if_neg (by decide)]
example : ∃ t, overwriteWithZeroes bytes200 13 = .ok t ∧ Spec.stateByte t 12 = 0 ∧ Spec.stateByte t 13 = Spec.stateByte bytes200 13 := by
  obtain ⟨t, e, h⟩ := C79_overwrite_with_zeroes bytes200 13 (by decide)
  exact ⟨t, e, by rw [h 12 (by decide), if_pos (by decide)], by rw [h 13 (by decide), if_neg (by decide)]⟩

/-- `C79_extract_bytes`, `C79_extract_and_add`: seven bytes from byte 60 on; input and output in one memory, the output first. -/
example : ∃ d, extractBytesAsm bytes200 (Vector.replicate 10 9) 60 7 = .ok d ∧ g d 6 = Spec.stateByte bytes200 66 ∧ g d 7 = 9 := by
  obtain ⟨d, e, h⟩ := C79_extract_bytes bytes200 (Vector.replicate 10 9) 60 7 (by decide) (by decide)
  refine ⟨d, e, ?_, ?_⟩
  · rw [h 6 (by decide), if_pos (by decide)]
  · rw [h 7 (by decide), if_neg (by decide)]; exact g_replicate _ _ (by decide)
example : ∃ d, extractAndAddBytes bytes200 (Vector.replicate 20 9) 3 1 60 7 = .ok d ∧ g d 1 = Spec.stateByte bytes200 60 ^^^ 9 ∧ g d 8 = 9 := by
  obtain ⟨d, e, h⟩ := C79_extract_and_add bytes200 (Vector.replicate 20 9) 3 1 60 7 (by decide) (by decide) (by decide) (by decide)
  refine ⟨d, e, ?_, ?_⟩
  · rw [h 1 (by decide), if_pos (by decide)]
    exact congrArg (Spec.stateByte bytes200 60 ^^^ ·) (g_replicate _ _ (by decide))
  · rw [h 8 (by decide), if_neg (by decide)]; exact g_replicate _ _ (by decide)

/-- `C80_same_bits`, `C80_add_bytes`, `C80_absorb_12rounds`, `C80_sponge`: 100 bytes in blocks of 5 lanes. -/
example : avx2Bit (lanesOfBytes bytes200) = Spec.stateBits bytes200 := C80_same_bits _
example : ∃ t, addBytes bytes200 (Vector.replicate 50 9) 0 (8 * 6) = .ok t ∧
    Spec.stateBits t = Spec.xorLanes 6 (fun i => (Spec.bits (Vector.replicate 50 9).toList).getD i false) (Spec.stateBits bytes200) :=
  C80_add_bytes _ _ 6 (by decide) (by decide)
example : ∃ t, fastLoop12 busy (fun _ => busy) (Vector.replicate 25 3) 5 (Vector.ofFn fun i : Fin 100 => UInt8.ofNat i) = .ok (t, 80) := by
  obtain ⟨t, e, -⟩ := C80_absorb_12rounds busy (fun _ => busy) (Vector.replicate 25 3) 5 (Vector.ofFn fun i : Fin 100 => UInt8.ofNat i)
    (by decide) (by decide)
  exact ⟨t, e⟩
example : ∃ t k, fastLoop24 busy (fun _ => busy) (Vector.replicate 25 3) 5 (Vector.ofFn fun i : Fin 100 => UInt8.ofNat i) = .ok (t, k) ∧
    k ≤ 100 ∧ 100 < k + 40 := by
  obtain ⟨t, k, e, h1, h2, -⟩ := C80_sponge busy (fun _ => busy) (Vector.replicate 25 3) 5 (Vector.ofFn fun i : Fin 100 => UInt8.ofNat i)
    (by decide) (by decide)
  exact ⟨t, k, e, h1, h2⟩

end Asm

end LESS
