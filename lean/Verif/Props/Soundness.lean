import Verif.Proofs.Extract
import Verif.Proofs.Complete
import Verif.Proofs.Open
import Verif.Props.Toy
/-!
# Special soundness (C12)

The witness is computed by `Spec.extract`, an explicit algorithm that looks only at the two codes and the two
answers.
-/
namespace LESS

open Spec

variable {p : Params}

/-- The public code with number `b`: 0 is the code expanded from the public seed. -/
def publicCode (pk : PK p) (G0 : Matrix (Fin p.K) (Fin p.N) (ZMod 127)) (b : Nat) : Matrix (Fin p.K) (Fin p.N) (ZMod 127) :=
  if b = 0 then G0 else decodeCode p (pk.codes (b - 1))

/-- The answer a signature gives in round `i`. -/
def AnswerOf (p : Params) (budget : Nat) (sig : Sig p) (v : Nat → Nat) (i : Nat) : Answer p → Prop
  | .seed M => v i = 0 ∧ Spec.IsMonomial p budget (roundStream p sig.salt (rebuiltLeaf p sig v i) i) M
  | .response a => v i ≠ 0 ∧ a = Spec.decodeAction p (sig.responses (responsesBefore v i))

theorem RoundCommit.answer (hp : p.WF) {B : Nat} {pk : PK p} {sig : Sig p} {v : Nat → Nat} {i : Nat} {cols : List (List Nat)}
    (h : RoundCommit p B pk sig v i cols) {G0} (hG : IsG0 p B (xof p pk.seed) G0) :
    ∃ x, AnswerOf p B sig v i x ∧ x.Valid ∧ IsCommit (x.apply (publicCode pk G0 (v i))) cols := by
  unfold RoundCommit at h
  by_cases hv : v i = 0
  · rw [if_pos hv] at h
    obtain ⟨G0', M, hG', hM, hc⟩ := h
    obtain ⟨m, hm, rfl⟩ := hM.valid hp
    refine ⟨.seed m.mat, ⟨hv, hM⟩, hm.perm, ?_⟩
    unfold publicCode
    rw [if_pos hv, hG.unique hG']
    exact hc
  · rw [if_neg hv] at h
    refine ⟨.response _, ⟨hv, rfl⟩, h.1, ?_⟩
    unfold publicCode
    rw [if_neg hv]
    exact h.2

/-- Two valid answers that lead to one commitment: the extractor returns a permutation and non-zero factors that
carry the code `A` to the code `B`. -/
theorem C12_extract (hp : p.WF) {A B : Matrix (Fin p.K) (Fin p.N) (ZMod 127)} {x y : Answer p} (hx : x.Valid) (hy : y.Valid)
    {cols : List (List Nat)} (hA : IsCommit (x.apply A) cols) (hB : IsCommit (y.apply B) cols) :
    (extract p A x B y).IsMonomial ∧ RowEq (ColOp.on A (extract p A x B y)) B :=
  extract_spec (Nat.le_of_lt hp.K_lt_N) hx hy hA hB

/-- The same for the computation of the verifier: if it obtains one matrix from two public codes with two
responses, the extractor carries one code to the other. -/
theorem C12_equal_recomputation (hp : p.WF) {sl sl' : Stale p} {buf buf' : Vector UInt8 p.rrefBytes} {resp resp' : Vector UInt8 p.monoBytes}
    (hgood : GoodCode p buf) (hgood' : GoodCode p buf') {V : NormIS p}
    (h : verifyResponse sl buf resp = .ok (some V)) (h' : verifyResponse sl' buf' resp' = .ok (some V)) :
    let w := extract p (decodeCode p buf) (.response (Spec.decodeAction p resp)) (decodeCode p buf') (.response (Spec.decodeAction p resp'))
    w.IsMonomial ∧ RowEq (ColOp.on (decodeCode p buf) w) (decodeCode p buf') := by
  have h1 := (verifyResponse_spec (F := False) hp sl buf resp hgood).of_ok h
  have h2 := (verifyResponse_spec (F := False) hp sl' buf' resp' hgood').of_ok h'
  exact extract_spec (Nat.le_of_lt hp.K_lt_N) (x := .response _) (y := .response _) h1.1 h2.1 h1.2 h2.2

/-- Two accepted signatures: whenever the verifier recomputes the same commitment in round `i` of the first and in
round `i'` of the second, the extractor, run on the answers given in these rounds, carries the code challenged in
the one to the code challenged in the other. -/
theorem C12_accepted_signatures (hp : p.WF) {n n' : Nat} (hn : p.maxPublishedBytes ≤ n) (hn' : p.maxPublishedBytes ≤ n')
    {pk : PubKey p} (hgood : ∀ j < p.numKeypairs - 1, GoodCode p (pk.spec.codes j)) {fuel : Nat} {sl sl' : Nat → Stale p}
    {m m' : Bytes} {sig : SignT p n} {sig' : SignT p n'}
    (h : lessVerify fuel sl pk m sig = .ok 1) (h' : lessVerify fuel sl' pk m' sig' = .ok 1) :
    ∃ (G0 : Matrix (Fin p.K) (Fin p.N) (ZMod 127)) (v : Nat → Nat) (coms : Nat → List (List Nat)) (v' : Nat → Nat)
      (coms' : Nat → List (List Nat)), IsG0 p fuel (xof p pk.spec.seed) G0 ∧
      IsChallenge p fuel (xof p sig.digest.toList) v ∧ (∀ i < p.T, RoundCommit p fuel pk.spec sig.spec v i (coms i)) ∧
      IsChallenge p fuel (xof p sig'.digest.toList) v' ∧ (∀ i < p.T, RoundCommit p fuel pk.spec sig'.spec v' i (coms' i)) ∧
      ∀ i < p.T, ∀ i' < p.T, coms i = coms' i' → ∃ x y, AnswerOf p fuel sig.spec v i x ∧ AnswerOf p fuel sig'.spec v' i' y ∧
        (extract p (publicCode pk.spec G0 (v i)) x (publicCode pk.spec G0 (v' i')) y).IsMonomial ∧
        RowEq (ColOp.on (publicCode pk.spec G0 (v i)) (extract p (publicCode pk.spec G0 (v i)) x (publicCode pk.spec G0 (v' i')) y))
          (publicCode pk.spec G0 (v' i')) := by
  have h1 := (lessVerify_wp hp fuel sl pk m sig hgood (fun _ hv => (pubCount_le hp hv.weight).trans hn)).of_ok h
  have h2 := (lessVerify_wp hp fuel sl' pk m' sig' hgood (fun _ hv => (pubCount_le hp hv.weight).trans hn')).of_ok h'
  obtain ⟨G0, hG⟩ := lessVerify_G0 hp h
  rcases h1 with ⟨-, v, coms, hv, hc, -⟩ | ⟨h0, -⟩
  swap
  · exact absurd h0 (by decide)
  rcases h2 with ⟨-, v', coms', hv', hc', -⟩ | ⟨h0, -⟩
  swap
  · exact absurd h0 (by decide)
  refine ⟨G0, v, coms, v', coms', hG, hv, hc, hv', hc', ?_⟩
  intro i hi i' hi' e
  obtain ⟨x, hx1, hx2, hx3⟩ := RoundCommit.answer hp (hc i hi) hG
  obtain ⟨y, hy1, hy2, hy3⟩ := RoundCommit.answer hp (hc' i' hi') hG
  rw [e] at hx3
  exact ⟨x, y, hx1, hy1, extract_spec (Nat.le_of_lt hp.K_lt_N) hx2 hy2 hx3 hy3⟩

/-! A concrete case: a code with a response that is not the identity, and the transformed code with the identity
response, lead to one commitment. -/

/-- The response that names the first columns with factor 1. -/
def idAction (p : Params) : Action p := ⟨fun t => t, fun _ => 1⟩

/-- The response that reverses the two columns of the toy parameters, with factors 5 and 7. -/
def swapAction : Action toy := ⟨fun t => 1 - t, fun t => 5 + 2 * t⟩

/-- A code of dimension 2: the identity, then columns with two equal entries. -/
def smallCode : Matrix (Fin toy.K) (Fin toy.N) (ZMod 127) := fun i j => if j.val < 2 then (if i.val = j.val then 1 else 0) else (j.val : ZMod 127)

example : ∃ cols, swapAction.Valid ∧ (idAction toy).Valid ∧ IsCommit ((Answer.response swapAction).apply smallCode) cols ∧
    IsCommit ((Answer.response (idAction toy)).apply (actOn smallCode swapAction)) cols ∧
    (ColOp.ofAction swapAction).coef ⟨0, by decide⟩ ≠ (ColOp.ofAction (idAction toy)).coef ⟨0, by decide⟩ := by
  have hv1 : swapAction.Valid := by
    refine ⟨?_, ?_, ?_⟩ <;> decide
  have hv2 : (idAction toy).Valid := by
    refine ⟨?_, ?_, ?_⟩ <;> decide
  have hrref : IsRREF smallCode (fun t => ⟨t.val, t.2.trans (by decide)⟩) := by
    refine ⟨fun _ _ h => h, ?_, ?_⟩
    · intro i t
      have : t.val < 2 := t.2
      simp only [smallCode, this, if_true, Fin.ext_iff]
    · intro t j hj
      have h1 : j.val < t.val := hj
      have h2 : t.val < 2 := t.2
      simp only [smallCode]
      rw [if_pos (by omega), if_neg (by omega)]
  obtain ⟨σ, d, hd, he, -⟩ := actOn_colMap toy_WF smallCode swapAction hv1
  have hfull : FullRank (actOn smallCode swapAction) := by
    rw [he]
    exact (monoEq_colMap _ σ d hd).fullRank hrref.fullRank
  obtain ⟨R, piv, h1, h2⟩ := exists_rref (by decide) hfull
  have hid : actOn (actOn smallCode swapAction) (idAction toy) = actOn smallCode swapAction := by
    ext i j
    generalize actOn smallCode swapAction = B
    have hrest : restCols toy (idAction toy).perm = (List.range 130).map (· + 2) := by decide +kernel
    unfold actOn
    rw [hrest]
    by_cases hj : j.val < toy.K
    · rw [if_pos hj]
      simp [entry, idAction]
    · have hlt : j.val < 132 := j.2
      have hK : toy.K = 2 := rfl
      rw [hK] at hj
      have e : ((List.range 130).map (· + 2)).getD (j.val - toy.K) 0 = j.val := by
        rw [hK, List.getD_eq_getElem _ _ (by simp; omega)]
        simp; omega
      rw [if_neg (by rw [hK]; exact hj), e]
      simp [entry]
  refine ⟨_, hv1, hv2, ⟨R, piv, h1, h2, rfl⟩, ⟨R, piv, ?_, h2, rfl⟩, ?_⟩
  · show RowEq (actOn (actOn smallCode swapAction) (idAction toy)) R
    rw [hid]; exact h1
  · decide

end LESS
