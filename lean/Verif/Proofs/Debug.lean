import Verif.Model.Debug
import Verif.Proofs.OptSim
import Verif.Proofs.Verify
import Verif.Proofs.Commit

/-! # The assertion of `prepare_digest_input` -/

namespace LESS

open Spec

variable {p : Params}

theorem up_ok {α : Type} (a : α) : up (.ok a) = (pure a : Dbg α) := rfl

theorem up_pure {α : Type} (a : α) : (pure a : Dbg α) = up (pure a) := rfl

/-- Code without assertion followed by code that does not abort. -/
theorem up_congr {α β : Type} {x : C α} {F : α → Dbg β} {f : α → C β} (h : ∀ a, x = .ok a → F a = up (f a)) :
    (up x >>= F) = up (x >>= f) := by
  cases x with
  | error _ => rfl
  | ok a => exact h a rfl

theorem run_of_bind {α β : Type} {x : C α} {f : α → C β} {b : β} (h : x >>= f = .ok b) :
    ∃ a, x = .ok a ∧ f a = .ok b := by
  cases x with
  | error e => cases h
  | ok a => exact ⟨a, rfl, h⟩

theorem dforUp_up {σ : Type} {n : Nat} {F : Nat → σ → Dbg σ} {f : Nat → σ → C σ} (h : ∀ i s, i < n → F i s = up (f i s))
    (s : σ) : dforUp n F s = up (forUp n f s) := by
  induction n with
  | zero => rfl
  | succ n ih =>
    show dforUp n F s >>= F n = up (forUp n f s >>= f n)
    rw [ih fun i s hi => h i s (by omega)]
    exact up_congr fun s' _ => h n s' (by omega)

theorem dforRet_up {ρ σ : Type} {n : Nat} {F : Nat → σ → Dbg (ρ ⊕ σ)} {f : Nat → σ → C (ρ ⊕ σ)}
    (h : ∀ i s, i < n → F i s = up (f i s)) (s : σ) : dforRet n F s = up (forRet n f s) := by
  induction n with
  | zero => rfl
  | succ n ih =>
    show (dforRet n F s >>= _) = up (forRet n f s >>= _)
    rw [ih fun i s hi => h i s (by omega)]
    refine up_congr fun s' _ => ?_
    cases s' with
    | inl r => rfl
    | inr s => exact h n s (by omega)

/-- The first half of `prepare_digest_input`: the product is reduced and has the rank of the factor. -/
theorem product_rref (hKN : p.K < p.N) (hN : p.N < p.posMod) {G : GenMat p} {m : Monomial p} (hm : m.Valid) (hG : Reduced G) :
    ∃ Gd ok R f, generatorMonomialMul (Vector.replicate p.K (Vector.replicate p.N 0)) G m = .ok Gd ∧
      generatorRREF Gd (Vector.replicate p.N 0) = .ok (ok, R, f) ∧ (ok ≠ 0 ↔ FullRank (matOf G)) := by
  obtain ⟨Gd, h1, hGd, hmat⟩ := (generatorMonomialMul_mat (Vector.replicate p.K (Vector.replicate p.N 0)) G m hm hG).exists_ok
  obtain ⟨⟨ok, R, f⟩, h2, -, -, h3⟩ := (generatorRREF_wp Gd (Nat.le_of_lt hKN) hGd).exists_ok
  refine ⟨Gd, ok, R, f, h1, h2, ?_⟩
  obtain ⟨r, -, hr⟩ := hm.rightInv (Nat.le_of_lt hN)
  have hiff : FullRank (matOf Gd) ↔ FullRank (matOf G) := by
    rw [hmat]
    refine ⟨fun h => ?_, fun h => fullRank_mul h hr⟩
    intro v hv
    apply h
    rw [← Matrix.vecMul_vecMul, hv, Matrix.zero_vecMul]
  rcases h3 with ⟨h, hn⟩ | ⟨h, hf, -⟩
  · simp only at h
    subst h
    exact ⟨fun h => absurd rfl h, fun h => absurd (hiff.2 h) hn⟩
  · simp only at h
    subst h
    exact ⟨fun _ => hiff.1 hf, fun _ => by omega⟩

/-- `prepare_digest_input` aborts exactly on matrices without full rank. -/
theorem prepareDigestInputD_eq (hKN : p.K < p.N) (hN : p.N < p.posMod) (V : NormIS p) (Qb : MonoAction p) {G : GenMat p}
    {m : Monomial p} (hm : m.Valid) (hG : Reduced G) :
    (FullRank (matOf G) → prepareDigestInputD V Qb G m = up (prepareDigestInput V Qb G m)) ∧
    (¬ FullRank (matOf G) → prepareDigestInputD V Qb G m = OptionT.mk (.ok none)) := by
  obtain ⟨Gd, ok, R, f, h1, h2, h3⟩ := product_rref hKN hN hm hG
  unfold prepareDigestInputD prepareDigestInput
  refine ⟨fun h => up_congr fun Gd' h1' => up_congr fun o h2' => ?_, fun h => ?_⟩
  · cases h1.symm.trans h1'
    cases h2.symm.trans h2'
    dsimp only
    rw [assertD, if_pos (h3.2 h), pure_bind]
    exact up_congr fun _ _ => up_congr fun _ _ => rfl
  · rw [h1, up_ok, pure_bind, h2, up_ok, pure_bind]
    dsimp only
    rw [assertD, if_neg (fun h' => h (h3.1 h'))]
    rfl

theorem signRoundD_eq (hp : p.WF) (fuel : Nat) (sl : Stale p) {G0 : GenMat p} (hG : Reduced G0) (hr : FullRank (matOf G0))
    (tree : TreeBuf p) (salt : Bytes) (i : Nat) (s : Vector (MonoAction p) p.T × Inc) :
    signRoundD fuel sl G0 tree salt i s = up (signRound fuel sl G0 tree salt i s) := by
  obtain ⟨acts, h⟩ := s
  unfold signRoundD signRound
  dsimp only
  refine up_congr fun seed _ => up_congr fun Qt hQt => up_congr fun a _ => ?_
  rw [(prepareDigestInputD_eq hp.K_lt_N hp.N_lt _ _ (saltRnd_valid hp hQt) hG).1 hr]
  exact up_congr fun _ _ => up_congr fun _ _ => rfl

/-- `LESS_sign`. -/
theorem lessSignD_eq (hp : p.WF) {n : Nat} (fuel : Nat) (sl : Nat → Stale p) (rng : Inc) (SK : PriKey p) (m : Bytes)
    (sig : SignT p n) : lessSignD fuel sl rng SK m sig = up (lessSign fuel sl rng SK m sig) := by
  unfold lessSignD lessSign
  dsimp only
  refine up_congr fun seeds _ => up_congr fun tree _ => up_congr fun G0 hG0 => ?_
  obtain ⟨hred, hG⟩ := (expandG0_wp hp fuel _ _).of_ok hG0
  rw [dforUp_up (f := fun i => signRound fuel (sl (i + 1)) G0 tree _ i)
    fun i s _ => signRoundD_eq hp fuel _ hred (hG.rref (Nat.le_of_lt hp.K_lt_N)).fullRank _ _ i s]
  exact up_congr fun _ _ => up_congr fun _ _ => up_congr fun _ _ => up_congr fun _ _ => up_congr fun _ _ =>
    up_congr fun _ _ => up_congr fun _ _ => rfl

/-- `LESS_verify`. -/
theorem lessVerifyD_eq (hp : p.WF) {n : Nat} (fuel : Nat) (sl : Nat → Stale p) (PK : PubKey p) (m : Bytes)
    (sig : SignT p n) : lessVerifyD fuel sl PK m sig = up (lessVerify fuel sl PK m sig) := by
  have hKN := Nat.le_of_lt hp.K_lt_N
  unfold lessVerifyD lessVerify
  refine up_congr fun fws _ => up_congr fun ind _ => up_congr fun tr _ => up_congr fun G0 hG0 => ?_
  obtain ⟨tree, _⟩ := tr
  obtain ⟨A, hA⟩ := (generatorSFSeedExpand_wp fuel _ _ hp).of_ok hG0
  dsimp only
  rw [dforRet_up (f := fun i => verifyRound fuel (sl (i + 1)) PK sig fws tree G0 i) fun i s _ => ?_]
  · refine up_congr fun o _ => ?_
    obtain r | ⟨h, e⟩ := o
    · rfl
    · exact up_congr fun _ _ => rfl
  · obtain ⟨h, employed⟩ := s
    unfold verifyRoundD verifyRound
    dsimp only
    refine up_congr fun x _ => ?_
    by_cases hx : x = 0
    · rw [if_pos hx, if_pos hx]
      refine up_congr fun G hG => up_congr fun seed _ => up_congr fun Qm hQm => ?_
      obtain ⟨hred, hm⟩ := (hA.expand (F := False) hKN _).of_ok hG
      rw [(prepareDigestInputD_eq hp.K_lt_N hp.N_lt _ _ (saltRnd_valid hp hQm) hred).1
        (by rw [hm]; exact (hA.isG0.rref hKN).fullRank)]
      exact up_congr fun _ _ => rfl
    · rw [if_neg hx, if_neg hx]
      refine up_congr fun sfg _ => up_congr fun resp _ => up_congr fun o _ => ?_
      cases o <;> rfl

/-- `crypto_sign`. -/
theorem cryptoSignD_eq (hp : p.WF) {k : Nat} (fuel : Nat) (sl : Nat → Stale p) (rng : Inc) (sm : Vector UInt8 k) (m : Bytes)
    (sk : Vector UInt8 p.skLen) : cryptoSignD fuel sl rng sm m sk = up (cryptoSign fuel sl rng sm m sk) := by
  unfold cryptoSignD cryptoSign
  refine up_congr fun _ _ => up_congr fun _ _ => ?_
  rw [lessSignD_eq hp]
  exact up_congr fun _ _ => up_congr fun _ _ => rfl

/-- `crypto_sign_open`. -/
theorem cryptoSignOpenD_eq (hp : p.WF) {smlen : Nat} (fuel : Nat) (sl : Nat → Stale p) (mcap : Nat) (sm : Vector UInt8 smlen)
    (pk : Vector UInt8 p.pkLen) :
    cryptoSignOpenD fuel sl mcap sm pk = up (cryptoSignOpen fuel sl mcap sm pk) := by
  unfold cryptoSignOpenD cryptoSignOpen
  refine up_congr fun num _ => ?_
  dsimp only
  split
  · rfl
  · refine up_congr fun m _ => ?_
    split
    · rfl
    · refine up_congr fun sig _ => ?_
      rw [lessVerifyD_eq hp]
      exact up_congr fun _ _ => rfl

/-! ## Optimized code -/

theorem prepareDigestInputOD_eq (isa : Isa) (hN : p.N ≤ p.nPad) (hKN : p.K < p.N) (hpm : p.N < p.posMod) (sl : OStale p)
    (V : NormIS p) (Qb : MonoAction p) {G : OGen p} {m : Monomial p} (hm : m.Valid) (hG : Reduced (cut G))
    (hr : FullRank (matOf (cut G))) :
    prepareDigestInputOD isa sl V Qb G m = up (prepareDigestInputO isa sl V Qb G m) := by
  have hO := prepareDigestInputO_eq isa hN (Nat.le_of_lt hKN) sl V Qb G m hm hG
  obtain ⟨r, -, hri⟩ := hm.rightInv (Nat.le_of_lt hpm)
  obtain ⟨out, h1, h2, -⟩ := (prepareDigestInput_wp V Qb (cut G) m hKN hpm hm hG (fullRank_mul hr hri)).exists_ok
  rw [h1] at hO
  unfold prepareDigestInputO at hO
  obtain ⟨Gd, hGd, hO⟩ := run_of_bind hO
  obtain ⟨⟨ok, R, f⟩, ho, hO⟩ := run_of_bind hO
  obtain ⟨s, -, hO⟩ := run_of_bind hO
  obtain ⟨s', -, hO⟩ := run_of_bind hO
  unfold prepareDigestInputOD prepareDigestInputO
  refine up_congr fun Gd' hGd' => up_congr fun o ho' => ?_
  cases hGd.symm.trans hGd'
  cases ho.symm.trans ho'
  dsimp only
  have hok : ok ≠ 0 := by
    cases hO
    simp only at h2
    omega
  rw [assertD, if_pos hok, pure_bind]
  exact up_congr fun _ _ => up_congr fun _ _ => rfl

theorem signRoundOD_eq (isa : Isa) (hp : p.WF) (hN : p.N ≤ p.nPad) (fuel : Nat) (sl : OStale p) {G0 : OGen p}
    (hG : Reduced (cut G0)) (hr : FullRank (matOf (cut G0))) (tree : TreeBuf p) (salt : Bytes) (i : Nat)
    (s : Vector (MonoAction p) p.T × Inc) :
    signRoundOD isa fuel sl G0 tree salt i s = up (signRoundO isa fuel sl G0 tree salt i s) := by
  obtain ⟨acts, h⟩ := s
  unfold signRoundOD signRoundO
  dsimp only
  refine up_congr fun seed _ => up_congr fun Qt hQt => up_congr fun a _ => ?_
  rw [prepareDigestInputOD_eq isa hN hp.K_lt_N hp.N_lt _ _ _ (saltRnd_valid hp hQt) hG hr]
  exact up_congr fun _ _ => up_congr fun _ _ => rfl

/-- `LESS_sign`. -/
theorem lessSignOD_eq (isa : Isa) (hp : p.WF) (hN : p.N ≤ p.nPad) {n : Nat} (fuel : Nat) (sl : Nat → OStale p) (rng : Inc)
    (SK : PriKey p) (m : Bytes) (sig : SignT p n) :
    lessSignOD isa fuel sl rng SK m sig = up (lessSignO isa fuel sl rng SK m sig) := by
  unfold lessSignOD lessSignO
  dsimp only
  refine up_congr fun seeds _ => up_congr fun tree _ => up_congr fun G0 hG0 => ?_
  rw [expandG0O_eq] at hG0
  obtain ⟨G, hG, he⟩ := run_of_bind hG0
  cases he
  obtain ⟨hred, hG⟩ := (expandG0_wp hp fuel _ _).of_ok hG
  rw [dforUp_up (f := fun i => signRoundO isa fuel (sl (i + 1)) _ tree _ i)
    fun i s _ => signRoundOD_eq isa hp hN fuel _ (by rw [cut_paste hN]; exact hred)
      (by rw [cut_paste hN]; exact (hG.rref (Nat.le_of_lt hp.K_lt_N)).fullRank) _ _ i s]
  exact up_congr fun _ _ => up_congr fun _ _ => up_congr fun _ _ => up_congr fun _ _ => up_congr fun _ _ =>
    up_congr fun _ _ => up_congr fun _ _ => rfl

/-- `LESS_verify`, for every public key. -/
theorem lessVerifyOD_eq (isa : Isa) (hp : p.WF) (hN : p.N ≤ p.nPad) {n : Nat} (fuel : Nat) (sl : Nat → OStale p)
    (PK : PubKey p) (m : Bytes) (sig : SignT p n) :
    lessVerifyOD isa fuel sl PK m sig = up (lessVerifyO isa fuel sl PK m sig) := by
  have hKN := Nat.le_of_lt hp.K_lt_N
  unfold lessVerifyOD lessVerifyO
  refine up_congr fun fws _ => up_congr fun ind _ => up_congr fun tr _ => up_congr fun G0 hG0 => ?_
  obtain ⟨tree, _⟩ := tr
  obtain ⟨A, hA⟩ := (generatorSFSeedExpand_wp fuel _ _ hp).of_ok hG0
  dsimp only
  rw [dforRet_up (f := fun i => verifyRoundO isa fuel (sl (i + 1)) PK sig fws tree G0 i) fun i s _ => ?_]
  · refine up_congr fun o _ => ?_
    obtain r | ⟨h, e⟩ := o
    · rfl
    · exact up_congr fun _ _ => rfl
  · obtain ⟨h, employed⟩ := s
    unfold verifyRoundOD verifyRoundO
    dsimp only
    refine up_congr fun x _ => ?_
    by_cases hx : x = 0
    · rw [if_pos hx, if_pos hx]
      refine up_congr fun G hG => up_congr fun seed _ => up_congr fun Qm hQm => ?_
      obtain ⟨hred, hm⟩ := (hA.expand (F := False) hKN _).of_ok hG
      rw [prepareDigestInputOD_eq isa hN hp.K_lt_N hp.N_lt _ _ _ (saltRnd_valid hp hQm)
        (by rw [cut_paste hN]; exact hred) (by rw [cut_paste hN, hm]; exact (hA.isG0.rref hKN).fullRank)]
      exact up_congr fun _ _ => rfl
    · rw [if_neg hx, if_neg hx]
      refine up_congr fun sfg _ => up_congr fun resp _ => up_congr fun o _ => ?_
      cases o <;> rfl

/-- `crypto_sign`. -/
theorem cryptoSignOD_eq (isa : Isa) (hp : p.WF) (hN : p.N ≤ p.nPad) {k : Nat} (fuel : Nat) (sl : Nat → OStale p) (rng : Inc)
    (sm : Vector UInt8 k) (m : Bytes) (sk : Vector UInt8 p.skLen) :
    cryptoSignOD isa fuel sl rng sm m sk = up (cryptoSignO isa fuel sl rng sm m sk) := by
  unfold cryptoSignOD cryptoSignO
  refine up_congr fun _ _ => up_congr fun _ _ => ?_
  rw [lessSignOD_eq isa hp hN]
  exact up_congr fun _ _ => up_congr fun _ _ => rfl

/-- `crypto_sign_open`. -/
theorem cryptoSignOpenOD_eq (isa : Isa) (hp : p.WF) (hN : p.N ≤ p.nPad) {smlen : Nat} (fuel : Nat) (sl : Nat → OStale p)
    (mcap : Nat) (sm : Vector UInt8 smlen) (pk : Vector UInt8 p.pkLen) :
    cryptoSignOpenOD isa fuel sl mcap sm pk = up (cryptoSignOpenO isa fuel sl mcap sm pk) := by
  unfold cryptoSignOpenOD cryptoSignOpenO
  refine up_congr fun num _ => ?_
  dsimp only
  split
  · rfl
  · refine up_congr fun m _ => ?_
    split
    · rfl
    · refine up_congr fun sig _ => ?_
      rw [lessVerifyOD_eq isa hp hN]
      exact up_congr fun _ _ => rfl

end LESS
