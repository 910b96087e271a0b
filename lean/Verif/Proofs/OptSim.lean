import Verif.Proofs.OptRrefSim
import Verif.Proofs.Verify
import Verif.Proofs.Keygen
/-!
# The optimized `LESS_keygen`, `LESS_sign` and `LESS_verify` compute what the reference computes
-/
namespace LESS

variable {p : Params}

theorem bind_congr_ok {α β : Type} {x : C α} {f h : α → C β} (e : ∀ a, x = .ok a → f a = h a) :
    (x >>= f) = (x >>= h) := by
  cases x with
  | error _ => rfl
  | ok a => exact e a rfl

/-- Two loops agree if their bodies agree on the states that satisfy an invariant. -/
theorem forUp_congr {σ : Type} {n : Nat} {f h : Nat → σ → C σ} {s : σ} (I : σ → Prop) (h0 : I s)
    (hs : ∀ i s, i < n → I s → f i s = h i s ∧ ∀ s', h i s = .ok s' → I s') : forUp n f s = forUp n h s := by
  suffices hh : ∀ m, m ≤ n → forUp m f s = forUp m h s ∧ ∀ s', forUp m h s = .ok s' → I s' from (hh n (Nat.le_refl _)).1
  intro m
  induction m with
  | zero =>
    intro _
    refine ⟨rfl, ?_⟩
    intro s' e
    cases e
    exact h0
  | succ m ih =>
    intro hm
    obtain ⟨a, b⟩ := ih (by omega)
    show (forUp m f s >>= f m) = (forUp m h s >>= h m) ∧ ∀ s', (forUp m h s >>= h m) = _ → _
    rw [a]
    cases e : forUp m h s with
    | error _ => exact ⟨rfl, fun s' e' => by cases e'⟩
    | ok s1 => exact hs m s1 (by omega) (b s1 e)

theorem forUp_inv {σ : Type} {n : Nat} {f : Nat → σ → C σ} {s s' : σ} (I : σ → Prop) (h0 : I s)
    (hs : ∀ i s s', i < n → I s → f i s = .ok s' → I s') (h : forUp n f s = .ok s') : I s' := by
  induction n generalizing s' with
  | zero => cases h; exact h0
  | succ m ih =>
    change (forUp m f s >>= f m) = _ at h
    cases e : forUp m f s with
    | error _ => rw [e] at h; cases h
    | ok s1 =>
      rw [e] at h
      exact hs m s1 s' (by omega) (ih (fun i s s' hi => hs i s s' (by omega)) e) h

theorem forRet_congr {ρ σ : Type} {n : Nat} {f h : Nat → σ → C (ρ ⊕ σ)} {s : σ}
    (hs : ∀ i s, i < n → f i s = h i s) : forRet n f s = forRet n h s := by
  induction n with
  | zero => rfl
  | succ m ih =>
    show (forRet m f s >>= _) = (forRet m h s >>= _)
    rw [ih (fun i s hi => hs i s (by omega))]
    apply bind_congr_ok
    intro a _
    cases a with
    | inl r => rfl
    | inr s => exact hs m s (by omega)

theorem rd_g {α : Type} [Inhabited α] {n : Nat} {v : Vector α n} {i : Nat} {x : α} (h : rd v i = .ok x) :
    i < n ∧ x = g v i := by
  have : Wp False (rd v i) (fun y => i < n ∧ y = g v i) := by
    by_cases hi : i < n
    · rw [Wp.rd_iff]; exact ⟨hi, hi, rfl⟩
    · exfalso
      unfold rd at h
      rw [dif_neg hi] at h
      cases h
  exact this.of_ok h

theorem rd2_g {r c : Nat} {G : Vector (Vector Nat c) r} {i j x : Nat} (h : rd2 G i j = .ok x) :
    i < r ∧ j < c ∧ x = g2 G i j := by
  unfold rd2 at h
  cases e : rd G i with
  | error _ => rw [e] at h; cases h
  | ok row =>
    rw [e] at h
    have h' : rd row j = .ok x := h
    obtain ⟨hi, rfl⟩ := rd_g e
    obtain ⟨hj, rfl⟩ := rd_g h'
    exact ⟨hi, hj, by rw [g2_row _ _ _ hi]⟩

theorem monomialInvO_eq (stale m : Monomial p) (hc : ∀ i, i < p.N → g m.coefficients i < 127) :
    monomialInvO stale m = monomialInv stale m := by
  unfold monomialInvO monomialInv
  refine forUp_congr (fun _ => True) trivial fun i s hi _ => ⟨?_, fun _ _ => trivial⟩
  refine bind_congr_ok fun d _ => bind_congr_ok fun perm _ => bind_congr_ok fun c hcc => ?_
  obtain ⟨_, rfl⟩ := rd_g hcc
  rw [brInv_eq (hc i hi)]

theorem lexMinimizeO_eq (V : NormIS p) (dst : Nat) (G : GenMat p) (col : Nat) (hG : Reduced G) :
    lexMinimizeO V dst G col = lexMinimize V dst G col := by
  unfold lexMinimizeO lexMinimize
  refine bind_congr_ok fun vf hvf => ?_
  obtain ⟨val, found⟩ := vf
  have hval : val < 127 := by
    refine (forUp_inv (fun s : Nat × Bool => s.1 < 127 ∧ (s.2 = false → s.1 = 0)) ⟨by decide, fun _ => rfl⟩ ?_ hvf).1
    rintro i ⟨v, f⟩ s' hi ⟨h1, h2⟩ e
    change (rd2 G i col >>= fun x => pure (u8 (x * b2n (x ≠ 0 && !f) + v * b2n (x = 0 || f)), f || x ≠ 0)) = _ at e
    cases e2 : rd2 G i col with
    | error _ => rw [e2] at e; cases e
    | ok x =>
      rw [e2] at e
      obtain ⟨a, b, rfl⟩ := rd2_g e2
      cases e
      have hx := hG i col a b
      simp only at h1 h2 ⊢
      generalize g2 G i col = x at hx
      unfold u8 b2n
      by_cases x0 : x = 0 <;> cases f <;> simp_all <;> omega
  dsimp only
  rw [brInv_eq hval]
  refine forUp_congr (fun _ => True) trivial fun i s hi _ => ⟨?_, fun _ _ => trivial⟩
  refine bind_congr_ok fun x hx => ?_
  obtain ⟨h1, h2, rfl⟩ := rd2_g hx
  rw [brRed_brMul (hG i col h1 h2) (fqInv_lt _)]

theorem applyActionToGO_eq (res G : GenMat p) (a : MonoAction p) (hG : Reduced G)
    (ha : ∀ t, t < p.K → g a.coefficients t < 127) : applyActionToGO res G a = applyActionToG res G a := by
  unfold applyActionToGO applyActionToG
  refine congrArg (· >>= _) (forUp_congr (fun _ => True) trivial fun t s ht _ => ⟨?_, fun _ _ => trivial⟩)
  obtain ⟨res, picked⟩ := s
  dsimp only
  refine bind_congr_ok fun src _ => ?_
  refine congrArg (· >>= _) (forUp_congr (fun _ => True) trivial fun i s hi _ => ⟨?_, fun _ _ => trivial⟩)
  refine bind_congr_ok fun x hx => bind_congr_ok fun c hc => ?_
  obtain ⟨h1, h2, rfl⟩ := rd2_g hx
  obtain ⟨_, rfl⟩ := rd_g hc
  rw [brRed_brMul (hG i src h1 h2) (ha t ht)]

theorem prepareDigestInputO_eq (isa : Isa) (hN : p.N ≤ p.nPad) (hKN : p.K ≤ p.N) (sl : OStale p) (V : NormIS p)
    (Qbar : MonoAction p) (G : OGen p) (m : Monomial p) (hm : m.Valid) (hG : Reduced (cut G)) :
    prepareDigestInputO isa sl V Qbar G m = prepareDigestInput V Qbar (cut G) m := by
  unfold prepareDigestInputO prepareDigestInput
  have hz : cut (Vector.replicate p.K (Vector.replicate p.nPad 0) : OGen p) = Vector.replicate p.K (Vector.replicate p.N 0) := by
    apply mat_ext
    intro i j hi hj
    rw [g2_cut _ _ _ hi hj, g2_row _ _ _ hi, g2_row _ _ _ hi, g_replicate _ _ hi, g_replicate _ _ hi,
      g_replicate _ _ hj, g_replicate _ _ (by omega)]
  obtain ⟨M, e1, e2⟩ := generatorMonomialMulO_sim isa hN (Vector.replicate p.K (Vector.replicate p.nPad 0)) G m
    sl.coef sl.buf hm.1.1 hG (fun s hs => (hm.2 s hs).2)
  have hM : Reduced (cut M) := ((generatorMonomialMul_mat _ _ m hm hG).of_ok e2).1
  obtain ⟨ret, R, f, e3, e4⟩ := generatorRREFO_sim hN hKN M hM sl.em
  have hR : Reduced (cut R) := ((generatorRREF_wp _ hKN hM).of_ok e4).1
  rw [hz] at e2
  rw [e1, e2]
  change (generatorRREFO M _ _ >>= _) = (generatorRREF (cut M) _ >>= _)
  rw [e3, e4]
  change (forUp _ _ _ >>= _) = (forUp _ _ _ >>= _)
  refine congrArg (· >>= _) (forUp_congr (fun _ => True) trivial fun col s hcol _ => ⟨?_, fun _ _ => trivial⟩)
  obtain ⟨V, Qb, a, b⟩ := s
  dsimp only
  refine bind_congr_ok fun rv _ => bind_congr_ok fun fl _ => ?_
  rw [lexMinimizeO_eq _ _ _ _ hR]

/-- The uninitialised memory of the reference that corresponds to that of the optimized code. -/
def OStale.atG (sl : OStale p) : Stale p := { sl.ref with gen := cut sl.gen }

def OStale.atG' (sl : OStale p) : Stale p := { sl.ref with gen := cut sl.gen' }

theorem keygenOneO_eq (isa : Isa) (hp : p.WF) (hN : p.N ≤ p.nPad) (fuel : Nat) (sl : OStale p) (G0 : OGen p)
    (hG : Reduced (cut G0)) (seed : Bytes) (buf : Vector UInt8 p.rrefBytes) :
    keygenOneO isa fuel sl G0 seed buf = keygenOne fuel sl.atG' (cut G0) seed buf := by
  have hKN := hp.K_lt_N
  have hpm := hp.N_lt
  unfold keygenOneO keygenOne
  refine bind_congr_ok fun Qi hQi => ?_
  have hval : Qi.Valid := by
    have h := monomialFromState_wp (p := p) fuel sl.ref.mono (initCsprng p seed) (by omega) (by omega)
    cases e : monomialFromState fuel sl.ref.mono (initCsprng p seed) with
    | error x =>
      exfalso
      change (monomialFromState fuel sl.ref.mono (initCsprng p seed) >>= _) = _ at hQi
      rw [e] at hQi
      cases hQi
    | ok r =>
      have h' := h.of_ok e
      change (monomialFromState fuel sl.ref.mono (initCsprng p seed) >>= _) = _ at hQi
      rw [e] at hQi
      cases hQi
      exact h'
  rw [monomialInvO_eq _ _ (fun i hi => (hval.2 i hi).2)]
  refine bind_congr_ok fun Qm hQm => ?_
  have hQv : Qm.Valid := inv_valid hval ((monomialInv_wp _ _ hval (by omega)).of_ok hQm)
  obtain ⟨M, e1, e2⟩ := generatorMonomialMulO_sim isa hN sl.gen' G0 Qm
    sl.coef sl.buf hQv.1.1 hG (fun s hs => (hQv.2 s hs).2)
  have hM : Reduced (cut M) := ((generatorMonomialMul_mat _ _ Qm hQv hG).of_ok e2).1
  obtain ⟨ret, R, f, e3, e4⟩ := generatorRREFO_sim hN (by omega) M hM sl.em
  change _ = (generatorMonomialMul (cut sl.gen') (cut G0) Qm >>= _)
  rw [e1, e2]
  change (generatorRREFO M _ _ >>= _) = (generatorRREF (cut M) _ >>= _)
  rw [e3, e4]
  rfl

theorem expandG0O_eq (fuel : Nat) (sl : OStale p) (seed : Bytes) :
    expandG0O fuel sl seed = expandG0 fuel sl.atG seed >>= fun G => pure (paste G sl.gen) := by
  unfold expandG0O expandG0
  rw [bind_assoc]
  rfl

/-- `LESS_keygen`. -/
theorem lessKeygenO_eq (isa : Isa) (hp : p.WF) (hN : p.N ≤ p.nPad) (fuel : Nat) (sl : Nat → OStale p) (rng : Inc) :
    lessKeygenO isa fuel sl rng = lessKeygen fuel (fun i => if i = 0 then (sl 0).atG else (sl i).atG') rng := by
  unfold lessKeygenO lessKeygen
  dsimp only
  refine bind_congr_ok fun seeds _ => ?_
  rw [expandG0O_eq, bind_assoc]
  refine bind_congr_ok fun G0 hG0 => ?_
  rw [pure_bind]
  have hred : Reduced G0 := ((expandG0_wp hp fuel _ _).of_ok hG0).1
  refine congrArg (· >>= _) (forUp_congr (fun _ => True) trivial fun i s hi _ => ⟨?_, fun _ _ => trivial⟩)
  refine bind_congr_ok fun seed _ => bind_congr_ok fun buf _ => ?_
  rw [keygenOneO_eq isa hp hN fuel _ _ (by rw [cut_paste hN]; exact hred), cut_paste hN, if_neg (by omega)]

theorem saltRnd_valid (hp : p.WF) {fuel : Nat} {stale m : Monomial p} {seed salt : Bytes} {i : Nat}
    (h : monomialSeedExpandSaltRnd fuel stale seed salt i = .ok m) : m.Valid := by
  have hKN := hp.K_lt_N
  have hpm := hp.N_lt
  have hw : ∀ st, Wp True (monomialFromState fuel stale st >>= fun r => pure r.1) (fun m => m.Valid) := fun st => by
    rw [Wp.bind_iff]
    refine (monomialFromState_wp (p := p) fuel stale st (by omega) (by omega)).mono fun r hr => ?_
    rw [Wp.pure_iff]
    exact hr
  exact (hw _).of_ok h

theorem signRoundO_eq (isa : Isa) (hp : p.WF) (hN : p.N ≤ p.nPad) (fuel : Nat) (sl : OStale p) (G0 : OGen p)
    (hG : Reduced (cut G0)) (tree : TreeBuf p) (salt : Bytes) (i : Nat) (s : Vector (MonoAction p) p.T × Inc) :
    signRoundO isa fuel sl G0 tree salt i s = signRound fuel sl.atG (cut G0) tree salt i s := by
  have hKN := hp.K_lt_N
  obtain ⟨acts, h⟩ := s
  unfold signRoundO signRound
  dsimp only
  refine bind_congr_ok fun seed _ => bind_congr_ok fun Qt hQt => bind_congr_ok fun a _ => ?_
  rw [prepareDigestInputO_eq isa hN (by omega) sl _ _ _ _ (saltRnd_valid hp hQt) hG]
  rfl

/-- `LESS_sign`. -/
theorem lessSignO_eq (isa : Isa) (hp : p.WF) (hN : p.N ≤ p.nPad) {n : Nat} (fuel : Nat) (sl : Nat → OStale p)
    (rng : Inc) (SK : PriKey p) (m : Bytes) (sig : SignT p n) :
    lessSignO isa fuel sl rng SK m sig = lessSign fuel (fun i => (sl i).atG) rng SK m sig := by
  unfold lessSignO lessSign
  dsimp only
  refine bind_congr_ok fun seeds _ => bind_congr_ok fun tree _ => ?_
  rw [expandG0O_eq, bind_assoc]
  refine bind_congr_ok fun G0 hG0 => ?_
  rw [pure_bind]
  have hred : Reduced G0 := ((expandG0_wp hp fuel _ _).of_ok hG0).1
  refine congrArg (· >>= _) (forUp_congr (fun _ => True) trivial fun i s hi _ => ⟨?_, fun _ _ => trivial⟩)
  rw [signRoundO_eq isa hp hN fuel _ _ (by rw [cut_paste hN]; exact hred), cut_paste hN]

/-- The public code in a buffer has reduced entries, if it can be read at all. -/
def ReducedCode (sfg : Vector UInt8 p.rrefBytes) : Prop :=
  ∀ old G : GenMat p, expandToRref old sfg = .ok G → Reduced G

theorem verifyResponseO_eq (hp : p.WF) (hN : p.N ≤ p.nPad) (sl : OStale p) (sfg : Vector UInt8 p.rrefBytes)
    (resp : Vector UInt8 p.monoBytes) (hs : ReducedCode sfg) :
    verifyResponseO sl sfg resp = verifyResponse sl.atG sfg resp := by
  have hKN := hp.K_lt_N
  unfold verifyResponseO verifyResponse
  refine bind_congr_ok fun G hG => bind_congr_ok fun act _ => bind_congr_ok fun valid hvalid => ?_
  have hred := hs _ _ hG
  by_cases hv : valid = 0
  · rw [if_pos hv, if_pos hv]
  rw [if_neg hv, if_neg hv]
  have hav : act.Valid := by
    rcases (isMonomActionValid_wp act).of_ok hvalid with ⟨_, h⟩ | ⟨h, _⟩
    · exact h
    · exact absurd h hv
  rw [applyActionToGO_eq _ _ _ hred (fun t ht => (hav.1 t ht).2)]
  refine bind_congr_ok fun Gh hGh => ?_
  have hGr : Reduced Gh := ((applyActionToG_wp _ _ _ (by omega) hav).of_ok hGh).1 hred
  dsimp only
  generalize hGp : paste Gh (Vector.replicate p.K (Vector.replicate p.nPad 0)) = Gp
  have hcut : cut Gp = Gh := by rw [← hGp, cut_paste hN]
  obtain ⟨ret, R, f, e3, e4⟩ := generatorRREFO_sim hN (by omega) Gp (by rw [hcut]; exact hGr) sl.em
  rw [hcut] at e4
  have hR : Reduced (cut R) := ((generatorRREF_wp _ (by omega) hGr).of_ok e4).1
  rw [e3, e4]
  change (forUp _ _ _ >>= _) = (forUp _ _ _ >>= _)
  refine congrArg (· >>= _) (forUp_congr (fun _ => True) trivial fun col s hcol _ => ⟨?_, fun _ _ => trivial⟩)
  obtain ⟨V, placed⟩ := s
  dsimp only
  refine bind_congr_ok fun fl _ => ?_
  rw [lexMinimizeO_eq _ _ _ _ hR]

/-- `LESS_verify`, for public codes with reduced entries. -/
theorem lessVerifyO_eq (isa : Isa) (hp : p.WF) (hN : p.N ≤ p.nPad) {n : Nat} (fuel : Nat) (sl : Nat → OStale p)
    (PK : PubKey p) (m : Bytes) (sig : SignT p n) (hpk : ∀ i < p.numKeypairs - 1, ReducedCode (g PK.SFG i)) :
    lessVerifyO isa fuel sl PK m sig = lessVerify fuel (fun i => (sl i).atG) PK m sig := by
  have hKN := hp.K_lt_N
  unfold lessVerifyO lessVerify
  refine bind_congr_ok fun fws _ => bind_congr_ok fun ind _ => bind_congr_ok fun tr _ => bind_congr_ok fun G0 hG0 => ?_
  obtain ⟨tree, _⟩ := tr
  obtain ⟨A, hA⟩ := (generatorSFSeedExpand_wp fuel _ _ hp).of_ok hG0
  dsimp only
  refine congrArg (· >>= _) (forRet_congr fun i s hi => ?_)
  obtain ⟨h, employed⟩ := s
  unfold verifyRoundO verifyRound
  dsimp only
  refine bind_congr_ok fun x _ => ?_
  by_cases hx : x = 0
  · rw [if_pos hx, if_pos hx]
    refine bind_congr_ok fun G hG => bind_congr_ok fun seed _ => bind_congr_ok fun Qm hQm => ?_
    have hred : Reduced G := ((hA.expand (F := False) (by omega) _).of_ok hG).1
    rw [prepareDigestInputO_eq isa hN (by omega) _ _ _ _ _ (saltRnd_valid hp hQm) (by rw [cut_paste hN]; exact hred),
      cut_paste hN]
    rfl
  · rw [if_neg hx, if_neg hx]
    refine bind_congr_ok fun sfg hsfg => bind_congr_ok fun resp _ => ?_
    obtain ⟨hxl, rfl⟩ := rd_g hsfg
    rw [verifyResponseO_eq hp hN _ _ _ (hpk _ hxl)]
    exact bind_congr_ok fun o _ => by cases o <;> rfl

end LESS
