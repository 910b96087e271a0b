import Verif.Proofs.VerifyCost
import Verif.Proofs.G0
import Verif.Proofs.Keygen
import Verif.Props.Codes
import Verif.Props.Monomials
import Verif.Props.Seeds
import Verif.Props.Scheme
/-!
# C90: opening takes a bounded number of column comparisons, whoever made the key
-/
namespace LESS
open Spec

variable {p : Params}

/-- C90: counting the work does not change the results. -/
theorem C90_same {smlen : Nat} (fuel : Nat) (sl : Nat → Stale p) (mcap : Nat) (sm : Vector UInt8 smlen)
    (pk : Vector UInt8 p.pkLen) :
    (cryptoSignOpenN fuel sl mcap sm pk >>= fun r => pure r.1) = cryptoSignOpen fuel sl mcap sm pk :=
  cryptoSignOpenN_fst fuel sl mcap sm pk

/-- C90: for all public keys and signed messages, well-formed or not, and whatever the uninitialised memory holds: a
call that returns has made at most `T` sorts, with at most `(n - 1) (n + 6) / 2` comparisons of two columns each and
at most `n` nested calls, `n` the number of columns. -/
theorem C90_bounds (hp : p.WF) {smlen fuel : Nat} {sl : Nat → Stale p}
    (hsl : ∀ t i j, i < p.K → j < p.N - p.K → g2 (sl t).norm i j < 256) {mcap : Nat} {sm : Vector UInt8 smlen}
    {pk : Vector UInt8 p.pkLen} {r : Int × Option Bytes} {cost : SortCost}
    (h : cryptoSignOpenN fuel sl mcap sm pk = .ok (r, cost)) :
    cost.compares ≤ p.T * ((p.N - p.K - 1) * (p.N - p.K + 6) / 2) ∧ cost.swaps ≤ cost.compares / 2 ∧
      cost.calls ≤ p.T * (2 * (p.N - p.K) - 1) ∧ cost.depth ≤ p.N - p.K := by
  unfold cryptoSignOpenN at h
  obtain ⟨num, -, h⟩ := run_of_bind h
  dsimp only at h
  split at h
  · cases h; simp
  · obtain ⟨m, -, h⟩ := run_of_bind h
    split at h
    · cases h
    · obtain ⟨sig, -, h⟩ := run_of_bind h
      obtain ⟨⟨ok, c⟩, hv, h⟩ := run_of_bind h
      cases h
      exact verify_bound hp hsl hv

/-- C90: a signed message that is accepted takes exactly `T` sorts, of `2 n - 1` calls each, and every exchange of two
columns and every partition comes with two comparisons. -/
theorem C90_accepted (hp : p.WF) {smlen fuel : Nat} {sl : Nat → Stale p}
    (hsl : ∀ t i j, i < p.K → j < p.N - p.K → g2 (sl t).norm i j < 256) {mcap : Nat} {sm : Vector UInt8 smlen}
    {pk : Vector UInt8 p.pkLen} {m : Option Bytes} {cost : SortCost}
    (h : cryptoSignOpenN fuel sl mcap sm pk = .ok ((0, m), cost)) :
    cost.calls = p.T * (2 * (p.N - p.K) - 1) ∧ 2 * (cost.swaps + p.T * (p.N - p.K - 1)) ≤ cost.compares := by
  unfold cryptoSignOpenN at h
  obtain ⟨num, -, h⟩ := run_of_bind h
  dsimp only at h
  split at h
  · cases h
  · obtain ⟨m, -, h⟩ := run_of_bind h
    split at h
    · cases h
    · obtain ⟨sig, -, h⟩ := run_of_bind h
      obtain ⟨⟨ok, c⟩, hv, h⟩ := run_of_bind h
      obtain ⟨h1, rfl⟩ := Prod.mk.inj (Except.ok.inj h)
      have e := (Prod.mk.inj h1).1
      obtain ⟨k, hk, rfl | ⟨-, rfl⟩⟩ := verify_exact hp hsl hv
      · exact hk
      · exact absurd (show (0 : Int) - 1 = 0 from e) (by decide)

/-! ## A key that makes it quadratic -/

/-- The generator `[I | V]` with the columns of `V` in order. -/
def hostCode (p : Params) : GenMat p := Vector.ofFn fun i => Vector.ofFn fun j =>
  if j.val < p.K then (if i.val = j.val then 1 else 0)
  else if i.val = 0 then 1 else if i.val = 1 then (j.val - p.K) / 127 else (j.val - p.K) % 127

/-- The response that changes nothing. -/
def hostAct (p : Params) : MonoAction p := ⟨Vector.ofFn fun _ => 1, Vector.ofFn fun i => i.val⟩

theorem g2_hostCode (i j : Nat) (hi : i < p.K) (hj : j < p.N) : g2 (hostCode p) i j =
    if j < p.K then (if i = j then 1 else 0)
    else if i = 0 then 1 else if i = 1 then (j - p.K) / 127 else (j - p.K) % 127 :=
  g2_ofFn (fun i j => if j.val < p.K then (if i.val = j.val then 1 else 0)
    else if i.val = 0 then 1 else if i.val = 1 then (j.val - p.K) / 127 else (j.val - p.K) % 127) i j hi hj

theorem hostCode_reduced (hn : p.N - p.K ≤ 16129) : Reduced (hostCode p) := by
  intro i j hi hj
  rw [g2_hostCode i j hi hj]
  split
  · split <;> omega
  · split
    · omega
    · split <;> omega

theorem hostAct_perm (i : Nat) (hi : i < p.K) : g (hostAct p).permutation i = i := g_ofFn _ _ hi

theorem hostAct_coef (i : Nat) (hi : i < p.K) : g (hostAct p).coefficients i = 1 := g_ofFn _ _ hi

theorem hostAct_valid (hp : p.WF) : (hostAct p).Valid := by
  have := hp.K_lt_N
  refine ⟨fun i hi => ?_, fun i hi => ?_, fun i j hi hj e => ?_⟩
  · rw [hostAct_coef i hi]; omega
  · rw [hostAct_perm i hi]; omega
  · rwa [hostAct_perm i hi, hostAct_perm j hj] at e

theorem hostCode_isCode (hp : p.WF) (hn : p.N - p.K ≤ 16129) :
    IsCode (hostCode p) (sysFlags p) (Fin.castLE (Nat.le_of_lt hp.K_lt_N)) := by
  have hKN := hp.K_lt_N
  refine ⟨hostCode_reduced hn, ⟨Fin.strictMono_castLE _, fun i t => ?_, fun t j hj => ?_⟩, fun j => ?_⟩
  · show ((g2 (hostCode p) i.val t.val : Nat) : Fq) = _
    have hi := i.2
    have ht := t.2
    rw [g2_hostCode _ _ hi (by omega), if_pos ht]
    by_cases e : i = t
    · rw [if_pos e, if_pos (congrArg Fin.val e)]; rfl
    · rw [if_neg e, if_neg (fun h => e (Fin.ext h))]; rfl
  · show ((g2 (hostCode p) t.val j.val : Nat) : Fq) = _
    have ht := t.2
    have hjt : j.val < t.val := hj
    rw [g2_hostCode _ _ ht j.2, if_pos (by omega), if_neg (by omega)]; rfl
  · rw [sysFlags, g_ofFn _ _ j.2]
    by_cases h : j.val < p.K
    · rw [if_pos h, if_pos ⟨⟨j.val, h⟩, rfl⟩]
    · rw [if_neg h, if_neg]
      rintro ⟨t, rfl⟩
      exact h t.2

theorem apply_host (hp : p.WF) (hn : p.N - p.K ≤ 16129) (res : GenMat p) :
    applyActionToG res (hostCode p) (hostAct p) = .ok (hostCode p) := by
  have hKN := hp.K_lt_N
  obtain ⟨R, e, -, picked, -, h1, h2, h3⟩ := (applyActionToG_wp res (hostCode p) (hostAct p) (Nat.le_of_lt hKN)
    (hostAct_valid hp)).exists_ok
  rw [e]
  congr 1
  have hpick : picked = sysFlags p := by
    apply vec_ext
    intro x hx
    rw [h1 x hx, sysFlags, g_ofFn _ _ hx]
    dsimp only
    congr 1
    rw [eq_iff_iff]
    constructor
    · rintro ⟨t, ht, rfl⟩
      rwa [hostAct_perm t ht]
    · intro h
      exact ⟨x, h, hostAct_perm x h⟩
  subst hpick
  apply mat_ext
  intro i j hi hj
  by_cases h : j < p.K
  · rw [h2 i j hi h, hostAct_perm j h, hostAct_coef j h, Nat.mul_one,
      fqRed_of_lt (hostCode_reduced hn i j hi hj)]
  · have := h3 i j hi hj (by rw [sysFlags, g_ofFn _ _ hj]; exact if_neg h)
    rwa [nonPiv_sys j (by omega), List.length_map, List.length_range, show p.K + (j - p.K) = j by omega] at this

theorem rref_host (hp : p.WF) (hn : p.N - p.K ≤ 16129) :
    generatorRREF (hostCode p) (Vector.replicate p.N 0) = .ok (1, hostCode p, sysFlags p) := by
  have hC := hostCode_isCode hp hn
  obtain ⟨⟨ok, R, f⟩, e, h1, piv, hO⟩ := (generatorRREF_full (hostCode p) (Nat.le_of_lt hp.K_lt_N) hC.reduced
    hC.rref.fullRank).exists_ok
  dsimp only at h1 hO
  obtain ⟨hm, hpv⟩ := rref_unique hC.rref hO.rref hO.rowEq
  have hR := matOf_inj hC.reduced hO.reduced hm
  have hf : f = sysFlags p := by
    apply vec_ext
    intro i hi
    have a := hO.flags ⟨i, hi⟩
    have b := hC.flags ⟨i, hi⟩
    dsimp only at a b
    rw [a, b, hpv]
  subst h1 hR hf
  exact e

theorem colOf_host (hK : 3 ≤ p.K) (hn : p.N - p.K ≤ 16129) (c : Nat) (hc : c < p.N - p.K) :
    normCol (colOf (hostCode p) (p.K + c)) = colOf (orderedCols p) c := by
  have e : colOf (hostCode p) (p.K + c) = colOf (orderedCols p) c := by
    rw [colOf_eq_iff]
    intro i hi
    rw [g2_hostCode i _ hi (by omega), g2_orderedCols i c hi hc, if_neg (by omega), show p.K + c - p.K = c by omega]
  have h1 : firstNZ (colOf (orderedCols p) c) = 1 := by
    obtain ⟨k, hk⟩ : ∃ k, p.K = k + 1 := ⟨p.K - 1, by omega⟩
    have h0 := g2_orderedCols (p := p) 0 c (by omega) hc
    rw [if_pos rfl] at h0
    unfold firstNZ colOf
    rw [show List.range p.K = 0 :: (List.range k).map Nat.succ by rw [hk, List.range_succ_eq_map], List.map_cons, h0]
    rfl
  rw [e, normCol, h1, show fqInv 1 = 1 from cast_inj (fqInv_lt 1) (by decide) (by rw [fqInv_cast 1 (by decide)]; simp)]
  conv_rhs => rw [← List.map_id (colOf (orderedCols p) c)]
  apply List.map_congr_left
  intro x hx
  rw [Nat.mul_one, id]
  apply fqRed_of_lt
  unfold colOf at hx
  rw [List.mem_map] at hx
  obtain ⟨i, hi, rfl⟩ := hx
  rw [List.mem_range] at hi
  rw [g2_orderedCols i c hi hc]
  split
  · omega
  · split <;> omega

theorem okThen {α β : Type} (a : α) (f : α → C β) : ((Except.ok a : C α) >>= f) = f a := rfl

/-- The columns of the hostile code are sorted in the most expensive way. -/
theorem response_host (hp : p.WF) (hK : 3 ≤ p.K) (hn : p.N - p.K ≤ 16129) {code : Vector UInt8 p.rrefBytes}
    {resp : Vector UInt8 p.monoBytes} (hc : ∀ full, expandToRref full code = .ok (hostCode p))
    (ha : ∀ stale, expandToMonomAction stale resp = .ok (hostAct p)) (sl : Stale p) :
    ∃ cost, verifyResponseN sl code resp = .ok (some (orderedCols p, cost)) ∧ cost.depth = p.N - p.K ∧
      cost.compares = (p.N - p.K - 1) * (p.N - p.K + 4) / 2 := by
  have hKN := hp.K_lt_N
  have hNp := hp.N_lt
  have hC := hostCode_isCode hp hn
  have hv : isMonomActionValid (hostAct p) = .ok 1 := by
    obtain ⟨r, e, h⟩ := (isMonomActionValid_wp (hostAct p)).exists_ok
    rcases h with ⟨rfl, -⟩ | ⟨-, h⟩
    · exact e
    · exact absurd (hostAct_valid hp) h
  obtain ⟨cost, hs, h1, -, h2⟩ := C87_in_order hp (orderedCols p) (orderedCols_before hK)
  refine ⟨cost, ?_, h1, h2⟩
  have hcount : (nonPiv (sysFlags p) p.N).length = p.N - p.K := by
    rw [nonPiv_sys _ (Nat.le_refl _), List.length_map, List.length_range]
  obtain ⟨⟨V, a⟩, hloop, i1, -⟩ := (Wp.forUp (F := False) (n := p.N) (body := fun col (s : NormIS p × Nat) => do
      let (V, placed) := s
      let f ← rd (sysFlags p) col
      if f = 0 then do
        let V ← lexMinimize V placed (hostCode p) (col % p.posMod)
        pure (V, (placed + 1) % p.posMod)
      else pure (V, placed)) (s := (sl.norm, 0)) (P := fun s => (∀ c, c < p.N → g (sysFlags p) c = 0 →
        colOf s.1 (nonPiv (sysFlags p) c).length = normCol (colOf (hostCode p) c)) ∧
        s.2 = (nonPiv (sysFlags p) p.N).length) (fun col (s : NormIS p × Nat) =>
      (∀ c, c < col → g (sysFlags p) c = 0 →
        colOf s.1 (nonPiv (sysFlags p) c).length = normCol (colOf (hostCode p) c)) ∧
      s.2 = (nonPiv (sysFlags p) col).length) ⟨by simp, by simp [nonPiv]⟩ (by
    rintro col ⟨V, placed⟩ hcol ⟨i1, i2⟩
    simp only at i1 i2
    simp only [Wp.bind_iff, Wp.rd_iff, Wp.ite_iff, Wp.pure_iff]
    refine ⟨hcol, fun h0 => ?_, fun h0 => ⟨fun c hlt hf => ?_, ?_⟩⟩
    · have hlt := nonPiv_length_lt (sysFlags p) hcol h0
      rw [Nat.mod_eq_of_lt (show col < p.posMod by omega), i2]
      refine (lexMinimize_wp V _ (hostCode p) col (by omega) hcol
        (fun i hi => Nat.lt_trans (hC.reduced i col hi hcol) (by decide))).mono ?_
      rintro V' ⟨v1, v2⟩
      refine ⟨fill_step hcount hcol h0 i1 v1 v2, ?_⟩
      rw [nonPiv_length_succ, if_pos h0, Nat.mod_eq_of_lt (by omega)]
    · refine i1 c ?_ hf
      rcases Nat.lt_succ_iff_lt_or_eq.mp hlt with h | h
      · exact h
      · subst h; exact absurd hf h0
    · rw [nonPiv_length_succ, if_neg h0, i2]; rfl) (fun s h => h)).exists_ok
  have hV : V = orderedCols p := by
    apply colsOf_inj
    rw [colsOf_eq_of_rank hcount i1, normCols, nonPiv_sys _ (Nat.le_refl _), List.map_map]
    apply List.map_congr_left
    intro c hc
    rw [List.mem_range] at hc
    rw [Function.comp, Nat.add_comm, colOf_host hK hn c hc]
  subst hV
  unfold verifyResponseN
  rw [hc, okThen, ha, okThen, hv, okThen, if_neg (by decide), apply_host hp hn, okThen, rref_host hp hn, okThen]
  refine (congrArg (fun x => x >>= _) hloop).trans ?_
  rw [okThen]
  dsimp only
  rw [hs]
  rfl

theorem rd_run {α : Type} [Inhabited α] {n : Nat} {v : Vector α n} {i : Nat} {a : α} (h : rd v i = .ok a) :
    i < n ∧ a = g v i := by
  by_cases hi : i < n
  · rw [rd_pos hi] at h
    cases h
    exact ⟨hi, rfl⟩
  · rw [rd_neg hi] at h
    cases h

theorem filter_range_succ (q : Nat → Bool) (i : Nat) : ((List.range (i + 1)).filter q).length =
    ((List.range i).filter q).length + if q i then 1 else 0 := by
  rw [List.range_succ, List.filter_append, List.length_append]
  congr 1
  cases h : q i <;> simp [h]

theorem verify_host (hp : p.WF) (hK : 3 ≤ p.K) (hn : p.N - p.K ≤ 16129) {code : Vector UInt8 p.rrefBytes}
    {resp : Vector UInt8 p.monoBytes} (hc : ∀ full, expandToRref full code = .ok (hostCode p))
    (ha : ∀ stale, expandToMonomAction stale resp = .ok (hostAct p)) {n fuel : Nat} {sl : Nat → Stale p} {PK : PubKey p}
    {m : Bytes} {sig : SignT p n} (hPK : ∀ j, j < p.numKeypairs - 1 → g PK.SFG j = code)
    (hsig : ∀ j, j < p.W → g sig.monomActions j = resp) {r : Nat} {cost : SortCost}
    (h : lessVerifyN fuel sl PK m sig = .ok (r, cost)) :
    p.W * ((p.N - p.K - 1) * (p.N - p.K + 4) / 2) ≤ cost.compares ∧ (0 < p.W → p.N - p.K ≤ cost.depth) := by
  unfold lessVerifyN at h
  obtain ⟨fws, hf, h⟩ := run_of_bind h
  obtain ⟨ind, -, h⟩ := run_of_bind h
  obtain ⟨⟨tree, _⟩, -, h⟩ := run_of_bind h
  obtain ⟨G0, -, h⟩ := run_of_bind h
  obtain ⟨o, ho, h⟩ := run_of_bind h
  have hw := (C17_challenge_weight_and_range hp hf).1
  have := forRet_run (fun i (s : (Inc × Nat) × SortCost) =>
      s.1.2 = ((List.range i).filter fun k => g fws k ≠ 0).length ∧
      s.1.2 * ((p.N - p.K - 1) * (p.N - p.K + 4) / 2) ≤ s.2.compares ∧ (0 < s.1.2 → p.N - p.K ≤ s.2.depth))
    (fun _ : Nat × SortCost => False) ⟨by simp, by simp, by simp⟩ ?_ ho
  · obtain ⟨r', c'⟩ | ⟨⟨h', e⟩, tot⟩ := o
    · exact absurd this id
    · obtain ⟨h1, h2, h3⟩ := this
      dsimp only at h1 h2 h3
      rw [hw] at h1
      subst h1
      obtain ⟨d, -, h⟩ := run_of_bind h
      cases h; exact ⟨h2, h3⟩
  · rintro i ⟨⟨h', e⟩, tot⟩ o hi ⟨h1, h2, h3⟩ er
    dsimp only at h1 h2 h3
    unfold verifyRoundN at er
    obtain ⟨x, hx, er⟩ := run_of_bind er
    obtain ⟨-, rfl⟩ := rd_run hx
    dsimp only at er
    split at er
    · next h0 =>
      obtain ⟨_, -, er⟩ := run_of_bind er
      obtain ⟨_, -, er⟩ := run_of_bind er
      obtain ⟨_, -, er⟩ := run_of_bind er
      obtain ⟨⟨⟨V, _, _⟩, c'⟩, -, er⟩ := run_of_bind er
      cases er
      refine ⟨?_, h2.trans (Nat.le_add_right _ _), fun h => (h3 h).trans (Nat.le_max_left _ _)⟩
      rw [filter_range_succ, ← h1]
      simp [h0]
    · next h0 =>
      obtain ⟨sfg, hs, er⟩ := run_of_bind er
      obtain ⟨a, ha', er⟩ := run_of_bind er
      obtain ⟨hs1, rfl⟩ := rd_run hs
      obtain ⟨hr1, rfl⟩ := rd_run ha'
      rw [hPK _ hs1, hsig _ hr1] at er
      obtain ⟨cc, ec, c1, c2⟩ := response_host hp hK hn hc ha (sl (i + 1))
      rw [ec, okThen] at er
      cases er
      refine ⟨?_, ?_, fun _ => ?_⟩
      · rw [filter_range_succ, ← h1]
        simp [h0]
      · show (e + 1) * _ ≤ tot.compares + cc.compares
        rw [Nat.succ_mul, c2]
        exact Nat.add_le_add_right h2 _
      · show _ ≤ max tot.depth cc.depth
        rw [c1]; exact Nat.le_max_right _ _

/-- C90: there is a public code and a response, both well-formed, such that a public key and a signature made of them
make every verification that returns spend, in each of the `W` rounds with a response, the quadratic number of
comparisons and the `n` nested calls; and whenever the rejection samplers finish verification does return. -/
theorem C90_hostile (hp : p.WF) (hK : 3 ≤ p.K) (hW : 0 < p.W) (hn : p.N - p.K ≤ 16129) :
    ∃ (code : Vector UInt8 p.rrefBytes) (resp : Vector UInt8 p.monoBytes), CanonCode p code ∧
      ∀ {n fuel : Nat} {sl : Nat → Stale p} {PK : PubKey p} {m : Bytes} {sig : SignT p n}, p.maxPublishedBytes ≤ n →
        (∀ j, j < p.numKeypairs - 1 → g PK.SFG j = code) → (∀ j, j < p.W → g sig.monomActions j = resp) →
        (VerifierFits p fuel PK.spec sig.spec → ∃ r cost, lessVerifyN fuel sl PK m sig = .ok (r, cost)) ∧
        ∀ r cost, lessVerifyN fuel sl PK m sig = .ok (r, cost) →
          p.W * ((p.N - p.K - 1) * (p.N - p.K + 4) / 2) ≤ cost.compares ∧ p.N - p.K ≤ cost.depth := by
  have hKN := hp.K_lt_N
  have hC := hostCode_isCode hp hn
  obtain ⟨code, -, hc, hcode⟩ := C25_code_round_trip hp hC
  have hf : (hostAct p).Fits := (hostAct_valid hp).fits hp
  have hcanon : CanonCode p code := hcode ▸ (canonCode_codeBits p hC.rref).1
  refine ⟨code, packed p.monoBytes (actionBits (hostAct p)), hcanon, fun {n fuel sl PK m sig} hmax hPK hsig => ⟨fun hfit => ?_, fun r cost h => ?_⟩⟩
  · have := lessVerify_wp hp fuel sl PK m sig (fun j hj => by
      show GoodCode p (g PK.SFG j)
      rw [hPK j hj]; exact hcanon.good) (storage_fits hp hmax)
    obtain ⟨r, e, -⟩ := (this.monoF (fun h => absurd hfit h)).exists_ok
    rw [← lessVerifyN_fst] at e
    obtain ⟨⟨r', c⟩, e, -⟩ := run_of_bind e
    exact ⟨r', c, e⟩
  · obtain ⟨h1, h2⟩ := verify_host hp hK hn hc (fun stale => by
      rw [expandToMonomAction_eq hp, decode_packed hp _ hf]) hPK hsig h
    exact ⟨h1, h2 hW⟩

/-! ## Cases -/

/-- Category 1, balanced: at most 2037750 comparisons and 61997 calls, 126 of them nested, in one call of
`crypto_sign_open`. -/
example {smlen fuel : Nat} {sl : Nat → Stale Params.cat1Balanced}
    (hsl : ∀ t i j, i < 126 → j < 126 → g2 (sl t).norm i j < 256) {mcap : Nat} {sm : Vector UInt8 smlen}
    {pk : Vector UInt8 Params.cat1Balanced.pkLen} {r : Int × Option Bytes} {cost : SortCost}
    (h : cryptoSignOpenN fuel sl mcap sm pk = .ok (r, cost)) :
    cost.compares ≤ 2037750 ∧ cost.calls ≤ 61997 ∧ cost.depth ≤ 126 := by
  obtain ⟨h1, -, h2, h3⟩ := C90_bounds cat1Balanced_WF hsl h
  exact ⟨h1, h2, h3⟩

/-- Category 1, balanced: a code and a response with which every verification makes 243750 comparisons and nests 126
calls. -/
example : ∃ (code : Vector UInt8 Params.cat1Balanced.rrefBytes) (resp : Vector UInt8 Params.cat1Balanced.monoBytes),
    ∀ (fuel : Nat) (sl : Nat → Stale Params.cat1Balanced) (seed : Vector UInt8 _) (m : Bytes)
      (sig : SignT Params.cat1Balanced Params.cat1Balanced.maxPublishedBytes) (r : Nat) (cost : SortCost),
      lessVerifyN fuel sl ⟨seed, Vector.replicate _ code⟩ m { sig with monomActions := Vector.replicate _ resp } =
        .ok (r, cost) → 243750 ≤ cost.compares ∧ 126 ≤ cost.depth := by
  obtain ⟨code, resp, -, h⟩ := C90_hostile cat1Balanced_WF (by decide) (by decide) (by decide)
  exact ⟨code, resp, fun fuel sl seed m sig r cost e => (h (Nat.le_refl _) (fun j hj => g_replicate _ _ hj)
    (fun j hj => g_replicate _ _ hj)).2 r cost e⟩

end LESS
