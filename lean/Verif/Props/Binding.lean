import Verif.Props.AnyKey
import Verif.Props.Soundness
import Batteries.Data.Nat.Lemmas
/-!
# Signatures and public keys (C67)

Whether a signature that is accepted under one public key can be accepted under another.
-/
namespace LESS
open Spec

variable {p : Params}

/-! ## Buffers from bits -/

/-- The buffer of `n` bytes with the bits `f 0, f 1, …` -/
def ofBitFn (n : Nat) (f : Nat → Bool) : Vector UInt8 n :=
  Vector.ofFn fun i => UInt8.ofNat (Nat.ofBits fun b : Fin 8 => f (8 * i.val + b.val))

theorem bitAt_ofBitFn {n : Nat} (f : Nat → Bool) {k : Nat} (h : k < 8 * n) : bitAt (ofBitFn n f) k = f k := by
  unfold bitAt ofBitFn
  rw [g_ofFn _ _ (by omega)]
  have hlt := Nat.ofBits_lt_two_pow fun b : Fin 8 => f (8 * (k / 8) + b.val)
  rw [UInt8.toNat_ofNat_of_lt' hlt, Nat.testBit_ofBits_lt _ _ (by omega)]
  show f (8 * (k / 8) + k % 8) = f k
  rw [Nat.div_add_mod]

theorem bitAt_out {n : Nat} (buf : Vector UInt8 n) {k : Nat} (h : 8 * n ≤ k) : bitAt buf k = false := by
  unfold bitAt g
  rw [dif_neg (by omega)]
  exact Nat.zero_testBit _

/-! ## Keys that cannot be told apart -/

theorem expandToRref_congr {buf buf' : Vector UInt8 p.rrefBytes} (hp : p.WF) (hK : 2 ≤ p.K)
    (hflags : ∀ k < p.N, bitAt buf k = bitAt buf' k) (hrest : ∀ k, 8 * ((p.N + 7) / 8) ≤ k → bitAt buf k = bitAt buf' k)
    (full : GenMat p) : expandToRref full buf = expandToRref full buf' := by
  have hf : decFlags buf = decFlags buf' := by
    unfold decFlags
    congr 1
    funext i
    rw [hflags i i.isLt]
  have hfield : ∀ k, 8 * ((p.N + 7) / 8) ≤ k → fieldAt 7 buf k = fieldAt 7 buf' k := by
    intro k hk
    unfold fieldAt
    congr 1
    apply List.map_congr_left
    intro b _
    rw [hrest _ (by omega)]
  by_cases hz : (nonPiv (decFlags buf) p.N).length ≤ p.N - p.K
  · rw [expandToRref_eq hp _ _ hz, expandToRref_eq hp _ _ (by rw [← hf]; exact hz)]
    congr 1
    unfold decodeRref
    rw [hf]
    congr 1; funext i
    congr 1; funext j
    rw [hfield _ (by omega)]
  · rw [expandToRref_overread hp hK _ _ (by rw [← denseBelow_eq buf p.N (Nat.le_refl _)]; omega),
      expandToRref_overread hp hK _ _ (by rw [← denseBelow_eq buf' p.N (Nat.le_refl _), ← hf]; omega)]

theorem verifyRound_congr {pk pk' : PubKey p} {n : Nat} (fuel : Nat) (sl : Stale p) (sig : SignT p n) (fws : Vector Nat p.T)
    (tree : TreeBuf p) (G0 : RrefMat p) {i : Nat} (hi : i < p.T)
    (hcode : g fws i ≠ 0 → g fws i - 1 < p.numKeypairs - 1 → ∀ full : GenMat p,
      expandToRref full (g pk.SFG (g fws i - 1)) = expandToRref full (g pk'.SFG (g fws i - 1))) (s : Inc × Nat) :
    verifyRound fuel sl pk sig fws tree G0 i s = verifyRound fuel sl pk' sig fws tree G0 i s := by
  unfold verifyRound
  have e : rd fws i = .ok (g fws i) := by simp [rd, g, hi]
  rw [e]
  generalize g fws i = x at hcode
  show (if x = 0 then _ else _) = (if x = 0 then _ else _)
  by_cases h0 : x = 0
  · rw [if_pos h0, if_pos h0]
  · rw [if_neg h0, if_neg h0]
    by_cases hx : x - 1 < p.numKeypairs - 1
    · have e : ∀ v : Vector (Vector UInt8 p.rrefBytes) (p.numKeypairs - 1), rd v (x - 1) = .ok (g v (x - 1)) :=
        fun v => by simp [rd, g, hx]
      have hresp : ∀ resp, verifyResponse sl (g pk.SFG (x - 1)) resp = verifyResponse sl (g pk'.SFG (x - 1)) resp := by
        intro resp
        unfold verifyResponse
        rw [hcode h0 hx]
      rw [e, e]
      show (rd sig.monomActions s.2 >>= fun resp => _) = (rd sig.monomActions s.2 >>= fun resp => _)
      simp only [hresp]
    · have e : ∀ v : Vector (Vector UInt8 p.rrefBytes) (p.numKeypairs - 1), rd v (x - 1) = .error .oob :=
        fun v => by simp [rd, hx]
      rw [e, e]

theorem forRet_congr_lt {ρ σ : Type} {f f' : Nat → σ → C (ρ ⊕ σ)} : ∀ n, (∀ i < n, ∀ s, f i s = f' i s) → ∀ s, forRet n f s = forRet n f' s
  | 0, _, _ => rfl
  | n + 1, h, s => by
    show (forRet n f s >>= _) = (forRet n f' s >>= _)
    rw [forRet_congr_lt n (fun i hi => h i (by omega)) s]
    simp only [h n (by omega)]

theorem lessVerify_congr {pk pk' : PubKey p} (hseed : pk.G0seed = pk'.G0seed) {n : Nat} (fuel : Nat) (sl : Nat → Stale p)
    (m : Bytes) (sig : SignT p n)
    (hcode : ∀ fws : Vector Nat p.T, expandDigest fuel (Vector.replicate p.T 0) sig.digest.toList = .ok fws →
      ∀ i < p.T, g fws i ≠ 0 → g fws i - 1 < p.numKeypairs - 1 → ∀ full : GenMat p,
        expandToRref full (g pk.SFG (g fws i - 1)) = expandToRref full (g pk'.SFG (g fws i - 1))) :
    lessVerify fuel sl pk m sig = lessVerify fuel sl pk' m sig := by
  unfold lessVerify
  cases he : expandDigest fuel (Vector.replicate p.T 0) sig.digest.toList with
  | error e => rfl
  | ok fws =>
    have hr : ∀ tree G0 s, forRet p.T (fun i => verifyRound fuel (sl (i + 1)) pk sig fws tree G0 i) s =
        forRet p.T (fun i => verifyRound fuel (sl (i + 1)) pk' sig fws tree G0 i) s := fun tree G0 s =>
      forRet_congr_lt p.T (fun i hi s => verifyRound_congr fuel (sl (i + 1)) sig fws tree G0 hi (hcode fws he i hi) s) s
    show (indicesToPublish fws >>= _) = (indicesToPublish fws >>= _)
    simp only [hr, hseed]

/-- The key with code `j` replaced. -/
def PubKey.withCode (pk : PubKey p) (j : Nat) (code : Vector UInt8 p.rrefBytes) : PubKey p := { pk with SFG := upd pk.SFG j code }

theorem withCode_same (pk : PubKey p) {j : Nat} (hj : j < p.numKeypairs - 1) (code : Vector UInt8 p.rrefBytes) :
    g (pk.withCode j code).SFG j = code := by
  unfold PubKey.withCode
  exact g_upd_self _ _ _ hj

theorem withCode_other (pk : PubKey p) {i j : Nat} (h : i ≠ j) (code : Vector UInt8 p.rrefBytes) :
    g (pk.withCode j code).SFG i = g pk.SFG i := by
  unfold PubKey.withCode
  exact g_upd_ne _ _ _ _ h.symm

theorem withCode_ne (pk : PubKey p) {j : Nat} (hj : j < p.numKeypairs - 1) {code : Vector UInt8 p.rrefBytes} (h : code ≠ g pk.SFG j) :
    pk.withCode j code ≠ pk := by
  intro e
  apply h
  conv_rhs => rw [← e]
  exact (withCode_same pk hj code).symm

/-! ## C67 -/

/-- In categories 1 and 5 the last flag byte of a code has four bits that nothing reads.  So every public key has a
twin, one bit away, under which `crypto_sign_open` does exactly the same on every signed message. -/
theorem C67_fails_padding (hp : p.WF) (hK : 2 ≤ p.K) (hcat : p.cat ≠ .three) (pk : Vector UInt8 p.pkLen) :
    ∃ pk' : Vector UInt8 p.pkLen, pk' ≠ pk ∧ ∀ (fuel : Nat) (sl : Nat → Stale p) (mcap smlen : Nat) (sm : Vector UInt8 smlen),
      cryptoSignOpen fuel sl mcap sm pk' = cryptoSignOpen fuel sl mcap sm pk := by
  have h8 : p.N % 8 = 4 := by have := hp.flags; rwa [if_neg hcat] at this
  have hrb := rrefBytes_eq (p := p)
  have h0 : 0 < p.numKeypairs - 1 := by have := hp.numKeypairs_ge; omega
  obtain ⟨P, hP⟩ : ∃ P, P = readPub pk := ⟨_, rfl⟩
  obtain ⟨buf, hbuf⟩ : ∃ buf, buf = g P.SFG 0 := ⟨_, rfl⟩
  obtain ⟨code, hcode⟩ : ∃ code, code = ofBitFn p.rrefBytes fun k => if k = p.N then !bitAt buf k else bitAt buf k := ⟨_, rfl⟩
  have hbit : ∀ k, bitAt code k = if k = p.N then !bitAt buf k else bitAt buf k := by
    intro k
    by_cases hk : k < 8 * p.rrefBytes
    · rw [hcode, bitAt_ofBitFn _ hk]
    · rw [bitAt_out _ (by omega), bitAt_out _ (by omega), if_neg (by omega)]
  have hne : code ≠ g P.SFG 0 := by
    rw [← hbuf]
    intro e
    have := hbit p.N
    rw [e, if_pos rfl] at this
    cases h : bitAt buf p.N <;> simp [h] at this
  refine ⟨toVec _ (pubBytes (P.withCode 0 code)), ?_, ?_⟩
  · intro e
    apply withCode_ne P h0 hne
    rw [← readPub_pubBytes (P.withCode 0 code), e, hP]
  · intro fuel sl mcap smlen sm
    have hv : ∀ {n : Nat} (m : Bytes) (sig : SignT p n), lessVerify fuel sl (P.withCode 0 code) m sig = lessVerify fuel sl P m sig := by
      intro n m sig
      refine lessVerify_congr (pk := P.withCode 0 code) (pk' := P) rfl fuel sl m sig (fun fws _ i _ _ _ full => ?_)
      by_cases hi0 : g fws i - 1 = 0
      · rw [hi0, withCode_same P h0, ← hbuf]
        refine expandToRref_congr hp hK (fun k hk => ?_) (fun k hk => ?_) full
        · rw [hbit, if_neg (by omega)]
        · rw [hbit, if_neg (by omega)]
      · rw [withCode_other P hi0]
    unfold cryptoSignOpen
    simp only [readPub_pubBytes, ← hP, hv]

/-- Two keys with the same seed whose codes, as far as a signature uses them, denote the same matrices: verification
treats them alike. -/
theorem lessVerify_sameCodes (hp : p.WF) (hK : 2 ≤ p.K) {n : Nat} (hn : p.maxPublishedBytes ≤ n) {pk pk' : PubKey p} (hpk : SortedKey pk)
    (hpk' : SortedKey pk') (hseed : pk'.G0seed = pk.G0seed) {fuel : Nat} (sl sl' : Nat → Stale p) (m : Bytes) (sig : SignT p n)
    (hcodes : ∀ v, IsChallenge p fuel (xof p sig.digest.toList) v → ∀ i < p.T, v i ≠ 0 →
      decodeCode p (pk'.spec.codes (v i - 1)) = decodeCode p (pk.spec.codes (v i - 1)) ∧
      (Oversized p (pk'.spec.codes (v i - 1)) ↔ Oversized p (pk.spec.codes (v i - 1))))
    (hfits : VerifierFits p fuel pk.spec sig.spec) : lessVerify fuel sl' pk' m sig = lessVerify fuel sl pk m sig := by
  have hs : pk'.spec.seed = pk.spec.seed := congrArg Vector.toList hseed
  have hround : ∀ B v, IsChallenge p fuel (xof p sig.digest.toList) v → ∀ i < p.T, ∀ cols,
      RoundCommit p B pk'.spec sig.spec v i cols ↔ RoundCommit p B pk.spec sig.spec v i cols := by
    intro B v hv i hi cols
    unfold RoundCommit
    by_cases h0 : v i = 0
    · rw [if_pos h0, if_pos h0, hs]
    · rw [if_neg h0, if_neg h0, (hcodes v hv i hi h0).1]
  have hacc : Accepts p fuel pk'.spec m sig.spec ↔ Accepts p fuel pk.spec m sig.spec := by
    constructor
    · rintro ⟨v, coms, h1, h2, h3⟩
      exact ⟨v, coms, h1, fun i hi => (hround _ v h1 i hi _).1 (h2 i hi), h3⟩
    · rintro ⟨v, coms, h1, h2, h3⟩
      exact ⟨v, coms, h1, fun i hi => (hround _ v h1 i hi _).2 (h2 i hi), h3⟩
  have hmeet : MeetsOversized p fuel pk'.spec sig.spec ↔ MeetsOversized p fuel pk.spec sig.spec := by
    constructor
    · rintro ⟨v, h1, i, hi, h2, h3, h4⟩
      exact ⟨v, h1, i, hi, h2, (hcodes v h1 i hi h2).2.1 h3, h4⟩
    · rintro ⟨v, h1, i, hi, h2, h3, h4⟩
      exact ⟨v, h1, i, hi, h2, (hcodes v h1 i hi h2).2.2 h3, h4⟩
  have hfits' : VerifierFits p fuel pk'.spec sig.spec := by
    unfold VerifierFits at hfits ⊢
    rw [hs]
    exact hfits
  obtain ⟨a1, a2⟩ := C09_any_key hp hK hn fuel sl pk hpk m sig
  obtain ⟨b1, b2⟩ := C09_any_key hp hK hn fuel sl' pk' hpk' m sig
  have h1 := lessVerify_any hp hK fuel sl pk m sig hpk (storage_fits hp hn)
  have h2 := lessVerify_any hp hK fuel sl' pk' m sig hpk' (storage_fits hp hn)
  generalize lessVerify fuel sl pk m sig = x at *
  generalize lessVerify fuel sl' pk' m sig = y at *
  rcases x with (_ | _) | a <;> rcases y with (_ | _) | b
  · rfl
  · exact absurd hfits' h2
  · exact absurd (hmeet.2 h1) h2.1
  · exact absurd hfits h1
  · rfl
  · exact absurd hfits h1
  · exact absurd (hmeet.1 h2) h1.1
  · exact absurd hfits' h2
  · obtain ⟨p1, p2⟩ := a1 _ rfl
    obtain ⟨q1, q2⟩ := b1 _ rfl
    have : a = 1 ↔ b = 1 := p2.trans (hacc.symm.trans q2.symm)
    congr 1
    omega

/-- A signature says nothing about the codes its challenge does not use: each may be replaced by any bytes at all. -/
theorem C67_fails_unused_code (hp : p.WF) {n : Nat} (pk : PubKey p) (fuel : Nat) (sl : Nat → Stale p) (m : Bytes) (sig : SignT p n)
    {v : Nat → Nat} (hv : IsChallenge p fuel (xof p sig.digest.toList) v) {j : Nat} (hj : ∀ i < p.T, v i ≠ j + 1)
    (code : Vector UInt8 p.rrefBytes) : lessVerify fuel sl (pk.withCode j code) m sig = lessVerify fuel sl pk m sig := by
  refine lessVerify_congr (pk := pk.withCode j code) (pk' := pk) rfl fuel sl m sig (fun fws he i hi h0 _ full => ?_)
  have hf := (expandDigest_spec hp fuel sig.digest.toList).of_ok he
  obtain rfl := hv.unique hf
  rw [withCode_other pk (by have := hj i hi; omega)]

/-- A 0 among the entries of a code may be replaced by 127: another public key, and verification treats both alike.
(This also concerns category 3, where a code has no unused bits.) -/
theorem C67_fails_unreduced (hp : p.WF) (hK : 2 ≤ p.K) (h2 : p.N ≤ 2 * p.K) {n : Nat} (hn : p.maxPublishedBytes ≤ n) {pk : PubKey p}
    (hpk : SortedKey pk) {j : Nat} (hj : j < p.numKeypairs - 1) (hroom : ¬ Oversized p (pk.spec.codes j)) {r c : Nat} (hr : r < p.K)
    (hc : c < p.N) (hdense : bitAt (pk.spec.codes j) c = false) (hzero : codeEntry p (pk.spec.codes j) r c = 0) :
    ∃ code, codeEntry p code r c = 127 ∧ pk.withCode j code ≠ pk ∧
      ∀ (fuel : Nat) (sl sl' : Nat → Stale p) (m : Bytes) (sig : SignT p n), VerifierFits p fuel pk.spec sig.spec →
        lessVerify fuel sl' (pk.withCode j code) m sig = lessVerify fuel sl pk m sig := by
  have hrb := rrefBytes_eq (p := p)
  obtain ⟨buf, hbuf⟩ : ∃ buf, buf = g pk.SFG j := ⟨_, rfl⟩
  have hb : pk.spec.codes j = buf := hbuf.symm
  rw [hb] at hroom hdense hzero
  obtain ⟨d, hd⟩ : ∃ d, d = (denseBelow buf p.N).length := ⟨_, rfl⟩
  have hdN : d ≤ p.N - p.K := by unfold Oversized at hroom; omega
  obtain ⟨pos, hpos⟩ : ∃ pos, pos = 8 * ((p.N + 7) / 8) + 7 * (r * d + (denseBelow buf c).length) := ⟨_, rfl⟩
  obtain ⟨code, hcode⟩ : ∃ code, code = ofBitFn p.rrefBytes fun k => if pos ≤ k ∧ k < pos + 7 then true else bitAt buf k := ⟨_, rfl⟩
  -- the field lies inside the buffer
  have hmono : ∀ c e, c < e → bitAt buf c = false → (denseBelow buf c).length < (denseBelow buf e).length := by
    intro c e hc hdense
    have e1 : denseBelow buf (c + 1) = denseBelow buf c ++ [c] := by
      unfold denseBelow
      rw [List.range_succ, List.filter_append]
      simp [hdense]
    have hsub : (denseBelow buf (c + 1)).Sublist (denseBelow buf e) := by
      unfold denseBelow
      exact (List.range_sublist.2 (by omega)).filter _
    have := hsub.length_le
    rw [e1, List.length_append] at this
    simp at this
    omega
  have hlt : ∀ c < p.N, bitAt buf c = false → (denseBelow buf c).length < d := fun c hc h => by rw [hd]; exact hmono c _ hc h
  have hin : pos + 7 ≤ 8 * p.rrefBytes := by
    have h1 : r * d + (denseBelow buf c).length + 1 ≤ (r + 1) * d := by
      have := hlt c hc hdense
      rw [Nat.add_mul]
      omega
    have h3 : (r + 1) * d ≤ (p.N - p.K) * p.K := by
      rw [Nat.mul_comm]
      exact Nat.mul_le_mul hdN (by omega)
    omega
  have hbit : ∀ k, bitAt code k = if pos ≤ k ∧ k < pos + 7 then true else bitAt buf k := by
    intro k
    by_cases hk : k < 8 * p.rrefBytes
    · rw [hcode, bitAt_ofBitFn _ hk]
    · rw [bitAt_out _ (by omega), bitAt_out _ (by omega), if_neg (by omega)]
  have hflag : ∀ k < p.N, bitAt code k = bitAt buf k := fun k hk => by rw [hbit, if_neg (by omega)]
  have hdb : ∀ c ≤ p.N, denseBelow code c = denseBelow buf c := by
    intro c hc
    unfold denseBelow
    apply List.filter_congr
    intro k hk
    rw [hflag k (by have := List.mem_range.1 hk; omega)]
  have h127 : fieldAt 7 code pos = 127 := by
    have : ∀ b, b < 7 → bitAt code (pos + b) = true := fun b hb => by rw [hbit, if_pos (by omega)]
    unfold fieldAt
    simp only [List.range_succ, List.range_zero, List.nil_append, List.map_cons, List.map_nil, List.cons_append,
      this 0 (by omega), this 1 (by omega), this 2 (by omega), this 3 (by omega), this 4 (by omega), this 5 (by omega), this 6 (by omega)]
    decide
  have hc127 : codeEntry p code r c = 127 := by
    unfold codeEntry
    rw [hflag c hc, hdense, if_neg (by decide), hdb _ (Nat.le_refl _), hdb c (by omega), ← hd, ← hpos, h127]
  have hdec : decodeCode p code = decodeCode p buf := by
    funext i k
    unfold decodeCode
    by_cases he : i.val = r ∧ k.val = c
    · rw [he.1, he.2, hc127, hzero]
      decide
    · congr 1
      unfold codeEntry
      rw [hflag k k.isLt, hdb _ (Nat.le_refl _), hdb k (Nat.le_of_lt k.isLt)]
      by_cases hk : bitAt buf k = true
      · rw [if_pos hk, if_pos hk]
      · rw [if_neg hk, if_neg hk]
        rw [← hd]
        have hne : i.val * d + (denseBelow buf k).length ≠ r * d + (denseBelow buf c).length := by
          intro e
          have hk' : bitAt buf k = false := by simpa using hk
          have l1 := hlt k k.isLt hk'
          have l2 := hlt c hc hdense
          have hi : i.val = r := by
            have := congrArg (· / d) e
            simpa [Nat.mul_comm _ d, Nat.mul_add_div (by omega : 0 < d), Nat.div_eq_of_lt l1, Nat.div_eq_of_lt l2] using this
          rw [hi] at e
          apply he
          refine ⟨hi, ?_⟩
          rcases Nat.lt_trichotomy k.val c with h | h | h
          · have := hmono _ _ h hk'; omega
          · exact h
          · have := hmono _ _ h hdense; omega
        refine fieldAt_congr fun b hb => ?_
        rw [hbit, if_neg]
        rw [hpos]
        generalize i.val * d + (denseBelow buf k).length = u at hne
        generalize r * d + (denseBelow buf c).length = u' at hne
        omega
  have hov : Oversized p code ↔ Oversized p buf := by unfold Oversized; rw [hdb _ (Nat.le_refl _)]
  have hgood : GoodCode p code := ⟨Nat.le_of_not_lt (fun h => hroom (hov.1 h)), .inl h2⟩
  have hne : code ≠ g pk.SFG j := by
    rw [← hbuf]
    rintro rfl
    rw [hc127] at hzero
    cases hzero
  refine ⟨code, hc127, withCode_ne pk hj hne, fun fuel sl sl' m sig hfits => ?_⟩
  refine lessVerify_sameCodes (pk' := pk.withCode j code) hp hK hn hpk (fun i hi => ?_) rfl sl sl' m sig (fun v' hv' i hi h0 => ?_) hfits
  · by_cases e : i = j
    · subst e
      show GoodCode p (g (pk.withCode i code).SFG i) ∨ Oversized p (g (pk.withCode i code).SFG i)
      rw [withCode_same pk hi]
      exact .inl hgood
    · show GoodCode p (g (pk.withCode j code).SFG i) ∨ Oversized p (g (pk.withCode j code).SFG i)
      rw [withCode_other pk e]
      exact hpk i hi
  · by_cases e : v' i - 1 = j
    · rw [e]
      have e1 : (pk.withCode j code).spec.codes j = code := withCode_same pk hj code
      rw [e1, hb]
      exact ⟨hdec, hov⟩
    · have e : (pk.withCode j code).spec.codes (v' i - 1) = pk.spec.codes (v' i - 1) := withCode_other pk e code
      rw [e]
      exact ⟨rfl, Iff.rfl⟩

theorem AnswerOf.unique {B B' : Nat} {sig : Sig p} {v : Nat → Nat} {i : Nat} {x y : Answer p} (hx : AnswerOf p B sig v i x)
    (hy : AnswerOf p B' sig v i y) : x = y := by
  cases x <;> cases y
  · exact congrArg _ (hx.2.unique hy.2)
  · exact absurd hx.1 hy.1
  · exact absurd hy.1 hx.1
  · exact congrArg _ (hx.2.trans hy.2.symm)

/-- What a signature does bind: if it is accepted under two public keys, for two messages, then either the two hashed
strings are a SHA-3 collision, or the messages are equal and in every round the code that the challenge selects in
the one key is carried to the code selected in the other by a monomial map, which the extractor computes from the
signature and the keys.  Missing: equality of the keys (`C67_fails_padding`, `C67_fails_unreduced`,
`C67_fails_unused_code`). -/
theorem C67_equivalent_codes_partial (hp : p.WF) (hK : 2 ≤ p.K) {n : Nat} (hn : p.maxPublishedBytes ≤ n) {pk pk' : PubKey p}
    (hpk : SortedKey pk) (hpk' : SortedKey pk') {fuel fuel' : Nat} {sl sl' : Nat → Stale p} {m m' : Bytes} {sig : SignT p n}
    (h : lessVerify fuel sl pk m sig = .ok 1) (h' : lessVerify fuel' sl' pk' m' sig = .ok 1) :
    ∃ v coms coms', IsChallenge p fuel (xof p sig.digest.toList) v ∧ (∀ i < p.T, RoundCommit p fuel pk.spec sig.spec v i (coms i)) ∧
      (∀ i < p.T, RoundCommit p fuel' pk'.spec sig.spec v i (coms' i)) ∧
      (transcript p coms m sig.treeSalt.toList ≠ transcript p coms' m' sig.treeSalt.toList ∧
          hash p (transcript p coms m sig.treeSalt.toList) = hash p (transcript p coms' m' sig.treeSalt.toList) ∨
        m = m' ∧ ∃ G0 G0', IsG0 p fuel (xof p pk.G0seed.toList) G0 ∧ IsG0 p fuel' (xof p pk'.G0seed.toList) G0' ∧
          ∀ i < p.T, ∃ x, AnswerOf p fuel sig.spec v i x ∧
            (extract p (publicCode pk.spec G0 (v i)) x (publicCode pk'.spec G0' (v i)) x).IsMonomial ∧
            RowEq (ColOp.on (publicCode pk.spec G0 (v i)) (extract p (publicCode pk.spec G0 (v i)) x (publicCode pk'.spec G0' (v i)) x))
              (publicCode pk'.spec G0' (v i))) := by
  have a := ((C09_any_key hp hK hn fuel sl pk hpk m sig).1 1 h).2.1 rfl
  have b := ((C09_any_key hp hK hn fuel' sl' pk' hpk' m' sig).1 1 h').2.1 rfl
  obtain ⟨G0, hG⟩ := lessVerify_G0 hp h
  obtain ⟨G0', hG'⟩ := lessVerify_G0 hp h'
  obtain ⟨v, coms, coms', hv, hc, hc', hor⟩ := accepts_same_digest rfl a b rfl
  refine ⟨v, coms, coms', hv, hc, hc', ?_⟩
  rcases hor with ⟨hcom, hm, -⟩ | hcol
  · refine .inr ⟨hm, G0, G0', hG, hG', fun i hi => ?_⟩
    obtain ⟨x, hx1, hx2, hx3⟩ := RoundCommit.answer hp (hc i hi) hG
    obtain ⟨y, hy1, hy2, hy3⟩ := RoundCommit.answer hp (hc' i hi) hG'
    have hxy : x = y := AnswerOf.unique hx1 hy1
    subst hxy
    rw [← hcom i hi] at hy3
    exact ⟨x, hx1, C12_extract hp hx2 hy2 hx3 hy3⟩
  · exact .inl hcol

/-! Concrete cases.  (More, for a key and a signature of the small parameter set, are in `Props/Run`.) -/

/-- Every key of these parameter sets has a twin. -/
example (pk : Vector UInt8 Params.cat1Balanced.pkLen) : ∃ pk' ≠ pk, ∀ (fuel : Nat) (sl : Nat → Stale Params.cat1Balanced) (mcap smlen : Nat)
    (sm : Vector UInt8 smlen), cryptoSignOpen fuel sl mcap sm pk' = cryptoSignOpen fuel sl mcap sm pk :=
  C67_fails_padding (Params.all_WF _ (by decide)) (by decide) (by decide) pk

/-- The code with the first `K` columns flagged and zeros elsewhere. -/
def unitCode (p : Params) : Vector UInt8 p.rrefBytes := ofBitFn _ fun k => decide (k < p.K)

theorem bitAt_unitCode (hp : p.WF) (k : Nat) : bitAt (unitCode p) k = decide (k < p.K) := by
  have hrb := rrefBytes_eq (p := p)
  have := hp.K_lt_N
  unfold unitCode
  by_cases h : k < 8 * p.rrefBytes
  · rw [bitAt_ofBitFn _ h]
  · rw [bitAt_out _ (by omega)]
    symm
    rw [decide_eq_false_iff_not]
    omega

/-- A key that has zeros among its entries, for any parameter set. -/
example (p : Params) (h : p ∈ Params.all) (seed : Vector UInt8 p.seedLen) (pk : PubKey p)
    (hpk : pk = ⟨seed, Vector.replicate _ (unitCode p)⟩) :
    ∃ code, codeEntry p code 0 p.K = 127 ∧ pk.withCode 0 code ≠ pk ∧
      ∀ (fuel : Nat) (sl sl' : Nat → Stale p) (m : Bytes) (sig : SignT p p.storageLen), VerifierFits p fuel pk.spec sig.spec →
        lessVerify fuel sl' (pk.withCode 0 code) m sig = lessVerify fuel sl pk m sig := by
  obtain ⟨hp, hK, hs⟩ := C44_every_key p h
  have h2 : p.N ≤ 2 * p.K := (by decide : ∀ p ∈ Params.all, p.N ≤ 2 * p.K) p h
  have h0 : 0 < p.numKeypairs - 1 := by have := hp.numKeypairs_ge; omega
  have hKN := hp.K_lt_N
  have e : pk.spec.codes 0 = unitCode p := by
    rw [hpk]
    exact g_replicate _ _ h0
  have hd : denseBelow (unitCode p) p.N = (List.range p.N).filter (fun k => decide (p.K ≤ k)) := by
    unfold denseBelow
    apply List.filter_congr
    intro k _
    rw [bitAt_unitCode hp]
    by_cases hk : k < p.K
    · simp [hk]
    · simp [hk, Nat.le_of_not_lt hk]
  refine C67_fails_unreduced hp hK h2 (by unfold Params.storageLen; omega) (hs pk) h0 ?_ (by omega) hKN ?_ ?_
  · rw [e]
    unfold Oversized
    rw [hd, ← List.countP_eq_length_filter, Nat.not_lt]
    have h3 : (List.range p.N).countP (fun k => decide (p.K ≤ k)) + (List.range p.N).countP (fun k => decide (k < p.K)) = p.N := by
      have := List.length_eq_countP_add_countP (fun k => decide (p.K ≤ k)) (l := List.range p.N)
      rw [List.length_range] at this
      simpa using this.symm
    have h4 : p.K ≤ (List.range p.N).countP (fun k => decide (k < p.K)) := by
      have hsub : (List.range p.K).Sublist (List.range p.N) := List.range_sublist.2 (by omega)
      have := hsub.countP_le (p := fun k => decide (k < p.K))
      rw [List.countP_eq_length.2 (fun k hk => by simpa using List.mem_range.1 hk), List.length_range] at this
      exact this
    omega
  · rw [e, bitAt_unitCode hp]
    simp
  · rw [e]
    unfold codeEntry
    rw [bitAt_unitCode hp, if_neg (by simp)]
    unfold fieldAt
    have : ∀ pos b, p.N ≤ pos → bitAt (unitCode p) (pos + b) = false := fun pos b h => by
      rw [bitAt_unitCode hp]; simp; omega
    have h' : p.N ≤ 8 * ((p.N + 7) / 8) + 7 * (0 * (denseBelow (unitCode p) p.N).length + (denseBelow (unitCode p) p.K).length) := by omega
    simp only [this _ _ h']
    decide

end LESS
