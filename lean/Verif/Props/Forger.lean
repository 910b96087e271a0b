import Verif.Spec.Forger
import Verif.Proofs.Oracle
import Verif.Props.AnyKey
/-!
# Forging signatures in the random oracle model (C68)
-/
namespace LESS
open Spec Spec.Asks

variable {p : Params}

/-! ## The answers are finite in number -/

def digestEquiv (p : Params) : Digest p ≃ (Fin p.hashLen → Fin (2 ^ 8)) where
  toFun d i := ⟨(d[i.val]).toNat, (d[i.val]).toNat_lt⟩
  invFun f := Vector.ofFn fun i => UInt8.ofNat (f i).val
  left_inv d := by
    apply Vector.ext
    intro i hi
    simp
  right_inv f := by
    funext i
    apply Fin.ext
    have := (f i).2
    simp only [Vector.getElem_ofFn]
    exact UInt8.toNat_ofNat_of_lt' this

noncomputable instance (p : Params) (k : Nat) (x : Question p) : Fintype (AnswerTo p k x) :=
  match x with
  | .inl _ => Fintype.ofEquiv _ (digestEquiv p).symm
  | .inr _ => Fintype.ofEquiv _ (Words.equiv 16 k).symm

theorem card_digest (k : Nat) (x : List UInt8) : Fintype.card (AnswerTo p k (.inl x)) = 2 ^ (8 * p.hashLen) := by
  have : Fintype.card (AnswerTo p k (.inl x)) = Fintype.card (Fin p.hashLen → Fin (2 ^ 8)) :=
    Fintype.card_congr (digestEquiv p : AnswerTo p k (.inl x) ≃ _)
  rw [this, Fintype.card_fun, Fintype.card_fin, Fintype.card_fin, ← Nat.pow_mul]

theorem card_numbers (k : Nat) (d : Digest p) : Fintype.card (AnswerTo p k (.inr d)) = Nat.card (Words 16 k) := by
  rw [← Nat.card_eq_fintype_card]
  rfl

/-! ## What an accepted forgery means -/

theorem judge_some {B k : Nat} {pk : PK p} {out : List UInt8 × Sig p} {O : ∀ x, AnswerTo p k x} {o : Forged p} (hist : List (Question p))
    (h : (judge p B k pk out).run O = some o) :
    o.msg = out.1 ∧ o.sig = out.2 ∧ o.sig.digest.length = p.hashLen ∧ o.sig.salt.length = p.hashLen ∧
    (∀ i < p.T, RoundCommit p B pk o.sig (g o.challenge) i (o.coms i)) ∧
    ∃ d : Digest p, d.toList = o.sig.digest ∧ (O (.inl o.hashed) : Digest p) = d ∧
      digestWords p (O (.inr d) : Words 16 k).1 0 (noChallenge p) = .ok o.challenge ∧
      (.inl o.hashed) ∈ asked O hist (judge p B k pk out) ∧ (.inr d) ∈ asked O hist (judge p B k pk out) := by
  unfold judge at h ⊢
  by_cases hl : out.2.digest.length = p.hashLen ∧ out.2.salt.length = p.hashLen
  · rw [if_pos hl] at h ⊢
    simp only [Asks.run, asked] at h ⊢
    split at h
    · rename_i hex
      rw [dif_pos hex]
      simp only [Asks.run, asked] at h ⊢
      split at h
      · rename_i hd
        injection h with h
        obtain ⟨h1, h2, h3, h4⟩ := hex.choose_spec
        rw [h] at h1 h2 h3 h4 hd
        rw [h]
        refine ⟨h1, h2, by rw [h2]; exact hl.1, by rw [h2]; exact hl.2, h4, toVec _ out.2.digest, ?_, ?_, h3, ?_, ?_⟩
        · rw [h2]; exact toVec_toList hl.1
        · apply Vector.toList_inj.1
          rw [toVec_toList hl.1]
          exact hd
        · exact List.mem_cons_self
        · exact List.mem_cons_of_mem _ List.mem_cons_self
      · cases h
    · cases h
  · rw [if_neg hl] at h
    cases h

/-! ## Bad answers -/

/-- A digest is bad if it was asked about, or was given to another string; numbers are bad if they lead to the challenge
claimed for the one string with the digest asked about. -/
def BadAnswer {k : Nat} (claims : List UInt8 → Vector Nat p.T → Prop) (hist : List (Question p)) (O : ∀ x, AnswerTo p k x) :
    (x : Question p) → AnswerTo p k x → Prop
  | .inl _, d => .inr d ∈ hist ∨ ∃ y, .inl y ∈ hist ∧ O (.inl y) = d
  | .inr d, ws => ∃ x, .inl x ∈ hist ∧ O (.inl x) = d ∧ (∀ y, .inl y ∈ hist → O (.inl y) = d → y = x) ∧
      ∃ v, claims x v ∧ digestWords p (ws : Words 16 k).1 0 (noChallenge p) = .ok v

theorem badAnswer_local {k : Nat} (claims : List UInt8 → Vector Nat p.T → Prop) (hist : List (Question p)) (O O' : ∀ x, AnswerTo p k x)
    (h : ∀ y ∈ hist, O y = O' y) (x : Question p) (a : AnswerTo p k x) (hb : BadAnswer claims hist O x a) : BadAnswer claims hist O' x a := by
  cases x with
  | inl x =>
    rcases hb with hb | ⟨y, hy, e⟩
    · exact .inl hb
    · exact .inr ⟨y, hy, by rw [← h _ hy]; exact e⟩
  | inr d =>
    obtain ⟨x, hx, e, hu, hv⟩ := hb
    exact ⟨x, hx, by rw [← h _ hx]; exact e, fun y hy e' => hu y hy (by rw [h _ hy]; exact e'), hv⟩

open Classical in
theorem badAnswer_small (hp : p.WF) (hb : width (p.numKeypairs - 1) + width (p.T - 1) ≤ 16) {N : Nat}
    (hN : N ≤ p.T.choose p.W * (p.numKeypairs - 1) ^ p.W) (hN2 : N * N ≤ 2 ^ (8 * p.hashLen)) {k : Nat} {claims : List UInt8 → Vector Nat p.T → Prop}
    (hclaims : ∀ x v v', claims x v → claims x v' → v = v') (hist : List (Question p)) (O : ∀ x, AnswerTo p k x)
    (x : Question p) (hl : different hist ≤ N) :
    N * (Finset.univ.filter fun a => BadAnswer claims hist O x a).card ≤ Fintype.card (AnswerTo p k x) := by
  cases x with
  | inl x =>
    rw [card_digest]
    have hcard : (Finset.univ.filter fun a : AnswerTo p k (.inl x) => BadAnswer claims hist O (.inl x) a).card ≤ different hist := by
      let f : Question p → AnswerTo p k (.inl x) := fun y => match y with
        | .inl y => O (.inl y)
        | .inr d => d
      refine (Finset.card_le_card (t := hist.toFinset.image f) ?_).trans
        (Finset.card_image_le.trans (le_of_eq (by unfold different; congr!)))
      intro a ha
      rw [Finset.mem_image]
      simp only [List.mem_toFinset]
      rcases (Finset.mem_filter.1 ha).2 with h | ⟨y, hy, e⟩
      · exact ⟨_, h, rfl⟩
      · exact ⟨_, hy, e⟩
    exact (Nat.mul_le_mul_left _ (hcard.trans hl)).trans hN2
  | inr d =>
    rw [card_numbers]
    by_cases hex : ∃ x, .inl x ∈ hist ∧ O (.inl x) = d ∧ (∀ y, .inl y ∈ hist → O (.inl y) = d → y = x) ∧ ∃ v, claims x v
    · obtain ⟨x, hx, e, hu, v, hv⟩ := hex
      refine le_trans (Nat.mul_le_mul_left _ ?_) ((Nat.mul_le_mul_right _ hN).trans ((guess_le hp hb k v).trans_eq (card_words 16 k).symm))
      rw [← Fintype.card_subtype, ← Nat.card_eq_fintype_card]
      refine Nat.card_le_card_of_injective (fun a => ⟨(a.1 : Words 16 k), ?_⟩) ?_
      · obtain ⟨x', h1, h2, -, v', h3, h4⟩ := a.2
        obtain rfl := hu x' h1 h2
        rw [hclaims _ _ _ hv h3]
        exact h4
      · intro a b h
        exact Subtype.ext (congrArg (fun z => z.1) h)
    · have : (Finset.univ.filter fun a : AnswerTo p k (.inr d) => BadAnswer claims hist O (.inr d) a) = ∅ := by
        rw [Finset.filter_eq_empty_iff]
        rintro a - ⟨x, h1, h2, h3, v, h4, -⟩
        exact hex ⟨x, h1, h2, h3, v, h4⟩
      rw [this, Finset.card_empty, Nat.mul_zero]
      exact Nat.zero_le _

/-- What holds of the questions asked as long as no answer is bad. -/
def NoClaimMet {k : Nat} (claims : List UInt8 → Vector Nat p.T → Prop) (O : ∀ x, AnswerTo p k x) (hist : List (Question p)) : Prop :=
  (∀ x y, .inl x ∈ hist → .inl y ∈ hist → O (.inl x) = (O (.inl y) : Digest p) → x = y) ∧
  ∀ x d, .inl x ∈ hist → .inr d ∈ hist → O (.inl x) = d → ∀ v, claims x v →
    digestWords p (O (.inr d) : Words 16 k).1 0 (noChallenge p) ≠ .ok v

theorem noClaimMet_asked {α : Type} {k : Nat} {claims : List UInt8 → Vector Nat p.T → Prop} {O : ∀ x, AnswerTo p k x}
    (c : Asks (Question p) (AnswerTo p k) α) : ∀ hist, NoClaimMet claims O hist → ¬ Hits (BadAnswer claims) O hist c →
      NoClaimMet claims O (asked O hist c) := by
  induction c with
  | done a => exact fun hist h _ => h
  | ask z next ih =>
    intro hist h hn
    rw [hits_ask, not_or] at hn
    refine ih (O z) (z :: hist) ?_ hn.2
    by_cases hz : z ∈ hist
    · have hm : ∀ y, y ∈ z :: hist ↔ y ∈ hist := fun y => by
        rw [List.mem_cons]
        exact ⟨fun h => h.elim (fun e => e ▸ hz) id, .inr⟩
      unfold NoClaimMet
      simp only [hm]
      exact h
    · have hb : ¬ BadAnswer claims hist O z (O z) := fun hb => hn.1 ⟨hz, hb⟩
      obtain ⟨h1, h2⟩ := h
      cases z with
      | inl z =>
        have hb1 : .inr (O (.inl z)) ∉ hist := fun h => hb (.inl h)
        have hb2 : ∀ y, .inl y ∈ hist → O (.inl y) ≠ O (.inl z) := fun y hy e => hb (.inr ⟨y, hy, e⟩)
        constructor
        · intro x y hx hy e
          rcases List.mem_cons.1 hx with ex | hx' <;> rcases List.mem_cons.1 hy with ey | hy'
          · injection ex with ex; injection ey with ey; rw [ex, ey]
          · injection ex with ex; subst ex; exact absurd e.symm (hb2 y hy')
          · injection ey with ey; subst ey; exact absurd e (hb2 x hx')
          · exact h1 x y hx' hy' e
        · intro x d hx hd e
          have hd' : .inr d ∈ hist := by
            rcases List.mem_cons.1 hd with hd | hd
            · cases hd
            · exact hd
          rcases List.mem_cons.1 hx with ex | hx'
          · injection ex with ex; subst ex; subst e; exact absurd hd' hb1
          · exact h2 x d hx' hd' e
      | inr z =>
        have hin : ∀ x, .inl x ∈ .inr z :: hist → .inl x ∈ hist := fun x hx => by
          rcases List.mem_cons.1 hx with hx | hx
          · cases hx
          · exact hx
        constructor
        · exact fun x y hx hy e => h1 x y (hin x hx) (hin y hy) e
        · intro x d hx hd e v hv
          replace hx := hin x hx
          rcases List.mem_cons.1 hd with ed | hd'
          · injection ed with ed
            subst ed
            exact fun hw => hb ⟨x, hx, e, fun y hy e' => h1 y x hy hx (e'.trans e.symm), v, hv, hw⟩
          · exact h2 x d hx hd' e v hv

/-! ## C68 -/

/-- The tables for the questions in `X`. -/
abbrev Tables (p : Params) (k : Nat) (X : Finset (Question p)) : Type := ∀ x : {x // x ∈ X}, AnswerTo p k x.1

/-- For every program there is a finite set that contains all questions it can ask. -/
theorem within_exists {α : Type} {k : Nat} (c : Asks (Question p) (AnswerTo p k) α) : ∃ X, c.Within X := by
  classical
  have hmono : ∀ {c : Asks (Question p) (AnswerTo p k) α} {X Y : Finset (Question p)}, c.Within X → X ⊆ Y → c.Within Y := by
    intro c
    induction c with
    | done a => intros; trivial
    | ask x next ih => exact fun h hs => ⟨hs h.1, fun a => ih a (h.2 a) hs⟩
  induction c with
  | done a => exact ⟨∅, trivial⟩
  | ask x next ih =>
    choose X hX using ih
    refine ⟨{x} ∪ Finset.univ.biUnion X, Finset.mem_union_left _ (Finset.mem_singleton_self x), fun a => hmono (hX a) ?_⟩
    exact (Finset.subset_biUnion_of_mem X (Finset.mem_univ a)).trans Finset.subset_union_right

/-- Let the numbers drawn lead to any given challenge on at most one in `N` sequences, and let the forger and the verifier together ask at most `q`
different questions.  A forger that succeeds on more than `q` in `N` of the tables succeeds on two tables with the
same message, salt and commitments and with challenges that differ in some round; and from the answers its two
signatures give in that round the extractor computes a monomial that carries one code of the public key to another one. -/
theorem C68_forks (hp : p.WF) (hb : width (p.numKeypairs - 1) + width (p.T - 1) ≤ 16) {N : Nat}
    (hN : N ≤ p.T.choose p.W * (p.numKeypairs - 1) ^ p.W) (hN2 : N * N ≤ 2 ^ (8 * p.hashLen)) {B k q : Nat} {pk : PK p}
    {G0 : Matrix (Fin p.K) (Fin p.N) (ZMod 127)} (hG : IsG0 p B (xof p pk.seed) G0) (F : Forger p k) {X : Finset (Question p)}
    (hX : (attack B pk F).Within X) (base : ∀ x, AnswerTo p k x)
    (hq : ∀ t : Tables p k X, (attack B pk F).questions (table base t) ≤ q)
    (hwin : q * Nat.card (Tables p k X) < N * Nat.card {t : Tables p k X // ((attack B pk F).run (table base t)).isSome}) :
    ∃ (t t' : Tables p k X) (o o' : Forged p) (i : Nat),
      (attack B pk F).run (table base t) = some o ∧ (attack B pk F).run (table base t') = some o' ∧
      o.msg = o'.msg ∧ o.sig.salt = o'.sig.salt ∧ (∀ i < p.T, o.coms i = o'.coms i) ∧
      i < p.T ∧ g o.challenge i ≠ g o'.challenge i ∧
      ∃ x y, AnswerOf p B o.sig (g o.challenge) i x ∧ AnswerOf p B o'.sig (g o'.challenge) i y ∧
        (extract p (publicCode pk G0 (g o.challenge i)) x (publicCode pk G0 (g o'.challenge i)) y).IsMonomial ∧
        RowEq (ColOp.on (publicCode pk G0 (g o.challenge i))
            (extract p (publicCode pk G0 (g o.challenge i)) x (publicCode pk G0 (g o'.challenge i)) y))
          (publicCode pk G0 (g o'.challenge i)) := by
  classical
  have hW := hp
  -- the challenges for which some run of the forger answers
  let claims : List UInt8 → Vector Nat p.T → Prop := fun x v =>
    ∃ (t : Tables p k X) (o : Forged p), (attack B pk F).run (table base t) = some o ∧ o.hashed = x ∧ o.challenge = v
  by_cases hfork : ∃ x v v', claims x v ∧ claims x v' ∧ v ≠ v'
  · obtain ⟨x, v, v', ⟨t, o, ho, hx, rfl⟩, ⟨t', o', ho', hx', rfl⟩, hne⟩ := hfork
    have h1 := judge_some [] ((run_bind _ _ _).symm.trans ho)
    have h2 := judge_some [] ((run_bind _ _ _).symm.trans ho')
    obtain ⟨-, -, -, a1, a2, -⟩ := h1
    obtain ⟨-, -, -, b1, b2, -⟩ := h2
    have hshape : ∀ {o : Forged p}, (∀ i < p.T, RoundCommit p B pk o.sig (g o.challenge) i (o.coms i)) →
        ∀ i < p.T, ∃ A : Matrix (Fin p.K) (Fin p.N) (ZMod 127), IsCommit A (o.coms i) := fun h i hi =>
      ⟨_, (RoundCommit.answer hW (h i hi) hG).choose_spec.2.2⟩
    obtain ⟨ec, em, es⟩ := transcript_inj (hshape a2) (hshape b2) (a1.trans b1.symm) (hx.trans hx'.symm)
    have : ∃ i < p.T, g o.challenge i ≠ g o'.challenge i := by
      by_contra hc
      push Not at hc
      exact hne (vec_ext hc)
    obtain ⟨i, hi, hd⟩ := this
    obtain ⟨x, hx1, hx2, hx3⟩ := RoundCommit.answer hW (a2 i hi) hG
    obtain ⟨y, hy1, hy2, hy3⟩ := RoundCommit.answer hW (b2 i hi) hG
    rw [← ec i hi] at hy3
    exact ⟨t, t', o, o', i, ho, ho', em, es, ec, hi, hd, x, y, hx1, hy1, C12_extract hW hx2 hy2 hx3 hy3⟩
  · exfalso
    have hclaims : ∀ x v v', claims x v → claims x v' → v = v' := by
      intro x v v' h h'
      by_contra hne
      exact hfork ⟨x, v, v', h, h', hne⟩
    refine absurd hwin (Nat.not_lt.2 ?_)
    by_cases hL : N ≤ q
    · exact Nat.mul_le_mul hL (Nat.card_le_card_of_injective _ Subtype.val_injective)
    · have hall : ∀ t : Tables p k X, ((attack B pk F).run (table base t)).isSome →
          Hits (BadAnswer claims) (table base t) [] (attack B pk F) := ?_
      · refine le_trans (Nat.mul_le_mul_left _ (Nat.card_le_card_of_injective (fun t => ⟨t.1, hall t.1 t.2⟩) ?_))
          (hits_le (base := base) (badAnswer_local claims)
            (fun hist O x hl _ => badAnswer_small hp hb hN hN2 hclaims hist O x (by omega)) hq hX)
        intro a b h
        exact Subtype.ext (congrArg (fun z => z.1) h)
      intro t ht
      obtain ⟨o, ho⟩ := Option.isSome_iff_exists.1 ht
      by_contra hn
      have hmet := noClaimMet_asked _ [] ⟨by simp, by simp⟩ hn
      obtain ⟨-, -, -, -, -, d, hd, h1, h2, h3, h4⟩ := judge_some (asked (table base t) [] F) ((run_bind _ _ _).symm.trans ho)
      rw [← asked_bind] at h3 h4
      exact hmet.2 o.hashed d h3 h4 h1 o.challenge ⟨t, o, ho, rfl, rfl⟩ h2

theorem judge_atMost (B k : Nat) (pk : PK p) (a : List UInt8 × Sig p) : (judge p B k pk a).AtMost 2 := by
  unfold judge
  split
  · intro ws
    dsimp only
    split
    · exact fun d => trivial
    · trivial
  · trivial

/-- A forger that asks `q` questions and succeeds on more than `(q + 2)` in two to the power of the security level of the
tables, succeeds on two tables with the same message, salt and commitments and with challenges that differ in some round;
and from the answers its two signatures give in that round the extractor computes a monomial that carries one code of
the public key to another one. -/
theorem C68_forger (hp : p ∈ Params.all) {B k q : Nat} {pk : PK p} {G0 : Matrix (Fin p.K) (Fin p.N) (ZMod 127)}
    (hG : IsG0 p B (xof p pk.seed) G0) (F : Forger p k) (hq : F.AtMost q) {X : Finset (Question p)} (hX : (attack B pk F).Within X)
    (base : ∀ x, AnswerTo p k x)
    (hwin : (q + 2) * Nat.card (Tables p k X) <
      2 ^ (8 * p.seedLen) * Nat.card {t : Tables p k X // ((attack B pk F).run (table base t)).isSome}) :
    ∃ (t t' : Tables p k X) (o o' : Forged p) (i : Nat),
      (attack B pk F).run (table base t) = some o ∧ (attack B pk F).run (table base t') = some o' ∧
      o.msg = o'.msg ∧ o.sig.salt = o'.sig.salt ∧ (∀ i < p.T, o.coms i = o'.coms i) ∧
      i < p.T ∧ g o.challenge i ≠ g o'.challenge i ∧
      ∃ x y, AnswerOf p B o.sig (g o.challenge) i x ∧ AnswerOf p B o'.sig (g o'.challenge) i y ∧
        (extract p (publicCode pk G0 (g o.challenge i)) x (publicCode pk G0 (g o'.challenge i)) y).IsMonomial ∧
        RowEq (ColOp.on (publicCode pk G0 (g o.challenge i))
            (extract p (publicCode pk G0 (g o.challenge i)) x (publicCode pk G0 (g o'.challenge i)) y))
          (publicCode pk G0 (g o'.challenge i)) := by
  have hH : 2 ^ (8 * p.seedLen) * 2 ^ (8 * p.seedLen) = 2 ^ (8 * p.hashLen) := by
    rw [← Nat.pow_add]; congr 1; unfold Params.hashLen; omega
  have h1 := C62_parameter_sets p hp
  rw [C62_count (Params.all_WF p hp)] at h1
  exact C68_forks (Params.all_WF p hp) (challenge_bits p hp) h1 hH.le hG F hX base
    (fun t => questions_atMost _ (atMost_bind hq (judge_atMost B k pk))) hwin

/-! ## The tables of the scheme itself -/

theorem leNat_lt (l : Bytes) : leNat l < 2 ^ (8 * l.length) := by
  induction l with
  | nil => exact Nat.one_pos
  | cons b bs ih =>
    have := b.toNat_lt
    rw [leNat, List.length_cons, Nat.mul_add, Nat.pow_add]
    omega

theorem drawn_lt (k : Nat) : ∀ st, RngOk p st → ∀ w ∈ drawn p 2 k st, w < 2 ^ 16 := by
  induction k with
  | zero => intro st _ w h; cases h
  | succ k ih =>
    intro st hs w h
    rcases List.mem_cons.1 h with rfl | h
    · have := leNat_lt (csprngBytes p 2 st).1
      rwa [csprngBytes_length p 2 st hs] at this
    · exact ih _ (csprngBytes_ok p 2 st hs) w h

/-- The hash function and the generator, as tables. -/
def keccakTable (p : Params) (k : Nat) : ∀ x, AnswerTo p k x
  | .inl x => (toVec _ (hash p x) : Digest p)
  | .inr d => (⟨drawn p 2 k (initCsprng p d.toList), drawn_length _ _ _, drawn_lt _ _ (initCsprng_ok _ _)⟩ : Words 16 k)

theorem isChallenge_words (hp : p.WF) (fuel : Nat) (digest : Bytes) (v : Nat → Nat) :
    IsChallenge p fuel (xof p digest) v ↔
      ∃ fws, digestWords p (drawn p 2 fuel (initCsprng p digest)) 0 (noChallenge p) = .ok fws ∧ v = g fws := by
  have hs := expandDigest_spec hp fuel digest
  rw [C59_words] at hs
  change Wp _ (digestWords p _ 0 (noChallenge p)) _ at hs
  constructor
  · intro hv
    obtain ⟨fws, e, h⟩ := (hs.monoF (F' := False) (fun h => h ⟨v, hv⟩)).exists_ok
    exact ⟨fws, e, hv.unique h⟩
  · rintro ⟨fws, e, rfl⟩
    exact hs.of_ok e

/-- Under these tables the verifier of the game is the verifier of the specification. -/
theorem judge_keccak (hp : p.WF) (fuel : Nat) (pk : PK p) (m : Bytes) {sig : Sig p} (hd : sig.digest.length = p.hashLen)
    (hs : sig.salt.length = p.hashLen) :
    ((judge p fuel fuel pk (m, sig)).run (keccakTable p fuel)).isSome ↔ Accepts p fuel pk m sig := by
  have hash_len : ∀ x, (hash p x).length = p.hashLen := fun x => by simp [Spec.hash]
  constructor
  · intro h
    obtain ⟨o, ho⟩ := Option.isSome_iff_exists.1 h
    obtain ⟨h1, h2, -, -, h3, d, h4, h5, h6, -⟩ := judge_some [] ho
    dsimp only at h1 h2
    subst h1 h2
    refine ⟨g o.challenge, o.coms, (isChallenge_words hp _ _ _).2 ⟨_, ?_, rfl⟩, h3, ?_⟩
    · rw [← h4]; exact h6
    · rw [← h4, ← h5]
      exact toVec_toList (hash_len _)
  · rintro ⟨v, coms, h1, h2, h3⟩
    obtain ⟨fws, e, rfl⟩ := (isChallenge_words hp _ _ _).1 h1
    have hex : ∃ o : Forged p, o.msg = m ∧ o.sig = sig ∧
        digestWords p (keccakTable p fuel (.inr (toVec _ sig.digest)) : Words 16 fuel).1 0 (noChallenge p) = .ok o.challenge ∧
        ∀ i < p.T, RoundCommit p fuel pk o.sig (g o.challenge) i (o.coms i) := by
      refine ⟨⟨m, sig, fws, coms⟩, rfl, rfl, ?_, h2⟩
      unfold keccakTable
      dsimp only
      rw [toVec_toList hd]
      exact e
    unfold judge
    rw [if_pos ⟨hd, hs⟩]
    simp only [Asks.run]
    rw [dif_pos hex]
    simp only [Asks.run]
    rw [if_pos]
    · rfl
    · obtain ⟨g1, g2, g3, g4⟩ := hex.choose_spec
      generalize hex.choose = o at g1 g2 g3 g4
      have ev : o.challenge = fws := by
        unfold keccakTable at g3
        dsimp only at g3
        rw [toVec_toList hd, e] at g3
        injection g3 with g3
        exact g3.symm
      rw [g2, ev] at g4
      have et : o.hashed = transcript p coms m sig.salt := by
        unfold Forged.hashed transcript
        rw [g1, g2]
        congr 2
        apply List.flatMap_congr
        intro i hi
        rw [(g4 i (List.mem_range.1 hi)).unique (h2 i (List.mem_range.1 hi))]
      rw [et]
      show (toVec _ (hash p _) : Digest p).toList = _
      rw [toVec_toList (hash_len _), h3]

/-- The game is about the code: under the tables of the scheme itself, an output of the forger is accepted in the game exactly if
`LESS_verify` accepts it. -/
theorem C68_game_is_verification (hp : p.WF) (hK : 2 ≤ p.K) {n : Nat} (hn : p.maxPublishedBytes ≤ n) (fuel : Nat) (sl : Nat → Stale p)
    {pk : PubKey p} (hpk : SortedKey pk) (F : Forger p fuel) {m : Bytes} {sig : SignT p n}
    (hF : F.run (keccakTable p fuel) = (m, sig.spec)) {r : Nat} (hr : lessVerify fuel sl pk m sig = .ok r) :
    ((attack fuel pk.spec F).run (keccakTable p fuel)).isSome ↔ r = 1 := by
  unfold attack
  rw [run_bind, hF, judge_keccak hp fuel pk.spec m (by simp [SignT.spec]) (by simp [SignT.spec])]
  exact ((C09_any_key hp hK hn fuel sl pk hpk m sig).1 r hr).2.symm

/-! ## The owner of the key -/

open Classical in
/-- The program of the owner of a key: ask for the digest of the commitments, then for the challenge, and answer it. -/
noncomputable def ownerProgram {k : Nat} (m salt : List UInt8) (coms : Nat → List (List Nat)) (prover : Vector Nat p.T → Sig p) : Forger p k :=
  .ask (.inl (transcript p coms m salt)) fun (d : Digest p) => .ask (.inr d) fun (ws : Words 16 k) =>
    .done (m, { prover (if h : ∃ v, digestWords p ws.1 0 (noChallenge p) = .ok v then h.choose else noChallenge p) with
      salt := salt, digest := d.toList })

/-- The other direction: the owner of the key asks two questions, the verifier asks the same two, and the owner succeeds on every
table where the numbers asked for lead to a challenge. -/
theorem C68_owner (hp : p.WF) {B k : Nat} {sk : SK p} {pk : PK p} (hk : KeyPair p B sk pk) (hf : KeyFits p B sk) (m root salt : List UInt8)
    (hsalt : salt.length = p.hashLen) (hr : ∀ i < p.T, ∃ M, IsMonomial p B (roundStream p salt (signerLeaf p root salt i) i) M) :
    ∃ F : Forger p k, F.AtMost 2 ∧ ∀ O : (∀ x, AnswerTo p k x), (attack B pk F).questions O ≤ 2 ∧
      ((∀ d : Digest p, .inr d ∈ asked O [] F → ∃ v, digestWords p (O (.inr d) : Words 16 k).1 0 (noChallenge p) = .ok v) →
      ∃ o, (attack B pk F).run O = some o ∧ o.msg = m) := by
  classical
  obtain ⟨coms, prover, hall⟩ := honest_prover hp hk hf root salt hr
  refine ⟨ownerProgram m salt coms prover, fun d ws => trivial, fun O => ?_⟩
  obtain ⟨d, hd⟩ : ∃ d : Digest p, d = O (.inl (transcript p coms m salt)) := ⟨_, rfl⟩
  have hasked : asked O [] (ownerProgram m salt coms prover) = [.inr d, .inl (transcript p coms m salt)] := by
    unfold ownerProgram
    simp only [asked]
    rw [← hd]
  by_cases hex : ∃ v, digestWords p (O (.inr d) : Words 16 k).1 0 (noChallenge p) = .ok v
  swap
  · -- no challenge
    refine ⟨different_le_two (a := .inr d) (b := .inl (transcript p coms m salt)) ?_, fun h => absurd (h d (by rw [hasked]; exact List.mem_cons_self)) hex⟩
    unfold attack
    rw [asked_bind, hasked]
    have hrun : (ownerProgram m salt coms prover).run O = (m, { prover (noChallenge p) with salt := salt, digest := d.toList }) := by
      unfold ownerProgram
      simp only [Asks.run]
      rw [← hd, dif_neg hex]
    rw [hrun]
    unfold judge
    rw [if_pos ⟨by simp, hsalt⟩]
    simp only [asked]
    rw [toVec_of_toList d, dif_neg (by rintro ⟨o, -, -, h, -⟩; exact hex ⟨_, h⟩)]
    unfold asked
    intro x hx
    simpa [or_assoc] using hx
  obtain ⟨v, hv⟩ : ∃ v, v = hex.choose := ⟨_, rfl⟩
  have hw : digestWords p (O (.inr d) : Words 16 k).1 0 (noChallenge p) = .ok v := by rw [hv]; exact hex.choose_spec
  obtain ⟨sig, hsig⟩ : ∃ sig : Sig p, sig = { prover v with salt := salt, digest := d.toList } := ⟨_, rfl⟩
  have hrun : (ownerProgram m salt coms prover).run O = (m, sig) := by
    unfold ownerProgram
    simp only [Asks.run]
    rw [← hd, dif_pos hex, ← hv, hsig]
  have hans : ∀ i < p.T, RoundCommit p B pk sig (g v) i (coms i) := by
    intro i hi
    have := (hall v).2 (noChallenge_challenge hp hw) i hi
    have e : prover v = { prover v with salt := salt } := by
      conv_lhs => rw [show prover v = ⟨(prover v).salt, (prover v).responses, (prover v).digest, (prover v).stored⟩ from rfl, (hall v).1]
    rw [e] at this
    rw [hsig]
    exact this
  have hd1 : sig.digest = d.toList := by rw [hsig]
  have hs1 : sig.salt = salt := by rw [hsig]
  have hlen : sig.digest.length = p.hashLen ∧ sig.salt.length = p.hashLen := ⟨by rw [hd1]; simp, by rw [hs1]; exact hsalt⟩
  have hd2 : toVec p.hashLen sig.digest = d := by rw [hd1]; exact toVec_of_toList d
  unfold attack questions
  rw [run_bind, asked_bind, hasked, hrun]
  unfold judge
  rw [if_pos hlen]
  simp only [Asks.run, asked]
  rw [hd2]
  have hex2 : ∃ o : Forged p, o.msg = m ∧ o.sig = sig ∧ digestWords p (O (.inr d) : Words 16 k).1 0 (noChallenge p) = .ok o.challenge ∧
      ∀ i < p.T, RoundCommit p B pk o.sig (g o.challenge) i (o.coms i) := ⟨⟨m, sig, v, coms⟩, rfl, rfl, hw, hans⟩
  rw [dif_pos hex2]
  simp only [Asks.run, asked]
  obtain ⟨g1, g2, g3, g4⟩ := hex2.choose_spec
  generalize hex2.choose = o at g1 g2 g3 g4
  have ev : o.challenge = v := by
    rw [hw] at g3
    injection g3 with g3
    exact g3.symm
  rw [g2, ev] at g4
  have et : o.hashed = transcript p coms m salt := by
    unfold Forged.hashed transcript
    rw [g1, g2, hs1]
    congr 2
    apply List.flatMap_congr
    intro i hi
    rw [(g4 i (List.mem_range.1 hi)).unique (hans i (List.mem_range.1 hi))]
  refine ⟨?_, fun _ => ⟨o, ?_, g1⟩⟩
  · rw [et]
    apply different_le_two (a := .inr d) (b := .inl (transcript p coms m salt))
    intro x hx
    simp only [List.mem_cons, List.not_mem_nil, or_false] at hx
    tauto
  · rw [if_pos]
    rw [et, ← hd, hd1]

/-- The numbers do not lead to a challenge. -/
def DeadEnd {k : Nat} (_ : List (Question p)) (_ : ∀ x, AnswerTo p k x) : (x : Question p) → AnswerTo p k x → Prop
  | .inl _, _ => False
  | .inr _, ws => ¬ ∃ v, digestWords p (ws : Words 16 k).1 0 (noChallenge p) = .ok v

theorem deadEnd_hits {k : Nat} {α : Type} {O : ∀ x, AnswerTo p k x} (c : Asks (Question p) (AnswerTo p k) α) : ∀ hist,
    (∀ d : Digest p, .inr d ∈ hist → ∃ v, digestWords p (O (.inr d) : Words 16 k).1 0 (noChallenge p) = .ok v) → ¬ Hits DeadEnd O hist c →
    ∀ d : Digest p, .inr d ∈ asked O hist c → ∃ v, digestWords p (O (.inr d) : Words 16 k).1 0 (noChallenge p) = .ok v := by
  induction c with
  | done a => exact fun hist h _ => h
  | ask x next ih =>
    intro hist h hn
    rw [hits_ask, not_or] at hn
    refine ih (O x) _ (fun d hd => ?_) hn.2
    rcases List.mem_cons.1 hd with e | hd
    · subst e
      by_contra hc
      by_cases hx : .inr d ∈ hist
      · exact hc (h d hx)
      · exact hn.1 ⟨hx, hc⟩
    · exact h d hd

/-- If at most one in `N` sequences of numbers leads to no challenge then the owner fails on at most two in `N` tables. -/
theorem C68_owner_wins (hp : p.WF) {B k N : Nat} {sk : SK p} {pk : PK p} (hk : KeyPair p B sk pk) (hf : KeyFits p B sk) (m root salt : List UInt8)
    (hsalt : salt.length = p.hashLen) (hr : ∀ i < p.T, ∃ M, IsMonomial p B (roundStream p salt (signerLeaf p root salt i) i) M)
    (hN : N * Nat.card {ws : Words 16 k // ¬ ∃ v, digestWords p ws.1 0 (noChallenge p) = .ok v} ≤ Nat.card (Words 16 k)) :
    ∃ F : Forger p k, F.AtMost 2 ∧ (∀ O, (attack B pk F).questions O ≤ 2) ∧ ∀ X, (attack B pk F).Within X → ∀ base,
      N * Nat.card {t : Tables p k X // ¬ ∃ o, (attack B pk F).run (table base t) = some o ∧ o.msg = m} ≤ 2 * Nat.card (Tables p k X) := by
  classical
  obtain ⟨F, hF, h⟩ := C68_owner (k := k) hp hk hf m root salt hsalt hr
  refine ⟨F, hF, fun O => (h O).1, fun X hX base => ?_⟩
  have hbad : ∀ t : Tables p k X, (¬ ∃ o, (attack B pk F).run (table base t) = some o ∧ o.msg = m) →
      Hits DeadEnd (table base t) [] F := by
    intro t ht
    by_contra hn
    exact ht ((h _).2 (deadEnd_hits F [] (by simp) hn))
  have hXF : F.Within X := by
    have : ∀ {α β : Type} (c : Asks (Question p) (AnswerTo p k) α) (f : α → Asks (Question p) (AnswerTo p k) β), (c.bind f).Within X → c.Within X := by
      intro α β c f
      induction c with
      | done a => exact fun _ => trivial
      | ask x next ih => exact fun h => ⟨h.1, fun a => ih a (h.2 a)⟩
    exact this _ _ hX
  refine le_trans (Nat.mul_le_mul_left _ (Nat.card_le_card_of_injective (fun t => ⟨t.1, hbad t.1 t.2⟩) ?_))
    (hits_le (base := base) (bad := DeadEnd) ?_ ?_ (fun t => questions_atMost _ hF) hXF)
  · intro a b h
    exact Subtype.ext (congrArg (fun z => z.1) h)
  · intro hist O O' _ x a h
    cases x <;> exact h
  · intro hist O x _ _
    cases x with
    | inl x =>
      have : (Finset.univ.filter fun a : AnswerTo p k (.inl x) => DeadEnd hist O (.inl x) a) = ∅ :=
        Finset.filter_eq_empty_iff.2 fun _ _ h => h
      rw [this, Finset.card_empty, Nat.mul_zero]
      exact Nat.zero_le _
    | inr d =>
      rw [card_numbers]
      refine le_trans (Nat.mul_le_mul_left _ ?_) hN
      rw [← Fintype.card_subtype, ← Nat.card_eq_fintype_card]
      exact Nat.card_le_card_of_injective (fun a => ⟨(a.1 : Words 16 k), a.2⟩) fun a b h =>
        Subtype.ext (congrArg (fun z => z.1) h)

end LESS
