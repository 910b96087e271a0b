import Mathlib.Data.List.Forall2
import Verif.Proofs.Threads
import Verif.Props.History
import Verif.Props.Soundness
/-!
# No randomness is used twice (C65)

All calls draw from one generator.  A ledger, kept from the calls alone, says which stretch of the generator's output each
call is to use; the program uses exactly these, and they do not overlap.
-/
namespace LESS

open Spec

variable {p : Params}

/-- Which bytes of the generator's output calls have used: the position reached, and for every key and every signature where
its bytes begin. -/
structure Ledger where
  pos : Nat
  keys : List Nat
  made : List Nat

/-- A key takes a secret seed and a public seed, a signature an ephemeral seed and a salt; a verification and a call for a key
that does not exist take nothing. -/
def Ledger.step (p : Params) (b : Ledger) : Op → Ledger
  | .keygen => ⟨b.pos + (p.skSeedLen + p.seedLen), b.keys ++ [b.pos], b.made⟩
  | .sign key _ => if key < b.keys.length then ⟨b.pos + (p.seedLen + p.hashLen), b.keys, b.made ++ [b.pos]⟩ else b
  | .verify _ => b

/-- The ledger after a sequence of calls. -/
def Ledger.after (p : Params) (ops : List Op) : Ledger := ops.foldl (Ledger.step p) ⟨0, [], []⟩

/-- The key was made from the bytes of `s` from position `o` on. -/
def KeyFrom (p : Params) (s : Stream) (k : PriKey p × PubKey p) (o : Nat) : Prop :=
  k.1.spec.secret = (s.drop o).take p.skSeedLen ∧ k.1.spec.seed = (s.drop (o + p.skSeedLen)).take p.seedLen

/-- The signature was made with the bytes of `s` from position `o` on as ephemeral seed and salt. -/
def SignedFrom (p : Params) (fuel : Nat) (s : Stream) (keys : List (PriKey p × PubKey p)) (d : Made p) (o : Nat) : Prop :=
  d.sig.spec.salt = (s.drop (o + p.seedLen)).take p.hashLen ∧
    ∃ k count, keys[d.key]? = some k ∧ Signed p fuel k.1.spec ((s.drop o).take p.seedLen) d.m d.sig.spec count

structure Tracks (fuel : Nat) (s : Stream) (w : World p) (b : Ledger) : Prop where
  rng : StreamAt p w.rng (s.drop b.pos)
  keys : List.Forall₂ (KeyFrom p s) w.keys b.keys
  made : List.Forall₂ (SignedFrom p fuel s w.keys) w.made b.made

theorem Tracks.step (hp : p.WF) {fuel : Nat} {s : Stream} {w : World p} {b : Ledger} (h : Tracks fuel s w b) (sl : Nat → Stale p)
    (out : SignT p p.storageLen) (op : Op) {w' : World p} (e : w.step fuel sl out op = .ok w') : Tracks fuel s w' (b.step p op) := by
  cases op with
  | keygen =>
    unfold World.step at e
    have hw : Wp True (do
        let (sk, pk, rng) ← lessKeygen fuel sl w.rng
        pure { w with rng := rng, keys := w.keys ++ [(sk, pk)] }) (fun w' => Tracks fuel s w' (b.step p .keygen)) := by
      rw [Wp.bind_iff]
      refine ((lessKeygen_wp hp fuel sl w.rng _ h.rng).monoF fun _ => trivial).mono ?_
      rintro ⟨sk, pk, rng⟩ ⟨h1, h2, h3⟩
      refine ⟨?_, ?_, ?_⟩
      · rw [drop_drop] at h3; exact h3
      · refine List.rel_append h.keys (.cons ⟨?_, ?_⟩ .nil)
        · dsimp only at h1 ⊢; rw [h1]; rfl
        · dsimp only at h1 ⊢; rw [h1, ← drop_drop]; rfl
      · refine h.made.imp ?_
        rintro d o ⟨a, k, c, hk, hs⟩
        refine ⟨a, k, c, ?_, hs⟩
        rw [List.getElem?_append_left (by rw [List.getElem?_eq_some_iff] at hk; exact hk.1)]
        exact hk
    exact hw.of_ok e
  | sign key m =>
    unfold World.step at e
    simp only [Ledger.step]
    cases hkey : w.keys[key]? with
    | none =>
      dsimp only at e
      rw [hkey] at e
      cases e
      rw [List.getElem?_eq_none_iff] at hkey
      rw [if_neg (by rw [← h.keys.length_eq]; omega)]
      exact h
    | some k =>
      have hlt : key < w.keys.length := by rw [List.getElem?_eq_some_iff] at hkey; exact hkey.1
      rw [if_pos (by rw [← h.keys.length_eq]; exact hlt)]
      dsimp only at e
      rw [hkey] at e
      dsimp only at e
      have hw : Wp True (do
          let (sig, _, rng) ← lessSign fuel sl w.rng k.1 m out
          pure { w with rng := rng, made := w.made ++ [⟨key, m, sig⟩] })
          (fun w' => Tracks fuel s w' ⟨b.pos + (p.seedLen + p.hashLen), b.keys, b.made ++ [b.pos]⟩) := by
        rw [Wp.bind_iff]
        refine ((lessSign_wp hp fuel sl w.rng k.1 m out _ h.rng (Nat.le_refl _)).monoF fun _ => trivial).mono ?_
        rintro ⟨sig, num, rng⟩ ⟨h1, h2, _, _, h3⟩
        refine ⟨by rw [drop_drop] at h3; exact h3, h.keys, List.rel_append h.made (.cons ⟨?_, k, num, hkey, h2⟩ .nil)⟩
        dsimp only at h1 ⊢
        rw [h1, ← drop_drop]
        rfl
      exact hw.of_ok e
  | verify i =>
    unfold World.step at e
    cases hd : w.made[i]? with
    | none =>
      dsimp only at e
      rw [hd] at e
      cases e
      exact h
    | some d =>
      dsimp only at e
      rw [hd] at e
      dsimp only at e
      cases hk : w.keys[d.key]? with
      | none => rw [hk] at e; cases e; exact h
      | some k =>
        rw [hk] at e
        dsimp only at e
        cases hv : lessVerify fuel sl k.2 d.m d.sig with
        | error x => rw [hv] at e; cases e
        | ok r => rw [hv] at e; cases e; exact ⟨h.rng, h.keys, h.made⟩

theorem Tracks.run (hp : p.WF) {fuel : Nat} {s : Stream} (env : Nat → (Nat → Stale p) × SignT p p.storageLen) (ops : List Op)
    {w w' : World p} {b : Ledger} (h : Tracks fuel s w b) (e : w.run fuel env ops = .ok w') :
    Tracks fuel s w' (ops.foldl (Ledger.step p) b) := by
  induction ops generalizing w b with
  | nil => cases e; exact h
  | cons op ops ih =>
    unfold World.run at e
    cases hs : w.step fuel (env ops.length).1 (env ops.length).2 op with
    | error x => rw [hs] at e; cases e
    | ok w₁ => rw [hs] at e; exact ih (h.step hp _ _ op hs) e

/-- C65: after any sequence of calls every key and every signature is made from the stretch of the generator's output the
ledger says, and the generator goes on after the last stretch. -/
theorem C65_stretches (hp : p.WF) (fuel : Nat) (env : Nat → (Nat → Stale p) × SignT p p.storageLen) (seed : Bytes) (ops : List Op)
    {w : World p} (e : (World.start (initCsprng p seed) : World p).run fuel env ops = .ok w) :
    List.Forall₂ (KeyFrom p (xof p seed)) w.keys (Ledger.after p ops).keys ∧
    List.Forall₂ (SignedFrom p fuel (xof p seed) w.keys) w.made (Ledger.after p ops).made ∧
    StreamAt p w.rng ((xof p seed).drop (Ledger.after p ops).pos) := by
  have h0 : Tracks fuel (xof p seed) (World.start (initCsprng p seed) : World p) ⟨0, [], []⟩ :=
    ⟨by rw [drop_zero]; exact xof_at p seed, .nil, .nil⟩
  have h := h0.run hp env ops e
  exact ⟨h.keys, h.made, h.rng⟩

/-- The stretches of a ledger: begin and length. -/
def Ledger.stretches (p : Params) (b : Ledger) : List (Nat × Nat) :=
  b.keys.map (·, p.skSeedLen + p.seedLen) ++ b.made.map (·, p.seedLen + p.hashLen)

theorem apart_step (p : Params) (b : Ledger) (op : Op) (h : (b.stretches p).Pairwise Apart ∧ ∀ x ∈ b.stretches p, x.1 + x.2 ≤ b.pos) :
    ((b.step p op).stretches p).Pairwise Apart ∧ ∀ x ∈ (b.step p op).stretches p, x.1 + x.2 ≤ (b.step p op).pos := by
  obtain ⟨h1, h2⟩ := h
  have sym : ∀ {x y : Nat × Nat}, Apart x y → Apart y x := fun h => h.symm
  cases op with
  | keygen =>
    have hperm : ((b.step p .keygen).stretches p).Perm ((b.pos, p.skSeedLen + p.seedLen) :: b.stretches p) := by
      unfold Ledger.step Ledger.stretches
      rw [List.map_append, List.append_assoc]
      exact List.perm_middle
    constructor
    · rw [hperm.pairwise_iff sym, List.pairwise_cons]
      exact ⟨fun x hx => .inr (h2 x hx), h1⟩
    · intro x hx
      rcases List.mem_cons.mp (hperm.mem_iff.mp hx) with rfl | hx
      · exact Nat.le_refl _
      · have := h2 x hx
        simp only [Ledger.step]; omega
  | sign key m =>
    simp only [Ledger.step]
    split
    · have hperm : (Ledger.stretches p ⟨b.pos + (p.seedLen + p.hashLen), b.keys, b.made ++ [b.pos]⟩).Perm
          ((b.pos, p.seedLen + p.hashLen) :: b.stretches p) := by
        unfold Ledger.stretches
        rw [List.map_append, ← List.append_assoc]
        exact List.perm_append_singleton _ _
      constructor
      · rw [hperm.pairwise_iff sym, List.pairwise_cons]
        exact ⟨fun x hx => .inr (h2 x hx), h1⟩
      · intro x hx
        rcases List.mem_cons.mp (hperm.mem_iff.mp hx) with rfl | hx
        · exact Nat.le_refl _
        · have := h2 x hx
          simp only; omega
    · exact ⟨h1, h2⟩
  | verify i => exact ⟨h1, h2⟩

/-- C65: no two of these stretches overlap. -/
theorem C65_apart (p : Params) (ops : List Op) : ((Ledger.after p ops).stretches p).Pairwise Apart := by
  have : ∀ (ops : List Op) (b : Ledger), ((b.stretches p).Pairwise Apart ∧ ∀ x ∈ b.stretches p, x.1 + x.2 ≤ b.pos) →
      (((ops.foldl (Ledger.step p) b).stretches p).Pairwise Apart) := by
    intro ops
    induction ops with
    | nil => exact fun b h => h.1
    | cons op ops ih => exact fun b h => ih _ (apart_step p b op h)
  exact this ops ⟨0, [], []⟩ ⟨by simp [Ledger.stretches], by simp [Ledger.stretches]⟩

/-- C65, why it matters: two honest signatures made with the same ephemeral seed and salt give away, in every round in which
their challenges differ, a monomial that carries one code of the public key to another. -/
theorem C65_reuse_reveals (hp : p.WF) {B : Nat} {sk : SK p} {pk : PK p} (hk : KeyPair p B sk pk) {root m m' : List UInt8}
    {sig sig' : Sig p} {count count' : Nat} (h : Signed p B sk root m sig count) (h' : Signed p B sk root m' sig' count')
    (hsalt : sig'.salt = sig.salt) :
    ∃ (G0 : Matrix (Fin p.K) (Fin p.N) (ZMod 127)) (v v' : Nat → Nat), IsG0 p B (xof p pk.seed) G0 ∧
      IsChallenge p B (xof p sig.digest) v ∧ IsChallenge p B (xof p sig'.digest) v' ∧
      ∀ i < p.T, ∃ x y, AnswerOf p B sig v i x ∧ AnswerOf p B sig' v' i y ∧
        (extract p (publicCode pk G0 (v i)) x (publicCode pk G0 (v' i)) y).IsMonomial ∧
        RowEq (ColOp.on (publicCode pk G0 (v i)) (extract p (publicCode pk G0 (v i)) x (publicCode pk G0 (v' i)) y))
          (publicCode pk G0 (v' i)) := by
  obtain ⟨v, coms, G0, hG0, hch, -, hr⟩ := signed_rounds hp hk h
  obtain ⟨v', coms', G0', hG0', hch', -, hr'⟩ := signed_rounds hp hk h'
  obtain rfl := hG0.unique hG0'
  have hG : IsG0 p B (xof p pk.seed) G0 := by rw [hk.1]; exact hG0
  refine ⟨G0, v, v', hG, hch, hch', fun i hi => ?_⟩
  obtain ⟨a1, M, a2, a3, -⟩ := hr i hi
  obtain ⟨b1, M', b2, b3, -⟩ := hr' i hi
  rw [hsalt] at b2
  obtain rfl := IsMonomial.unique a2 b2
  have e := a3.unique b3
  obtain ⟨x, hx1, hx2, hx3⟩ := RoundCommit.answer hp a1 hG
  obtain ⟨y, hy1, hy2, hy3⟩ := RoundCommit.answer hp b1 hG
  rw [← e] at hy3
  exact ⟨x, y, hx1, hy1, C12_extract hp hx2 hy2 hx3 hy3⟩

/-- Two keys and two signatures, with the bytes they use in category 1. -/
example : (Ledger.after Params.cat1Balanced [.keygen, .sign 0 [1], .verify 0, .keygen, .sign 7 [], .sign 1 [2]]).stretches Params.cat1Balanced =
    [(0, 48), (96, 48), (48, 48), (144, 48)] := by decide +kernel

end LESS
