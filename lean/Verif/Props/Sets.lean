import Verif.Props.Api
/-!
# C97: one private key and several parameter sets

The parameter sets of one category differ in the number of key pairs, in `T`, `W` and `SEED_TREE_MAX_PUBLISHED_BYTES` (parameters.h
40-66, 76-103, 109-136).  `LESS_keygen` (LESS.c 40-89) uses of these only the number of key pairs, as a bound of its loops, and no hash
takes in the name of the set.
-/
namespace LESS

open Spec

/-- The two parameter sets have the same category and the same code length and dimension. -/
def SameCodes (p p' : Params) : Prop := p.cat = p'.cat ∧ p.N = p'.N ∧ p.K = p'.K

/-- The bytes of a public key: the seed and the codes one after the other. -/
theorem pubBytes_spec {p : Params} (pk : PubKey p) :
    pubBytes pk = pk.spec.seed ++ ((List.range (p.numKeypairs - 1)).map fun i => (pk.spec.codes i).toList).flatten := by
  unfold pubBytes PubKey.spec
  congr 2
  apply List.ext_getElem
  · simp
  · intro i h1 h2
    simp only [List.length_map, List.length_range] at h2
    simp [g, h2]

/-- The codes that two parameter sets make of one private key are the same, as far as both have them. -/
theorem keyPair_prefix {p p' : Params} (h : SameCodes p p') (hp : p.WF) (hle : p.numKeypairs ≤ p'.numKeypairs) {B B' : Nat}
    {secret seed : List UInt8} {pk : PubKey p} {pk' : PubKey p'} (hk : KeyPair p B ⟨secret, seed⟩ pk.spec)
    (hk' : KeyPair p' B' ⟨secret, seed⟩ pk'.spec) : pubBytes pk <+: pubBytes pk' := by
  obtain ⟨c, n, k, s, t, w, m⟩ := p
  obtain ⟨c', n', k', s', t', w', m'⟩ := p'
  obtain ⟨rfl, rfl, rfl⟩ := h
  have hk'' : KeyPair ⟨c, n, k, s, t, w, m⟩ B' ⟨secret, seed⟩ ⟨pk'.spec.seed, pk'.spec.codes⟩ :=
    ⟨hk'.1, fun i hi => hk'.2 i (by dsimp only at hle hi ⊢; omega)⟩
  obtain ⟨h1, h2⟩ := hk.unique hp hk''
  rw [pubBytes_spec, pubBytes_spec, h1]
  dsimp only at hle h2 ⊢
  rw [List.prefix_append_right_inj]
  obtain ⟨d, hd⟩ : ∃ d, s' - 1 = (s - 1) + d := ⟨s' - s, by have := hp.numKeypairs_ge; dsimp only at this; omega⟩
  rw [hd, List.range_add, List.map_append, List.flatten_append]
  refine ⟨(((List.range d).map (s - 1 + ·)).map fun i => (pk'.spec.codes i).toList).flatten, ?_⟩
  congr 2
  refine List.map_congr_left fun i hi => ?_
  rw [h2 i (List.mem_range.mp hi)]
  rfl

theorem streamAt_same {p p' : Params} (h : SameCodes p p') {st : Inc} {s : Stream} (hs : StreamAt p st s) : StreamAt p' st s := by
  obtain ⟨c, n, k, s, t, w, m⟩ := p
  obtain ⟨c', n', k', s', t', w', m'⟩ := p'
  obtain ⟨rfl, rfl, rfl⟩ := h
  exact hs

theorem rngOk_same {p p' : Params} (h : SameCodes p p') {st : Inc} (hs : RngOk p st) : RngOk p' st := by
  obtain ⟨c, n, k, s, t, w, m⟩ := p
  obtain ⟨c', n', k', s', t', w', m'⟩ := p'
  obtain ⟨rfl, rfl, rfl⟩ := h
  exact hs

theorem keyFits_same {p p' : Params} (h : SameCodes p p') (hle : p.numKeypairs ≤ p'.numKeypairs) {B : Nat} {s : Stream}
    (hk : KeyFits p' B (skOf p' s)) : KeyFits p B (skOf p s) := by
  obtain ⟨c, n, k, s, t, w, m⟩ := p
  obtain ⟨c', n', k', s', t', w', m'⟩ := p'
  obtain ⟨rfl, rfl, rfl⟩ := h
  exact ⟨hk.1, fun i hi => hk.2 i (by dsimp only at hle hi ⊢; omega)⟩

theorem skOf_same {p p' : Params} (h : SameCodes p p') (s : Stream) : (skOf p s).secret = (skOf p' s).secret ∧ (skOf p s).seed = (skOf p' s).seed := by
  obtain ⟨c, n, k, s, t, w, m⟩ := p
  obtain ⟨c', n', k', s', t', w', m'⟩ := p'
  obtain ⟨rfl, rfl, rfl⟩ := h
  exact ⟨rfl, rfl⟩

/-- C97 is false: from one state of the generator two parameter sets of a category make the same private key, and the public key of
the set with fewer key pairs is the start of the public key of the other. -/
theorem C97_fails_prefix {p p' : Params} (h : SameCodes p p') (hp : p.WF) (hp' : p'.WF) (hle : p.numKeypairs ≤ p'.numKeypairs)
    {rng r r' : Inc} (hr : RngOk p rng) {fuel fuel' : Nat} {sl : Nat → Stale p} {sl' : Nat → Stale p'} {pk : Vector UInt8 p.pkLen}
    {sk : Vector UInt8 p.skLen} {pk' : Vector UInt8 p'.pkLen} {sk' : Vector UInt8 p'.skLen}
    (e : cryptoSignKeypair fuel sl rng = .ok (pk, sk, r)) (e' : cryptoSignKeypair fuel' sl' rng = .ok (pk', sk', r')) :
    sk.toList = sk'.toList ∧ pk.toList <+: pk'.toList := by
  obtain ⟨s, hs⟩ := exists_stream p rng hr
  have hs' := streamAt_same h hs
  unfold cryptoSignKeypair at e e'
  cases hk : lessKeygen fuel sl rng with
  | error x => rw [hk] at e; cases e
  | ok x =>
    cases hk' : lessKeygen fuel' sl' rng with
    | error x => rw [hk'] at e'; cases e'
    | ok x' =>
      rw [hk] at e
      rw [hk'] at e'
      cases e
      cases e'
      obtain ⟨h1, h2, -⟩ := (lessKeygen_wp hp fuel sl rng s hs).of_ok hk
      obtain ⟨h1', h2', -⟩ := (lessKeygen_wp hp' fuel' sl' rng s hs').of_ok hk'
      obtain ⟨a, b⟩ := skOf_same h s
      rw [toVec_toList (priBytes_length _), toVec_toList (priBytes_length _), toVec_toList (pubBytes_length _),
        toVec_toList (pubBytes_length _)]
      constructor
      · have q1 := congrArg SK.secret h1
        have q2 := congrArg SK.seed h1
        have q3 := congrArg SK.secret h1'
        have q4 := congrArg SK.seed h1'
        rw [a] at q1
        rw [b] at q2
        unfold priBytes
        exact congrArg₂ _ (q1.trans q3.symm) (q2.trans q4.symm)
      · refine keyPair_prefix h hp hle (secret := (skOf p s).secret) (seed := (skOf p s).seed) (B' := fuel') h2 ?_
        rw [a, b]
        exact h2'

/-- C97 is false: where the set with more key pairs makes a key, the other makes the same private key from the same state, and for public
key the first bytes of its public key. -/
theorem C97_fails_keygen {p p' : Params} (h : SameCodes p p') (hp : p.WF) (hp' : p'.WF) (hle : p.numKeypairs ≤ p'.numKeypairs)
    {rng r' : Inc} (hr : RngOk p rng) {fuel' : Nat} {sl' : Nat → Stale p'} {pk' : Vector UInt8 p'.pkLen} {sk' : Vector UInt8 p'.skLen}
    (e' : cryptoSignKeypair fuel' sl' rng = .ok (pk', sk', r')) (sl : Nat → Stale p) :
    ∃ r, cryptoSignKeypair fuel' sl rng = .ok (toVec p.pkLen (pk'.toList.take p.pkLen), toVec p.skLen sk'.toList, r) := by
  obtain ⟨s, hs⟩ := exists_stream p rng hr
  have hfit : KeyFits p' fuel' (skOf p' s) :=
    ((cryptoSignKeypair_wp hp' fuel' sl' rng s (streamAt_same h hs)).of_ok e').2.1.fits hp'
  obtain ⟨⟨pk, sk, r⟩, e, -⟩ := ((cryptoSignKeypair_wp hp fuel' sl rng s hs).monoF
    (fun x => x (keyFits_same h hle hfit))).exists_ok
  obtain ⟨q1, q2⟩ := C97_fails_prefix h hp hp' hle hr e e'
  have q3 : pk'.toList.take p.pkLen = pk.toList := by
    have := List.prefix_iff_eq_take.mp q2
    rw [this]
    simp
  rw [q3, ← q1, toVec_of_toList, toVec_of_toList]
  exact ⟨r, e⟩

/-- C97 is false: the private key of a set works for every set of the category with at most as many key pairs.  What it signs with
the other set opens with the other set, under the first bytes of the public key. -/
theorem C97_fails_signs {p p' : Params} (h : SameCodes p p') (hp : p.WF) (hp' : p'.WF) (hle : p.numKeypairs ≤ p'.numKeypairs)
    {rng r' : Inc} (hr : RngOk p rng) {fuel' : Nat} {sl' : Nat → Stale p'} {pk' : Vector UInt8 p'.pkLen} {sk' : Vector UInt8 p'.skLen}
    (e' : cryptoSignKeypair fuel' sl' rng = .ok (pk', sk', r')) {k : Nat} {fuel₂ fuel₃ : Nat} (h₁ : fuel' ≤ fuel₃) (h₂ : fuel₂ ≤ fuel₃)
    {sl₂ : Nat → Stale p} {rng₂ rng₂' : Inc} (hr₂ : RngOk p rng₂) {m : Bytes} {sm sm' : Vector UInt8 k} {smlen : Nat}
    (hk : m.length + p.sigLen ≤ k) (hk64 : m.length + p.sigLen < 2 ^ 64)
    (hsign : cryptoSign fuel₂ sl₂ rng₂ sm m (toVec p.skLen sk'.toList) = .ok (sm', smlen, rng₂')) (sl₃ : Nat → Stale p) {mcap : Nat}
    (hm : m.length ≤ mcap) (hcount : (g sm' (smlen - 1)).toNat < p.maxPublishedSeeds) :
    cryptoSignOpen fuel₃ sl₃ mcap (firstBytes sm' smlen) (toVec p.pkLen (pk'.toList.take p.pkLen)) = .ok (0, some m) := by
  obtain ⟨r, e⟩ := C97_fails_keygen h hp hp' hle hr e' sl₃
  rw [C02_round_trip_partial hp h₁ h₂ hr hr₂ e hk hk64 hsign sl₃ hm, if_pos hcount]

/-- C97, the part that holds: the seven public keys have seven lengths.  Missing: the private keys of a category all have one
length, and nothing in a key says which set it was made for. -/
theorem C97_lengths_partial : ∀ p ∈ Params.all, ∀ p' ∈ Params.all,
    (p.pkLen = p'.pkLen ↔ p = p') ∧ (p.skLen = p'.skLen ↔ p.cat = p'.cat) ∧ (SameCodes p p' ↔ p.cat = p'.cat) := by
  unfold SameCodes
  decide

end LESS
