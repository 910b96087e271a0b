import Verif.Proofs.SeedCount
import Verif.Props.Challenges
import Verif.Props.Api
import Verif.Props.Forger
/-!
# C91: the share of honest signatures that opening refuses
-/
namespace LESS
open Spec

variable {p : Params}

namespace Spec

/-- The sets of rounds of the size of a challenge for which signing publishes `x` seeds. -/
def roundSets (p : Params) (x : Nat) : Finset (Finset Nat) :=
  ((Finset.range p.T).powersetCard p.W).filter fun H =>
    (publishedNodes p.numLeaves p.T fun k => decide (k ∈ H)).length = x

/-- The `k` numbers determine a challenge for which signing publishes `x` seeds. -/
def Draws (p : Params) (x : Nat) (ws : List Nat) : Prop :=
  ∃ v, digestWords p ws 0 (noChallenge p) = .ok v ∧ (publishedNodes p.numLeaves p.T (hides (g v))).length = x

end Spec

theorem hiddenSet_mem {T : Nat} {H : Finset Nat} (h : H ⊆ Finset.range T) : hiddenSet T (fun k => decide (k ∈ H)) = H := by
  ext k
  simp only [hiddenSet, Finset.mem_filter, decide_eq_true_eq]
  exact ⟨fun h => h.2, fun hk => ⟨h hk, hk⟩⟩

theorem published_nodesAbove (hp : p.WF) {H : Finset Nat} (h : H ∈ (Finset.range p.T).powersetCard p.W) :
    (publishedNodes p.numLeaves p.T fun k => decide (k ∈ H)).length + p.W = nodesAbove (bitsToRepresent p.T) H + 1 := by
  obtain ⟨h1, h2⟩ := Finset.mem_powersetCard.mp h
  have hne : ∃ k < p.T, (fun k => decide (k ∈ H)) k = true := by
    obtain ⟨k, hk⟩ := Finset.card_pos.mp (h2 ▸ hp.W_pos)
    exact ⟨k, Finset.mem_range.mp (h1 hk), decide_eq_true hk⟩
  have := publishedNodes_length (d := bitsToRepresent p.T) (T := p.T) hp.T_lt_leaves.le hne
  rw [hiddenSet_mem h1, h2] at this
  unfold levelCount at this
  rw [hiddenSet_mem h1] at this
  exact this

/-- C91: the number of sets of rounds for which `x` seeds are published, for every parameter set and every `x`: a digit
of a number that is computed by a recursion over the tree. -/
theorem C91_distribution (hp : p.WF) (x : Nat) (hx : x + p.W ≤ p.numLeaves) :
    (roundSets p x).card = seedDist (bitsToRepresent p.T) p.T p.W (x + p.W - 1) := by
  have hW := hp.W_pos
  rw [← seedDist_eq hp.T_lt_leaves.le _ _ (by unfold Params.numLeaves at hx; omega)]
  unfold roundSets
  congr 1
  apply Finset.filter_congr
  intro H hH
  have := published_nodesAbove hp hH
  omega

/-- C91: category 1, balanced: the sets of rounds for which opening refuses. -/
theorem C91_balanced : (roundSets .cat1Balanced Params.cat1Balanced.maxPublishedSeeds).card = 105 * 2 ^ 88 := by
  rw [C91_distribution cat1Balanced_WF _ (by decide)]
  decide +kernel

/-- C91: category 1, intermediate. -/
theorem C91_intermediate : (roundSets .cat1Intermediate Params.cat1Intermediate.maxPublishedSeeds).card = 1365 * 2 ^ 70 := by
  rw [C91_distribution cat1Intermediate_WF _ (by decide)]
  decide +kernel

/-- C91: in no parameter set more seeds than `MAX_PUBLISHED_SEEDS` are published, in the other five not as many. -/
theorem C91_others (hp : p ∈ Params.all) (x : Nat) (hx : p.maxPublishedSeeds ≤ x)
    (h : p ≠ .cat1Balanced ∧ p ≠ .cat1Intermediate ∨ p.maxPublishedSeeds < x) : roundSets p x = ∅ := by
  have hWF := Params.all_WF p hp
  unfold roundSets
  rw [Finset.filter_eq_empty_iff]
  intro H hH e
  obtain ⟨h1, h2⟩ := Finset.mem_powersetCard.mp hH
  have hle := pubCount_le_worst hWF (fun k => decide (k ∈ H)) (by rw [hiddenSet_mem h1, h2])
  have hmax : p.worstSeeds ≤ p.maxPublishedSeeds ∧
      (p ≠ .cat1Balanced ∧ p ≠ .cat1Intermediate → p.worstSeeds < p.maxPublishedSeeds) := by
    clear hle e hH h1 h2 h hx hWF
    revert p
    decide
  have : x ≤ p.worstSeeds := e ▸ hle
  rcases h with h | h
  · have := hmax.2 h; omega
  · omega

/-! ## Challenges -/

theorem support_challenge (c : Choice p) : support c.challenge = c.1.1.map Fin.valEmbedding := by
  ext k
  simp only [support, Finset.mem_filter, Finset.mem_range, Finset.mem_map, Fin.valEmbedding_apply]
  constructor
  · rintro ⟨hk, h⟩
    exact ⟨⟨k, hk⟩, (c.mem_iff ⟨k, hk⟩).mpr h, rfl⟩
  · rintro ⟨i, hi, rfl⟩
    exact ⟨i.2, (c.mem_iff i).mp hi⟩

theorem card_setsOf (S : Finset Nat → Prop) [DecidablePred S] :
    Nat.card {s : {s : Finset (Fin p.T) // s.card = p.W} // S (s.1.map Fin.valEmbedding)} =
      (((Finset.range p.T).powersetCard p.W).filter S).card := by
  rw [← Nat.card_eq_finsetCard]
  refine Nat.card_congr (Equiv.ofBijective (fun s => ⟨s.1.1.map Fin.valEmbedding, ?_⟩) ⟨?_, ?_⟩)
  · rw [Finset.mem_filter, Finset.mem_powersetCard]
    refine ⟨⟨fun k hk => ?_, by rw [Finset.card_map, s.1.2]⟩, s.2⟩
    obtain ⟨i, _, rfl⟩ := Finset.mem_map.mp hk
    exact Finset.mem_range.mpr i.2
  · intro s s' h
    have h := congrArg Subtype.val h
    dsimp only at h
    exact Subtype.ext (Subtype.ext (Finset.map_injective _ h))
  · rintro ⟨H, hH⟩
    obtain ⟨h1, h2⟩ := Finset.mem_filter.mp hH
    obtain ⟨h3, h4⟩ := Finset.mem_powersetCard.mp h1
    have e : (H.attach.map ⟨fun k => (⟨k.1, Finset.mem_range.mp (h3 k.2)⟩ : Fin p.T), fun a b h => by
        apply Subtype.ext; simpa using h⟩).map Fin.valEmbedding = H := by
      ext k
      constructor
      · intro h
        obtain ⟨_, h5, rfl⟩ := Finset.mem_map.mp h
        obtain ⟨⟨a, ha⟩, _, rfl⟩ := Finset.mem_map.mp h5
        exact ha
      · intro hk
        exact Finset.mem_map.mpr ⟨⟨k, Finset.mem_range.mp (h3 hk)⟩,
          Finset.mem_map.mpr ⟨⟨k, hk⟩, Finset.mem_attach _ _, rfl⟩, rfl⟩
    refine ⟨⟨⟨H.attach.map ⟨fun k => (⟨k.1, Finset.mem_range.mp (h3 k.2)⟩ : Fin p.T), fun a b h => by
        apply Subtype.ext; simpa using h⟩, by simp [h4]⟩, by rw [e]; exact h2⟩, ?_⟩
    apply Subtype.ext
    exact e

theorem card_challenges (hp : p.WF) (S : Finset Nat → Prop) [DecidablePred S] :
    Nat.card {v : {v : Vector Nat p.T // Challenge p v} // S (support v.1)} =
      (((Finset.range p.T).powersetCard p.W).filter S).card * (p.numKeypairs - 1) ^ p.W := by
  classical
  rw [← card_setsOf]
  have e1 : {c : Choice p // S (c.1.1.map Fin.valEmbedding)} ≃ {v : {v : Vector Nat p.T // Challenge p v} // S (support v.1)} := by
    refine Equiv.subtypeEquiv (Equiv.ofBijective _ (Choice.bijective hp)) fun c => ?_
    rw [← support_challenge]
    rfl
  rw [← Nat.card_congr e1, Nat.card_congr (Equiv.subtypeSigmaEquiv
    (fun s : {s : Finset (Fin p.T) // s.card = p.W} => s.1 → Fin (p.numKeypairs - 1)) fun s => S (s.1.map Fin.valEmbedding)),
    Nat.card_sigma]
  have : ∀ s : {s : {s : Finset (Fin p.T) // s.card = p.W} // S (s.1.map Fin.valEmbedding)},
      Nat.card (s.1.1 → Fin (p.numKeypairs - 1)) = (p.numKeypairs - 1) ^ p.W := by
    intro s
    rw [Nat.card_eq_fintype_card, Fintype.card_fun, Fintype.card_fin, Fintype.card_coe, s.1.2]
  rw [Finset.sum_congr rfl (fun s _ => this s), Finset.sum_const, Finset.card_univ, smul_eq_mul, Nat.card_eq_fintype_card]

theorem hides_support {v : Vector Nat p.T} : publishedNodes p.numLeaves p.T (hides (g v)) =
    publishedNodes p.numLeaves p.T fun k => decide (k ∈ support v) := by
  congr 1
  funext k
  by_cases hk : k < p.T
  · simp [hides, support, hk]
  · simp [hides, support, hk, g]

/-- Every challenge is drawn equally often, so sequences of numbers are counted by counting challenges. -/
theorem card_draws (hp : p ∈ Params.all) (k : Nat) (S : Finset Nat → Prop) [DecidablePred S] {v : Vector Nat p.T}
    (hv : Challenge p v) :
    Nat.card {ws : Words 16 k // ∃ v, digestWords p ws.1 0 (noChallenge p) = .ok v ∧ S (support v)} =
      (((Finset.range p.T).powersetCard p.W).filter S).card * ((p.numKeypairs - 1) ^ p.W *
        Nat.card {ws : Words 16 k // digestWords p ws.1 0 (noChallenge p) = .ok v}) := by
  classical
  have hWF := Params.all_WF p hp
  have : Finite {v : Vector Nat p.T // Challenge p v} := Finite.of_equiv _ (Equiv.ofBijective _ (Choice.bijective hWF))
  have := Fintype.ofFinite {v : {v : Vector Nat p.T // Challenge p v} // S (support v.1)}
  have e : Nat.card (Σ u : {v : {v : Vector Nat p.T // Challenge p v} // S (support v.1)},
      {ws : Words 16 k // digestWords p ws.1 0 (noChallenge p) = .ok u.1.1}) =
      Nat.card {v : {v : Vector Nat p.T // Challenge p v} // S (support v.1)} *
        Nat.card {ws : Words 16 k // digestWords p ws.1 0 (noChallenge p) = .ok v} := by
    rw [Nat.card_sigma, Finset.sum_congr rfl (fun u _ => C59_parameter_sets hp k u.1.2 hv), Finset.sum_const, Finset.card_univ,
      smul_eq_mul, Nat.card_eq_fintype_card (α := {v : {v : Vector Nat p.T // Challenge p v} // S (support v.1)})]
  rw [← Nat.mul_assoc, ← card_challenges hWF S, ← e]
  refine Nat.card_congr (Equiv.ofBijective (fun x => ⟨x.2.1, x.1.1.1, x.2.2, x.1.2⟩) ⟨?_, ?_⟩).symm
  · rintro ⟨⟨⟨u, hu⟩, hs⟩, ⟨ws, hws⟩⟩ ⟨⟨⟨u', hu'⟩, hs'⟩, ⟨ws', hws'⟩⟩ h
    have h := congrArg Subtype.val h
    dsimp only at h
    subst h
    have : u = u' := by
      have := hws.symm.trans hws'
      injection this
    subst this
    rfl
  · rintro ⟨ws, u, hu, hs⟩
    exact ⟨⟨⟨⟨u, noChallenge_challenge hWF hu⟩, hs⟩, ⟨ws, hu⟩⟩, rfl⟩

theorem challenge_exists (hp : p.WF) : ∃ v : Vector Nat p.T, Challenge p v := by
  have h := C62_count hp
  have hpos : 0 < Nat.card {v : Vector Nat p.T // Challenge p v} := by
    rw [h]
    have := hp.numKeypairs_ge
    exact Nat.mul_pos (Nat.choose_pos hp.W_le_T) (Nat.pow_pos (by omega))
  obtain ⟨⟨v, hv⟩⟩ := (Nat.card_pos_iff.mp hpos).1
  exact ⟨v, hv⟩

/-- C91: the share of the sequences of numbers determining a challenge for which `x` seeds are published is that of the sets
of rounds, for any number of numbers: `#draws / #sequences = #sets / choose T W`. -/
theorem C91_words (hp : p ∈ Params.all) (k x : Nat) :
    Nat.card {ws : Words 16 k // Draws p x ws.1} * p.T.choose p.W =
      (roundSets p x).card * Nat.card {ws : Words 16 k // ∃ v, digestWords p ws.1 0 (noChallenge p) = .ok v} := by
  have hWF := Params.all_WF p hp
  obtain ⟨v, hv⟩ := challenge_exists hWF
  have h1 := card_draws hp k
    (fun H => (publishedNodes p.numLeaves p.T fun k => decide (k ∈ H)).length = x) hv
  have h2 := card_draws hp k (fun _ => True) hv
  have e1 : Nat.card {ws : Words 16 k // Draws p x ws.1} = Nat.card {ws : Words 16 k //
      ∃ v, digestWords p ws.1 0 (noChallenge p) = .ok v ∧
        (publishedNodes p.numLeaves p.T fun k => decide (k ∈ support v)).length = x} := by
    refine Nat.card_congr (Equiv.subtypeEquivRight fun ws => ?_)
    unfold Draws
    refine exists_congr fun u => ?_
    rw [hides_support]
  have e2 : Nat.card {ws : Words 16 k // ∃ v, digestWords p ws.1 0 (noChallenge p) = .ok v} = Nat.card {ws : Words 16 k //
      ∃ v, digestWords p ws.1 0 (noChallenge p) = .ok v ∧ True} := by
    refine Nat.card_congr (Equiv.subtypeEquivRight fun ws => ?_)
    exact exists_congr fun u => (and_true _).symm ▸ Iff.rfl
  rw [e1, e2, h1, h2, Finset.filter_true_of_mem (fun _ _ => trivial), Finset.card_powersetCard, Finset.card_range]
  unfold roundSets
  rw [Nat.mul_assoc, Nat.mul_comm (_ * _) (p.T.choose p.W)]

theorem share_between {a b c s lo hi : Nat} (h : a * c = s * b) (hb : 0 < b) (h1 : lo * s < c) (h2 : c < hi * s) :
    b < hi * a ∧ lo * a < b := by
  have hc : 0 < c := by omega
  constructor
  · refine Nat.lt_of_mul_lt_mul_right (a := c) ?_
    calc b * c < b * (hi * s) := Nat.mul_lt_mul_of_pos_left h2 hb
      _ = hi * (s * b) := by ring
      _ = hi * a * c := by rw [← h, Nat.mul_assoc]
  · refine Nat.lt_of_mul_lt_mul_right (a := c) ?_
    calc lo * a * c = lo * s * b := by rw [Nat.mul_assoc, h, Nat.mul_assoc]
      _ < c * b := Nat.mul_lt_mul_of_pos_right h1 hb
      _ = b * c := Nat.mul_comm _ _

theorem sequences_pos (hp : p ∈ Params.all) {k : Nat} (hk : p.W ≤ k) :
    0 < Nat.card {ws : Words 16 k // ∃ v, digestWords p ws.1 0 (noChallenge p) = .ok v} := by
  have hWF := Params.all_WF p hp
  obtain ⟨v, hv⟩ := challenge_exists hWF
  have := C59_all_possible hWF (challenge_bits p hp) hk hv
  obtain ⟨⟨⟨ws, h⟩⟩, hf⟩ := Nat.card_pos_iff.mp this
  have hfin : Finite (Words 16 k) := Nat.finite_of_card_ne_zero (by rw [card_words]; positivity)
  exact Nat.card_pos_iff.mpr ⟨⟨⟨ws, v, h⟩⟩, inferInstance⟩

/-- C91: category 1, intermediate: one in more than 64102 and less than 64103 challenges makes opening refuse. -/
theorem C91_rate_intermediate (k : Nat) (hk : Params.cat1Intermediate.W ≤ k) :
    Nat.card {ws : Words 16 k // ∃ v, digestWords .cat1Intermediate ws.1 0 (noChallenge _) = .ok v} <
        64103 * Nat.card {ws : Words 16 k // Draws .cat1Intermediate Params.cat1Intermediate.maxPublishedSeeds ws.1} ∧
      64102 * Nat.card {ws : Words 16 k // Draws .cat1Intermediate Params.cat1Intermediate.maxPublishedSeeds ws.1} <
        Nat.card {ws : Words 16 k // ∃ v, digestWords .cat1Intermediate ws.1 0 (noChallenge _) = .ok v} := by
  have h := C91_words (p := .cat1Intermediate) (by decide) k Params.cat1Intermediate.maxPublishedSeeds
  rw [C91_intermediate] at h
  have hc : 64102 * (1365 * 2 ^ 70) < Nat.choose 244 20 ∧ Nat.choose 244 20 < 64103 * (1365 * 2 ^ 70) := by
    rw [Nat.choose_eq_descFactorial_div_factorial]
    decide +kernel
  exact share_between h (sequences_pos (by decide) hk) hc.1 hc.2

/-- C91: category 1, balanced: one in about `2 ^ 33.4`. -/
theorem C91_rate_balanced (k : Nat) (hk : Params.cat1Balanced.W ≤ k) :
    Nat.card {ws : Words 16 k // ∃ v, digestWords .cat1Balanced ws.1 0 (noChallenge _) = .ok v} <
        11172750834 * Nat.card {ws : Words 16 k // Draws .cat1Balanced Params.cat1Balanced.maxPublishedSeeds ws.1} ∧
      11172750833 * Nat.card {ws : Words 16 k // Draws .cat1Balanced Params.cat1Balanced.maxPublishedSeeds ws.1} <
        Nat.card {ws : Words 16 k // ∃ v, digestWords .cat1Balanced ws.1 0 (noChallenge _) = .ok v} := by
  have h := C91_words (p := .cat1Balanced) (by decide) k Params.cat1Balanced.maxPublishedSeeds
  rw [C91_balanced] at h
  have hc : 11172750833 * (105 * 2 ^ 88) < Nat.choose 247 30 ∧ Nat.choose 247 30 < 11172750834 * (105 * 2 ^ 88) := by
    rw [Nat.choose_eq_descFactorial_div_factorial]
    decide +kernel
  exact share_between h (sequences_pos (by decide) hk) hc.1 hc.2

/-- C91: what is counted above is what opening refuses: an honest signature is refused if and only if its challenge is one for
which `MAX_PUBLISHED_SEEDS` seeds are published. -/
theorem C91_refused_iff (hp : p.WF) (hmax : p.worstSeeds ≤ p.maxPublishedSeeds) {k : Nat} {fuel₁ fuel₂ fuel₃ : Nat}
    (h₁ : fuel₁ ≤ fuel₃) (h₂ : fuel₂ ≤ fuel₃)
    {sl₁ sl₂ : Nat → Stale p} {rng₁ rng₂ rng₁' rng₂' : Inc} (hr₁ : RngOk p rng₁) (hr₂ : RngOk p rng₂)
    {pk : Vector UInt8 p.pkLen} {sk : Vector UInt8 p.skLen} (hkeygen : cryptoSignKeypair fuel₁ sl₁ rng₁ = .ok (pk, sk, rng₁'))
    {m : Bytes} {sm sm' : Vector UInt8 k} {smlen : Nat} (hk : m.length + p.sigLen ≤ k) (hk64 : m.length + p.sigLen < 2 ^ 64)
    (hsign : cryptoSign fuel₂ sl₂ rng₂ sm m sk = .ok (sm', smlen, rng₂')) (sl₃ : Nat → Stale p) {mcap : Nat} (hm : m.length ≤ mcap) :
    (cryptoSignOpen fuel₃ sl₃ mcap (firstBytes sm' smlen) pk = .ok (-1, none) ↔
      Draws p p.maxPublishedSeeds (drawn p 2 fuel₂ (initCsprng p
        (seg sm' (m.length + p.hashLen + p.W * p.monoBytes) p.hashLen)))) ∧
    (cryptoSignOpen fuel₃ sl₃ mcap (firstBytes sm' smlen) pk ≠ .ok (-1, none) →
      cryptoSignOpen fuel₃ sl₃ mcap (firstBytes sm' smlen) pk = .ok (0, some m)) := by
  have hrt := C02_round_trip_partial hp h₁ h₂ hr₁ hr₂ hkeygen hk hk64 hsign sl₃ hm
  obtain ⟨-, ⟨v, n, hv, hn, -, hc⟩, -, -⟩ := C04_layout hp hr₂ hk hsign
  obtain ⟨fws, e, rfl⟩ := (isChallenge_words hp _ _ _).1 hv
  have hle := pubCount_le_worst hp (hides (g fws)) (by
    obtain ⟨-, -, -, hw, -⟩ := hv
    rw [hiddenSet_card, hw])
  unfold pubCount at hle
  rw [hrt, hc, hn]
  have hD : Draws p p.maxPublishedSeeds (drawn p 2 fuel₂ (initCsprng p
      (seg sm' (m.length + p.hashLen + p.W * p.monoBytes) p.hashLen))) ↔
      (publishedNodes p.numLeaves p.T (hides (g fws))).length = p.maxPublishedSeeds := by
    constructor
    · rintro ⟨u, hu, h⟩
      have : u = fws := by
        have := hu.symm.trans e
        injection this
      rw [← this, h]
    · exact fun h => ⟨fws, e, h⟩
  rw [hD]
  split
  · rename_i h
    refine ⟨⟨fun h => by simp at h, fun h' => absurd h' (by omega)⟩, fun _ => rfl⟩
  · rename_i h
    exact ⟨⟨fun _ => by omega, fun _ => rfl⟩, fun h => absurd rfl h⟩

end LESS
