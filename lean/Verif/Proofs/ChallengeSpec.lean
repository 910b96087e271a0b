import Verif.Proofs.Stream
import Verif.Proofs.Challenge
/-!
# The challenge as specified
-/
namespace LESS
open Spec

variable {p : Params} {F : Prop}

theorem bitsToRepresent_eq_width {n : Nat} (h : n < 65536) : bitsToRepresent n = width n := by
  unfold width
  by_cases h0 : n = 0
  · subst h0; decide
  · obtain ⟨h1, _, h3, h4⟩ := bits_spec (Nat.pos_of_ne_zero h0) h
    have : Nat.log2 n = bitsToRepresent n - 1 := by
      rw [Nat.log2_eq_iff h0]
      exact ⟨h3, by rwa [Nat.sub_add_cancel h1]⟩
    omega

theorem bits_le {n m : Nat} (h : n < 2 ^ m) (hm : m ≤ 16) (hm0 : 1 ≤ m) : bitsToRepresent n ≤ m := by
  by_cases h0 : n = 0
  · subst h0; have : bitsToRepresent 0 = 1 := by decide
    omega
  · have hlt : n < 65536 := lt_of_lt_of_le h (Nat.pow_le_pow_right (n := 2) (by decide) hm)
    obtain ⟨h1, _, h3, h4⟩ := bits_spec (Nat.pos_of_ne_zero h0) hlt
    by_contra hc
    have : 2 ^ m ≤ 2 ^ (bitsToRepresent n - 1) := Nat.pow_le_pow_right (by decide) (by omega)
    omega

theorem value_eq (hp : p.WF) (x : Nat) :
    u8 (x &&& (2 ^ bitsToRepresent (p.numKeypairs - 1) - 1)) = x % 2 ^ width (p.numKeypairs - 1) := by
  have := hp.numKeypairs_le
  have hle := bits_le (n := p.numKeypairs - 1) (m := 8) (by omega) (by decide) (by decide)
  rw [Nat.and_two_pow_sub_one_eq_mod, ← bitsToRepresent_eq_width (by omega)]
  have h1 := Nat.mod_lt x (Nat.two_pow_pos (bitsToRepresent (p.numKeypairs - 1)))
  have h2 : 2 ^ bitsToRepresent (p.numKeypairs - 1) ≤ 2 ^ 8 := Nat.pow_le_pow_right (by decide) hle
  unfold u8; omega

theorem pos_eq (hp : p.WF) (x : Nat) :
    ((x >>> bitsToRepresent (p.numKeypairs - 1)) % p.posMod &&& (2 ^ bitsToRepresent (p.T - 1) - 1)) % p.posMod =
      x / 2 ^ width (p.numKeypairs - 1) % 2 ^ width (p.T - 1) := by
  have hT := hp.T_lt
  have hTp := hp.T_le_pos
  have hK := hp.numKeypairs_le
  have hW := hp.W_pos
  have hWT := hp.W_le_T
  rw [Nat.shiftRight_eq_div_pow, Nat.and_two_pow_sub_one_eq_mod, ← bitsToRepresent_eq_width (by omega),
    ← bitsToRepresent_eq_width (n := p.T - 1) (by omega)]
  obtain ⟨m, hm, hm16, hm0⟩ : ∃ m, p.posMod = 2 ^ m ∧ m ≤ 16 ∧ 1 ≤ m := by
    unfold Params.posMod
    cases p.cat
    · exact ⟨8, by decide⟩
    · exact ⟨16, by decide⟩
    · exact ⟨16, by decide⟩
  have hle := bits_le (n := p.T - 1) (m := m) (by rw [← hm]; omega) hm16 hm0
  rw [hm, Nat.mod_mod_of_dvd _ (Nat.pow_dvd_pow 2 hle), Nat.mod_eq_of_lt]
  exact lt_of_lt_of_le (Nat.mod_lt _ (Nat.two_pow_pos _)) (Nat.pow_le_pow_right (by decide) hle)

theorem weight_eq_card (T : Nat) (v : Nat → Nat) :
    weight T v = ((Finset.range T).filter fun k => v k ≠ 0).card := by
  unfold weight
  rw [← List.toFinset_card_of_nodup (List.nodup_range.filter _)]
  congr 1
  ext k; simp

theorem weight_support {T : Nat} (fws : Vector Nat T) {v : Nat → Nat} (h : ∀ k < T, g fws k = v k) :
    weight T v = (support fws).card := by
  rw [weight_eq_card]
  congr 1
  ext k
  simp only [support, Finset.mem_filter, Finset.mem_range]
  constructor
  · rintro ⟨h1, h2⟩; exact ⟨h1, by rw [h k h1]; exact h2⟩
  · rintro ⟨h1, h2⟩; exact ⟨h1, by rw [← h k h1]; exact h2⟩

theorem Spec.IsChallenge.mono {B B' : Nat} {s : Stream} {v} (h : IsChallenge p B s v) (hB : B ≤ B') : IsChallenge p B' s v := by
  obtain ⟨n, h1, h2⟩ := h
  exact ⟨n, h1.trans hB, h2⟩

theorem Spec.IsChallenge.unique {B B' : Nat} {s : Stream} {v v'} (h : IsChallenge p B s v) (h' : IsChallenge p B' s v') :
    v = v' := by
  obtain ⟨n, _, rfl, h2, h3⟩ := h
  obtain ⟨n', _, rfl, h2', h3'⟩ := h'
  have : n = n' := by
    rcases Nat.lt_trichotomy n n' with h | h | h
    · have := h3' n h; omega
    · exact h
    · have := h3 n' h; omega
  rw [this]

theorem challengeAfter_range (s : Stream) (hK : 0 < p.numKeypairs) (n k : Nat) :
    challengeAfter p s n k < p.numKeypairs ∧ (p.T ≤ k → challengeAfter p s n k = 0) := by
  induction n with
  | zero => exact ⟨hK, fun _ => rfl⟩
  | succ n ih =>
    rw [challengeAfter, challengeStep]
    split
    next h =>
      rw [Function.update_apply]
      split
      next e => subst e; exact ⟨h.1, fun h' => by omega⟩
      next => exact ih
    next => exact ih

theorem Spec.IsChallenge.range {B : Nat} {s : Stream} {v} (h : IsChallenge p B s v) (hK : 0 < p.numKeypairs) (k : Nat) :
    v k < p.numKeypairs ∧ (p.T ≤ k → v k = 0) := by
  obtain ⟨n, _, rfl, _⟩ := h
  exact challengeAfter_range s hK n k

theorem Spec.IsChallenge.weight {B : Nat} {s : Stream} {v} (h : IsChallenge p B s v) : weight p.T v = p.W := by
  obtain ⟨n, _, _, h, _⟩ := h; exact h

theorem expandDigestLoop_spec (hp : p.WF) (fuel : Nat) (st : Inc) (s : Stream) (n : Nat) (fws : Vector Nat p.T)
    (hst : StreamAt p st (s.drop (2 * n))) (hv : ∀ k < p.T, g fws k = challengeAfter p s n k)
    (hle : Spec.weight p.T (challengeAfter p s n) ≤ p.W) (hmin : ∀ n' < n, Spec.weight p.T (challengeAfter p s n') < p.W) :
    Wp (¬ ∃ v, IsChallenge p (n + fuel) s v)
      (expandDigestLoop p fuel st (Spec.weight p.T (challengeAfter p s n)) fws)
      (fun r => IsChallenge p (n + fuel) s (g r)) := by
  have hK := hp.numKeypairs_ge
  have done : ∀ B, n ≤ B → ¬ Spec.weight p.T (challengeAfter p s n) < p.W → IsChallenge p B s (g fws) := by
    intro B hB hw
    refine ⟨n, hB, ?_, ?_, hmin⟩
    · funext k
      by_cases hk : k < p.T
      · exact hv k hk
      · rw [(challengeAfter_range s (by omega) n k).2 (by omega)]
        unfold g; rw [dif_neg hk]; rfl
    · rw [weight_support fws (fun _ _ => rfl), ← weight_support fws hv]; omega
  induction fuel generalizing st n fws with
  | zero =>
    unfold expandDigestLoop
    by_cases hw : Spec.weight p.T (challengeAfter p s n) < p.W
    · simp only [hw, if_true, Wp.fuel_iff]
      rintro ⟨v, n', h1, rfl, h3, _⟩
      rcases Nat.lt_or_ge n' n with h | h
      · have := hmin n' h; omega
      · have : n' = n := by omega
        subst this; omega
    · simp only [hw, if_false, Wp.pure_iff]
      exact done _ (by omega) hw
  | succ fuel ih =>
    unfold expandDigestLoop
    by_cases hw : Spec.weight p.T (challengeAfter p s n) < p.W
    · rw [if_pos hw, ← Prod.mk.eta (p := csprngBytes p 2 st)]
      dsimp only
      have hnext := hst.next 2
      rw [drop_drop, show 2 * n + 2 = 2 * (n + 1) by ring] at hnext
      rw [hst.2 2, leNat_take, value_eq hp, pos_eq hp]
      have hmin' : ∀ n' < n + 1, Spec.weight p.T (challengeAfter p s n') < p.W := by
        intro n' hn'
        rcases Nat.lt_succ_iff_lt_or_eq.mp hn' with h | h
        · exact hmin n' h
        · subst h; exact hw
      have hstep : challengeAfter p s (n + 1) = challengeStep p (challengeAfter p s n) ((s.drop (2 * n)).word 2) := rfl
      unfold challengeStep at hstep
      dsimp only at hstep
      generalize (s.drop (2 * n)).word 2 % 2 ^ width (p.numKeypairs - 1) = value at hstep ⊢
      generalize (s.drop (2 * n)).word 2 / 2 ^ width (p.numKeypairs - 1) % 2 ^ width (p.T - 1) = pos at hstep ⊢
      have again : challengeAfter p s (n + 1) = challengeAfter p s n →
          Wp (¬ ∃ v, IsChallenge p (n + (fuel + 1)) s v)
            (expandDigestLoop p fuel (csprngBytes p 2 st).2 (Spec.weight p.T (challengeAfter p s n)) fws)
            (fun r => IsChallenge p (n + (fuel + 1)) s (g r)) := by
        intro e
        have := ih (csprngBytes p 2 st).2 (n + 1) fws hnext (by rw [e]; exact hv) (by rw [e]; exact hle) hmin'
          (fun B hB hw' => absurd hw (by rw [← e]; exact hw'))
        rwa [show n + 1 + fuel = n + (fuel + 1) by omega, e] at this
      by_cases h1 : p.numKeypairs ≤ value
      · rw [if_pos h1]
        exact again (by rw [hstep, if_neg (by omega)])
      · rw [if_neg h1]
        by_cases h2 : p.T ≤ pos
        · rw [if_pos h2]
          exact again (by rw [hstep, if_neg (by omega)])
        · rw [if_neg h2, Wp.bind_iff, Wp.rd_iff]
          refine ⟨by omega, ?_⟩
          by_cases h3 : g fws pos ≠ 0
          · rw [if_pos h3]
            exact again (by rw [hstep, if_neg]; rintro ⟨_, _, h⟩; exact h3 (by rw [hv pos (by omega), h]))
          · rw [if_neg h3, Wp.bind_iff, Wp.wr_iff]
            refine ⟨by omega, ?_⟩
            rw [not_not] at h3
            rw [if_pos ⟨by omega, by omega, by rw [← hv pos (by omega), h3]⟩] at hstep
            have hv' : ∀ k < p.T, g (upd fws pos value) k = challengeAfter p s (n + 1) k := by
              intro k hk
              rw [g_upd _ _ _ _ (by omega), hstep, Function.update_apply]
              by_cases e : pos = k
              · rw [if_pos e, if_pos e.symm]
              · rw [if_neg e, if_neg (Ne.symm e), hv k hk]
            have hwt : Spec.weight p.T (challengeAfter p s (n + 1)) =
                Spec.weight p.T (challengeAfter p s n) + b2n (value ≠ 0) := by
              rw [weight_support _ hv', weight_support _ hv, support_upd _ _ _ (by omega) h3]
            have hle' : Spec.weight p.T (challengeAfter p s (n + 1)) ≤ p.W := by
              rw [hwt]; unfold b2n; split <;> omega
            have := ih (csprngBytes p 2 st).2 (n + 1) (upd fws pos value) hnext hv' hle' hmin' (by
              intro B hB hw'
              refine ⟨n + 1, hB, ?_, ?_, hmin'⟩
              · funext k
                by_cases hk : k < p.T
                · exact hv' k hk
                · rw [(challengeAfter_range s (by omega) (n + 1) k).2 (by omega)]
                  unfold g; rw [dif_neg hk]; rfl
              · rw [weight_support (upd fws pos value) (fun _ _ => rfl), ← weight_support _ hv']; omega)
            rw [hwt] at this
            rwa [show n + 1 + fuel = n + (fuel + 1) by omega] at this
    · rw [if_neg hw, Wp.pure_iff]
      exact done _ (by omega) hw

/-- utils.c:36-62 computes the challenge of the specification. -/
theorem expandDigest_spec (hp : p.WF) (fuel : Nat) (digest : Bytes) :
    Wp (¬ ∃ v, IsChallenge p fuel (xof p digest) v) (expandDigest fuel (Vector.replicate p.T 0) digest)
      (fun r => IsChallenge p fuel (xof p digest) (g r)) := by
  have := expandDigestLoop_spec hp fuel (initCsprng p digest) (xof p digest) 0 (Vector.replicate p.T 0)
    (by rw [Nat.mul_zero, drop_zero]; exact xof_at p digest)
    (fun k hk => by rw [g_replicate _ _ hk]; rfl)
    (by simp [Spec.weight, challengeAfter]) (fun _ h => by omega)
  rw [Nat.zero_add] at this
  have e : Spec.weight p.T (challengeAfter p (xof p digest) 0) = 0 := by simp [Spec.weight, challengeAfter]
  rw [e] at this
  exact this

end LESS
