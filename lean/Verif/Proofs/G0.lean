import Verif.Proofs.Stream
import Verif.Proofs.Pivots
import Verif.Model.Less
/-!
# Compact generator matrices and the expansion of the public code `G0`
-/
namespace LESS
open Spec

variable {p : Params} {F : Prop}

theorem wr2_wp {r c : Nat} {G : Vector (Vector Nat c) r} {i j x : Nat} {P : Vector (Vector Nat c) r → Prop}
    (hi : i < r) (hj : j < c) (h : P (upd2 G i j x)) : Wp F (wr2 G i j x) P := by
  rw [Wp.wr2_iff]; exact ⟨hi, hj, h⟩

theorem g2_upd {r c : Nat} (V : Vector (Vector Nat c) r) (n : Nat) (row : Vector Nat c) (i j : Nat) (hn : n < r) :
    g2 (upd V n row) i j = if n = i then g row j else g2 V i j := by
  unfold g2 upd
  by_cases hi : i < r
  · simp only [hi, hn, dite_true, Vector.getElem_set]
    split <;> rfl
  · simp only [hi, dite_false]
    rw [if_neg (by omega)]

/-- Writing one column. -/
theorem writeCol_wp {r c : Nat} (G : Vector (Vector Nat c) r) (j : Nat) (hj : j < c) (h : Nat → C Nat) (x : Nat → Nat)
    (hx : ∀ i, i < r → h i = .ok (x i)) :
    Wp F (forUp r (fun row full => do let v ← h row; wr2 full row j v) G) (fun R =>
      ∀ i k, i < r → k < c → g2 R i k = if k = j then x i else g2 G i k) := by
  refine Wp.forUp (fun n R => ∀ i k, i < r → k < c → g2 R i k = if k = j ∧ i < n then x i else g2 G i k)
    (fun i k _ _ => by rw [if_neg (by omega)]) ?_ ?_
  · intro n R hn hR
    rw [hx n hn, Wp.bind_iff]
    refine wr2_wp hn hj ?_
    intro i k hi hk
    rw [g2_upd2 _ _ _ _ _ _ hn hj, hR i k hi hk]
    by_cases h1 : n = i ∧ j = k
    · rw [if_pos h1, if_pos ⟨h1.2.symm, by omega⟩, h1.1]
    · rw [if_neg h1]
      by_cases h2 : k = j ∧ i < n
      · rw [if_pos h2, if_pos ⟨h2.1, by omega⟩]
      · rw [if_neg h2, if_neg (by omega)]
  · intro R hR i k hi hk
    rw [hR i k hi hk]
    by_cases h1 : k = j
    · rw [if_pos ⟨h1, hi⟩, if_pos h1]
    · rw [if_neg (fun h => h1 h.1), if_neg h1]

/-- codes.c:521-540. -/
theorem generatorRrefExpand_wp (full : GenMat p) (c : RrefMat p) (f : Vector Nat p.N)
    (hcnt : (nonPiv f p.N).length = p.N - p.K)
    (hpos : ∀ z j, (nonPiv f p.N)[z]? = some j → g c.columnPos z = j) :
    Wp F (generatorRrefExpand full c) (fun R => ∀ i j, i < p.K → j < p.N →
      g2 R i j = if g f j = 0 then g2 c.values i (nonPiv f j).length else b2n (i + (nonPiv f j).length = j)) := by
  unfold generatorRrefExpand
  rw [Wp.bind_iff]
  refine Wp.forUp (fun n (s : GenMat p × Nat) => s.2 = (nonPiv f n).length ∧ ∀ i j, i < p.K → j < n →
      g2 s.1 i j = if g f j = 0 then g2 c.values i (nonPiv f j).length else b2n (i + (nonPiv f j).length = j))
    ⟨rfl, fun _ _ _ h => by omega⟩ ?_ ?_
  · rintro n ⟨G, placed⟩ hn ⟨h1, h2⟩
    dsimp only at h1 h2 ⊢
    subst h1
    have hd : ∀ {α : Type} (k : Bool → C α) (P : α → Prop), Wp F (k (decide (g f n = 0))) P →
        Wp F (if (nonPiv f n).length < p.N - p.K then
          (rd c.columnPos (nonPiv f n).length >>= fun c => (pure (decide (n = c)) : C Bool) >>= k)
        else (pure false : C Bool) >>= k) P := by
      intro α k P hk
      by_cases hf : g f n = 0
      · have hlt : (nonPiv f n).length < p.N - p.K := by rw [← hcnt]; exact nonPiv_length_lt f hn hf
        have hc := hpos _ _ (nonPiv_getElem f p.N n hn hf)
        simp only [hlt, if_true, Wp.bind_iff, Wp.rd_iff, Wp.pure_iff, hc]
        exact ⟨trivial, by simpa [hf] using hk⟩
      · rw [decide_eq_false hf] at hk
        by_cases hlt : (nonPiv f n).length < p.N - p.K
        · simp only [hlt, if_true, Wp.bind_iff, Wp.rd_iff, Wp.pure_iff]
          refine ⟨trivial, ?_⟩
          have hz : (nonPiv f p.N)[(nonPiv f n).length]? = some ((nonPiv f p.N)[(nonPiv f n).length]'(by omega)) :=
            List.getElem?_eq_getElem _
          have h3 := hpos _ _ hz
          have h4 := nonPiv_rank f _ _ _ hz
          rw [h3, decide_eq_false]
          · exact hk
          · intro e; rw [← e] at h4; exact hf h4.2.2
        · simp only [hlt, if_false, Wp.bind_iff, Wp.pure_iff]; exact hk
    apply hd
    by_cases hf : g f n = 0
    · have hlt : (nonPiv f n).length < p.N - p.K := by rw [← hcnt]; exact nonPiv_length_lt f hn hf
      simp only [hf, decide_true, if_true, Wp.bind_iff, Wp.pure_iff]
      refine (writeCol_wp (F := F) G n hn (fun row => rd2 c.values row (nonPiv f n).length)
        (fun row => g2 c.values row (nonPiv f n).length) ?_).mono ?_
      · intro i hi
        exact Wp.eq_ok (by rw [Wp.rd2_iff]; exact ⟨hi, hlt, rfl⟩)
      · intro R hR
        refine ⟨by rw [nonPiv_length_succ, if_pos hf], ?_⟩
        intro i j hi hj
        rw [hR i j hi (by omega)]
        by_cases e : j = n
        · subst e; rw [if_pos rfl, if_pos hf]
        · rw [if_neg e, h2 i j hi (by omega)]
    · simp only [hf, decide_false, Bool.false_eq_true, if_false, Wp.bind_iff, Wp.pure_iff]
      refine (writeCol_wp (F := F) G n hn (fun row => .ok (b2n (row + (nonPiv f n).length = n)))
        (fun row => b2n (row + (nonPiv f n).length = n)) (fun _ _ => rfl)).mono ?_
      intro R hR
      refine ⟨by rw [nonPiv_length_succ, if_neg hf]; rfl, ?_⟩
      intro i j hi hj
      rw [hR i j hi (by omega)]
      by_cases e : j = n
      · subst e; rw [if_pos rfl, if_neg hf]
      · rw [if_neg e, h2 i j hi (by omega)]
  · rintro ⟨G, placed⟩ ⟨_, h2⟩
    rw [Wp.pure_iff]
    exact h2

/-- codes.c:312-326. -/
theorem generatorRrefCompact_wp (stale : RrefMat p) (G : GenMat p) (f : Vector Nat p.N)
    (hcnt : (nonPiv f p.N).length = p.N - p.K) (hN : p.N ≤ p.posMod) :
    Wp F (generatorRrefCompact stale G f) (fun c => ∀ z j, (nonPiv f p.N)[z]? = some j →
      g c.columnPos z = j ∧ ∀ i, i < p.K → g2 c.values i z = g2 G i j) := by
  unfold generatorRrefCompact
  rw [Wp.bind_iff]
  refine Wp.forUp (fun n (s : RrefMat p × Nat) => s.2 = (nonPiv f n).length ∧ ∀ z j, (nonPiv f n)[z]? = some j →
      g s.1.columnPos z = j ∧ ∀ i, i < p.K → g2 s.1.values i z = g2 G i j)
    ⟨rfl, fun _ _ h => by simp [nonPiv] at h⟩ ?_ ?_
  · rintro n ⟨c, dst⟩ hn ⟨h1, h2⟩
    dsimp only at h1 h2 ⊢
    subst h1
    simp only [Wp.bind_iff, Wp.rd_iff]
    refine ⟨hn, ?_⟩
    by_cases hf : g f n = 0
    · have hlt : (nonPiv f n).length < p.N - p.K := by rw [← hcnt]; exact nonPiv_length_lt f hn hf
      simp only [hf, if_true, Wp.bind_iff, Wp.pure_iff]
      refine (writeCol_wp (F := F) c.values _ hlt (fun row => rd2 G row n) (fun row => g2 G row n) ?_).mono ?_
      · intro i hi
        exact Wp.eq_ok (by rw [Wp.rd2_iff]; exact ⟨hi, hn, rfl⟩)
      · intro R hR
        rw [Wp.wr_iff]
        refine ⟨hlt, by rw [nonPiv_length_succ, if_pos hf], ?_⟩
        intro z j hz
        rw [nonPiv_succ, if_pos hf] at hz
        rw [g_upd _ _ _ _ hlt]
        by_cases e : z < (nonPiv f n).length
        · rw [List.getElem?_append_left e] at hz
          obtain ⟨h3, h4⟩ := h2 z j hz
          rw [if_neg (by omega)]
          refine ⟨h3, fun i hi => ?_⟩
          rw [hR i z hi (by omega), if_neg (by omega), h4 i hi]
        · have hz2 : z = (nonPiv f n).length ∧ n = j := by
            rw [List.getElem?_append_right (by omega)] at hz
            have h5 : z - (nonPiv f n).length = 0 := by
              by_contra hc
              obtain ⟨d, hd⟩ : ∃ d, z - (nonPiv f n).length = d + 1 := ⟨_, (Nat.succ_pred_eq_of_ne_zero hc).symm⟩
              rw [hd] at hz; simp at hz
            rw [h5] at hz
            exact ⟨by omega, by simpa using hz⟩
          obtain ⟨rfl, rfl⟩ := hz2
          rw [if_pos rfl, Nat.mod_eq_of_lt (by omega)]
          refine ⟨rfl, fun i hi => ?_⟩
          rw [hR i _ hi hlt, if_pos rfl]
    · simp only [hf, if_false, Wp.pure_iff]
      refine ⟨by rw [nonPiv_length_succ, if_neg hf]; rfl, ?_⟩
      intro z j hz
      rw [nonPiv_succ, if_neg hf, List.append_nil] at hz
      exact h2 z j hz
  · rintro ⟨c, dst⟩ ⟨_, h2⟩
    rw [Wp.pure_iff]
    exact h2

/-- Compacting a reduced matrix and expanding it again gives it back. -/
theorem compact_expand {A : Matrix (Fin p.K) (Fin p.N) Fq} {R : GenMat p} {f : Vector Nat p.N}
    {piv : Fin p.K → Fin p.N} (h : RrefOut A R f piv) (stale : RrefMat p) (full : GenMat p) (hN : p.N ≤ p.posMod) :
    (generatorRrefCompact stale R f >>= generatorRrefExpand full) = .ok R := by
  have hcnt := nonPiv_count h.flags h.rref.mono
  apply Wp.eq_ok
  rw [Wp.bind_iff]
  refine (generatorRrefCompact_wp stale R f hcnt hN).mono ?_
  intro c hc
  refine (generatorRrefExpand_wp full c f hcnt fun z j hz => (hc z j hz).1).mono ?_
  intro R' hR'
  apply mat_ext
  intro i j hi hj
  rw [hR' i j hi hj]
  by_cases hf : g f j = 0
  · rw [if_pos hf, (hc _ _ (nonPiv_getElem f p.N j hj hf)).2 i hi]
  · rw [if_neg hf, h.unit i j hi hj hf]
    have hle := nonPiv_length_le f j
    simp only [b2n, decide_eq_true_eq]
    congr 1
    apply propext
    constructor <;> omega

/-- The flags of a systematic matrix. -/
def sysFlags (p : Params) : Vector Nat p.N := Vector.ofFn fun j => if j.val < p.K then 1 else 0

theorem nonPiv_sys (n : Nat) (hn : n ≤ p.N) : nonPiv (sysFlags p) n = (List.range (n - p.K)).map (· + p.K) := by
  induction n with
  | zero => simp [nonPiv]
  | succ n ih =>
    rw [nonPiv_succ, ih (by omega), sysFlags, g_ofFn _ _ (by omega)]
    by_cases h : n < p.K
    · simp [h, show n - p.K = 0 by omega, show n + 1 - p.K = 0 by omega]
    · rw [show n + 1 - p.K = n - p.K + 1 by omega, List.range_succ]
      simp [h, show n - p.K + p.K = n by omega]

theorem Spec.IsG0.mono {B B' : Nat} {s : Stream} {A} (h : IsG0 p B s A) (hB : B ≤ B') : IsG0 p B' s A := by
  obtain ⟨ss, rows, h1, h2, h3⟩ := h
  exact ⟨ss, rows, h1, fun i hi => (h2 i hi).mono hB, h3⟩

theorem Spec.IsG0.unique {B B' : Nat} {s : Stream} {A A'} (h : IsG0 p B s A) (h' : IsG0 p B' s A') : A = A' := by
  obtain ⟨ss, rows, h1, h2, rfl⟩ := h
  obtain ⟨ss', rows', h1', h2', rfl⟩ := h'
  have key : ∀ i, i ≤ p.K → ss i = ss' i := by
    intro i
    induction i with
    | zero => intro _; rw [h1, h1']
    | succ i ih =>
      intro hi
      have a := h2 i (by omega)
      have b := h2' i (by omega)
      rw [ih (by omega)] at a
      exact (a.unique b).2
  funext i j
  have a := h2 i i.2
  have b := h2' i i.2
  rw [key i (by omega)] at a
  rw [(a.unique b).1]

/-- `G0` is in reduced row echelon form. -/
theorem Spec.IsG0.rref {B : Nat} {s : Stream} {A} (h : IsG0 p B s A) (hKN : p.K ≤ p.N) :
    IsRREF A (fun t => ⟨t.val, by omega⟩) := by
  obtain ⟨ss, rows, h1, h2, rfl⟩ := h
  refine ⟨fun a b hab => hab, fun i t => ?_, fun t j hj => ?_⟩
  · simp only [t.2, if_true, Fin.ext_iff]
  · have : j.val < t.val := hj
    simp only [show j.val < p.K by omega, if_true]
    rw [if_neg (by omega)]

theorem IsRREF.fullRank {k n : Nat} {A : Matrix (Fin k) (Fin n) (ZMod 127)} {piv : Fin k → Fin n} (h : IsRREF A piv) :
    FullRank A := by
  intro v hv
  funext t
  have := congrFun hv (piv t)
  simpa [Matrix.vecMul, dotProduct, h.unit] using this

/-- The compact matrix `c` stands for `G0`. -/
structure G0At (p : Params) (B : Nat) (s : Stream) (c : RrefMat p) (A : Matrix (Fin p.K) (Fin p.N) Fq) : Prop where
  isG0 : IsG0 p B s A
  pos : ∀ z < p.N - p.K, g c.columnPos z = z + p.K
  values : ∀ i j, i < p.K → j < p.N - p.K → g2 c.values i j < 127
  entry : ∀ (i : Fin p.K) (j : Nat) (hj : j < p.N - p.K), ((g2 c.values i j : Nat) : Fq) = A i ⟨j + p.K, by omega⟩

theorem generatorSFSeedExpand_wp (fuel : Nat) (stale : RrefMat p) (seed : Bytes) (hp : p.WF) :
    Wp (¬ ∃ A, IsG0 p fuel (xof p seed) A) (generatorSFSeedExpand fuel stale seed)
      (fun c => ∃ A, G0At p fuel (xof p seed) c A) := by
  have hKN := hp.K_lt_N
  have hpm := hp.N_lt
  unfold generatorSFSeedExpand
  rw [Wp.bind_iff]
  refine Wp.forUp (fun n (s : NormIS p × Inc) => ∃ (ss : Nat → Stream) (rows : Nat → List Nat), ss 0 = xof p seed ∧
      (∀ i < n, Sampled 7 0 126 (p.N - p.K) fuel (ss i) (rows i) (ss (i + 1))) ∧ StreamAt p s.2 (ss n) ∧
      ∀ i j, i < n → j < p.N - p.K → g2 s.1 i j = (rows i).getD j 0)
    ⟨fun _ => xof p seed, fun _ => [], rfl, fun _ h => by omega, xof_at p seed, fun _ _ h => by omega⟩ ?_ ?_
  · rintro n ⟨V, st⟩ hn ⟨ss, rows, h1, h2, h3, h4⟩
    dsimp only at h3 h4 ⊢
    simp only [Wp.bind_iff, Wp.rd_iff]
    refine ⟨hn, ?_⟩
    have hs := randState_stream (p := p) (lo := 0) (hi := Q - 1) fuel st (ss n) (g V n) (by decide) (by decide)
      (by omega) h3
    refine (hs.monoF ?_).mono ?_
    · rintro h ⟨A, ss', rows', a1, a2, -⟩
      apply h
      have key : ∀ i, i ≤ n → ss i = ss' i := by
        intro i
        induction i with
        | zero => intro _; rw [h1, a1]
        | succ i ih =>
          intro hi
          have a := h2 i (by omega)
          have b := a2 i (by omega)
          rw [ih (by omega)] at a
          exact (a.unique b).2
      rw [key n (Nat.le_refl _)]
      exact ⟨_, _, a2 n hn⟩
    · rintro ⟨row, st'⟩ ⟨v, s', hv, hrow, hst'⟩
      dsimp only at hrow hst' ⊢
      rw [Wp.wr_iff]
      refine ⟨hn, fun i => if i = n + 1 then s' else ss i, fun i => if i = n then v else rows i, ?_, ?_, ?_, ?_⟩
      · simpa using h1
      · intro i hi
        by_cases e : i = n
        · subst e; simp only [if_true, show i ≠ i + 1 by omega, if_false]; exact hv
        · simp only [e, if_false, show i ≠ n + 1 by omega, show i + 1 ≠ n + 1 by omega]
          exact h2 i (by omega)
      · simpa using hst'
      · intro i j hi hj
        dsimp only
        rw [g2_upd _ _ _ _ _ hn]
        by_cases e : i = n
        · subst e; rw [if_pos rfl, if_pos rfl, hrow, arr_g _ _ hj]
        · rw [if_neg (Ne.symm e), if_neg e]; exact h4 i j (by omega) hj
  · rintro ⟨V, st⟩ ⟨ss, rows, h1, h2, h3, h4⟩
    dsimp only at h3 h4 ⊢
    rw [Wp.bind_iff]
    refine Wp.forUp (fun n (v : Vector Nat (p.N - p.K)) => ∀ z < n, g v z = z + p.K) (fun _ h => by omega) ?_ ?_
    · intro n v hn hv
      rw [Wp.wr_iff]
      refine ⟨hn, fun z hz => ?_⟩
      rw [g_upd _ _ _ _ hn]
      by_cases e : n = z
      · subst e; rw [if_pos rfl, Nat.mod_eq_of_lt (by omega)]
      · rw [if_neg e, hv z (by omega)]
    · intro v hv
      rw [Wp.pure_iff]
      refine ⟨_, ⟨ss, rows, h1, h2, rfl⟩, hv, ?_, ?_⟩
      · intro i j hi hj
        rw [h4 i j hi hj]
        have := (h2 i hi).range (by decide) j hj
        omega
      · intro i j hj
        dsimp only
        rw [h4 i j i.2 hj, if_neg (by omega), Nat.add_sub_cancel]

theorem G0At.expand {B : Nat} {s : Stream} {c : RrefMat p} {A} (h : G0At p B s c A) (hKN : p.K ≤ p.N) (full : GenMat p) :
    Wp F (generatorRrefExpand full c) (fun R => Reduced R ∧ matOf R = A) := by
  have hnp := fun n hn => nonPiv_sys (p := p) n hn
  refine (generatorRrefExpand_wp full c (sysFlags p) ?_ ?_).mono ?_
  · rw [hnp _ (Nat.le_refl _)]; simp
  · intro z j hz
    rw [hnp _ (Nat.le_refl _), List.getElem?_map] at hz
    have hzl : z < p.N - p.K := by
      by_contra hc
      rw [List.getElem?_eq_none (by simpa using hc)] at hz
      simp at hz
    rw [List.getElem?_range hzl] at hz
    rw [h.pos z hzl]
    simpa using hz
  · intro R hR
    have e1 : ∀ j, j < p.N → (nonPiv (sysFlags p) j).length = j - p.K := by
      intro j hj; rw [hnp j (by omega)]; simp
    have e2 : ∀ j, j < p.N → g (sysFlags p) j = if j < p.K then 1 else 0 := by
      intro j hj; rw [sysFlags, g_ofFn _ _ hj]
    have hr := h.isG0.rref hKN
    refine ⟨fun i j hi hj => ?_, ?_⟩
    · rw [hR i j hi hj, e1 j hj, e2 j hj]
      by_cases hjk : j < p.K
      · simp only [hjk, if_true, one_ne_zero, if_false]
        unfold b2n; split <;> decide
      · simp only [hjk, if_false, if_true]
        exact h.values i _ hi (by omega)
    · funext i j
      rw [matOf, hR i j i.2 j.2, e1 j j.2, e2 j j.2]
      by_cases hjk : j.val < p.K
      · simp only [hjk, if_true, one_ne_zero, if_false]
        have := hr.unit i ⟨j.val, hjk⟩
        simp only at this
        rw [this, show j.val - p.K = 0 by omega]
        by_cases e : i.val = j.val
        · rw [if_pos (Fin.ext e)]; simp [b2n, e]
        · rw [if_neg (fun h => e (congrArg Fin.val h))]; simp [b2n, e]
      · simp only [hjk, if_false, if_true]
        rw [h.entry i _ (by omega)]
        congr 1
        exact Fin.ext (by simp only; omega)

theorem expandG0_wp (hp : p.WF) (fuel : Nat) (sl : Stale p) (seed : Bytes) :
    Wp (¬ ∃ A, IsG0 p fuel (xof p seed) A) (expandG0 fuel sl seed)
      (fun G => Reduced G ∧ IsG0 p fuel (xof p seed) (matOf G)) := by
  unfold expandG0
  rw [Wp.bind_iff]
  refine (generatorSFSeedExpand_wp fuel sl.rref seed hp).mono ?_
  rintro c ⟨A, hA⟩
  refine (hA.expand (Nat.le_of_lt hp.K_lt_N) sl.gen).mono ?_
  rintro R ⟨h1, h2⟩
  exact ⟨h1, by rw [h2]; exact hA.isG0⟩

end LESS
