import Verif.Model.Sign
import Verif.Proofs.Monomial
/-!
# Fuel: more of it never changes a result
-/
namespace LESS

/-- `y` is what `x` yields when given more fuel: the same, unless `x` ran out. -/
def Below {α : Type} (x y : C α) : Prop := x = .error .fuel ∨ x = y

namespace Below
variable {α β σ ρ : Type}

theorem refl (x : C α) : Below x x := Or.inr rfl

theorem fuel (y : C α) : Below (.error .fuel) y := Or.inl rfl

theorem trans {x y z : C α} (h : Below x y) (h' : Below y z) : Below x z := by
  rcases h with h | h
  · exact Or.inl h
  · subst h; exact h'

theorem bind {x y : C α} {f k : α → C β} (h : Below x y) (hf : ∀ a, Below (f a) (k a)) :
    Below (x >>= f) (y >>= k) := by
  rcases h with h | h
  · subst h; exact Or.inl rfl
  · subst h
    cases x with
    | ok a => exact hf a
    | error e => exact refl _

theorem ite {c : Prop} [Decidable c] {x y x' y' : C α} (h : Below x x') (h' : Below y y') :
    Below (if c then x else y) (if c then x' else y') := by
  split
  · exact h
  · exact h'

theorem forUp {n : Nat} {f k : Nat → σ → C σ} (s : σ) (h : ∀ i s, Below (f i s) (k i s)) :
    Below (LESS.forUp n f s) (LESS.forUp n k s) := by
  induction n with
  | zero => exact refl _
  | succ n ih => exact ih.bind (h n)

theorem forRet {n : Nat} {f k : Nat → σ → C (ρ ⊕ σ)} (s : σ) (h : ∀ i s, Below (f i s) (k i s)) :
    Below (LESS.forRet n f s) (LESS.forRet n k s) := by
  induction n with
  | zero => exact refl _
  | succ n ih =>
    refine ih.bind ?_
    rintro (r | s)
    · exact refl _
    · exact h n s

theorem ok {x y : C α} {a : α} (h : Below x y) (hx : x = .ok a) : y = .ok a := by
  rcases h with h | h
  · rw [h] at hx; cases hx
  · rw [← h]; exact hx

end Below

/-- Running out of fuel as a proposition. -/
theorem Wp.fuelEq {α : Type} {x : C α} {P : α → Prop} (h : Wp True x P) : Wp (x = .error .fuel) x P := by
  cases x with
  | ok a => exact h
  | error e => cases e with
    | oob => exact h
    | fuel => rfl

theorem Wp.andEq {α : Type} {F : Prop} {x : C α} {P : α → Prop} (h : Wp F x P) :
    Wp F x (fun a => x = .ok a ∧ P a) := by
  cases x with
  | ok a => exact ⟨rfl, h⟩
  | error e => cases e <;> exact h

variable {p : Params}

theorem sampleLoop_below {n : Nat} (lo span b : Nat) {fuel fuel' : Nat} (h : fuel ≤ fuel') (st : Inc)
    (buf : Vector Nat n) (c : Nat) :
    Below (sampleLoop p lo span b fuel st buf c) (sampleLoop p lo span b fuel' st buf c) := by
  induction fuel generalizing fuel' st buf c with
  | zero => exact Below.fuel _
  | succ fuel ih =>
    obtain ⟨f', rfl⟩ : ∃ f', fuel' = f' + 1 := ⟨fuel' - 1, by omega⟩
    unfold sampleLoop
    refine (Below.refl _).bind ?_
    rintro (r | ⟨_, b', c'⟩)
    · exact Below.refl _
    · exact ih (by omega) _ _ _

theorem randState_below {n : Nat} (lo hi : Nat) {fuel fuel' : Nat} (h : fuel ≤ fuel') (st : Inc) (buf : Vector Nat n) :
    Below (randState p lo hi fuel st buf) (randState p lo hi fuel' st buf) := sampleLoop_below _ _ _ h _ _ _

theorem monomialFromState_below {fuel fuel' : Nat} (h : fuel ≤ fuel') (s : Monomial p) (st : Inc) :
    Below (monomialFromState fuel s st) (monomialFromState fuel' s st) := by
  unfold monomialFromState
  exact (randState_below _ _ h _ _).bind fun _ => Below.refl _

theorem saltRnd_below {fuel fuel' : Nat} (h : fuel ≤ fuel') (s : Monomial p) (seed salt : Bytes) (i : Nat) :
    Below (monomialSeedExpandSaltRnd fuel s seed salt i) (monomialSeedExpandSaltRnd fuel' s seed salt i) :=
  (monomialFromState_below h _ _).bind fun _ => Below.refl _

theorem prikey_below {fuel fuel' : Nat} (h : fuel ≤ fuel') (s : Monomial p) (seed : Bytes) :
    Below (monomialSeedExpandPrikey fuel s seed) (monomialSeedExpandPrikey fuel' s seed) :=
  (monomialFromState_below h _ _).bind fun _ => Below.refl _

theorem sfSeedExpand_below {fuel fuel' : Nat} (h : fuel ≤ fuel') (s : RrefMat p) (seed : Bytes) :
    Below (generatorSFSeedExpand fuel s seed) (generatorSFSeedExpand fuel' s seed) := by
  unfold generatorSFSeedExpand
  refine (Below.forUp _ ?_).bind fun _ => Below.refl _
  rintro i ⟨v, st⟩
  exact (Below.refl _).bind fun _ => (randState_below _ _ h _ _).bind fun _ => Below.refl _

theorem expandG0_below {fuel fuel' : Nat} (h : fuel ≤ fuel') (s : Stale p) (seed : Bytes) :
    Below (expandG0 fuel s seed) (expandG0 fuel' s seed) :=
  (sfSeedExpand_below h _ _).bind fun _ => Below.refl _

theorem expandDigestLoop_below {fuel fuel' : Nat} (h : fuel ≤ fuel') (st : Inc) (placed : Nat) (v : Vector Nat p.T) :
    Below (expandDigestLoop p fuel st placed v) (expandDigestLoop p fuel' st placed v) := by
  induction fuel generalizing fuel' st placed v with
  | zero =>
    unfold expandDigestLoop
    by_cases hp : placed < p.W
    · rw [if_pos hp]; exact Below.fuel _
    · rw [if_neg hp]
      cases fuel' with
      | zero => simp only [if_neg hp]; exact Below.refl _
      | succ f => simp only [if_neg hp]; exact Below.refl _
  | succ fuel ih =>
    obtain ⟨f', rfl⟩ : ∃ f', fuel' = f' + 1 := ⟨fuel' - 1, by omega⟩
    unfold expandDigestLoop
    refine Below.ite ?_ (Below.refl _)
    refine Below.ite (ih (by omega) _ _ _) ?_
    refine Below.ite (ih (by omega) _ _ _) ?_
    refine (Below.refl _).bind fun o => ?_
    refine Below.ite (ih (by omega) _ _ _) ?_
    exact (Below.refl _).bind fun v => ih (by omega) _ _ _

theorem expandDigest_below {fuel fuel' : Nat} (h : fuel ≤ fuel') (v : Vector Nat p.T) (d : Bytes) :
    Below (expandDigest fuel v d) (expandDigest fuel' v d) := expandDigestLoop_below h _ _ _

theorem keygenOne_below {fuel fuel' : Nat} (h : fuel ≤ fuel') (s : Stale p) (G : GenMat p) (seed : Bytes)
    (b : Vector UInt8 p.rrefBytes) : Below (keygenOne fuel s G seed b) (keygenOne fuel' s G seed b) :=
  (prikey_below h _ _).bind fun _ => Below.refl _

theorem lessKeygen_below {fuel fuel' : Nat} (h : fuel ≤ fuel') (s : Nat → Stale p) (rng : Inc) :
    Below (lessKeygen fuel s rng) (lessKeygen fuel' s rng) := by
  unfold lessKeygen
  refine (Below.refl _).bind fun _ => ?_
  refine (expandG0_below h _ _).bind fun _ => ?_
  refine (Below.forUp _ ?_).bind fun _ => Below.refl _
  intro i t
  exact (Below.refl _).bind fun _ => (Below.refl _).bind fun _ => (keygenOne_below h _ _ _ _).bind fun _ => Below.refl _

theorem signRound_below {fuel fuel' : Nat} (h : fuel ≤ fuel') (s : Stale p) (G : GenMat p) (t : TreeBuf p) (salt : Bytes)
    (i : Nat) (x : Vector (MonoAction p) p.T × Inc) :
    Below (signRound fuel s G t salt i x) (signRound fuel' s G t salt i x) := by
  unfold signRound
  exact (Below.refl _).bind fun _ => (saltRnd_below h _ _ _ _).bind fun _ => Below.refl _

theorem signResponse_below {fuel fuel' : Nat} (h : fuel ≤ fuel') (s : Stale p) (fws : Vector Nat p.T)
    (seeds : Vector (Vector UInt8 p.skSeedLen) (p.numKeypairs - 1)) (acts : Vector (MonoAction p) p.T) (i : Nat)
    (x : Vector (Vector UInt8 p.monoBytes) p.W × Nat) :
    Below (signResponse fuel s fws seeds acts i x) (signResponse fuel' s fws seeds acts i x) := by
  unfold signResponse
  refine (Below.refl _).bind fun _ => ?_
  refine Below.ite ?_ (Below.refl _)
  exact (Below.refl _).bind fun _ => (prikey_below h _ _).bind fun _ => Below.refl _

theorem lessSign_below {n : Nat} {fuel fuel' : Nat} (h : fuel ≤ fuel') (s : Nat → Stale p) (rng : Inc) (SK : PriKey p)
    (m : Bytes) (sig : SignT p n) : Below (lessSign fuel s rng SK m sig) (lessSign fuel' s rng SK m sig) := by
  unfold lessSign
  refine (Below.refl _).bind fun _ => ?_
  refine (Below.refl _).bind fun _ => ?_
  refine (expandG0_below h _ _).bind fun _ => ?_
  refine (Below.forUp _ fun i x => signRound_below h _ _ _ _ _ _).bind fun _ => ?_
  refine (expandDigest_below h _ _).bind fun _ => ?_
  refine (Below.refl _).bind fun _ => ?_
  refine (Below.refl _).bind fun _ => ?_
  refine (Below.refl _).bind fun _ => ?_
  exact (Below.forUp _ fun i x => signResponse_below h _ _ _ _ _ _).bind fun _ => Below.refl _

theorem verifyRound_below {n : Nat} {fuel fuel' : Nat} (h : fuel ≤ fuel') (s : Stale p) (PK : PubKey p) (sig : SignT p n)
    (fws : Vector Nat p.T) (t : TreeBuf p) (G : RrefMat p) (i : Nat) (x : Inc × Nat) :
    Below (verifyRound fuel s PK sig fws t G i x) (verifyRound fuel' s PK sig fws t G i x) := by
  unfold verifyRound
  refine (Below.refl _).bind fun _ => ?_
  refine Below.ite ?_ (Below.refl _)
  refine (Below.refl _).bind fun _ => ?_
  refine (Below.refl _).bind fun _ => ?_
  exact (saltRnd_below h _ _ _ _).bind fun _ => Below.refl _

theorem lessVerify_below {n : Nat} {fuel fuel' : Nat} (h : fuel ≤ fuel') (s : Nat → Stale p) (PK : PubKey p) (m : Bytes)
    (sig : SignT p n) : Below (lessVerify fuel s PK m sig) (lessVerify fuel' s PK m sig) := by
  unfold lessVerify
  refine (expandDigest_below h _ _).bind fun _ => ?_
  refine (Below.refl _).bind fun _ => ?_
  refine (Below.refl _).bind fun _ => ?_
  refine (sfSeedExpand_below h _ _).bind fun _ => ?_
  exact (Below.forRet _ fun i x => verifyRound_below h _ _ _ _ _ _ _ _).bind fun _ => Below.refl _

theorem cryptoSign_below {k : Nat} {fuel fuel' : Nat} (h : fuel ≤ fuel') (s : Nat → Stale p) (rng : Inc)
    (sm : Vector UInt8 k) (m : Bytes) (sk : Vector UInt8 p.skLen) :
    Below (cryptoSign fuel s rng sm m sk) (cryptoSign fuel' s rng sm m sk) := by
  unfold cryptoSign
  refine (Below.refl _).bind fun _ => ?_
  refine (Below.refl _).bind fun _ => ?_
  exact (lessSign_below h _ _ _ _ _).bind fun _ => Below.refl _

theorem cryptoSignOpen_below {k : Nat} {fuel fuel' : Nat} (h : fuel ≤ fuel') (s : Nat → Stale p) (mcap : Nat)
    (sm : Vector UInt8 k) (pk : Vector UInt8 p.pkLen) :
    Below (cryptoSignOpen fuel s mcap sm pk) (cryptoSignOpen fuel' s mcap sm pk) := by
  unfold cryptoSignOpen
  refine (Below.refl _).bind fun _ => ?_
  refine Below.ite (Below.refl _) ?_
  refine (Below.refl _).bind fun _ => ?_
  refine Below.ite (Below.refl _) ?_
  refine (Below.refl _).bind fun _ => ?_
  exact (lessVerify_below h _ _ _ _).bind fun _ => Below.refl _

theorem cryptoSignKeypair_below {fuel fuel' : Nat} (h : fuel ≤ fuel') (s : Nat → Stale p) (rng : Inc) :
    Below (cryptoSignKeypair fuel s rng) (cryptoSignKeypair fuel' s rng) := by
  unfold cryptoSignKeypair
  exact (lessKeygen_below h _ _).bind fun _ => Below.refl _

end LESS
