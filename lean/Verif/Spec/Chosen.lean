import Verif.Spec.Forger
import Verif.Props.Soundness
/-!
# Attackers who see signatures of messages they choose

The game of `Spec/Forger` with one more kind of question: a signature of a message.  It is answered either by a signer
that draws its randomness afresh for each signature and asks the tables for the challenge, or by a simulator that
draws the challenge itself and then makes the tables fit.
-/
namespace LESS.Spec

variable {p : Params} {k : Nat} {R V : Type}

/-- What an attacker may ask: what a forger may, and signatures. -/
abbrev Inquiry (p : Params) : Type := Question p ⊕ List UInt8

/-- A signature as the attacker sees it: salt, digest, and what the rounds show. -/
structure Shown (p : Params) (V : Type) where
  salt : Digest p
  digest : Digest p
  view : V

/-- The replies. -/
def ReplyTo (p : Params) (k : Nat) (V : Type) : Inquiry p → Type
  | .inl x => AnswerTo p k x
  | .inr _ => Shown p V

/-- An attacker. -/
abbrev Attacker (p : Params) (k : Nat) (V : Type) : Type := Asks (Inquiry p) (ReplyTo p k V) (List UInt8 × Sig p)

/-- A program that asks for no signatures. -/
def withoutSigner {α : Type} : Asks (Question p) (AnswerTo p k) α → Asks (Inquiry p) (ReplyTo p k V) α
  | .done a => .done a
  | .ask x next => .ask (.inl x) fun a => withoutSigner (next a)

/-- The attacker, then the verifier. -/
noncomputable def chosen (B : Nat) (pk : PK p) (A : Attacker p k V) : Asks (Inquiry p) (ReplyTo p k V) (Option (Forged p)) :=
  A.bind fun out => withoutSigner (judge p B k pk out)

/-- The challenge drawn from `k` numbers, if they suffice. -/
def challengeOf (p : Params) (ws : Words 16 k) : Option (Vector Nat p.T) :=
  match digestWords p ws.1 0 (noChallenge p) with
  | .ok v => some v
  | .error _ => none

/-- The questions of the game: those of the attacker, and the randomness of each signature. -/
abbrev GameQuestion (p : Params) : Type := Question p ⊕ Nat

/-- The answers; `Coins` is what is drawn for a signature. -/
def GameAnswer (p : Params) (k : Nat) (Coins : Type) : GameQuestion p → Type
  | .inl x => AnswerTo p k x
  | .inr _ => Coins

/-- A signer: the commitments to the randomness of a signature, as they are hashed, and what the rounds show after the challenge. -/
structure Signer (p : Params) (R V : Type) where
  com : R → List UInt8
  view : Option (Vector Nat p.T) → R → V

/-- The game with a signer; the result counts if its message was not signed. -/
def realGame (S : Signer p R V) : Nat → List (List UInt8) → Asks (Inquiry p) (ReplyTo p k V) (Option (Forged p)) →
    Asks (GameQuestion p) (GameAnswer p k (Digest p × R)) (Option (Forged p))
  | _, signed, .done o => .done (o.filter fun o => o.msg ∉ signed)
  | n, signed, .ask (.inl x) next => .ask (.inl x) fun a => realGame S n signed (next a)
  | n, signed, .ask (.inr m) next => .ask (.inr n) fun (r : Digest p × R) =>
      .ask (.inl (.inl (S.com r.2 ++ m ++ r.1.toList))) fun (d : Digest p) => .ask (.inl (.inr d)) fun (ws : Words 16 k) =>
        realGame S (n + 1) (m :: signed) (next (⟨r.1, d, S.view (challengeOf p ws) r.2⟩ : Shown p V))

/-- A simulator: it knows the challenge before it commits. -/
structure Simulator (p : Params) (R V : Type) where
  com : Option (Vector Nat p.T) → R → List UInt8
  view : Option (Vector Nat p.T) → R → V

/-- Look something up. -/
def recall {α β : Type} [DecidableEq α] : List (α × β) → α → Option β
  | [], _ => none
  | (a, b) :: l, x => if x = a then some b else recall l x

/-- The part of the tables the simulator has fixed. -/
structure Fixed (p : Params) (k : Nat) where
  digests : List (List UInt8 × Digest p)
  numbers : List (Digest p × Words 16 k)

/-- What is drawn for a simulated signature: salt, randomness, digest, numbers. -/
abbrev Coins (p : Params) (k : Nat) (R : Type) : Type := Digest p × R × Digest p × Words 16 k

/-- The digest of a string: from what is fixed, or else from the tables. -/
def askDigest {α C : Type} (f : Fixed p k) (x : List UInt8) (next : Digest p → Fixed p k → Asks (GameQuestion p) (GameAnswer p k C) α) :
    Asks (GameQuestion p) (GameAnswer p k C) α :=
  match recall f.digests x with
  | some d => next d f
  | none => .ask (.inl (.inl x)) fun (d : Digest p) => next d ⟨(x, d) :: f.digests, f.numbers⟩

/-- The numbers drawn from a digest. -/
def askNumbers {α C : Type} (f : Fixed p k) (d : Digest p) (next : Words 16 k → Fixed p k → Asks (GameQuestion p) (GameAnswer p k C) α) :
    Asks (GameQuestion p) (GameAnswer p k C) α :=
  match recall f.numbers d with
  | some ws => next ws f
  | none => .ask (.inl (.inr d)) fun (ws : Words 16 k) => next ws ⟨f.digests, (d, ws) :: f.numbers⟩

/-- Fix the digest of a string, and the numbers drawn from it. -/
def Fixed.add (f : Fixed p k) (x : List UInt8) (d : Digest p) (ws : Words 16 k) : Fixed p k := ⟨(x, d) :: f.digests, (d, ws) :: f.numbers⟩

/-- The game with a simulator.  It answers from what it has fixed, and asks the tables only if it has not; for a signature it
fixes the digest and the numbers it has drawn, and gives up if they are fixed already. -/
def simGame (S : Simulator p R V) : Nat → List (List UInt8) → Fixed p k → Asks (Inquiry p) (ReplyTo p k V) (Option (Forged p)) →
    Asks (GameQuestion p) (GameAnswer p k (Coins p k R)) (Option (Forged p × Fixed p k))
  | _, signed, f, .done o => .done ((o.filter fun o => o.msg ∉ signed).map fun o => (o, f))
  | n, signed, f, .ask (.inl (.inl x)) next => askDigest f x fun d f => simGame S n signed f (next d)
  | n, signed, f, .ask (.inl (.inr d)) next => askNumbers f d fun ws f => simGame S n signed f (next ws)
  | n, signed, f, .ask (.inr m) next => .ask (.inr n) fun (r : Coins p k R) =>
      let (salt, r, d, ws) := r
      let x := S.com (challengeOf p ws) r ++ m ++ salt.toList
      if (recall f.digests x).isNone ∧ (recall f.numbers d).isNone then
        simGame S (n + 1) (m :: signed) (f.add x d ws) (next (⟨salt, d, S.view (challengeOf p ws) r⟩ : Shown p V))
      else .done none

/-- Two forgeries with the same message, salt and commitments that answer different challenges; and in a round where the challenges differ, the
extractor computes from the two answers a monomial that carries one code of the public key to another one. -/
def Forks (B : Nat) (pk : PK p) (G0 : Matrix (Fin p.K) (Fin p.N) (ZMod 127)) (o o' : Forged p) : Prop :=
  o.msg = o'.msg ∧ o.sig.salt = o'.sig.salt ∧ (∀ i < p.T, o.coms i = o'.coms i) ∧
  ∃ i < p.T, g o.challenge i ≠ g o'.challenge i ∧
    ∃ x y, AnswerOf p B o.sig (g o.challenge) i x ∧ AnswerOf p B o'.sig (g o'.challenge) i y ∧
      (extract p (publicCode pk G0 (g o.challenge i)) x (publicCode pk G0 (g o'.challenge i)) y).IsMonomial ∧
      RowEq (ColOp.on (publicCode pk G0 (g o.challenge i))
          (extract p (publicCode pk G0 (g o.challenge i)) x (publicCode pk G0 (g o'.challenge i)) y))
        (publicCode pk G0 (g o'.challenge i))

end LESS.Spec
