import Verif.Spec.Oracle
import Verif.Spec.Less
import Verif.Props.Challenges
/-!
# Forgers in the random oracle model

The two uses of Keccak that make the challenge, `hash` (of the commitments, the message and the salt) and the
expansion of the digest (`expand_digest_to_fixed_weight`, utils.c:36-63), are replaced by tables; everything else of the scheme
stays.  A forger is a program that asks these tables and returns a message and a signature.
-/
namespace LESS.Spec

variable {p : Params}

/-- A digest. -/
abbrev Digest (p : Params) : Type := Vector UInt8 p.hashLen

/-- A question: which digest does this string have, or which numbers are drawn from this digest. -/
abbrev Question (p : Params) : Type := List UInt8 ⊕ Digest p

/-- The answers: a digest, or `k` numbers of 16 bits. -/
def AnswerTo (p : Params) (k : Nat) : Question p → Type
  | .inl _ => Digest p
  | .inr _ => Words 16 k

/-- A forger. -/
abbrev Forger (p : Params) (k : Nat) : Type := Asks (Question p) (AnswerTo p k) (List UInt8 × Sig p)

/-- An accepted signature, with the challenge and the commitments. -/
structure Forged (p : Params) where
  msg : List UInt8
  sig : Sig p
  challenge : Vector Nat p.T
  coms : Nat → List (List Nat)

/-- The string whose digest the signature has to contain. -/
def Forged.hashed (o : Forged p) : List UInt8 := transcript p o.coms o.msg o.sig.salt

open Classical in
/-- The verifier: ask for the challenge, compute the commitments, ask for their digest, compare. -/
noncomputable def judge (p : Params) (B k : Nat) (pk : PK p) (out : List UInt8 × Sig p) :
    Asks (Question p) (AnswerTo p k) (Option (Forged p)) :=
  if out.2.digest.length = p.hashLen ∧ out.2.salt.length = p.hashLen then
    .ask (.inr (toVec _ out.2.digest)) fun (ws : Words 16 k) =>
      if h : ∃ o : Forged p, o.msg = out.1 ∧ o.sig = out.2 ∧ digestWords p ws.1 0 (noChallenge p) = .ok o.challenge ∧
          ∀ i < p.T, RoundCommit p B pk o.sig (g o.challenge) i (o.coms i) then
        .ask (.inl h.choose.hashed) fun (d : Digest p) => .done (if d.toList = out.2.digest then some h.choose else none)
      else .done none
  else .done none

/-- The forger, then the verifier. -/
noncomputable def attack (B : Nat) {k : Nat} (pk : PK p) (F : Forger p k) : Asks (Question p) (AnswerTo p k) (Option (Forged p)) :=
  F.bind (judge p B k pk)

end LESS.Spec
