import Verif.Basic
/-!
# Specification: rejection sampling, shuffling and challenges from a byte stream

Independent of the loops of the code: a stream of bytes is cut into words, the words into fields.
-/
namespace LESS.Spec

/-- An infinite byte string (the output of an extendable-output function). -/
abbrev Stream := Nat → UInt8

/-- The first `n` bytes. -/
def Stream.take (s : Stream) (n : Nat) : List UInt8 := (List.range n).map s

/-- What follows the first `n` bytes. -/
def Stream.drop (s : Stream) (n : Nat) : Stream := fun k => s (n + k)

/-- The little-endian number in the first `n` bytes. -/
def Stream.word (s : Stream) (n : Nat) : Nat := ((List.range n).map fun k => (s k).toNat * 256 ^ k).sum

/-- The `⌊64/b⌋` fields of `b` bits of a 64-bit word, least significant first. -/
def fields (b word : Nat) : List Nat := (List.range (64 / b)).map fun k => word / 2 ^ (b * k) % 2 ^ b

/-- The values a word contributes: its fields not above `hi - lo`, moved up by `lo`. -/
def accept (b lo hi word : Nat) : List Nat := ((fields b word).filter (· ≤ hi - lo)).map (· + lo)

/-- The values accepted among the first `w` 64-bit words of a stream. -/
def accepted (b lo hi : Nat) (s : Stream) (w : Nat) : List Nat :=
  (List.range w).flatMap fun i => accept b lo hi ((s.drop (8 * i)).word 8)

/-- `vals` are the first `n` accepted values; as many words are used up as are needed for them, at most `budget`;
`s'` is the unread rest of the stream. -/
def Sampled (b lo hi n budget : Nat) (s : Stream) (vals : List Nat) (s' : Stream) : Prop :=
  ∃ w ≤ budget, n ≤ (accepted b lo hi s w).length ∧ (∀ w' < w, (accepted b lo hi s w').length < n) ∧
    vals = (accepted b lo hi s w).take n ∧ s' = s.drop (8 * w)

/-- A list of values exchanged at two positions. -/
def exchange (π : Nat → Nat) (i j : Nat) : Nat → Nat := fun x => if x = i then π j else if x = j then π i else π x

/-- The Fisher-Yates shuffle: exchange positions `i` and `d i` for `i = 0, 1, ..., m - 1`, starting from the
identity. -/
def shuffled (d : Nat → Nat) : Nat → Nat → Nat
  | 0 => id
  | m + 1 => exchange (shuffled d m) m (d m)

/-- The partner of position `i` among `n`, drawn from a stream of 32-bit words. -/
def partner (n : Nat) (s : Stream) (i : Nat) : Nat := i + (s.drop (4 * i)).word 4 % (n - i)

end LESS.Spec
