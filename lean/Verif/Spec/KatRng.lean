import Verif.Basic
/-!
# CTR_DRBG (NIST SP 800-90A, AES-256, no derivation function) and the counter-mode seed expander

Counters are natural numbers, written to blocks in big-endian order.
-/
namespace LESS.Spec.Kat

/-- The number written in big-endian order. -/
def num : List UInt8 → Nat := fun l => l.foldl (fun a b => 256 * a + b.toNat) 0

/-- The `w`-byte big-endian encoding of `n mod 256^w`. -/
def be (w n : Nat) : List UInt8 := (List.range w).map fun i => UInt8.ofNat (n / 256 ^ (w - 1 - i))

/-- The 16-byte block of a number. -/
def blk (n : Nat) : Vector UInt8 16 := toVec 16 (be 16 n)

/-- The block cipher. -/
abbrev Cipher := Vector UInt8 32 → Vector UInt8 16 → Vector UInt8 16

/-- `CTR_DRBG_Update`: 48 bytes of counter-mode output from `v + 1` on, masked with the data, become key and `V`. -/
def update (E : Cipher) (key : Vector UInt8 32) (v : Nat) (data : Nat → UInt8) : Vector UInt8 32 × Vector UInt8 16 :=
  let t : Nat → UInt8 := fun i => g (E key (blk (v + 1 + i / 16))) (i % 16) ^^^ data i
  (Vector.ofFn fun i => t i.val, Vector.ofFn fun i => t (32 + i.val))

/-- The byte stream of `CTR_DRBG_Generate`. -/
def stream (E : Cipher) (key : Vector UInt8 32) (v : Nat) (i : Nat) : UInt8 := g (E key (blk (v + 1 + i / 16))) (i % 16)

/-- The stream of the seed expander: block `n` is the encryption of diversifier, length and `n`. -/
def xofStream (E : Cipher) (seed : Vector UInt8 32) (div : Vector UInt8 8) (maxlen : Nat) (i : Nat) : UInt8 :=
  g (E seed (toVec 16 (div.toList ++ be 4 maxlen ++ be 4 (i / 16)))) (i % 16)

end LESS.Spec.Kat
