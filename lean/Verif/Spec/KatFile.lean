import Verif.Spec.KatRng
import Mathlib.Data.Nat.Digits.Defs
/-!
# The NIST test-vector files

The text of a request and of a response, and what it means to search a marker and to read a hexadecimal field.
-/
namespace LESS.Spec.Kat

/-- The bytes of a text. -/
def text (s : String) : List UInt8 := s.toList.map fun c => UInt8.ofNat c.toNat

/-- Decimal notation. -/
def decimal (n : Nat) : List UInt8 :=
  if n = 0 then text "0" else (Nat.digits 10 n).reverse.map fun d => UInt8.ofNat (48 + d)

/-- The sixteen digits. -/
def hexDigits : List UInt8 := text "0123456789ABCDEF"

/-- Two hexadecimal digits for every byte. -/
def hexText (l : List UInt8) : List UInt8 :=
  (l.map fun b => [hexDigits.getD (b.toNat / 16) 0, hexDigits.getD (b.toNat % 16) 0]).flatten

/-- What follows the first occurrence of a marker; `none` if there is none. -/
def afterFirst (marker : List UInt8) : List UInt8 → Option (List UInt8)
  | [] => if marker = [] then some [] else none
  | c :: t => if marker <+: c :: t then some ((c :: t).drop marker.length) else afterFirst marker t

/-- The digits accepted when reading: also lower case. -/
def isHex (c : UInt8) : Bool := (text "0123456789ABCDEFabcdef").contains c

/-- The value of a digit. -/
def hexDigitValue (c : UInt8) : Nat :=
  if c.toNat < 58 then c.toNat - 48 else if c.toNat < 71 then c.toNat - 55 else c.toNat - 87

/-- The number denoted by digits. -/
def hexValue (l : List UInt8) : Nat := l.foldl (fun a c => 16 * a + hexDigitValue c) 0

/-- The start of a field: the first digit or the end of the line. -/
def fieldStart (l : List UInt8) : List UInt8 := l.dropWhile fun c => !isHex c && c != 10

/-- The digits of the field. -/
def fieldDigits (l : List UInt8) : List UInt8 := (fieldStart l).takeWhile isHex

/-- What follows the field: the character that ends it is used up. -/
def fieldRest (l : List UInt8) : List UInt8 := ((fieldStart l).dropWhile isHex).tail

/-- One line `label value`. -/
def field (label : String) (value : List UInt8) : List UInt8 := text label ++ value ++ text "\n"

/-- One request. -/
def request (i : Nat) (seed msg : List UInt8) : List UInt8 :=
  field "count = " (decimal i) ++ field "seed = " (hexText seed) ++ field "mlen = " (decimal msg.length) ++
    field "msg = " (hexText msg) ++ text "pk =\nsk =\nsmlen =\nsm =\n\n"

/-- One response. -/
def response (i : Nat) (seed msg pk sk sm : List UInt8) : List UInt8 :=
  field "count = " (decimal i) ++ field "seed = " (hexText seed) ++ field "mlen = " (decimal msg.length) ++
    field "msg = " (hexText msg) ++ field "pk = " (hexText pk) ++ field "sk = " (hexText sk) ++
    field "smlen = " (decimal sm.length) ++ field "sm = " (hexText sm) ++ text "\n"

/-- `n` bytes of the generator in state `(key, V)`, and its next state. -/
def draw (E : Cipher) (n : Nat) (s : Vector UInt8 32 × Vector UInt8 16) : List UInt8 × (Vector UInt8 32 × Vector UInt8 16) :=
  ((List.range n).map (stream E s.1 (num s.2.toList)), update E s.1 (num s.2.toList + (n + 15) / 16) (fun _ => 0))

/-- The state of the generator before request `i`. -/
def requestState (E : Cipher) : Nat → Vector UInt8 32 × Vector UInt8 16
  | 0 => update E (Vector.replicate 32 0) 0 (fun i => UInt8.ofNat i)
  | i + 1 => (draw E (33 * (i + 1)) (draw E 48 (requestState E i)).2).2

/-- The seed of request `i`. -/
def requestSeed (E : Cipher) (i : Nat) : List UInt8 := (draw E 48 (requestState E i)).1

/-- The message of request `i`: `33 (i + 1)` bytes. -/
def requestMsg (E : Cipher) (i : Nat) : List UInt8 := (draw E (33 * (i + 1)) (draw E 48 (requestState E i)).2).1

end LESS.Spec.Kat
