import Verif.Model.Bytes

/-!
# UTF-8 (RFC 3629)

Independent of the code: the encoding of a Unicode scalar value, and the reading of arbitrary bytes as
code points where every byte that does not start an encoded scalar value counts as U+FFFD (the Go convention
for converting a `string` to runes).
-/

namespace Yarql
namespace Utf8

/-- Unicode scalar values: code points without the surrogates. -/
def Scalar (c : Nat) : Prop := c < 0xD800 ∨ (0xE000 ≤ c ∧ c < 0x110000)

/-- The UTF-8 encoding of a scalar value. -/
def enc (c : Nat) : Bytes :=
  if c < 0x80 then [UInt8.ofNat c]
  else if c < 0x800 then [UInt8.ofNat (0xC0 + c / 0x40), UInt8.ofNat (0x80 + c % 0x40)]
  else if c < 0x10000 then
    [UInt8.ofNat (0xE0 + c / 0x1000), UInt8.ofNat (0x80 + c / 0x40 % 0x40), UInt8.ofNat (0x80 + c % 0x40)]
  else
    [UInt8.ofNat (0xF0 + c / 0x40000), UInt8.ofNat (0x80 + c / 0x1000 % 0x40),
     UInt8.ofNat (0x80 + c / 0x40 % 0x40), UInt8.ofNat (0x80 + c % 0x40)]

/-- `Reads bs cs`: read as UTF-8 with replacement of invalid bytes, `bs` is the code point sequence `cs`. -/
inductive Reads : Bytes → List Nat → Prop
  | nil : Reads [] []
  | valid {c r cs} : Scalar c → Reads r cs → Reads (enc c ++ r) (c :: cs)
  | invalid {b r cs} : (¬ ∃ c, Scalar c ∧ enc c <+: b :: r) → Reads r cs → Reads (b :: r) (0xFFFD :: cs)

end Utf8
end Yarql
