import Verif.Spec.Utf8

/-!
# JSON string literals (RFC 8259, section 7)

`JString lit cs`: the bytes `lit` are a JSON string literal denoting the code points `cs`.
-/

namespace Yarql
namespace Json

/-- Value of a hexadecimal digit. -/
def hexDigit (b : Byte) : Option Nat :=
  if 48 ≤ b.toNat ∧ b.toNat ≤ 57 then some (b.toNat - 48)
  else if 97 ≤ b.toNat ∧ b.toNat ≤ 102 then some (b.toNat - 87)
  else if 65 ≤ b.toNat ∧ b.toNat ≤ 70 then some (b.toNat - 55)
  else none

/-- Value of four hexadecimal digits. -/
def hex4 (a b c d : Byte) : Option Nat :=
  match hexDigit a, hexDigit b, hexDigit c, hexDigit d with
  | some a, some b, some c, some d => some (a * 4096 + b * 256 + c * 16 + d)
  | _, _, _, _ => none

/-- The two-character escapes. -/
def simpleEscape (e : Byte) : Option Nat :=
  if e = c%'"' then some 0x22
  else if e = c%'\\' then some 0x5C
  else if e = c%'/' then some 0x2F
  else if e = c%'b' then some 0x08
  else if e = c%'f' then some 0x0C
  else if e = c%'n' then some 0x0A
  else if e = c%'r' then some 0x0D
  else if e = c%'t' then some 0x09
  else none

/-- Content of a JSON string literal and the code points it denotes. -/
inductive JChars : Bytes → List Nat → Prop
  | nil : JChars [] []
  | unescaped {c r cs} : Utf8.Scalar c → 0x20 ≤ c → c ≠ 0x22 → c ≠ 0x5C → JChars r cs →
      JChars (Utf8.enc c ++ r) (c :: cs)
  | escape {e c r cs} : simpleEscape e = some c → JChars r cs → JChars (c%'\\' :: e :: r) (c :: cs)
  | unicode {h1 h2 h3 h4 n r cs} : hex4 h1 h2 h3 h4 = some n → Utf8.Scalar n → JChars r cs →
      JChars (c%'\\' :: c%'u' :: h1 :: h2 :: h3 :: h4 :: r) (n :: cs)
  | surrogates {h1 h2 h3 h4 l1 l2 l3 l4 hi lo r cs} : hex4 h1 h2 h3 h4 = some hi →
      hex4 l1 l2 l3 l4 = some lo → 0xD800 ≤ hi → hi < 0xDC00 → 0xDC00 ≤ lo → lo < 0xE000 →
      JChars r cs →
      JChars (c%'\\' :: c%'u' :: h1 :: h2 :: h3 :: h4 :: c%'\\' :: c%'u' :: l1 :: l2 :: l3 :: l4 :: r)
        ((0x10000 + (hi - 0xD800) * 0x400 + (lo - 0xDC00)) :: cs)

/-- A complete literal with its quotes. -/
def JString (lit : Bytes) (cs : List Nat) : Prop :=
  ∃ body, lit = c%'"' :: body ++ [c%'"'] ∧ JChars body cs

end Json
end Yarql
