import Verif.Model.Bytes

/-! # Model of `StringToJSON` (`/repo/helpers/encodeString.go`) -/

namespace Yarql
namespace JsonString

/-- Sequence length encoded in the `first` table of Go's `unicode/utf8` (standard library). -/
def runeSize (s0 : Nat) : Nat := if s0 < 0xE0 then 2 else if s0 < 0xF0 then 3 else 4
/-- Lower bound of the second byte (`acceptRanges`). -/
def acceptLo (s0 : Nat) : Nat := if s0 = 0xE0 then 0xA0 else if s0 = 0xF0 then 0x90 else 0x80
/-- Upper bound of the second byte (`acceptRanges`). -/
def acceptHi (s0 : Nat) : Nat := if s0 = 0xED then 0x9F else if s0 = 0xF4 then 0x8F else 0xBF

/-- Go's `utf8.DecodeRuneInString` on a non-empty string (standard library): `first` and `acceptRanges`
tables as nested conditions; bit masks written as `%`.  Returns rune and size; `(0xFFFD, 1)` = invalid. -/
def decodeRune (s : Bytes) : Nat × Nat :=
  match s with
  | [] => (0xFFFD, 0)
  | b0 :: rest =>
    let s0 := b0.toNat
    if s0 < 0x80 then (s0, 1)
    else if s0 < 0xC2 ∨ 0xF5 ≤ s0 then (0xFFFD, 1)
    else
      let sz := runeSize s0
      let lo := acceptLo s0
      let hi := acceptHi s0
      match rest with
      | [] => (0xFFFD, 1)
      | b1 :: rest =>
        let s1 := b1.toNat
        if s.length < sz then (0xFFFD, 1)
        else if s1 < lo ∨ hi < s1 then (0xFFFD, 1)
        else if sz ≤ 2 then (s0 % 0x20 * 0x40 + s1 % 0x40, 2)
        else
          match rest with
          | [] => (0xFFFD, 1)
          | b2 :: rest =>
            let s2 := b2.toNat
            if s2 < 0x80 ∨ 0xBF < s2 then (0xFFFD, 1)
            else if sz ≤ 3 then (s0 % 0x10 * 0x1000 + s1 % 0x40 * 0x40 + s2 % 0x40, 3)
            else
              match rest with
              | [] => (0xFFFD, 1)
              | b3 :: _ =>
                let s3 := b3.toNat
                if s3 < 0x80 ∨ 0xBF < s3 then (0xFFFD, 1)
                else (s0 % 0x08 * 0x40000 + s1 % 0x40 * 0x1000 + s2 % 0x40 * 0x40 + s3 % 0x40, 4)

/-- `hex[i]` for `const hex = "0123456789abcdef"` (encodeString.go:17) -/
def hexChar (i : Nat) : Byte := (b%"0123456789abcdef").getD i 0

/-- `if start < i { *e = append(*e, s[start:i]...) }` (encodeString.go:32-34, 61-63, 76-78) -/
def flush (s : Bytes) (start i : Nat) (e : Bytes) : Bytes :=
  if start < i then e ++ (s.take i).drop start else e

/-- The escape switch (encodeString.go:35-53) -/
def escapeByte (b : Byte) : Bytes :=
  c%'\\' ::
    (if b == c%'\\' || b == c%'"' then [b]
     else if b == c%'\n' then [c%'n']
     else if b == c%'\r' then [c%'r']
     else if b == c%'\t' then [c%'t']
     else b%"u00" ++ [hexChar (b >>> 4).toNat, hexChar (b &&& 0xF).toNat])

/-- The loop of `StringToJSON` (encodeString.go:21-89).  `fuel` bounds the number of iterations; every
iteration increases `i`, so `len(s) + 1` is always enough. -/
def loop (s : Bytes) : Nat → Nat → Nat → Bytes → Bytes
  | 0, _, _, e => e
  | fuel + 1, start, i, e =>
    match s.drop i with
    | [] => -- `i == len(s)`: lines 90-93
      (if start < s.length then e ++ s.drop start else e) ++ [c%'"']
    | b :: _ =>
      if b < 0x80 then
        if c%' ' ≤ b && b ≤ c%'}' && b != c%'\\' && b != c%'"' then loop s fuel start (i + 1) e
        else if b == 0x7f then loop s fuel start (i + 1) e
        else loop s fuel (i + 1) (i + 1) (flush s start i e ++ escapeByte b)
      else
        let (c, size) := decodeRune (s.drop i)
        if c == 0xFFFD && size == 1 then
          loop s fuel (i + size) (i + size) (flush s start i e ++ b%"\\ufffd")
        else if c == 0x2028 || c == 0x2029 then
          loop s fuel (i + size) (i + size) (flush s start i e ++ b%"\\u202" ++ [hexChar (c % 16)])
        else loop s fuel start (i + size) e

/-- `StringToJSON(s, &e)` (encodeString.go:16-93) -/
def stringToJSON (s : Bytes) (e : Bytes) : Bytes := loop s (s.length + 1) 0 0 (e ++ [c%'"'])

end JsonString
end Yarql
