import Verif.Model.Bytes

/-!
# Decimal output (`strconv.AppendUint` / `AppendInt`, Go standard library)

Used by resolver.go (integers, list indices, error locations) and helpers/time.go.
-/

namespace Yarql

/-- ASCII code of a decimal digit -/
def digit (n : Nat) : Byte := UInt8.ofNat (48 + n % 10)

/-- decimal digits of `n`, most significant first; `fuel` bounds the number of digits -/
def natDigitsF : Nat → Nat → Bytes
  | 0, _ => []
  | fuel + 1, n => if n < 10 then [digit n] else natDigitsF fuel (n / 10) ++ [digit n]

/-- `strconv.AppendUint(nil, n, 10)` -/
def natDigits (n : Nat) : Bytes := natDigitsF (n + 1) n

/-- `strconv.AppendInt(nil, i, 10)` -/
def intDigits (i : Int) : Bytes := if i < 0 then c%'-' :: natDigits i.natAbs else natDigits i.natAbs

end Yarql
