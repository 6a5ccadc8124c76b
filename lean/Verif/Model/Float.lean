import Verif.Model.Bytes

/-!
# `FloatToJSON` (`/repo/helpers/encodeFloat.go:16-42`)

Floating point numbers are not modelled: the function is modelled from the point where `strconv.FormatFloat` has produced its text
(line 31); `special` is `math.IsInf(f, 0) || math.IsNaN(f)` (line 17) and `e` says that the format is `'e'` (lines 23-29).
-/

namespace Yarql
namespace Float

/-- `b[n-4:n-1] == "e-0"` for a text of at least 4 bytes (line 35) -/
def cleanable (b : Bytes) : Bool :=
  let n := b.length
  decide (n ≥ 4) && decide ((b.drop (n - 4)).take 3 = b%"e-0")

/-- `FloatToJSON` (encodeFloat.go:16-42): what is appended -/
def floatToJSON (special e : Bool) (b : Bytes) : Bytes :=
  if special then b%"0.0"
  else if e && cleanable b then b.take (b.length - 2) ++ b.drop (b.length - 1)
  else b

end Float
end Yarql
