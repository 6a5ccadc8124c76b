import Verif.Model.Bytes

/-!
# Lines and columns

Independent of the code: a line terminator is LF, CR, or CR LF (one terminator).
-/

namespace Yarql
namespace Location

/-- Number of line terminators in a text. -/
def lineBreaks : Bytes → Nat
  | [] => 0
  | 13 :: 10 :: r => 1 + lineBreaks r
  | b :: r => (if b = 13 ∨ b = 10 then 1 else 0) + lineBreaks r

/-- Number of bytes after the last line terminator of a text. -/
def column (p : Bytes) : Nat := (p.reverse.takeWhile (fun b => b != 13 && b != 10)).length

end Location
end Yarql
