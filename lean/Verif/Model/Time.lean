import Verif.Model.Decimal

/-!
# Model of `/repo/helpers/time.go`

`time.Time` is modelled by its civil fields in its own location plus that location's offset from UTC in
seconds; `time.Parse` / `AppendFormat` of the standard library are modelled for the one layout
`"2006-01-02T15:04:05.000Z"` the repository uses (in that layout the `Z` is a literal, not a zone).
-/

namespace Yarql
namespace Time

structure T where
  year : Int
  month : Nat
  day : Nat
  hour : Nat
  min : Nat
  sec : Nat
  nsec : Nat
  /-- seconds east of UTC -/
  offset : Int
deriving DecidableEq

/-- `appendInt(b, x, width)` of package time: decimal with at least `width` digits -/
def pad (width n : Nat) : Bytes := List.replicate (width - (natDigits n).length) c%'0' ++ natDigits n

/-- the year field: `appendInt(b, year, 4)` -/
def padYear (y : Int) : Bytes := if y < 0 then c%'-' :: pad 4 y.natAbs else pad 4 y.natAbs

/-- `TimeToIso8601String` (helpers/time.go:22-24): appends to the target -/
def timeToIso8601String (target : Bytes) (t : T) : Bytes :=
  target ++ (padYear t.year ++ c%'-' :: pad 2 t.month ++ c%'-' :: pad 2 t.day ++ c%'T' :: pad 2 t.hour ++
    c%':' :: pad 2 t.min ++ c%':' :: pad 2 t.sec ++ c%'.' :: pad 3 (t.nsec / 1000000) ++ [c%'Z'])

def isDigit (b : Byte) : Bool := c%'0' ≤ b && b ≤ c%'9'

def digitVal (b : Byte) : Nat := b.toNat - 48

/-- `atoi` on digits only -/
def atoiDigits : Bytes → Nat → Option Nat
  | [], acc => some acc
  | b :: r, acc => if isDigit b then atoiDigits r (acc * 10 + digitVal b) else none

/-- `atoi` of package time on a string known to start with a digit or a sign; a negative value is rejected by
the caller (`ns < 0`), `-0` is not -/
def atoiNonneg : Bytes → Option Nat
  | [] => none
  | b :: r =>
    if b = c%'+' then (if r = [] then none else atoiDigits r 0)
    else if b = c%'-' then (if r = [] then none else match atoiDigits r 0 with
      | some 0 => some 0
      | _ => none)
    else atoiDigits (b :: r) 0

/-- `getnum(s, fixed)` of package time -/
def getnum (fixed : Bool) : Bytes → Option (Nat × Bytes)
  | [] => none
  | [a] => if isDigit a then (if fixed then none else some (digitVal a, [])) else none
  | a :: b :: r =>
    if isDigit a = false then none
    else if isDigit b = false then (if fixed then none else some (digitVal a, b :: r))
    else some (digitVal a * 10 + digitVal b, r)

/-- literal character of the layout -/
def lit (c : Byte) : Bytes → Option Bytes
  | [] => none
  | a :: r => if a = c then some r else none

def isLeap (y : Int) : Bool := y % 4 == 0 && (y % 100 != 0 || y % 400 == 0)

/-- `daysIn` of package time -/
def daysIn (m : Nat) (y : Int) : Nat :=
  if m = 2 then (if isLeap y then 29 else 28)
  else if m = 4 ∨ m = 6 ∨ m = 9 ∨ m = 11 then 30 else 31

/-- the year field: four characters, the first a digit, all of them digits -/
def getYear : Bytes → Option (Nat × Bytes)
  | a :: b :: c :: d :: r =>
    if isDigit a then (atoiDigits [a, b, c, d] 0).map (fun y => (y, r)) else none
  | _ => none

/-- the `.000` field: separator `.` or `,` and three characters -/
def getMillis : Bytes → Option (Nat × Bytes)
  | a :: b :: c :: d :: r =>
    if a = c%'.' ∨ a = c%',' then (atoiNonneg [b, c, d]).map (fun ms => (ms, r)) else none
  | _ => none

/-- `ParseIso8601String` (helpers/time.go:12-18); the result of `time.Parse` without a zone in the layout is in
UTC.  `none` = error. -/
def parseIso8601String (val : Bytes) : Option T := do
  let (year, v) ← getYear val
  let v ← lit c%'-' v
  let (month, v) ← getnum true v
  if month = 0 ∨ 12 < month then none
  let v ← lit c%'-' v
  let (day, v) ← getnum true v
  let v ← lit c%'T' v
  let (hour, v) ← getnum false v
  if 24 ≤ hour then none
  let v ← lit c%':' v
  let (min, v) ← getnum true v
  if 60 ≤ min then none
  let v ← lit c%':' v
  let (sec, v) ← getnum true v
  if 60 ≤ sec then none
  let (ms, v) ← getMillis v
  let v ← lit c%'Z' v
  if v ≠ [] then none
  if day < 1 ∨ daysIn month year < day then none
  some ⟨year, month, day, hour, min, sec, ms * 1000000, 0⟩

end Time
end Yarql
