import Verif.Model.Assert

/-!
# What the assertions promise: the order of Go values, numbers, tolerances, lines
-/

namespace Yarql
namespace Assert

/-- `s` comes before `t` in the order of bytes: it is a proper prefix, or smaller at the first place where they differ -/
def Before (s t : Bytes) : Prop :=
  (∃ c r, t = s ++ c :: r) ∨ (∃ p a b s' t', s = p ++ a :: s' ∧ t = p ++ b :: t' ∧ a < b)

/-- `v` is less than `w`: integers of one kind, floats of one kind, strings. Nothing is less than a NaN, or greater. -/
inductive Below : Val → Val → Prop where
  | int {s o p x y} : x < y → Below (.int s o x) (.int s p y)
  | uint {s o p x y} : x < y → Below (.uint s o x) (.uint s p y)
  | finite {s o p x y} : x < y → Below (.float s o (.fin x)) (.float s p (.fin y))
  | belowInf {s o p x} : x ≠ .nan → x ≠ .inf false → Below (.float s o x) (.float s p (.inf false))
  | aboveInf {s o p y} : y ≠ .nan → y ≠ .inf true → Below (.float s o (.inf true)) (.float s p y)
  | string {o p x y} : Before x y → Below (.string o x) (.string p y)

/-- `v` and `w` are the same integer, float or string (their types may have different names) -/
inductive Level : Val → Val → Prop where
  | int {s o p x} : Level (.int s o x) (.int s p x)
  | uint {s o p x} : Level (.uint s o x) (.uint s p x)
  | float {s o p x} : x ≠ .nan → Level (.float s o x) (.float s p x)
  | string {o p x} : Level (.string o x) (.string p x)

/-- integers, floats that are numbers, and strings -/
inductive Ordered : Val → Prop where
  | int {s o x} : Ordered (.int s o x)
  | uint {s o x} : Ordered (.uint s o x)
  | float {s o x} : x ≠ .nan → Ordered (.float s o x)
  | string {o x} : Ordered (.string o x)

/-- the assertion holds and reports nothing -/
def Passes (o : Outcome) : Prop := o = some (true, [])

/-- the assertion fails, with one report -/
def Fails (o : Outcome) : Prop := ∃ r, o = some (false, [r])

/-- the number a value of a predeclared type stands for (integers are converted to `float64`) -/
inductive Number (round : Rat → Fl) : Val → Fl → Prop where
  | int {s v} : Number round (.int s false v) (round v)
  | uint {s v} : Number round (.uint s false v) (round v)
  | float {s x} : Number round (.float s false x) x

/-- rounding gives numbers and respects the order -/
structure Rounding (round : Rat → Fl) : Prop where
  number : ∀ p, round p ≠ .nan
  monotone : ∀ p q, p ≤ q → Fl.lt (round q) (round p) = false

/-- `d` is a `float64` -/
def Exact (round : Rat → Fl) (d : Rat) : Prop := round d = .fin d

/-- a Go map: no key twice, except for those that are not equal to themselves -/
def GoMap (l : List (Key × Val)) : Prop := ((l.map (·.1)).filter (· ≠ .nan)).Nodup

/-- what is nil has no elements -/
def Sound : Val → Prop
  | .slice true l => l = []
  | .map true l => l = []
  | .chan true n => n = 0
  | _ => _root_.True

/-- greater than the zero of its type -/
inductive Pos : Val → Prop where
  | int {s o v} : 0 < v → Pos (.int s o v)
  | uint {s o v} : 0 < v → Pos (.uint s o v)
  | float {s o q} : 0 < q → Pos (.float s o (.fin q))
  | inf {s o} : Pos (.float s o (.inf false))
  | string {o c r} : Pos (.string o (c :: r))

/-- less than the zero of its type -/
inductive Neg : Val → Prop where
  | int {s o v} : v < 0 → Neg (.int s o v)
  | float {s o q} : q < 0 → Neg (.float s o (.fin q))
  | inf {s o} : Neg (.float s o (.inf true))

/-- nil, or a nil slice, map, channel, function or pointer -/
inductive IsNil : Val → Prop where
  | nil : IsNil .nil
  | slice {l} : IsNil (.slice true l)
  | map {l} : IsNil (.map true l)
  | chan {n} : IsNil (.chan true n)
  | func : IsNil (.func true)
  | ptr : IsNil (.ptr none)

/-- the zero value of its type -/
inductive IsZero : Val → Prop where
  | bool {o} : IsZero (.bool o false)
  | int {s o} : IsZero (.int s o 0)
  | uint {s o} : IsZero (.uint s o 0)
  | float {s o} : IsZero (.float s o (.fin 0))
  | string {o} : IsZero (.string o [])
  | isNil {v} : IsNil v → IsZero v
  | array {l} : (∀ v ∈ l, IsZero v) → IsZero (.array l)
  | struct {l} : (∀ v ∈ l, IsZero v) → IsZero (.struct l)

/-- "nil, "", false, 0 or either a slice or a channel with len == 0" (the documentation of `Empty`); also maps and arrays without elements, pointers to
nothing, and structs of which everything is zero -/
inductive Nothing : Val → Prop where
  | nil : Nothing .nil
  | bool {o} : Nothing (.bool o false)
  | int {s o} : Nothing (.int s o 0)
  | uint {s o} : Nothing (.uint s o 0)
  | float {s o} : Nothing (.float s o (.fin 0))
  | string {o} : Nothing (.string o [])
  | slice {n} : Nothing (.slice n [])
  | map {n} : Nothing (.map n [])
  | array : Nothing (.array [])
  | chan {n} : Nothing (.chan n 0)
  | func : Nothing (.func true)
  | nilPtr : Nothing (.ptr none)
  | ptr {v} : Nothing v → Nothing (.ptr (some v))
  | struct {l} : (∀ v ∈ l, IsZero v) → Nothing (.struct l)

/-- one assertion passes and the other one fails, with one report -/
def Opposite (o o' : Outcome) : Prop := (Passes o ∧ Fails o') ∨ (Fails o ∧ Passes o')

/-- the lines of a text: it is the lines, each ended by `\n` or `\r\n`; the end of the last one may be missing (then it is not empty) -/
inductive Lines : Bytes → List Bytes → Prop where
  | none : Lines [] []
  | last {l} : 10 ∉ l → l ≠ [] → l.getLast? ≠ some 13 → Lines l [l]
  | lastCR {l} : 10 ∉ l → Lines (l ++ [13]) [l]
  | line {l rest ls} : 10 ∉ l → l.getLast? ≠ some 13 → Lines rest ls → Lines (l ++ 10 :: rest) (l :: ls)
  | lineCR {l rest ls} : 10 ∉ l → Lines rest ls → Lines (l ++ 13 :: 10 :: rest) (l :: ls)

/-- the text of a report: sections of a label and lines, the labels filled up to `width`, the lines below each other -/
def layout (width : Nat) (sections : List (Bytes × List Bytes)) : Bytes :=
  sections.flatMap (fun s => [9] ++ s.1 ++ [58] ++ List.replicate (width - s.1.length) 32 ++ [9] ++
    List.intercalate ([10, 9] ++ List.replicate (width + 1) 32 ++ [9]) s.2 ++ [10])

end Assert
end Yarql
