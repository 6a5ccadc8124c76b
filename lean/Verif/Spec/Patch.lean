import Verif.Model.Decimal

/-!
# What a unified diff says

A specification of the unified diff format, without reference to how a diff is found.
-/

namespace Yarql
namespace Patch

/-- A line ends in a newline, its only one. -/
def Line (l : Bytes) : Prop := ∃ x, l = x ++ [c%'\n'] ∧ c%'\n' ∉ x

/-- `Lines s ls`: `ls` are the lines of `s`, where the last line is one that has lost its newline. -/
def Lines (s : Bytes) (ls : List Bytes) : Prop := ls.flatten = s ++ [c%'\n'] ∧ ∀ l ∈ ls, Line l

/-- `a[p], …, a[p+k-1]` are the lines `b[q], …, b[q+k-1]`. -/
def Common (a b : List Bytes) (p q k : Nat) : Prop := p + k ≤ a.length ∧ q + k ≤ b.length ∧ ∀ t, t < k → a[p + t]? = b[q + t]?

/-- The range of a hunk: the number of its first line (counted from 1) and how many lines there are; one line is not counted,
and an empty range has the number of the line before it. -/
inductive Range : Nat → Nat → Bytes → Prop where
  | one {skip} : Range skip 1 (natDigits (skip + 1))
  | none {skip} : Range skip 0 (natDigits skip ++ b%",0")
  | many {skip n} : 2 ≤ n → Range skip n (natDigits (skip + 1) ++ b%"," ++ natDigits n)

/-- The lines of a hunk: `Body old new kept text`: lines of both sides are marked with a blank, lines of the old side with `-`,
lines of the new side with `+`. `kept` lines are marked with a blank. -/
inductive Body : List Bytes → List Bytes → Nat → Bytes → Prop where
  | nil : Body [] [] 0 []
  | both {line old new kept text} : Body old new kept text → Body (line :: old) (line :: new) (kept + 1) (c%' ' :: (line ++ text))
  | old {line old new kept text} : Body old new kept text → Body (line :: old) new kept (c%'-' :: (line ++ text))
  | new {line old new kept text} : Body old new kept text → Body old (line :: new) kept (c%'+' :: (line ++ text))

/-- `Hunks p q a b kept text`: `text` is a sequence of hunks that turns the lines `a` into the lines `b`, where `p` lines of the old text
come before `a` and `q` lines of the new text before `b`. Between hunks the lines are the same; a hunk names its place and lists the lines
there. `kept` lines of `a` are left as they are; the others are marked with `-`. -/
inductive Hunks : Nat → Nat → List Bytes → List Bytes → Nat → Bytes → Prop where
  | done {p q rest} : Hunks p q rest rest rest.length []
  | hunk {p q same old new a b r1 r2 body text kept kept'} :
      Range (p + same.length) old.length r1 → Range (q + same.length) new.length r2 → Body old new kept body →
      Hunks (p + same.length + old.length) (q + same.length + new.length) a b kept' text →
      Hunks p q (same ++ old ++ a) (same ++ new ++ b) (same.length + kept + kept') (b%"@@ -" ++ r1 ++ b%" +" ++ r2 ++ b%" @@\n" ++ body ++ text)

/-- A unified diff from `a` to `b` that keeps `kept` lines: nothing, or a header and hunks. -/
inductive UnifiedDiff (a b : List Bytes) : Nat → Bytes → Prop where
  | same : a = b → UnifiedDiff a b a.length []
  | hunks {kept text} : text ≠ [] → Hunks 0 0 a b kept text → UnifiedDiff a b kept (b%"--- Expected\n+++ Actual\n" ++ text)

end Patch
end Yarql
