import Verif.Spec.Patch

/-!
# What a unified diff shows

A specification of the hunks of a unified diff with one line of context, without reference to how they are found. `Patch` says what the
text of a diff means; this says how much is in it.
-/

namespace Yarql
namespace Context
open Patch

/-- The lines of a hunk and which of them are marked with a blank (`true`: on both sides) and which are changes (`false`). -/
inductive Body : List Bytes → List Bytes → List Bool → Bytes → Prop where
  | nil : Body [] [] [] []
  | both {line old new marks text} : Body old new marks text → Body (line :: old) (line :: new) (true :: marks) (c%' ' :: (line ++ text))
  | old {line old new marks text} : Body old new marks text → Body (line :: old) new (false :: marks) (c%'-' :: (line ++ text))
  | new {line old new marks text} : Body old new marks text → Body old (line :: new) (false :: marks) (c%'+' :: (line ++ text))

/-- Every line that is not a change is next to one. -/
def Near (marks : List Bool) : Prop := ∀ t, marks[t]? = some true → marks[t + 1]? = some false ∨ ∃ s, t = s + 1 ∧ marks[s]? = some false

/-- Hunks as in `Patch.Hunks`, where a hunk has a line and its lines are changes or next to one; a hunk that starts with a change starts
where the texts do, one that stops with a change stops where the texts do (otherwise the line before, or behind, is shown too); and two
hunks are not adjacent: there are lines between them. -/
inductive Hunks : Nat → Nat → List Bytes → List Bytes → Bytes → Prop where
  | done {p q rest} : Hunks p q rest rest []
  | hunk {p q same old new a b r1 r2 marks body text} :
      Range (p + same.length) old.length r1 → Range (q + same.length) new.length r2 → Body old new marks body →
      marks ≠ [] → Near marks →
      (marks.head? = some false → p + same.length = 0 ∧ q + same.length = 0) →
      (marks.getLast? = some false → a = [] ∧ b = []) →
      same ≠ [] ∨ p = 0 ∧ q = 0 →
      Hunks (p + same.length + old.length) (q + same.length + new.length) a b text →
      Hunks p q (same ++ old ++ a) (same ++ new ++ b) (b%"@@ -" ++ r1 ++ b%" +" ++ r2 ++ b%" @@\n" ++ body ++ text)

/-- A unified diff with one line of context. -/
inductive UnifiedDiff (a b : List Bytes) : Bytes → Prop where
  | same : a = b → UnifiedDiff a b []
  | hunks {text} : text ≠ [] → Hunks 0 0 a b text → UnifiedDiff a b (b%"--- Expected\n+++ Actual\n" ++ text)

end Context
end Yarql
