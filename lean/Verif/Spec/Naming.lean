import Verif.Model.Bytes

/-!
# Specification of identifiers

Independent of the model: letters, digits and the two shapes of names the properties talk about.
-/

namespace Yarql
namespace NameSpec

def Upper (b : Byte) : Prop := 65 ≤ b.toNat ∧ b.toNat ≤ 90
def Lower (b : Byte) : Prop := 97 ≤ b.toNat ∧ b.toNat ≤ 122
def Digit (b : Byte) : Prop := 48 ≤ b.toNat ∧ b.toNat ≤ 57
def Letter (b : Byte) : Prop := Upper b ∨ Lower b
/-- letter, digit or underscore -/
def Word (b : Byte) : Prop := Letter b ∨ Digit b ∨ b.toNat = 95

/-- A GraphQL name as yarql wants it: a letter followed by letters, digits and underscores. -/
inductive Name : Bytes → Prop where
  | mk (b : Byte) (rest : Bytes) : Letter b → (∀ x ∈ rest, Word x) → Name (b :: rest)

/-- An exported Go identifier over ASCII: an upper-case letter followed by letters, digits, underscores. -/
inductive Exported : Bytes → Prop where
  | mk (b : Byte) (rest : Bytes) : Upper b → (∀ x ∈ rest, Word x) → Exported (b :: rest)

/-- `p` is `l` with the letter `u` lower-cased to `l`. -/
def LowerOf (l u : Byte) : Prop := (Upper u ∧ l.toNat = u.toNat + 32) ∨ (¬ Upper u ∧ l = u)

/-- ASCII white space: tab, line feed, vertical tab, form feed, carriage return, space -/
def Blank (b : Byte) : Prop := (9 ≤ b.toNat ∧ b.toNat ≤ 13) ∨ b.toNat = 32

/-- `core` with white space around it -/
inductive Padded (core : Bytes) : Bytes → Prop where
  | mk (l r : Bytes) : (∀ x ∈ l, Blank x) → (∀ x ∈ r, Blank x) → Padded core (l ++ (core ++ r))

/-- the modifier `id`, in any mix of cases, with white space around it -/
def IdModifier (m : Bytes) : Prop :=
  Padded b%"id" m ∨ Padded b%"iD" m ∨ Padded b%"Id" m ∨ Padded b%"ID" m

/-- a tag written as its first part and its modifiers -/
def tagOf (head : Bytes) (mods : List Bytes) : Bytes := head ++ mods.flatMap fun m => c%',' :: m

end NameSpec
end Yarql
