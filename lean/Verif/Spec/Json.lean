import Verif.Spec.JsonString

/-!
# JSON texts (RFC 8259), without white space between tokens

`JText t`: the bytes `t` are a JSON value. Responses contain no white space, so the grammar leaves it out; every text it accepts is
a JSON text of RFC 8259.
-/

namespace Yarql
namespace Json

def IsDigit (b : Byte) : Prop := 48 ≤ b.toNat ∧ b.toNat ≤ 57

/-- one or more digits -/
def JDigits (t : Bytes) : Prop := t ≠ [] ∧ ∀ b ∈ t, IsDigit b

/-- `int`: zero, or digits that do not start with zero -/
def JInt (t : Bytes) : Prop := JDigits t ∧ (t.head? = some c%'0' → t = [c%'0'])

/-- `frac`, optional -/
def JFrac (t : Bytes) : Prop := t = [] ∨ ∃ ds, t = c%'.' :: ds ∧ JDigits ds

/-- `exp`, optional -/
def JExp (t : Bytes) : Prop :=
  t = [] ∨ ∃ e sign ds, t = e :: sign ++ ds ∧ (e = c%'e' ∨ e = c%'E') ∧ (sign = [] ∨ sign = [c%'+'] ∨ sign = [c%'-']) ∧ JDigits ds

/-- `number` -/
def JNumber (t : Bytes) : Prop :=
  ∃ sign i f e, t = sign ++ i ++ f ++ e ∧ (sign = [] ∨ sign = [c%'-']) ∧ JInt i ∧ JFrac f ∧ JExp e

mutual
inductive JText : Bytes → Prop where
  | null : JText b%"null"
  | true : JText b%"true"
  | false : JText b%"false"
  | number {t} : JNumber t → JText t
  | string {t cs} : JString t cs → JText t
  | emptyArray : JText b%"[]"
  | array {t} : JElems t → JText ([c%'['] ++ t ++ [c%']'])
  | emptyObject : JText b%"{}"
  | object {t} : JMembers t → JText ([c%'{'] ++ t ++ [c%'}'])
/-- values separated by commas -/
inductive JElems : Bytes → Prop where
  | one {t} : JText t → JElems t
  | cons {t ts} : JText t → JElems ts → JElems (t ++ [c%','] ++ ts)
/-- members separated by commas -/
inductive JMembers : Bytes → Prop where
  | one {k cs t} : JString k cs → JText t → JMembers (k ++ [c%':'] ++ t)
  | cons {k cs t ts} : JString k cs → JText t → JMembers ts → JMembers (k ++ [c%':'] ++ t ++ [c%','] ++ ts)
end

end Json
end Yarql
