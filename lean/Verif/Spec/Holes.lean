import Verif.Spec.Blame
import Verif.Spec.Json

/-!
# Fields without a value

The two cases in which the implementation writes the key of a field and no value.
-/

namespace Yarql
namespace Blame
open Doc Eval Resolver

section
variable {F V W : Type} (r : Shows.Ctx F V W)

/-- a selection for which no value is written: `__typename` with arguments or selections, or a function field whose arguments
cannot be bound -/
inductive Hole : Sel → Prop where
  | typename {key name dirs args sub} : name.getD key = b%"__typename" → args ≠ none ∨ sub ≠ [] → Hole (.field key name dirs args sub)
  | unbound {key name dirs args sub f m} : Resolves r (name.getD key) f → Calls m f.obj → Unbound r m args →
      Hole (.field key name dirs (some args) sub)

/-- names that need no escaping in JSON: printable ASCII without quotes and backslashes -/
def PlainName (t : Bytes) : Prop := ∀ b ∈ t, 0x20 ≤ b.toNat ∧ b.toNat < 0x7F ∧ b ≠ c%'"' ∧ b ≠ c%'\\'

/-- the names of the schema that are copied into responses need no escaping -/
structure PlainSchema (schema : RSchema F V) : Prop where
  types : ∀ t, IsObject schema t → PlainName t.typeName
  enums : ∀ e ∈ schema.enums, ∀ x ∈ e.entries, PlainName x.1

end
end Blame
end Yarql
