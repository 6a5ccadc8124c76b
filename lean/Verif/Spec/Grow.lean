import Verif.Spec.Flat
import Verif.Spec.Typed

/-!
# Adding to a schema

`Extends env uses usesDir s s'`: the schema `s'` is `s` with more in it. Its object types have additional fields (anywhere between the old
ones), its interfaces additional implementations (of which there are no values yet), there may be additional object types, interfaces, enums,
input types and directives. Nothing that is new has a name for which `uses`
(fields) or `usesDir` (directives) holds.
-/

namespace Yarql
namespace Grow
open Doc Resolver Typed

section
variable {F V W : Type}

/-- `ys` is `xs` with additional elements, all of which satisfy `P` -/
inductive Inserted {A : Type} (P : A → Prop) : List A → List A → Prop where
  | nil : Inserted P [] []
  | keep {x xs ys} : Inserted P xs ys → Inserted P (x :: xs) (x :: ys)
  | add {y xs ys} : P y → Inserted P xs ys → Inserted P xs (y :: ys)

/-- an object type with additional fields. Fields are known to the resolver by the hash of their name only, so their hashes must
differ from those of the names used. -/
structure Grown (uses : Bytes → Prop) (t t' : RType F V) : Prop where
  name : t'.typeName = t.typeName
  fields : Inserted (fun f => ∀ name, uses name → f.key ≠ fnv1 name) t.fields t'.fields

/-- the directive of that name at a location -/
def directive (s : RSchema F V) (loc : UInt8) (name : Bytes) : Option (DirectiveDef F V) :=
  (lookup s.directives loc).bind (fun ds => ds.find? (fun x => x.name = name))

/-- no interface value is of the Go type of this implementation -/
def Absent (env : Env F V W) (i : Impl) : Prop := ∀ w v x, env.view w v ≠ .iface (some (i.goTypeName, i.goPkgPath, x))

structure Extends (env : Env F V W) (uses usesDir : Bytes → Prop) (s s' : RSchema F V) : Prop where
  query : Grown uses s.rootQuery s'.rootQuery
  mutation : Grown uses s.rootMethod s'.rootMethod
  queryValue : s'.rootQueryValue = s.rootQueryValue
  mutationValue : s'.rootMethodValue = s.rootMethodValue
  types : ∀ n t, lookup s.types n = some t → ∃ t', lookup s'.types n = some t' ∧ Grown uses t t'
  interfaces : ∀ n impls, lookup s.interfaces n = some impls → ∃ impls', lookup s'.interfaces n = some impls' ∧
    Inserted (Absent env) impls impls'
  inputs : ∀ n d, lookup s.inTypes n = some d → lookup s'.inTypes n = some d
  enums : ∃ more, s'.enums = s.enums ++ more
  directives : ∀ loc name, usesDir name → directive s' loc name = directive s loc name
  maxDepth : s'.maxDepth = s.maxDepth

/-- everything the type of a field mentions is in the schema -/
def Declared (s : RSchema F V) (env : Env F V W) : Obj F → Prop
  | .objRef n => ∃ t, lookup s.types n = some t
  | .interfaceRef n => ∃ impls, lookup s.interfaces n = some impls ∧ ∀ i ∈ impls, ∃ t, lookup s.types i.typeName = some t
  | .array o => Declared s env o
  | .ptr o => Declared s env o
  | .method m o => (∀ a ∈ m.inFields, Known s env a.input) ∧ Declared s env o
  | .enum i => i < s.enums.length
  | _ => True

/-- no field, input type or directive mentions something that is not in the schema -/
structure Closed (s : RSchema F V) (env : Env F V W) : Prop where
  fields : ∀ t, Flat.IsType s t → ∀ f ∈ t.fields, Declared s env f.obj
  inputs : ∀ n d, lookup s.inTypes n = some d → ∀ f ∈ d.fields, Known s env f.input
  directives : ∀ loc name x, directive s loc name = some x → ∀ a ∈ x.method.inFields, Known s env a.input

/-! ## What a document uses -/

/-- a field of that name is selected -/
inductive UsesField : List Sel → Bytes → Prop where
  | here {key name dirs args sub rest} : UsesField (.field key name dirs args sub :: rest) (name.getD key)
  | under {key name dirs args sub rest n} : UsesField sub n → UsesField (.field key name dirs args sub :: rest) n
  | inline {ty dirs sub rest n} : UsesField sub n → UsesField (.inline ty dirs sub :: rest) n
  | later {s rest n} : UsesField rest n → UsesField (s :: rest) n

/-- a directive of that name is attached to a selection -/
inductive UsesDirective : List Sel → Bytes → Prop where
  | field {key name dirs args sub rest} (d) : d ∈ dirs → UsesDirective (.field key name dirs args sub :: rest) d.name
  | spread {name dirs rest} (d) : d ∈ dirs → UsesDirective (.spread name dirs :: rest) d.name
  | onInline {ty dirs sub rest} (d) : d ∈ dirs → UsesDirective (.inline ty dirs sub :: rest) d.name
  | under {key name dirs args sub rest n} : UsesDirective sub n → UsesDirective (.field key name dirs args sub :: rest) n
  | inline {ty dirs sub rest n} : UsesDirective sub n → UsesDirective (.inline ty dirs sub :: rest) n
  | later {s rest n} : UsesDirective rest n → UsesDirective (s :: rest) n

/-- a field of that name is selected by the operation or a fragment -/
def DocUses (frags : List Fragment) (o : Operation) (n : Bytes) : Prop := UsesField o.sels n ∨ ∃ f ∈ frags, UsesField f.sels n

/-- a directive of that name is used in the operation or a fragment -/
def DocUsesDirective (frags : List Fragment) (o : Operation) (n : Bytes) : Prop :=
  UsesDirective o.sels n ∨ ∃ f ∈ frags, UsesDirective f.sels n

end
end Grow
end Yarql
