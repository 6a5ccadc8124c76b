import Verif.Spec.Eval

/-!
# Type conditions that decide nothing

`Flatten schema K sels sels'`: `sels'` comes from `sels` by replacing any number of inline fragments (without directives), at any depth,

* by their selections, if every object that can occur there is of the fragment's type,
* by nothing, if no object that can occur there is of the fragment's type.

`K` is the set of types of the objects that `sels` can be applied to. It is computed from the schema: below a field it consists of
the types that the field of that name leads to, below an inline fragment only the type of that name is left.
-/

namespace Yarql
namespace Flat
open Doc Resolver

section
variable {F V : Type}

/-- the object types of a schema -/
def IsType (schema : RSchema F V) (t : RType F V) : Prop :=
  t = schema.rootQuery ∨ t = schema.rootMethod ∨ ∃ n, lookup schema.types n = some t

/-- `t` is the type of an object in a value of type `o` -/
inductive Leads (schema : RSchema F V) : Obj F → RType F V → Prop where
  | object {n t} : lookup schema.types n = some t → Leads schema (.objRef n) t
  | list {o t} : Leads schema o t → Leads schema (.array o) t
  | ptr {o t} : Leads schema o t → Leads schema (.ptr o) t
  | result {m o t} : Leads schema o t → Leads schema (.method m o) t
  | interface {n impls i t} : lookup schema.interfaces n = some impls → i ∈ impls → lookup schema.types i.typeName = some t →
      Leads schema (.interfaceRef n) t

/-- the types of the objects below the field `name` of objects with types in `K` -/
def Below (schema : RSchema F V) (K : RType F V → Prop) (name : Bytes) (t' : RType F V) : Prop :=
  ∃ t f, K t ∧ f ∈ t.fields ∧ f.key = fnv1 name ∧ Leads schema f.obj t'

/-- inline fragments are replaced by their selections where their type condition always holds, and removed where it never holds -/
inductive Flatten (schema : RSchema F V) : (RType F V → Prop) → List Sel → List Sel → Prop where
  | nil {K} : Flatten schema K [] []
  | field {K key name dirs args sub sub' rest rest'} : (sub = [] ↔ sub' = []) → Flatten schema (Below schema K (name.getD key)) sub sub' →
      Flatten schema K rest rest' → Flatten schema K (.field key name dirs args sub :: rest) (.field key name dirs args sub' :: rest')
  | spread {K name dirs rest rest'} : Flatten schema K rest rest' → Flatten schema K (.spread name dirs :: rest) (.spread name dirs :: rest')
  | inline {K ty dirs sub sub' rest rest'} : Flatten schema (fun t => K t ∧ t.typeName = ty) sub sub' → Flatten schema K rest rest' →
      Flatten schema K (.inline ty dirs sub :: rest) (.inline ty dirs sub' :: rest')
  | always {K ty sub sub' rest rest'} : (∀ t, K t → t.typeName = ty) → Flatten schema K sub sub' → Flatten schema K rest rest' →
      Flatten schema K (.inline ty [] sub :: rest) (sub' ++ rest')
  | never {K ty sub rest rest'} : (∀ t, K t → t.typeName ≠ ty) → Flatten schema K rest rest' →
      Flatten schema K (.inline ty [] sub :: rest) rest'

/-- the same for the fragments of a document -/
inductive FlattenFrags (schema : RSchema F V) : List Fragment → List Fragment → Prop where
  | nil : FlattenFrags schema [] []
  | cons {name ty sels sels' fs fs'} : Flatten schema (fun t => IsType schema t ∧ t.typeName = ty) sels sels' → FlattenFrags schema fs fs' →
      FlattenFrags schema (⟨name, ty, sels⟩ :: fs) (⟨name, ty, sels'⟩ :: fs')

/-- the type of the object an operation is applied to -/
def Root (schema : RSchema F V) (o : Operation) (t : RType F V) : Prop :=
  match o.kind with
  | .query => t = schema.rootQuery
  | .mutation => t = schema.rootMethod
  | .subscription => False

end
end Flat
end Yarql
