import Verif.Model.TypeList
import Verif.Spec.TypeNotation

/-!
# Specification: what the introspection lists must contain
-/

namespace Yarql
namespace TypeList
open Introspect

variable {F V : Type}

/-- the tables of the schema have a type of the name `n` and the kind -/
inductive Shown (s : Schema F V) (n : Bytes) : TypeKind → Prop where
  | object : (lookup s.types n).isSome = true → Shown s n .object
  | interface : (lookup s.interfaces n).isSome = true → Shown s n .interface
  | input : (lookup s.inTypes n).isSome = true → Shown s n .inputObject
  | enum (e : EnumDef F) : e ∈ s.enums → e.typeName = n → Shown s n .enum
  | scalar : n ∈ [b%"Int", b%"Float", b%"String", b%"Boolean", b%"ID", b%"Time", b%"File"] → Shown s n .scalar

/-- the tables are keyed by the names of the types, each key once -/
structure OwnNames (s : Schema F V) : Prop where
  types : ∀ n d, (n, d) ∈ s.types → d.typeName = n
  interfaces : ∀ n d, (n, d) ∈ s.interfaces → d.typeName = n
  typesOnce : (s.types.map (·.1)).Nodup
  interfacesOnce : (s.interfaces.map (·.1)).Nodup
  inputsOnce : (s.inTypes.map (·.1)).Nodup

/-- no two types of the schema share a name -/
structure Unambiguous (s : Schema F V) : Prop where
  kinds : ∀ n k k', Shown s n k → Shown s n k' → k = k'
  enums : (s.enums.map (·.typeName)).Nodup

/-- What `__type` says about a type other than its name, kind and fields. -/
inductive Content (s : Schema F V) : QType → Prop where
  | object (n : Bytes) (d : TypeDef F V) : lookup s.types n = some d →
      Content s ⟨.object, n, some (.object n), d.implementations, none, none, none⟩
  | interface (n : Bytes) (d : IfaceDef F V) : lookup s.interfaces n = some d → (∀ i ∈ d.implementations, (lookup s.types i.typeName).isSome = true) →
      Content s ⟨.interface, n, some (.iface n), [], some (some (d.implementations.map (·.typeName))), none, none⟩
  | input (n : Bytes) (d : InStruct F) (fs : List (Bytes × QT)) : lookup s.inTypes n = some d →
      fs.Pairwise (fun a b => bytesLe a.1 b.1 = true) →
      (∃ l, fs.Perm l ∧ Pointwise (fun (a : InField) x => x.1 = a.key ∧ InType a.input x.2) d.fields l) →
      Content s ⟨.inputObject, n, none, [], none, none, some fs⟩
  | enum (e : EnumDef F) (vs : List Bytes) : e ∈ s.enums → vs.Perm (e.entries.map (·.1)) →
      vs.Pairwise (fun a b => bytesLe a b = true) → Content s ⟨.enum, e.typeName, none, [], none, some vs, none⟩
  | scalar (n : Bytes) : Content s ⟨.scalar, n, none, [], none, none, none⟩

/-- the visible fields of the object type or interface of the name `n` -/
def HasField (s : Schema F V) (n f : Bytes) : Prop :=
  (∃ d, lookup s.types n = some d ∧ ∃ x ∈ d.fields, x.hidden = false ∧ x.qlFieldName = f) ∨
  (∃ d, lookup s.interfaces n = some d ∧ ∃ x ∈ d.fields, x.hidden = false ∧ x.qlFieldName = f)

/-! ## Directives -/

/-- the GraphQL names of the three locations -/
inductive LocName : Registry.Loc → Bytes → Prop where
  | field : LocName 0 b%"FIELD"
  | spread : LocName 1 b%"FRAGMENT_SPREAD"
  | inline : LocName 2 b%"INLINE_FRAGMENT"

/-- `q` describes the directive `d` -/
structure ShowsDirective (d : Registry.Directive) (q : QDir) : Prop where
  name : q.name = d.name
  locations : Pointwise LocName (d.where_.getD []) q.locations

/-- the directives that were accepted by the calls -/
def accepted {E : Type} (s : Registry.Schema E) : List (Registry.Call E) → List Registry.Directive
  | [] => []
  | c :: cs => (match c with | .directive d => if (Registry.step s c).1 = .ok then [d] else [] | _ => []) ++ accepted (Registry.step s c).2 cs

/-- calls of `RegisterDirective` that were refused left no trace -/
def Clean {E : Type} (s : Registry.Schema E) : List (Registry.Call E) → Prop
  | [] => True
  | c :: cs => (∀ d, c = .directive d → (Registry.step s c).1 ≠ .ok → (Registry.step s c).2 = s) ∧ Clean (Registry.step s c).2 cs

end TypeList
end Yarql
