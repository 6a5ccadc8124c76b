import Verif.Model.Introspect
import Verif.Model.Registry

/-!
# Model of the introspection lists (`getAllQLTypes`, `getTypeByName`, `getDirectives` in `/repo/inject_schema.go`) and of
`/repo/tester/tester.go`

Go ranges over maps in any order and `sort.Slice` is not stable: the lists are modelled by relations that allow every
outcome.
-/

namespace Yarql
namespace TypeList
open Introspect

variable {F V : Type}

/-- `__TypeKind` (grahql_types.go:34-45) of the types in the list; `UNION` is never used, `LIST` and `NON_NULL` have no name -/
inductive TypeKind where
  | scalar | object | interface | enum | inputObject
deriving DecidableEq

/-- `(__TypeKind).String` (grahql_types.go:58-77) -/
def TypeKind.text : TypeKind → Bytes
  | .scalar => b%"SCALAR"
  | .object => b%"OBJECT"
  | .interface => b%"INTERFACE"
  | .enum => b%"ENUM"
  | .inputObject => b%"INPUT_OBJECT"

/-- `qlType` (grahql_types.go:83-113) with a name. Functions: `none` = nil. `fields` is run later, on the memo
(`Introspect.fields`); `possibleTypes` gives `none` for a dangling reference (a nil dereference). -/
structure QType where
  kind : TypeKind
  name : Bytes
  fields : Option Ask
  interfaces : List Bytes
  possibleTypes : Option (Option (List Bytes))
  enumValues : Option (List Bytes)
  inputFields : Option (List (Bytes × QT))

/-- `objToQLType` of an entry of `types` (inject_schema.go:319-356): the interfaces are looked up at once -/
def objectEntry (s : Schema F V) (e : Bytes × TypeDef F V) : Option QType :=
  (e.2.implementations.mapM (fun i => (lookup s.interfaces i).map (·.typeName))).map (fun is =>
    ⟨.object, e.2.typeName, some (.object e.1), is, none, none, none⟩)

/-- `objToQLType` of an entry of `interfaces` (inject_schema.go:373-415) -/
def interfaceEntry (s : Schema F V) (e : Bytes × IfaceDef F V) : QType :=
  ⟨.interface, e.2.typeName, some (.iface e.1), [], some (e.2.implementations.mapM (fun i => (lookup s.types i.typeName).map (·.typeName))), none, none⟩

/-- `inputToQLType` of an entry of `inTypes` (inject_schema.go:227-249) -/
def inputEntry (e : Bytes × InStruct F) : QType :=
  ⟨.inputObject, e.1, none, [], none, none, some (inputFieldsOf e.2.fields)⟩

/-- the `qlType` of a registered enum (enums.go:134-142) -/
def enumEntry (e : EnumDef F) : QType :=
  ⟨.enum, e.typeName, none, [], none, some (sortBy id (e.entries.map (·.1))), none⟩

/-- `scalars` (grahql_types.go:229-237) -/
def scalarNames : List Bytes := [b%"Boolean", b%"Int", b%"Float", b%"String", b%"ID", b%"File", b%"Time"]

def scalarEntry (n : Bytes) : QType := ⟨.scalar, n, none, [], none, none, none⟩

/-- what the loops of `getAllQLTypes` (inject_schema.go:154-177) put into the list; `none` = nil dereference -/
def entries (s : Schema F V) : Option (List QType) :=
  (s.types.mapM (objectEntry s)).map (fun objects =>
    objects ++ s.inTypes.map inputEntry ++ s.enums.map enumEntry ++ scalarNames.map scalarEntry ++ s.interfaces.map (interfaceEntry s))

/-- `getAllQLTypes` (inject_schema.go:145-183) can return `l`: the entries in some order that is sorted by name -/
structure AllTypes (s : Schema F V) (l : List QType) : Prop where
  perm : ∃ es, entries s = some es ∧ l.Perm es
  sorted : l.Pairwise (fun a b => bytesLe a.name b.name = true)

/-- `getTypeByName` (inject_schema.go:185-200) once `getAllQLTypes` has returned `l`: a later entry replaces an earlier one -/
def getTypeByName (l : List QType) (n : Bytes) : Option QType := l.reverse.find? (fun t => t.name = n)

/-! ## Directives -/

/-- `ToQlDirectiveLocation` (directives.go:35-46) -/
def locationName (l : Registry.Loc) : Bytes :=
  if l = 0 then b%"FIELD" else if l = 1 then b%"FRAGMENT_SPREAD" else if l = 2 then b%"INLINE_FRAGMENT" else b%"FIELD"

/-- `qlDirective` (grahql_types.go:187-193) without the arguments (`Introspect.parseDirective`) -/
structure QDir where
  name : Bytes
  locations : List Bytes
deriving DecidableEq

/-- the body of the inner loop of `getDirectives` (inject_schema.go:115-137) -/
def addDirective (res : List QDir) (d : Registry.Directive) : List QDir :=
  if res.any (fun e => e.name = d.name ∧ ((d.where_.getD []).map locationName).any (fun l => e.locations.contains l)) then res
  else res ++ [⟨d.name, (d.where_.getD []).map locationName⟩]

/-- the loops of `getDirectives` (inject_schema.go:109-139) over the locations in the order `order` -/
def collectDirectives {E : Type} (s : Registry.Schema E) (order : List Registry.Loc) : List QDir :=
  order.foldl (fun res l => ((s.directives l).getD []).foldl addDirective res) []

/-- `getDirectives` (inject_schema.go:109-143) can return `l` -/
structure AllDirectives {E : Type} (s : Registry.Schema E) (l : List QDir) : Prop where
  perm : ∃ order, order.Nodup ∧ (∀ x, x ∈ order ↔ (s.directives x).isSome = true) ∧ l.Perm (collectDirectives s order)
  sorted : l.Pairwise (fun a b => bytesLe a.name b.name = true)

/-! ## tester -/

/-- `tester.Type` (tester.go:13-16): the kind and the names of the fields -/
structure TType where
  kind : Bytes
  fields : List Bytes

/-- `GetTypeByName` (tester.go:25-60): the query `__type(name: $typename) { kind fields { name } }`. Its resolution is
`getTypeByName` and then the `Fields` function (a nil function gives null, which is unmarshalled to no fields). The result has the
memo after; `none` = a crash. -/
def testerType (s : Schema F V) (l : List QType) (memo : Memo) (n : Bytes) : Option (Option TType × Memo) :=
  match getTypeByName l n with
  | none => some (none, memo)
  | some t =>
    match t.fields with
    | none => some (some ⟨t.kind.text, []⟩, memo)
    | some a => (Introspect.fields s memo a).map (fun r => (some ⟨t.kind.text, r.1.map (·.name)⟩, r.2))

/-- `HasType` (tester.go:63-65) -/
def hasType (t : Option TType) : Bool := t.isSome

/-- `TypeKind` (tester.go:69-75) -/
def typeKind : Option TType → Bytes
  | none => []
  | some t => t.kind

/-- the errors of `HasFields` and `OnlyHasFields` -/
inductive TErr where
  | typeNotFound | notObject | missing (field : Bytes) | extra (field : Bytes)
deriving DecidableEq

/-- `HasFields` (tester.go:82-107); `none` = nil error -/
def hasFields (t : Option TType) (fields : List Bytes) : Option TErr :=
  match t with
  | none => some .typeNotFound
  | some t =>
    if t.kind ≠ b%"OBJECT" ∧ t.kind ≠ b%"INTERFACE" then some .notObject
    else match fields.find? (fun f => !t.fields.any (fun g => g = f)) with
      | some f => some (.missing f)
      | none => none

/-- `OnlyHasFields` (tester.go:110-148) -/
def onlyHasFields (t : Option TType) (fields : List Bytes) : Option TErr :=
  match t with
  | none => some .typeNotFound
  | some t =>
    if t.kind ≠ b%"OBJECT" ∧ t.kind ≠ b%"INTERFACE" then some .notObject
    else match fields.find? (fun f => !t.fields.any (fun g => g = f)) with
      | some f => some (.missing f)
      | none =>
        match t.fields.find? (fun g => !fields.any (fun f => g = f)) with
        | some g => some (.extra g)
        | none => none

end TypeList
end Yarql
