import Verif.Spec.GoTypes

/-!
# A schema that mirrors the Go types it was made from

`Names` says which Go type each name of the schema belongs to.  `Mirrors` reads, given such names: the schema has one object
type per reachable struct and one interface per reachable interface, named as the program says, whose fields are the exposed
fields and methods, with the types that stand for their Go types.

Nothing here refers to the functions of the walk or to its tables.
-/

namespace Yarql
namespace Reflects
open TypeWalk GoTypes Naming

variable {F V : Type}

/-- Which Go type each name of the schema belongs to. -/
structure Names where
  types : Bytes → Option Ty
  ifaces : Bytes → Option Ty
  inputs : Bytes → Option Ty

section
variable (prog : Program F) (N : Names)

/-- `ObjOf t id o`: `o` is the schema type of the Go type `t` (`id`: it has the `id` attribute) -/
inductive ObjOf : Ty → Bool → Obj F → Prop where
  | time {t id} : isTime (prog.get t) = true → ObjOf t id .time
  | struct {t fs n} : IsStruct prog t fs → N.types n = some t → ObjOf t false (.objRef n)
  | iface {t n} : (prog.get t).shape = .iface → isTime (prog.get t) = false → N.ifaces n = some t → ObjOf t false (.interfaceRef n)
  | array {t id n e o} : isTime (prog.get t) = false → (prog.get t).shape = .array n e → ObjOf e false o → ObjOf t id (.array o)
  | slice {t id e o} : isTime (prog.get t) = false → (prog.get t).shape = .slice e → ObjOf e false o → ObjOf t id (.array o)
  | ptr {t id e o} : isTime (prog.get t) = false → (prog.get t).shape = .ptr e → ObjOf e id o → ObjOf t id (.ptr o)
  | enum {t id k i} : isTime (prog.get t) = false → (prog.get t).shape = .scalar k → enumIndex prog t = some i → ObjOf t id (.enum i)
  | data {t id k} : isTime (prog.get t) = false → (prog.get t).shape = .scalar k → enumIndex prog t = none →
      (id = true → validIDKind k = true) → ObjOf t id (.data id k)

/-- `InputOf t id x`: `x` is the input type of the Go type `t` -/
inductive InputOf : Ty → Bool → Input → Prop where
  | enum {t id k i} : (prog.get t).shape = .scalar k → enumIndex prog t = some i → InputOf t id (.scalar k (some i) false)
  | scalar {t id k} : (prog.get t).shape = .scalar k → enumIndex prog t = none → (id = true → validIDKind k = true) →
      InputOf t id (.scalar k none id)
  | file {t id e} : (prog.get t).shape = .ptr e → isFileHeader (prog.get e) = true → InputOf t id .file
  | ptr {t id e x} : (prog.get t).shape = .ptr e → isFileHeader (prog.get e) = false → InputOf e id x → InputOf t id (.ptr x)
  | array {t id n e x} : (prog.get t).shape = .array n e → InputOf e false x → InputOf t id (.array n x)
  | slice {t id e x} : (prog.get t).shape = .slice e → InputOf e false x → InputOf t id (.slice x)
  | time {t id fs} : (prog.get t).shape = .struct fs → isTime (prog.get t) = true → InputOf t id .time
  | struct {t id fs n} : IsStruct prog t fs → N.inputs n = some t → InputOf t id (.struct n)

/-- field number `i` of a struct with the fields `fs` is known under the name `key` and has the type `x` -/
def InField (fs : List GoField) (key : Bytes) (i : Nat) (x : Input) : Prop :=
  ∃ (gf : GoField) (id : Bool), fs[i]? = some gf ∧ gf.embedded = false ∧ fieldName gf.name gf.tag = .named key id ∧
    InputOf prog N gf.ty id x

/-- The parameters `tys` of a function are the context or structs; the fields of the structs are its arguments. -/
structure Params (tys : List Ty) (ins : List (BaseInput F)) (args : List ArgField) : Prop where
  length : ins.length = tys.length
  kind : ∀ (i : Nat) t, tys[i]? = some t → (IsCtxParam prog t ∧ ins[i]? = some .ctx) ∨
    (¬ IsCtxParam prog t ∧ (∃ fs, (prog.get t).shape = .struct fs) ∧ ins[i]? = some (.struct (prog.zero t)))
  sound : ∀ a ∈ args, ∃ t fs, tys[a.inputIdx]? = some t ∧ ¬ IsCtxParam prog t ∧ (prog.get t).shape = .struct fs ∧
    InField prog N fs a.key a.goFieldIdx a.input
  complete : ∀ (i : Nat) t fs n, tys[i]? = some t → ¬ IsCtxParam prog t → (prog.get t).shape = .struct fs → ExposesIn fs n →
    ∃ a ∈ args, a.key = n
  unique : ∀ a ∈ args, ∀ b ∈ args, a.key = b.key → a = b

/-- the input struct of a name -/
structure InStructOf (t : Ty) (d : InStruct F) : Prop where
  zero : d.zero = prog.zero t
  sound : ∀ f ∈ d.fields, ∃ fs, IsStruct prog t fs ∧ InField prog N fs f.key f.goFieldIdx f.input
  complete : ∀ fs n, IsStruct prog t fs → ExposesIn fs n → ∃ f ∈ d.fields, f.key = n
  unique : ∀ f ∈ d.fields, ∀ g ∈ d.fields, f.key = g.key → f = g

variable (Par : List Ty → Method F → Prop)

/-- `o` is a function of the signature `sig`: its result is the only one that is neither an error nor the `id` marker, its
error the only error. The result is an id if the field has the `id` attribute (`tag`) or the marker is returned. The parameters of a
method begin after the first of the signature. `Par` is asked of them. -/
def FuncObj (sig : Sig) (isTypeMethod tag : Bool) (o : Obj F) : Prop :=
  ∃ m out ty id, o = .method m out ∧ m.isTypeMethod = isTypeMethod ∧ sig.variadic = false ∧
    Par (if isTypeMethod then sig.ins.drop 1 else sig.ins) m ∧
    sig.outs[m.outNr]? = some ty ∧ prog.isError ty = false ∧ isAttrID (prog.get ty) = false ∧ ObjOf prog N ty id out ∧
    (∀ nr, m.errorOutNr = some nr → ∃ u, sig.outs[nr]? = some u ∧ prog.isError u = true) ∧
    (∀ (nr : Nat) (u : Ty), sig.outs[nr]? = some u → nr = m.outNr ∨ isAttrID (prog.get u) = true ∨ m.errorOutNr = some nr) ∧
    (id = true ↔ tag = true ∨ ∃ u ∈ sig.outs, isAttrID (prog.get u) = true)

/-- the schema field `f` of the type `t` comes from a Go field or a `Resolve…` method -/
inductive FieldObj (t : Ty) (f : Field F V) : Prop where
  | plain {fs gf id} : IsStruct prog t fs → fs[f.structFieldIdx]? = some gf → gf.embedded = false →
      fieldName gf.name gf.tag = .named f.qlFieldName id → (∀ sig, (prog.get gf.ty).shape ≠ .func sig) →
      ObjOf prog N gf.ty id f.obj → FieldObj t f
  | func {fs gf id sig} : IsStruct prog t fs → fs[f.structFieldIdx]? = some gf → gf.embedded = false →
      fieldName gf.name gf.tag = .named f.qlFieldName id → (prog.get gf.ty).shape = .func sig →
      FuncObj prog N Par sig false id f.obj → FieldObj t f
  | method {nm sig} : (prog.get t).methods[f.structFieldIdx]? = some (nm, sig) → methodName nm = .exposed f.qlFieldName →
      FuncObj prog N Par sig true false f.obj → FieldObj t f

/-- `f` is one of the two fields the introspection adds to the root query -/
inductive Injected (d : Decl V) (f : Field F V) : Prop where
  | schema {x} : d.inject = some x → f.qlFieldName = b%"__schema" → f.customObjValue = some x.schemaValue →
      ObjOf prog N x.schemaTy false f.obj → Injected d f
  | type {x} : d.inject = some x → f.qlFieldName = b%"__type" → f.customObjValue = some x.typeValue →
      FuncObj prog N Par x.typeSig false false f.obj → Injected d f

/-- `fields` are the fields of `t`: each is filed under the hash of its name and comes from Go, except for the `hidden` ones;
there is one for (the hash of) each name `t` exposes. -/
structure FieldsFrom (t : Ty) (hidden : Field F V → Prop) (fields : List (Field F V)) : Prop where
  key : ∀ f ∈ fields, f.key = Parser.fnv1 f.qlFieldName
  sound : ∀ f ∈ fields, (f.hidden = true ∧ hidden f) ∨ (f.hidden = false ∧ f.customObjValue = none ∧ FieldObj prog N Par t f)
  complete : ∀ n, Exposes prog t n → ∃ f ∈ fields, f.key = Parser.fnv1 n
  unique : ∀ f ∈ fields, ∀ g ∈ fields, f.key = g.key → f = g

/-- The schema mirrors the Go types reachable from the roots. -/
structure Mirrors (d : Decl V) (schema : Schema F V) : Prop where
  /-- the names of the schema are those of `N` -/
  typeNames : ∀ n, (N.types n).isSome = (lookup schema.types n).isSome
  ifaceNames : ∀ n, (N.ifaces n).isSome = (lookup schema.interfaces n).isSome
  /-- no name twice -/
  typesOnce : (schema.types.map (·.1)).Nodup
  ifacesOnce : (schema.interfaces.map (·.1)).Nodup
  /-- a named type has its (renamed) name, an unnamed struct a numbered one -/
  typeName : ∀ n t, N.types n = some t → ((prog.get t).name ≠ [] ∧ n = qlName prog (prog.get t).name) ∨
    ((prog.get t).name = [] ∧ ∃ k, n = unknownType k)
  ifaceName : ∀ n t, N.ifaces n = some t → (prog.get t).name ≠ [] ∧ n = qlName prog (prog.get t).name
  /-- only reachable types are there … -/
  typeReached : ∀ n t, N.types n = some t → Reach prog d t ∧ ∃ fs, IsStruct prog t fs
  ifaceReached : ∀ n t, N.ifaces n = some t → Reach prog d t ∧ (prog.get t).shape = .iface
  /-- … and all of them -/
  typesAll : ∀ t fs, Reach prog d t → IsStruct prog t fs → ∃ n, N.types n = some t
  ifacesAll : ∀ t, Reach prog d t → isTime (prog.get t) = false → (prog.get t).shape = .iface → ∃ n, N.ifaces n = some t
  /-- object types -/
  typeDef : ∀ n t td, N.types n = some t → lookup schema.types n = some td → td.typeName = n ∧
    td.goTypeName = (prog.get t).name ∧ td.goPkgPath = (prog.get t).pkg ∧
    FieldsFrom prog N Par t (fun f => td.typeName = schema.rootQuery.typeName ∧ Injected prog N Par d f) td.fields ∧
    (∀ i ∈ td.implementations, ∃ u ∈ prog.structImpl (prog.get t).name, N.ifaces i = some u) ∧
    ((prog.get t).name ≠ [] → ∀ u ∈ prog.structImpl (prog.get t).name, isTime (prog.get u) = false →
      (prog.get u).shape = .iface → ∃ i ∈ td.implementations, N.ifaces i = some u)
  /-- interfaces: the registered implementations, each named and implementing the interface -/
  ifaceDef : ∀ n t dd, N.ifaces n = some t → lookup schema.interfaces n = some dd → dd.typeName = n ∧
    FieldsFrom prog N Par t (fun _ => False) dd.fields ∧
    ∃ us, prog.implMap (prog.get t).name = some us ∧
      (∀ i ∈ dd.implementations, ∃ u ∈ us, (prog.get u).name = i.goTypeName ∧ (prog.get u).pkg = i.goPkgPath ∧ (prog.get u).name ≠ [] ∧
        prog.implements u t = true ∧ N.types i.typeName = some u) ∧
      (∀ u ∈ us, isTime (prog.get u) = false → ∃ i ∈ dd.implementations, N.types i.typeName = some u)
  /-- the roots -/
  query : N.types schema.rootQuery.typeName = some d.queries ∧
    lookup schema.types schema.rootQuery.typeName = some schema.rootQuery ∧ schema.rootQueryValue = d.queryValue
  mutation : N.types schema.rootMethod.typeName = some d.methods ∧
    lookup schema.types schema.rootMethod.typeName = some schema.rootMethod ∧ schema.rootMethodValue = d.methodValue
  /-- what is taken over as it is -/
  enums : schema.enums = prog.enums
  maxDepth : schema.maxDepth = d.maxDepth

/-- The inputs of the schema mirror the Go types of the parameters. -/
structure MirrorsInputs (d : Decl V) (schema : Schema F V) : Prop where
  names : ∀ n, (N.inputs n).isSome = (lookup schema.inTypes n).isSome
  structs : ∀ n t, N.inputs n = some t → ∃ fs, IsStruct prog t fs
  inStruct : ∀ n t x, N.inputs n = some t → lookup schema.inTypes n = some x → InStructOf prog N t x
  directives : ∀ loc table x, lookup schema.directives loc = some table → x ∈ table → loc ∈ x.where_ ∧
    ∃ e ∈ d.directives, x.name = e.name ∧ x.where_ = e.where_ ∧ x.func = e.func ∧ x.method.outNr = e.outNr ∧
      x.method.isTypeMethod = false ∧ x.method.errorOutNr = none ∧ Params prog N e.sig.ins x.method.ins x.method.inFields
  allDirectives : ∀ e ∈ d.directives, ∀ loc ∈ e.where_, ∃ table, lookup schema.directives loc = some table ∧
    ∃ x ∈ table, x.name = e.name ∧ x.func = e.func

end

end Reflects
end Yarql
