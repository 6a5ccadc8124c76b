import Verif.Model.TypeWalk
import Verif.Spec.Typed

/-!
# What `Parse` promises, in terms of Go types

* `Reach`: the Go types a client can get at: roots, exposed fields, elements, results of functions, the registered
  implementations of interfaces.
* `Stands`: the schema type that stands for a Go type.
* `FieldOf`: the fields a struct or interface exposes, and their types.
* `GoLike`: values behave as Go's type system says.

Nothing here refers to the functions of the walk.
-/

namespace Yarql
namespace GoTypes
open TypeWalk Naming

variable {F V W : Type}

/-- A Go struct type, `time.Time` aside. -/
def IsStruct (prog : Program F) (t : Ty) (fields : List GoField) : Prop :=
  (prog.get t).shape = .struct fields ∧ isTime (prog.get t) = false

/-- The GraphQL names of struct types that have a Go name. -/
def Named (prog : Program F) (t : Ty) : Prop := (∃ fields, (prog.get t).shape = .struct fields) ∧ (prog.get t).name ≠ []

def unknownType (n : Nat) : Bytes := b%"__UnknownType" ++ natDigits n
def unknownInput (n : Nat) : Bytes := b%"__UnknownInput" ++ natDigits n

/-- Different Go types have different GraphQL names, and nothing has a name `Parse` makes up itself. -/
structure Distinct (prog : Program F) : Prop where
  structs : ∀ t u, Named prog t → Named prog u → qlName prog (prog.get t).name = qlName prog (prog.get u).name → t = u
  ifaces : ∀ t u, (prog.get t).shape = .iface → (prog.get u).shape = .iface →
    qlName prog (prog.get t).name = qlName prog (prog.get u).name → (prog.get t).pkg = (prog.get u).pkg → t = u
  notUnknown : ∀ t, Named prog t → ∀ n, qlName prog (prog.get t).name ≠ unknownType n ∧
    qlName prog (prog.get t).name ≠ unknownInput n
  notInput : ∀ t u, Named prog t → Named prog u → qlName prog (prog.get t).name ≠ qlName prog (prog.get u).name ++ b%"__input"

/-- The part of `Distinct` that keeps output types apart. `Parse` reports two struct types of different packages that get one name,
except when the first one met is registered as implementing an interface. -/
structure NoClash (prog : Program F) : Prop where
  same : ∀ t u, Named prog t → Named prog u → qlName prog (prog.get t).name = qlName prog (prog.get u).name →
    (prog.get t).pkg = (prog.get u).pkg → t = u
  solo : ∀ t u, Named prog t → Named prog u → qlName prog (prog.get t).name = qlName prog (prog.get u).name →
    prog.structImpl (prog.get t).name ≠ [] → t = u
  ifaces : ∀ t u, (prog.get t).shape = .iface → (prog.get u).shape = .iface →
    qlName prog (prog.get t).name = qlName prog (prog.get u).name → (prog.get t).pkg = (prog.get u).pkg → t = u
  fresh : ∀ t, Named prog t → ∀ n, qlName prog (prog.get t).name ≠ unknownType n

theorem Distinct.noClash {prog : Program F} (h : Distinct prog) : NoClash prog :=
  ⟨fun t u a b c _ => h.structs t u a b c, fun t u a b c _ => h.structs t u a b c, h.ifaces, fun t a n => (h.notUnknown t a n).1⟩

/-- A Go type is identified by its package and name (types declared inside functions are not). -/
def Identified (prog : Program F) : Prop :=
  ∀ t u, (prog.get t).name ≠ [] → (prog.get t).name = (prog.get u).name → (prog.get t).pkg = (prog.get u).pkg → t = u

/-- A type that has the name of a registered enum has its kind. -/
def EnumKinds (prog : Program F) : Prop :=
  ∀ t i k, (prog.get t).shape = .scalar k → enumIndex prog t = some i → ∃ e, prog.enums[i]? = some e ∧ e.kind = k

/-- `v` is a function value of the signature `sig`, perhaps nil. -/
def IsFunc (env : Env F V W) (HasTy : V → Ty → Prop) (sig : Sig) (v : V) : Prop :=
  ∀ w, (∃ isNil, env.view w v = .func isNil) ∧
    (env.view w v = .func false → ∀ p inputs, inputs.length = sig.ins.length → ∃ w' outs,
      env.call w v p inputs = some (w', outs) ∧ outs.length = sig.outs.length ∧
      ∀ (i : Nat) (u : Ty), sig.outs[i]? = some u → ∃ x, outs[i]? = some x ∧ HasTy x u)

/-- Values behave as Go's type system says: `HasTy v t` reads "`v` is a value of type `t`". Functions return (they do not
panic) for every argument list of the right length. -/
structure GoLike (prog : Program F) (env : Env F V W) (HasTy : V → Ty → Prop) : Prop where
  struct : ∀ v t fs, HasTy v t → IsStruct prog t fs → ∀ w, ∃ xs, env.view w v = .struct xs ∧
    ∀ (i : Nat) (f : GoField), fs[i]? = some f → ∃ x, xs[i]? = some x ∧ HasTy x f.ty
  array : ∀ v t n e, HasTy v t → (prog.get t).shape = .array n e → ∀ w, ∃ vs, env.view w v = .seq vs ∧
    ∀ xs, vs = some xs → ∀ x ∈ xs, HasTy x e
  slice : ∀ v t e, HasTy v t → (prog.get t).shape = .slice e → ∀ w, ∃ vs, env.view w v = .seq vs ∧
    ∀ xs, vs = some xs → ∀ x ∈ xs, HasTy x e
  ptr : ∀ v t e, HasTy v t → (prog.get t).shape = .ptr e → ∀ w, ∃ x, env.view w v = .ptr x ∧ ∀ y, x = some y → HasTy y e
  scalar : ∀ v t k, HasTy v t → (prog.get t).shape = .scalar k → ∀ w, ∃ x, env.view w v = .scalar x ∧ Typed.OfKind k x
  iface : ∀ v t, HasTy v t → (prog.get t).shape = .iface → ∀ w, ∃ x, env.view w v = .iface x ∧
    ∀ goName goPkg y, x = some (goName, goPkg, y) → ∃ u, HasTy y u ∧ (prog.get u).name = goName ∧ (prog.get u).pkg = goPkg
  func : ∀ v t sig, HasTy v t → (prog.get t).shape = .func sig → IsFunc env HasTy sig v
  method : ∀ v t fs i nm sig, HasTy v t → IsStruct prog t fs → (prog.get t).methods[i]? = some (nm, sig) → ∀ w p inputs,
    inputs.length = (sig.ins.drop 1).length → ∃ w' outs,
      env.call w (env.method v i) p inputs = some (w', outs) ∧ outs.length = sig.outs.length ∧
      ∀ (i : Nat) (u : Ty), sig.outs[i]? = some u → ∃ x, outs[i]? = some x ∧ HasTy x u
  zero : ∀ t fs, (prog.get t).shape = .struct fs → prog.zero t = .struct (fs.map (fun f => prog.zero f.ty))

/-! ## The schema type of a Go type -/

section
variable (prog : Program F) (s : St)

/-- `Stands t id o`: under the tables `s`, the object `o` stands for the Go type `t` (`id`: it has the `id` attribute). A struct
and an interface are referred to by the name their table entry has. -/
inductive Stands : Ty → Bool → WObj → Prop where
  | time {t id} : isTime (prog.get t) = true → Stands t id .time
  | struct {t fs n e} : IsStruct prog t fs → lookup s.types n = some e → e.src = t →
      ((prog.get t).name ≠ [] → n = qlName prog (prog.get t).name) →
      Stands t false (.objRef n (prog.get t).name (prog.get t).pkg)
  | iface {t e} : (prog.get t).shape = .iface → isTime (prog.get t) = false → (prog.get t).name ≠ [] →
      lookup s.interfaces (qlName prog (prog.get t).name) = some e → e.src = t →
      Stands t false (.interfaceRef (qlName prog (prog.get t).name) (prog.get t).name (prog.get t).pkg)
  | array {t id n e o} : isTime (prog.get t) = false → (prog.get t).shape = .array n e → Stands e false o → Stands t id (.array o)
  | slice {t id e o} : isTime (prog.get t) = false → (prog.get t).shape = .slice e → Stands e false o → Stands t id (.array o)
  | ptr {t id e o} : isTime (prog.get t) = false → (prog.get t).shape = .ptr e → Stands e id o → Stands t id (.ptr o)
  | enum {t id k i} : isTime (prog.get t) = false → (prog.get t).shape = .scalar k → enumIndex prog t = some i →
      Stands t id (.enum i)
  | data {t id k} : isTime (prog.get t) = false → (prog.get t).shape = .scalar k → enumIndex prog t = none →
      (id = true → validIDKind k = true) → Stands t id (.data id k)

/-- `FuncOf name sig isTypeMethod tag o`: the object `o` is a function of that signature: its result is the only one that is
neither an error nor the `id` marker. The result is an id if the field has the `id` attribute (`tag`) or the marker is returned. -/
def FuncOf (name : Bytes) (sig : Sig) (isTypeMethod tag : Bool) (o : WObj) : Prop :=
  ∃ idx outNr errorOutNr out ty id, o = .method idx isTypeMethod outNr errorOutNr out ∧
    s.methods[idx]? = some ⟨name, sig, isTypeMethod⟩ ∧ sig.outs[outNr]? = some ty ∧ Stands prog s ty id out ∧
    prog.isError ty = false ∧ isAttrID (prog.get ty) = false ∧
    (∀ nr, errorOutNr = some nr → ∃ u, sig.outs[nr]? = some u ∧ prog.isError u = true) ∧
    (∀ (nr : Nat) (u : Ty), sig.outs[nr]? = some u → nr = outNr ∨ isAttrID (prog.get u) = true ∨ errorOutNr = some nr) ∧
    sig.variadic = false ∧ (id = true ↔ tag = true ∨ ∃ u ∈ sig.outs, isAttrID (prog.get u) = true)

/-- The field `f` of a struct or interface type `t` comes from a Go field or a `Resolve…` method. -/
inductive FieldOf (t : Ty) (f : WField) : Prop where
  | plain {fs gf id} : IsStruct prog t fs → fs[f.structFieldIdx]? = some gf → gf.embedded = false →
      fieldName gf.name gf.tag = .named f.name id → (∀ sig, (prog.get gf.ty).shape ≠ .func sig) →
      Stands prog s gf.ty id f.obj → FieldOf t f
  | func {fs gf id sig} : IsStruct prog t fs → fs[f.structFieldIdx]? = some gf → gf.embedded = false →
      fieldName gf.name gf.tag = .named f.name id → (prog.get gf.ty).shape = .func sig →
      FuncOf prog s gf.name sig false id f.obj → FieldOf t f
  | method {nm sig} : (prog.get t).methods[f.structFieldIdx]? = some (nm, sig) → methodName nm = .exposed f.name →
      FuncOf prog s nm sig true false f.obj → FieldOf t f

/-- the names a type exposes -/
inductive Exposes (t : Ty) : Bytes → Prop where
  | field {fs : List GoField} {i : Nat} {gf n id} : IsStruct prog t fs → fs[i]? = some gf → gf.embedded = false →
      fieldName gf.name gf.tag = .named n id → Exposes t n
  | method {i : Nat} {nm sig n} : (prog.get t).methods[i]? = some (nm, sig) → methodName nm = .exposed n → Exposes t n

/-- a result of a function that is neither an error nor the `id` marker -/
def Result (sig : Sig) (u : Ty) : Prop := u ∈ sig.outs ∧ prog.isError u = false ∧ isAttrID (prog.get u) = false

/-- structs and interfaces: the types whose methods are looked at -/
def HasMethods (t : Ty) : Prop := isTime (prog.get t) = false ∧ ((∃ fs, (prog.get t).shape = .struct fs) ∨ (prog.get t).shape = .iface)

/-- the types of the exposed fields and the results of the exposed functions and methods of a type -/
inductive Child (t : Ty) : Ty → Prop where
  | field {fs : List GoField} {i : Nat} {gf n id} : IsStruct prog t fs → fs[i]? = some gf → gf.embedded = false →
      fieldName gf.name gf.tag = .named n id → (∀ sig, (prog.get gf.ty).shape ≠ .func sig) → Child t gf.ty
  | func {fs : List GoField} {i : Nat} {gf n id sig u} : IsStruct prog t fs → fs[i]? = some gf → gf.embedded = false →
      fieldName gf.name gf.tag = .named n id → (prog.get gf.ty).shape = .func sig → Result prog sig u → Child t u
  | method {i : Nat} {nm sig n u} : HasMethods prog t → (prog.get t).methods[i]? = some (nm, sig) → methodName nm = .exposed n →
      Result prog sig u → Child t u

/-- `R` is closed under going from a type to the types its values lead to. -/
structure Closed (R : Ty → Prop) : Prop where
  child : ∀ t u, R t → Child prog t u → R u
  array : ∀ t n e, R t → isTime (prog.get t) = false → (prog.get t).shape = .array n e → R e
  slice : ∀ t e, R t → isTime (prog.get t) = false → (prog.get t).shape = .slice e → R e
  ptr : ∀ t e, R t → isTime (prog.get t) = false → (prog.get t).shape = .ptr e → R e
  impl : ∀ t us u, R t → isTime (prog.get t) = false → (prog.get t).shape = .iface → prog.implMap (prog.get t).name = some us → u ∈ us → R u
  implements : ∀ t fs u, R t → IsStruct prog t fs → (prog.get t).name ≠ [] → u ∈ prog.structImpl (prog.get t).name → R u

/-- the types `Parse` starts from: queries, mutations, `__schema` and the result of `__type` -/
inductive Root (d : Decl V) : Ty → Prop where
  | query : Root d d.queries
  | mutation : Root d d.methods
  | schema {x} : d.inject = some x → Root d x.schemaTy
  | type {x u} : d.inject = some x → Result prog x.typeSig u → Root d u

/-- the types reachable from the roots -/
def Reach (d : Decl V) (t : Ty) : Prop := ∀ R : Ty → Prop, Closed prog R → (∀ u, Root prog d u → R u) → R t

/-- `fields` are the fields of the type `t`: each comes from Go and is filed under the hash of its name, and there is one for
(the hash of) each name `t` exposes. -/
structure FieldsOf (t : Ty) (fields : List WField) : Prop where
  seen : ∀ u, Child prog t u → ∃ id o, Stands prog s u id o
  sound : ∀ f ∈ fields, f.key = Parser.fnv1 f.name ∧ FieldOf prog s t f
  complete : ∀ n, Exposes prog t n → ∃ f ∈ fields, f.key = Parser.fnv1 n
  unique : ∀ f ∈ fields, ∀ g ∈ fields, f.key = g.key → f = g

/-- the entry of a struct: its fields and the interfaces it implements -/
def EntryOf (e : Entry) : Prop := FieldsOf prog s e.src e.fields ∧
  ((prog.get e.src).name ≠ [] → ∀ u ∈ prog.structImpl (prog.get e.src).name, ∃ o, Stands prog s u false o ∧
    ∀ n gn gp, o = .interfaceRef n gn gp → n ∈ e.impls) ∧
  (∀ n ∈ e.impls, ∃ u ∈ prog.structImpl (prog.get e.src).name, ∃ gn gp, Stands prog s u false (.interfaceRef n gn gp))

/-- the entry of an interface: its fields are its methods, its implementations stand for registered struct types -/
def IEntryOf (e : IEntry) : Prop := FieldsOf prog s e.src e.fields ∧
  ∃ us, prog.implMap (prog.get e.src).name = some us ∧
    (∀ i ∈ e.impls, ∃ u ∈ us, ((prog.get u).name ≠ [] ∧ prog.implements u e.src = true) ∧
      Stands prog s u false (.objRef i.typeName i.goTypeName i.goPkgPath)) ∧
    (∀ u ∈ us, isTime (prog.get u) = false → ∃ i ∈ e.impls, Stands prog s u false (.objRef i.typeName i.goTypeName i.goPkgPath))

end

/-- There are finitely many named types, and every cycle of types passes through a named struct or an interface: going to an
element, to a field of an unnamed struct, or from a struct to the interfaces it implements lowers the rank. -/
structure Grounded (prog : Program F) (univ : List Bytes) (rank : Ty → Nat) (K : Nat) : Prop where
  names : ∀ t, (prog.get t).name ≠ [] → qlName prog (prog.get t).name ∈ univ
  bound : ∀ t, rank t ≤ K
  array : ∀ t n e, (prog.get t).shape = .array n e → rank e < rank t
  slice : ∀ t e, (prog.get t).shape = .slice e → rank e < rank t
  ptr : ∀ t e, (prog.get t).shape = .ptr e → rank e < rank t
  unnamed : ∀ t fs, (prog.get t).shape = .struct fs → (prog.get t).name = [] →
    (∀ u, Child prog t u → rank u < rank t) ∧ ∀ gf ∈ fs, rank gf.ty < rank t
  implements : ∀ t u, (prog.get t).name ≠ [] → u ∈ prog.structImpl (prog.get t).name → rank u < rank t

/-! ## Inputs -/

section
variable (prog : Program F) (s : InSt)

/-- `StandsIn t id x`: under the table `s`, the input type `x` stands for the Go type `t`. -/
inductive StandsIn : Ty → Bool → Input → Prop where
  | enum {t id k i} : (prog.get t).shape = .scalar k → enumIndex prog t = some i → StandsIn t id (.scalar k (some i) false)
  | scalar {t id k} : (prog.get t).shape = .scalar k → enumIndex prog t = none → (id = true → validIDKind k = true) →
      StandsIn t id (.scalar k none id)
  | file {t id e} : (prog.get t).shape = .ptr e → isFileHeader (prog.get e) = true → StandsIn t id .file
  | ptr {t id e x} : (prog.get t).shape = .ptr e → isFileHeader (prog.get e) = false → StandsIn e id x → StandsIn t id (.ptr x)
  | array {t id n e x} : (prog.get t).shape = .array n e → StandsIn e false x → StandsIn t id (.array n x)
  | slice {t id e x} : (prog.get t).shape = .slice e → StandsIn e false x → StandsIn t id (.slice x)
  | time {t id fs} : (prog.get t).shape = .struct fs → isTime (prog.get t) = true → StandsIn t id .time
  | struct {t id fs n e} : IsStruct prog t fs → lookup s.inTypes n = some e → e.src = t → StandsIn t id (.struct n)

/-- the names a struct type gives to arguments -/
def ExposesIn (fs : List GoField) (n : Bytes) : Prop :=
  ∃ (i : Nat) (gf : GoField) (id : Bool), fs[i]? = some gf ∧ gf.embedded = false ∧ fieldName gf.name gf.tag = .named n id

/-- field number `i` of a struct with the fields `fs` is known under the name `key` and has the type `x` -/
def FieldIn (fs : List GoField) (key : Bytes) (i : Nat) (x : Input) : Prop :=
  ∃ (gf : GoField) (id : Bool), fs[i]? = some gf ∧ gf.embedded = false ∧ fieldName gf.name gf.tag = .named key id ∧
    StandsIn prog s gf.ty id x

/-- the fields of an input struct -/
structure InFieldsOf (t : Ty) (fields : List InField) : Prop where
  sound : ∀ f ∈ fields, ∃ fs, IsStruct prog t fs ∧ FieldIn prog s fs f.key f.goFieldIdx f.input
  complete : ∀ fs n, IsStruct prog t fs → ExposesIn fs n → ∃ f ∈ fields, f.key = n
  unique : ∀ f ∈ fields, ∀ g ∈ fields, f.key = g.key → f = g

/-- `t` is a parameter that receives the request context: a pointer to `Ctx` -/
def IsCtxParam (t : Ty) : Prop := ∃ e, (prog.get t).shape = .ptr e ∧ isCtx (prog.get e) = true

/-- The parameters `tys` of a function are the context or structs; the fields of the structs are its arguments. -/
structure ParamsOf (tys : List Ty) (ins : List (BaseInput F)) (args : List ArgField) : Prop where
  length : ins.length = tys.length
  kind : ∀ (i : Nat) t, tys[i]? = some t → (IsCtxParam prog t ∧ ins[i]? = some .ctx) ∨
    (¬ IsCtxParam prog t ∧ (∃ fs, (prog.get t).shape = .struct fs) ∧ ins[i]? = some (.struct (prog.zero t)))
  sound : ∀ a ∈ args, ∃ t fs, tys[a.inputIdx]? = some t ∧ ¬ IsCtxParam prog t ∧ (prog.get t).shape = .struct fs ∧
    FieldIn prog s fs a.key a.goFieldIdx a.input
  complete : ∀ (i : Nat) t fs n, tys[i]? = some t → ¬ IsCtxParam prog t → (prog.get t).shape = .struct fs → ExposesIn fs n →
    ∃ a ∈ args, a.key = n
  unique : ∀ a ∈ args, ∀ b ∈ args, a.key = b.key → a = b

end
end GoTypes
end Yarql
