import Verif.Model.Resolver
import Verif.Spec.Document

/-!
# What Go's type system and `Parse` guarantee about schema and data

`WellTyped schema env T`: Go values look, in every world, like their type says, and user functions return (they do not
panic) values of the types they declare.  `T o v` reads "the Go value `v` has the schema type `o`"; any relation that
satisfies the clauses will do, so cyclic data is allowed.

Also: fragments without cycles, and how deeply a selection nests.  Independent of evaluator and interpreter.
-/

namespace Yarql
namespace Typed
open Doc Resolver

section
variable {F V W : Type}

/-! ## Function inputs -/

/-- The fields of struct values are those of the registered struct types (all other values need no check here). -/
inductive Shaped (inTypes : List (Bytes × InStruct F)) : Input → InVal F → Prop where
  | struct {n d vs} (c : InField → InVal F) : lookup inTypes n = some d →
      (∀ f ∈ d.fields, vs[f.goFieldIdx]? = some (c f)) → (∀ f ∈ d.fields, Shaped inTypes f.input (c f)) →
      Shaped inTypes (.struct n) (.struct vs)
  | other {inp x} : (∀ n, inp ≠ .struct n) → Shaped inTypes inp x

/-- Everything an input type mentions is registered, and there is a source of files if it is one. -/
def Known (schema : RSchema F V) (env : Env F V W) : Input → Prop
  | .scalar _ e _ => ∀ i, e = some i → i < schema.enums.length
  | .time => True
  | .file => env.formFile.isSome = true
  | .ptr e => Known schema env e
  | .slice e => Known schema env e
  | .array _ e => Known schema env e
  | .struct n => (lookup schema.inTypes n).isSome = true

/-- The registered struct types: known fields, zero values of that shape, one Go field has one type. -/
def InTypesOK (schema : RSchema F V) (env : Env F V W) : Prop :=
  ∀ n d, lookup schema.inTypes n = some d →
    (∀ f ∈ d.fields, Known schema env f.input) ∧ Shaped schema.inTypes (.struct n) d.zero ∧
    (∀ f ∈ d.fields, ∀ g ∈ d.fields, f.goFieldIdx = g.goFieldIdx → f.input = g.input)

/-- Inputs a function can be called with: every declared parameter is a field of one of its struct inputs. -/
def InputsOK (schema : RSchema F V) (m : Method F) (inputs : List (Arg F)) : Prop :=
  inputs.length = m.ins.length ∧ ∀ a ∈ m.inFields, ∃ vs c, inputs[a.inputIdx]? = some (.val (.struct vs)) ∧
    vs[a.goFieldIdx]? = some c ∧ Shaped schema.inTypes a.input c

/-- The inputs a function gets before any argument is set. -/
def zeroInputs (m : Method F) : List (Arg F) := m.ins.map (fun i => match i with | .ctx => .ctx | .struct z => .val z)

structure MethodOK (schema : RSchema F V) (env : Env F V W) (m : Method F) : Prop where
  known : ∀ a ∈ m.inFields, Known schema env a.input
  zero : InputsOK schema m (zeroInputs m)
  slots : ∀ a ∈ m.inFields, ∀ b ∈ m.inFields, a.inputIdx = b.inputIdx → a.goFieldIdx = b.goFieldIdx → a.input = b.input

/-! ## Data -/

/-- a scalar of a kind -/
def OfKind : Kind → Scalar F → Prop
  | .bool, x => ∃ b, x = .bool b
  | .int _, x => ∃ i, x = .int i
  | .uint _, x => ∃ n, x = .uint n
  | .float32, x => ∃ f, x = .float f
  | .float64, x => ∃ f, x = .float f
  | .string, x => ∃ s, x = .string s

/-- The value of every field of an object of type `t` has the type of the field. -/
def HasFields (env : Env F V W) (T : Obj F → V → Prop) (t : RType F V) (v : V) : Prop :=
  ∀ f ∈ t.fields,
    (∀ x, f.customObjValue = some x → T f.obj x) ∧
    (f.customObjValue = none →
      (∀ m out, f.obj = .method m out → m.isTypeMethod = true → T f.obj (env.method v f.structFieldIdx)) ∧
      ((∀ m out, f.obj = .method m out → m.isTypeMethod = false) →
        ∀ w, ∃ fs x, env.view w v = .struct fs ∧ fs[f.structFieldIdx]? = some x ∧ T f.obj x))

/-- See the head of this file. -/
structure WellTyped (schema : RSchema F V) (env : Env F V W) (T : Obj F → V → Prop) : Prop where
  inTypes : InTypesOK schema env
  array : ∀ o v, T (.array o) v → ∀ w, ∃ vs, env.view w v = .seq vs ∧ ∀ xs, vs = some xs → ∀ x ∈ xs, T o x
  ptr : ∀ o v, T (.ptr o) v → ∀ w, ∃ x, env.view w v = .ptr x ∧ ∀ y, x = some y → T o y
  object : ∀ n v, T (.objRef n) v → ∀ t, lookup schema.types n = some t → HasFields env T t v
  data : ∀ id k v, T (.data id k) v → ∀ w, ∃ x, env.view w v = .scalar x ∧ OfKind k x
  enum : ∀ i v, T (.enum i) v → ∃ e, schema.enums[i]? = some e ∧ ∀ w, ∃ x, env.view w v = .scalar x ∧ OfKind e.kind x
  method : ∀ m out v, T (.method m out) v → MethodOK schema env m ∧
    (m.isTypeMethod = true ∨ ∀ w, ∃ isNil, env.view w v = .func isNil) ∧
    ∀ w p inputs, InputsOK schema m inputs → (m.isTypeMethod = true ∨ env.view w v = .func false) →
      ∃ w' outs x, env.call w v p inputs = some (w', outs) ∧ outs[m.outNr]? = some x ∧ T out x ∧
        ∀ nr, m.errorOutNr = some nr → nr < outs.length
  interface : ∀ n v, T (.interfaceRef n) v → ∀ impls, lookup schema.interfaces n = some impls → ∀ w,
    ∃ x, env.view w v = .iface x ∧ ∀ goName goPkg y, x = some (goName, goPkg, y) →
      ∀ i ∈ impls, i.goTypeName = goName → i.goPkgPath = goPkg → T (.objRef i.typeName) y
  directive : ∀ loc table, lookup schema.directives loc = some table → ∀ x ∈ table, MethodOK schema env x.method ∧
    ∀ w p inputs, InputsOK schema x.method inputs → ∃ w' outs, env.call w x.func p inputs = some (w', outs) ∧ outs ≠ []
  query : HasFields env T schema.rootQuery schema.rootQueryValue
  mutation : HasFields env T schema.rootMethod schema.rootMethodValue

/-! ## Sizes -/

/-- list and interface layers of a field's type: each takes one entry of the value stack -/
def slots : Obj F → Nat
  | .array o => slots o + 1
  | .ptr o => slots o
  | .method _ o => slots o
  | .interfaceRef _ => 1
  | _ => 0

/-- no interface in a field's type -/
def noInterface : Obj F → Bool
  | .array o => noInterface o
  | .ptr o => noInterface o
  | .method _ o => noInterface o
  | .interfaceRef _ => false
  | _ => true

/-- a field of the schema -/
def IsField (schema : RSchema F V) (f : RField F V) : Prop :=
  f ∈ schema.rootQuery.fields ∨ f ∈ schema.rootMethod.fields ∨ ∃ n t, (n, t) ∈ schema.types ∧ f ∈ t.fields

end

/-- `Nest frags n sels`: with all fragments expanded, fields of `sels` nest at most `n` deep. A selection with a cycle of
fragments has no such `n`. -/
inductive Nest (frags : List Fragment) : Nat → List Sel → Prop where
  | nil {n} : Nest frags n []
  | field {n key name dirs args sub rest} : Nest frags n sub → Nest frags (n + 1) rest →
      Nest frags (n + 1) (.field key name dirs args sub :: rest)
  | spread {n name dirs rest f} : frags.find? (fun f => f.name = name) = some f → Nest frags n f.sels → Nest frags n rest →
      Nest frags n (.spread name dirs :: rest)
  | undefined {n name dirs rest} : frags.find? (fun f => f.name = name) = none → Nest frags n rest →
      Nest frags n (.spread name dirs :: rest)
  | inline {n ty dirs sub rest} : Nest frags n sub → Nest frags n rest → Nest frags n (.inline ty dirs sub :: rest)

/-- `Unfolds frags n sels`: with all fragments expanded, the selections in the upper `n` levels of `sels` are finitely many. This holds for all
`n` if every cycle of fragments passes through a field (`fragment F on User {friend {...F}}`). -/
inductive Unfolds (frags : List Fragment) : Nat → List Sel → Prop where
  | done {sels} : Unfolds frags 0 sels
  | nil {n} : Unfolds frags n []
  | field {n key name dirs args sub rest} : Unfolds frags n sub → Unfolds frags (n + 1) rest →
      Unfolds frags (n + 1) (.field key name dirs args sub :: rest)
  | spread {n name dirs rest f} : frags.find? (fun f => f.name = name) = some f → Unfolds frags n f.sels → Unfolds frags n rest →
      Unfolds frags n (.spread name dirs :: rest)
  | undefined {n name dirs rest} : frags.find? (fun f => f.name = name) = none → Unfolds frags n rest →
      Unfolds frags n (.spread name dirs :: rest)
  | inline {n ty dirs sub rest} : Unfolds frags n sub → Unfolds frags n rest → Unfolds frags n (.inline ty dirs sub :: rest)

mutual
/-- the spreads of a selection outside of the selection sets of fields -/
def openSpreadsOf : Sel → List Bytes
  | .field _ _ _ _ _ => []
  | .spread name _ => [name]
  | .inline _ _ sub => openSpreadsIn sub
def openSpreadsIn : List Sel → List Bytes
  | [] => []
  | s :: ss => openSpreadsOf s ++ openSpreadsIn ss
end

/-- Every cycle of fragments passes through a field: fragments can be ranked such that each spreads, outside of its fields' selection sets,
only fragments of smaller rank. -/
def Guarded (frags : List Fragment) : Prop :=
  ∃ rank : Bytes → Nat, ∀ f ∈ frags, ∀ n ∈ openSpreadsIn f.sels, rank n < rank f.name

mutual
/-- the spreads of a selection, at any depth -/
def spreadsOf : Sel → List Bytes
  | .field _ _ _ _ sub => spreadsIn sub
  | .spread name _ => [name]
  | .inline _ _ sub => spreadsIn sub
def spreadsIn : List Sel → List Bytes
  | [] => []
  | s :: ss => spreadsOf s ++ spreadsIn ss
end

/-- Fragments can be ranked such that each spreads only fragments of smaller rank: there is no cycle. -/
def Acyclic (frags : List Fragment) : Prop :=
  ∃ rank : Bytes → Nat, ∀ f ∈ frags, ∀ n ∈ spreadsIn f.sels, rank n < rank f.name

end Typed
end Yarql
