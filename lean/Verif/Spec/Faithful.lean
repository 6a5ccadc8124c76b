import Verif.Spec.Reveals

/-!
# What the response says about a Go value

`Faithful errs w o v p x`: what `x`, at the path `p` of a response with the errors `errs`, must be, given that it stands for the Go value
`v` of schema type `o`, seen in the world `w`.  One clause per kind of value.  Wherever something else is written, it is null or
nothing, and one of the errors has exactly the path `p`.
-/

namespace Yarql
namespace Reveals
open Eval Resolver

section
variable {F V W : Type}

/-- the types objects of a response can have: the roots and the registered ones -/
def Known (schema : RSchema F V) (t : RType F V) : Prop :=
  t = schema.rootQuery ∨ t = schema.rootMethod ∨ ∃ n, lookup schema.types n = some t

/-- What is written as null: nil, or a value of a type or with a name that is not registered. -/
inductive Nil (schema : RSchema F V) (env : Env F V W) (w : W) : Obj F → V → Prop where
  | nilList {o v} : env.view w v = .seq none → Nil schema env w (.array o) v
  | nilPtr {o v} : env.view w v = .ptr none → Nil schema env w (.ptr o) v
  | nilFunc {m o v} : m.isTypeMethod = false → env.view w v = .func true → Nil schema env w (.method m o) v
  | nilInterface {n impls v} : lookup schema.interfaces n = some impls → env.view w v = .iface none → Nil schema env w (.interfaceRef n) v
  | unregistered {n impls v goName goPkg x} : lookup schema.interfaces n = some impls → env.view w v = .iface (some (goName, goPkg, x)) →
      (∀ i ∈ impls, ¬ (i.goTypeName = goName ∧ i.goPkgPath = goPkg)) → Nil schema env w (.interfaceRef n) v
  | noEnumKey {i e v x} : schema.enums[i]? = some e → env.view w v = .scalar x →
      ((∀ y ∈ e.entries, y.2 ≠ x) ∨ e.kind = .bool ∨ e.kind = .float32 ∨ e.kind = .float64) → Nil schema env w (.enum i) v
  | noTime {v} : (∀ t, env.view w v ≠ .time t) → Nil schema env w .time v
  | noType {n v} : lookup schema.types n = none → Nil schema env w (.objRef n) v
  | noInterface {n v} : lookup schema.interfaces n = none → Nil schema env w (.interfaceRef n) v
  | undefined {v} : Nil schema env w .undefined v

/-- an error with exactly the path `p` -/
def Blamed (errs : List RErr) (p : List Seg) : Prop := ∃ msg, (⟨msg, pathJSON p⟩ : RErr) ∈ errs

/-- null in place of a value, and the reason is among the errors -/
def Refused (errs : List RErr) (p : List Seg) (x : Out) : Prop := x = .null ∧ ∃ msg ∈ refusals, (⟨msg, pathJSON p⟩ : RErr) ∈ errs

structure Faithful (schema : RSchema F V) (env : Env F V W) (vars : Bind.VarsSrc) (near : Prop) (errs : List RErr) (w : W) (o : Obj F) (v : V) (p : List Seg) (x : Out) : Prop where
  /-- nil and unregistered values are null -/
  null : Nil schema env w o v → x = .null
  /-- lists: one entry per element, in order -/
  list : ∀ e vs, o = .array e → env.view w v = .seq (some vs) → Refused errs p x ∨ ∃ os, x = .list os ∧ os.length = vs.length ∧
    ∀ (i : Nat) y, vs[i]? = some y → ∃ w1 z es w2, os[i]? = some z ∧ Reveals schema env vars near w1 e y (p ++ [.idx i]) z es w2
  /-- pointers: what they point to -/
  pointer : ∀ e y, o = .ptr e → env.view w v = .ptr (some y) → Refused errs p x ∨ ∃ es w2, Reveals schema env vars near w e y p x es w2
  /-- numeric IDs are quoted, other numbers are not -/
  int : ∀ isID wd i, o = .data isID (.int wd) → env.view w v = .scalar (.int i) →
    Refused errs p x ∨ ∃ t, Shows.IntCanon t i ∧ x = .leaf (if isID then Shows.quoted t else t)
  uint : ∀ isID wd n, o = .data isID (.uint wd) → env.view w v = .scalar (.uint n) →
    Refused errs p x ∨ ∃ t, Shows.NatCanon t n ∧ x = .leaf (if isID then Shows.quoted t else t)
  bool : ∀ b, o = .data false .bool → env.view w v = .scalar (.bool b) → Refused errs p x ∨ x = .leaf (if b then b%"true" else b%"false")
  float : ∀ isID single f, o = .data isID (if single then .float32 else .float64) → env.view w v = .scalar (.float f) →
    Refused errs p x ∨ x = .leaf (if isID then Shows.quoted (env.floatText single f) else env.floatText single f)
  string : ∀ isID s, o = .data isID .string → env.view w v = .scalar (.string s) →
    Refused errs p x ∨ ∃ t cs, Utf8.Reads s cs ∧ Json.JString t cs ∧ x = .leaf t
  /-- an enum value is shown as the first key registered for it -/
  enum : ∀ i e k s pre post, o = .enum i → schema.enums[i]? = some e → env.view w v = .scalar s →
    (e.kind ≠ .bool ∧ e.kind ≠ .float32 ∧ e.kind ≠ .float64) → e.entries = pre ++ (k, s) :: post → (∀ y ∈ pre, y.2 ≠ s) →
    Refused errs p x ∨ x = .leaf (Shows.quoted k)
  time : ∀ t, o = .time → env.view w v = .time t → Refused errs p x ∨ ∃ s, Shows.TimeText t s ∧ x = .leaf (Shows.quoted s)
  /-- an interface value is shown as its registered implementation -/
  interface : ∀ n impls goName goPkg y i, o = .interfaceRef n → lookup schema.interfaces n = some impls →
    env.view w v = .iface (some (goName, goPkg, y)) → impls.find? (fun i => i.goTypeName = goName ∧ i.goPkgPath = goPkg) = some i →
    Refused errs p x ∨ ∃ es w2, Reveals schema env vars near w (.objRef i.typeName) y p x es w2
  /-- a value of an object type is an object, whose members are fields of the value -/
  object : ∀ n t, o = .objRef n → lookup schema.types n = some t → Refused errs p x ∨ ∃ ms es w2, x = .obj ms ∧ Members schema env vars near t v p w ms es w2
  /-- a function is called with what its parameters allow, or its arguments were wrong: then the reason is reported and nothing is written -/
  function : ∀ m out, o = .method m out → (m.isTypeMethod = true ∨ env.view w v = .func false) →
    (x = .missing ∧ ∃ msg, Delivered.Reason env schema.enums schema.inTypes vars m.inFields msg ∧ (⟨msg, pathJSON p⟩ : RErr) ∈ errs) ∨
    ∃ inputs w1 outs, Delivered.CalledWith env schema.enums schema.inTypes m inputs ∧ env.call w v (Shows.pathArg p) inputs = some (w1, outs) ∧
      ((∃ msg, env.ctxErr w1 = some msg ∧ x = .null ∧ (⟨msg, pathJSON p⟩ : RErr) ∈ errs) ∨
       ∃ y es w2, outs[m.outNr]? = some y ∧ Reveals schema env vars near w1 out y p x es w2)

end
end Reveals
end Yarql
