import Verif.Spec.Shows
import Verif.Spec.Delivered
import Verif.Spec.Events
import Verif.Spec.Document

/-!
# What any response shows: Go values and response trees, without the query

`Reveals w o v p out es w'`: in the world `w`, the Go value `v` of (schema) type `o`, at response path `p`, is answered with `out`; the
errors `es` are reported on the way and the world is changed to `w'`.  Unlike `Shows` this covers execution with errors, and it does not
say what was asked: `Members` allows any fields of the object, in any number and order, under any keys.

Nothing here refers to the query, the bytecode or the interpreter model.
-/

namespace Yarql
namespace Reveals
open Eval Resolver Delivered

section
variable {F V W : Type}

mutual
/-- how deep a response is nested: the longest path in it -/
def depth : Out → Nat
  | .list xs => depthItems xs
  | .obj ms => depthMembers ms
  | _ => 0
def depthItems : List Out → Nat
  | [] => 0
  | x :: xs => max (depth x + 1) (depthItems xs)
def depthMembers : List (Bytes × Out) → Nat
  | [] => 0
  | (_, x) :: ms => max (depth x + 1) (depthMembers ms)
end

/-- the reasons for which null is written in place of a value -/
def refusals : List Bytes :=
  [b%"field arguments not allowed", b%"must have a selection", b%"cannot have a selection set on this field", b%"reached max dept"]

/-- the error a function returned, reported at the path -/
def ownErrors (env : Env F V W) (m : Method F) (p : List Seg) (w1 : W) (outs : List V) : List RErr :=
  (Events.ownError env.errOf m w1 outs).toList.map (fun msg => ⟨msg, pathJSON p⟩)

/-- The Go value behind a field: a fixed value, a method of the object, or a struct field of it. -/
inductive FieldValue (env : Env F V W) (w : W) (v : V) (f : RField F V) : V → Prop where
  | fixed {x} : f.customObjValue = some x → FieldValue env w v f x
  | method {m out} : f.customObjValue = none → f.obj = .method m out → m.isTypeMethod = true →
      FieldValue env w v f (env.method v f.structFieldIdx)
  | field {fs x} : f.customObjValue = none → (∀ m out, f.obj = .method m out → m.isTypeMethod = false) →
      env.view w v = .struct fs → fs[f.structFieldIdx]? = some x → FieldValue env w v f x

/-- Errors of directives and fragments: the directive is not registered for the location, its arguments are refused, the fragment does not
exist; `instruction` is reported for bytes that are no selection (behind a NUL byte in a string). -/
inductive SelectionError (schema : RSchema F V) (env : Env F V W) (vars : Bind.VarsSrc) : Bytes → Prop where
  | unknownDirective {loc n} : (∀ table, lookup schema.directives loc = some table → ∀ d ∈ table, d.name ≠ n) →
      SelectionError schema env vars (b%"unknown directive " ++ n)
  | directive {loc table d msg} : lookup schema.directives loc = some table → d ∈ table →
      Reason env schema.enums schema.inTypes vars d.method.inFields msg → SelectionError schema env vars msg
  | noFragment {n} : SelectionError schema env vars (b%"fragment " ++ n ++ b%" not defined")
  | instruction {text} : SelectionError schema env vars (b%"unsupported operation " ++ text)

-- `near`: the values of fields are the values of the object they are shown in
variable (schema : RSchema F V) (env : Env F V W) (vars : Bind.VarsSrc) (near : Prop)

mutual
inductive Reveals : W → Obj F → V → List Seg → Out → List RErr → W → Prop where
  /-- null, and the reason is reported -/
  | refused {w o v p msg} : ¬ Shows.Callable o → msg ∈ refusals → Reveals w o v p .null [⟨msg, pathJSON p⟩] w
  | undefined {w v p} : Reveals w .undefined v p .null [] w
  /-- lists: nil is null, otherwise one entry per element -/
  | nilList {w o v p} : env.view w v = .seq none → Reveals w (.array o) v p .null [] w
  | list {w o v p vs os es w'} : env.view w v = .seq (some vs) → Elems o p w 0 vs os es w' → Reveals w (.array o) v p (.list os) es w'
  | nilPtr {w o v p} : env.view w v = .ptr none → Reveals w (.ptr o) v p .null [] w
  | ptr {w o v p x out es w'} : env.view w v = .ptr (some x) → Reveals w o x p out es w' → Reveals w (.ptr o) v p out es w'
  | object {w n v p t ms es w'} : lookup schema.types n = some t → Members t v p w ms es w' → Reveals w (.objRef n) v p (.obj ms) es w'
  | noObject {w n v p} : lookup schema.types n = none → Reveals w (.objRef n) v p .null [] w
  | scalar {w isID k v p x t} : env.view w v = .scalar x → Shows.Scalar env isID k x t → Reveals w (.data isID k) v p (.leaf t) [] w
  /-- an enum value is shown as the key registered for it -/
  | enum {w idx e v p x k pre post} : schema.enums[idx]? = some e → env.view w v = .scalar x →
      (e.kind ≠ .bool ∧ e.kind ≠ .float32 ∧ e.kind ≠ .float64) → e.entries = pre ++ (k, x) :: post → (∀ y ∈ pre, y.2 ≠ x) →
      Reveals w (.enum idx) v p (.leaf (Shows.quoted k)) [] w
  | noEnum {w idx e v p x} : schema.enums[idx]? = some e → env.view w v = .scalar x →
      ((∀ y ∈ e.entries, y.2 ≠ x) ∨ e.kind = .bool ∨ e.kind = .float32 ∨ e.kind = .float64) → Reveals w (.enum idx) v p .null [] w
  | time {w v p t s} : env.view w v = .time t → Shows.TimeText t s → Reveals w .time v p (.leaf (Shows.quoted s)) [] w
  | noTime {w v p} : (∀ t, env.view w v ≠ .time t) → Reveals w .time v p .null [] w
  /-- interfaces: nil is null; the dynamic type decides which implementation is used -/
  | noInterface {w n v p} : lookup schema.interfaces n = none → Reveals w (.interfaceRef n) v p .null [] w
  | nilInterface {w n v p impls} : lookup schema.interfaces n = some impls → env.view w v = .iface none →
      Reveals w (.interfaceRef n) v p .null [] w
  | interface {w n v p impls goName goPkg x i out es w'} : lookup schema.interfaces n = some impls →
      env.view w v = .iface (some (goName, goPkg, x)) → impls.find? (fun i => i.goTypeName = goName ∧ i.goPkgPath = goPkg) = some i →
      Reveals w (.objRef i.typeName) x p out es w' → Reveals w (.interfaceRef n) v p out es w'
  | unregistered {w n v p impls goName goPkg x} : lookup schema.interfaces n = some impls → env.view w v = .iface (some (goName, goPkg, x)) →
      (∀ i ∈ impls, ¬ (i.goTypeName = goName ∧ i.goPkgPath = goPkg)) → Reveals w (.interfaceRef n) v p .null [] w
  /-- a nil function is null -/
  | nilFunc {w m out v p} : m.isTypeMethod = false → env.view w v = .func true → Reveals w (.method m out) v p .null [] w
  /-- arguments that cannot be bound: nothing is called, nothing is written and one error is reported -/
  | unbound {w m out v p msg} : (m.isTypeMethod = true ∨ env.view w v = .func false) →
      Reason env schema.enums schema.inTypes vars m.inFields msg → Reveals w (.method m out) v p .missing [⟨msg, pathJSON p⟩] w
  /-- the function is called, the context is cancelled since -/
  | cancelled {w m out v p inputs w1 outs msg} : (m.isTypeMethod = true ∨ env.view w v = .func false) →
      CalledWith env schema.enums schema.inTypes m inputs → env.call w v (Shows.pathArg p) inputs = some (w1, outs) → env.ctxErr w1 = some msg →
      Reveals w (.method m out) v p .null (ownErrors env m p w1 outs ++ [⟨msg, pathJSON p⟩]) w1
  /-- the function is called, its result is shown -/
  | call {w m out v p inputs w1 outs x o es w'} : (m.isTypeMethod = true ∨ env.view w v = .func false) →
      CalledWith env schema.enums schema.inTypes m inputs → env.call w v (Shows.pathArg p) inputs = some (w1, outs) → env.ctxErr w1 = none → outs[m.outNr]? = some x →
      Reveals w1 out x p o es w' → Reveals w (.method m out) v p o (ownErrors env m p w1 outs ++ es) w'
inductive Elems : Obj F → List Seg → W → Nat → List V → List Out → List RErr → W → Prop where
  | nil {o p w i} : Elems o p w i [] [] [] w
  | cons {o p w i v vs out es w1 os es' w2} : Reveals w o v (p ++ [.idx i]) out es w1 → Elems o p w1 (i + 1) vs os es' w2 →
      Elems o p w i (v :: vs) (out :: os) (es ++ es') w2
/-- Members of an object of type `t` with value `v`, in order, and what happens between them. -/
inductive Members : RType F V → V → List Seg → W → List (Bytes × Out) → List RErr → W → Prop where
  | nil {t v p w} : Members t v p w [] [] w
  /-- the value of a field of the object -/
  | field {t v p w v' f x k out es w1 ms es' w2} : f ∈ t.fields → (near → v' = v) → FieldValue env w v' f x →
      Reveals w f.obj x (p ++ [.key k]) out es w1 → Members t v p w1 ms es' w2 → Members t v p w ((k, out) :: ms) (es ++ es') w2
  /-- the name of the type -/
  | typename {t v p w k ms es w'} : Members t v p w ms es w' → Members t v p w ((k, .leaf (Shows.quoted t.typeName)) :: ms) es w'
  /-- `__typename` with a selection or arguments -/
  | noTypename {t v p w k ms es w'} : Members t v p w ms es w' → Members t v p w ((k, .missing) :: ms)
      (⟨b%"cannot have a selection set on this field", pathJSON (p ++ [.key k])⟩ :: es) w'
  /-- a field the type does not have -/
  | noField {t v p w k name ms es w'} : name ≠ b%"__typename" → Members t v p w ms es w' → Members t v p w ((k, .null) :: ms)
      (⟨name ++ b%" does not exists on " ++ t.typeName, pathJSON (p ++ [.key k])⟩ :: es) w'
  /-- a directive of a field or of a fragment is evaluated -/
  | directive {t v p w p' loc table d inputs w1 outs ms es w'} : (p' = p ∨ ∃ k, p' = p ++ [.key k]) →
      lookup schema.directives loc = some table → d ∈ table →
      CalledWith env schema.enums schema.inTypes d.method inputs → env.call w d.func (Shows.pathArg p') inputs = some (w1, outs) →
      Members t v p w1 ms es w' → Members t v p w ms es w'
  /-- an error of a directive or a fragment -/
  | error {t v p w p' msg ms es w'} : (p' = p ∨ ∃ k, p' = p ++ [.key k]) → SelectionError schema env vars msg → Members t v p w ms es w' →
      Members t v p w ms (⟨msg, pathJSON p'⟩ :: es) w'
end

/-- the object an operation is executed on: mutations on the root of the methods, queries on the root of the queries -/
def rootOf (schema : RSchema F V) : Doc.OpKind → RType F V × V
  | .mutation => (schema.rootMethod, schema.rootMethodValue)
  | _ => (schema.rootQuery, schema.rootQueryValue)

end
end Reveals
end Yarql
