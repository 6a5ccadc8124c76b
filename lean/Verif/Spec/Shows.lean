import Verif.Model.Resolver
import Verif.Spec.Binding
import Verif.Spec.Response
import Verif.Spec.JsonString

/-!
# What a response shows: a relation between Go values, selections and response trees

`Shows r w o v p args sels out w'`: in the world `w`, the Go value `v` of (schema) type `o`, at response path `p`, queried
with the arguments `args` and the selection set `sels`, is shown as `out`, and user functions called on the way
changed the world to `w'`.

The relation describes error-free execution only. It has no fuel, no position, no stack, no depth counter and no error
list; it is written independently of the evaluator in `Spec/Eval.lean` and of the interpreter model.
-/

namespace Yarql
namespace Shows
open Doc Binding Eval

/-- canonical decimal text of a natural number -/
def NatCanon (t : Bytes) (n : Nat) : Prop := NatText t n ∧ (t.head? = some c%'0' → t = [c%'0'])

/-- canonical decimal text of an integer -/
def IntCanon (t : Bytes) (i : Int) : Prop :=
  (0 ≤ i ∧ NatCanon t i.toNat) ∨ (i < 0 ∧ ∃ ds, t = c%'-' :: ds ∧ NatCanon ds (-i).toNat)

/-- decimal text of a natural number, filled up with zeros to `w` digits -/
def PadText (w n : Nat) (s : Bytes) : Prop := ∃ t, NatCanon t n ∧ s = List.replicate (w - t.length) c%'0' ++ t

/-- decimal text of a year: at least four digits, a minus sign before year 0 -/
def YearText (y : Int) (s : Bytes) : Prop := ∃ t, PadText 4 y.natAbs t ∧ s = if y < 0 then c%'-' :: t else t

/-- `yyyy-mm-ddThh:mm:ss.mmmZ`: the civil time of `t` in its own zone, cut to milliseconds -/
def TimeText (t : Time.T) (s : Bytes) : Prop :=
  ∃ y mo d h mi se ms, YearText t.year y ∧ PadText 2 t.month mo ∧ PadText 2 t.day d ∧ PadText 2 t.hour h ∧ PadText 2 t.min mi ∧
    PadText 2 t.sec se ∧ PadText 3 (t.nsec / 1000000) ms ∧
    s = y ++ [c%'-'] ++ mo ++ [c%'-'] ++ d ++ [c%'T'] ++ h ++ [c%':'] ++ mi ++ [c%':'] ++ se ++ [c%'.'] ++ ms ++ [c%'Z']

/-- `t` in double quotes -/
def quoted (t : Bytes) : Bytes := [c%'"'] ++ t ++ [c%'"']

section
variable {F V W : Type}

/-- what a request works on -/
structure Ctx (F V W : Type) where
  schema : Resolver.RSchema F V
  env : Env F V W
  vars : Bind.VarsSrc
  frags : List Fragment
  decls : List VarDef

/-- JSON text of a scalar of a kind -/
inductive Text (env : Env F V W) : Kind → Scalar F → Bytes → Prop where
  | string {s t cs} : Utf8.Reads s cs → Json.JString t cs → Text env .string (.string s) t
  | true : Text env .bool (.bool true) b%"true"
  | false : Text env .bool (.bool false) b%"false"
  | int {w i t} : IntCanon t i → Text env (.int w) (.int i) t
  | uint {w n t} : NatCanon t n → Text env (.uint w) (.uint n) t
  | float32 {f} : Text env .float32 (.float f) (env.floatText true f)
  | float64 {f} : Text env .float64 (.float f) (env.floatText false f)

/-- IDs that are not strings are quoted -/
inductive Scalar (env : Env F V W) : Bool → Kind → Yarql.Scalar F → Bytes → Prop where
  | plain {isID k x t} : isID = false ∨ k = .string → Text env k x t → Scalar env isID k x t
  | id {k x t} : k ≠ .string → Text env k x t → Scalar env true k x (quoted t)

/-- the text of a path given to user functions (`GetPath`) -/
def pathArg (p : List Seg) : Bytes :=
  match p with
  | [] => b%"[]"
  | s :: ss => [c%'['] ++ segText s ++ pathText ss ++ [c%']']

/-- a function, possibly behind pointers: what can take arguments -/
inductive Callable : Obj F → Prop where
  | method {m out} : Callable (.method m out)
  | ptr {o} : Callable o → Callable (.ptr o)

variable (r : Ctx F V W)

/-- the inputs a function is called with: fresh ones, filled from the arguments -/
def Inputs (m : Method F) (args : List (Bytes × Value)) (inputs : List (Arg F)) : Prop :=
  Args r.env r.schema.enums r.schema.inTypes (Var r.env r.schema.enums r.schema.inTypes r.vars r.decls) m.inFields args
    (m.ins.map (fun i => match i with | .ctx => .ctx | .struct z => .val z)) inputs

/-- Directives in order: the first one that says skip ends them. -/
inductive Directives (loc : UInt8) (p : List Seg) : W → List Directive → Bool → W → Prop where
  | nil {w} : Directives loc p w [] false w
  | skip {w d ds table x inputs w1 outs o} : lookup r.schema.directives loc = some table →
      table.find? (fun x => x.name = d.name) = some x → Inputs r x.method (d.args.getD []) inputs →
      r.env.call w x.func (pathArg p) inputs = some (w1, outs) → outs[0]? = some o → r.env.skip w1 o = true →
      Directives loc p w (d :: ds) true w1
  | pass {w d ds table x inputs w1 outs o b w2} : lookup r.schema.directives loc = some table →
      table.find? (fun x => x.name = d.name) = some x → Inputs r x.method (d.args.getD []) inputs →
      r.env.call w x.func (pathArg p) inputs = some (w1, outs) → outs[0]? = some o → r.env.skip w1 o = false →
      Directives loc p w1 ds b w2 → Directives loc p w (d :: ds) b w2

/-- The Go value behind a field: a fixed value, a method of the object, or a struct field of it. -/
inductive FieldValue (w : W) (v : V) (f : Resolver.RField F V) : V → Prop where
  | fixed {x} : f.customObjValue = some x → FieldValue w v f x
  | method {m out} : f.customObjValue = none → f.obj = .method m out → m.isTypeMethod = true →
      FieldValue w v f (r.env.method v f.structFieldIdx)
  | field {fs x} : f.customObjValue = none → (∀ m out, f.obj = .method m out → m.isTypeMethod = false) →
      r.env.view w v = .struct fs → fs[f.structFieldIdx]? = some x → FieldValue w v f x

mutual
inductive Shows : W → Obj F → V → List Seg → Option (List (Bytes × Value)) → List Sel → Out → W → Prop where
  | undefined {w v p sels} : Shows w .undefined v p none sels .null w
  /-- lists: nil is null, otherwise one entry per element -/
  | nilList {w o v p sels} : r.env.view w v = .seq none → Shows w (.array o) v p none sels .null w
  | list {w o v p sels vs os w'} : r.env.view w v = .seq (some vs) → Elems o p sels w 0 vs os w' →
      Shows w (.array o) v p none sels (.list os) w'
  | nilPtr {w o v p args sels} : r.env.view w v = .ptr none → (args = none ∨ Callable o) →
      Shows w (.ptr o) v p args sels .null w
  | ptr {w o v p args sels x out w'} : r.env.view w v = .ptr (some x) → Shows w o x p args sels out w' →
      Shows w (.ptr o) v p args sels out w'
  | object {w n v p sels t ms w'} : sels ≠ [] → lookup r.schema.types n = some t → Selects t v p w sels ms w' →
      Shows w (.objRef n) v p none sels (.obj ms) w'
  | noObject {w n v p sels} : sels ≠ [] → lookup r.schema.types n = none → Shows w (.objRef n) v p none sels .null w
  | scalar {w isID k v p x t} : r.env.view w v = .scalar x → Scalar r.env isID k x t →
      Shows w (.data isID k) v p none [] (.leaf t) w
  /-- an enum value is shown as the key registered for it -/
  | enum {w idx e v p sels x k pre post} : r.schema.enums[idx]? = some e → r.env.view w v = .scalar x →
      (e.kind ≠ .bool ∧ e.kind ≠ .float32 ∧ e.kind ≠ .float64) → e.entries = pre ++ (k, x) :: post → (∀ y ∈ pre, y.2 ≠ x) →
      Shows w (.enum idx) v p none sels (.leaf (quoted k)) w
  | noEnum {w idx e v p sels x} : r.schema.enums[idx]? = some e → r.env.view w v = .scalar x →
      ((∀ y ∈ e.entries, y.2 ≠ x) ∨ e.kind = .bool ∨ e.kind = .float32 ∨ e.kind = .float64) →
      Shows w (.enum idx) v p none sels .null w
  | time {w v p sels t s} : r.env.view w v = .time t → TimeText t s →
      Shows w .time v p none sels (.leaf (quoted s)) w
  | noTime {w v p sels} : (∀ t, r.env.view w v ≠ .time t) → Shows w .time v p none sels .null w
  /-- interfaces: nil is null; the dynamic type decides which implementation is used -/
  | noInterface {w n v p sels} : sels ≠ [] → lookup r.schema.interfaces n = none → Shows w (.interfaceRef n) v p none sels .null w
  | nilInterface {w n v p sels impls} : sels ≠ [] → lookup r.schema.interfaces n = some impls → r.env.view w v = .iface none →
      Shows w (.interfaceRef n) v p none sels .null w
  | interface {w n v p sels impls goName goPkg x i out w'} : lookup r.schema.interfaces n = some impls →
      r.env.view w v = .iface (some (goName, goPkg, x)) →
      impls.find? (fun i => i.goTypeName = goName ∧ i.goPkgPath = goPkg) = some i →
      Shows w (.objRef i.typeName) x p none sels out w' → Shows w (.interfaceRef n) v p none sels out w'
  | unregistered {w n v p sels impls goName goPkg x} : sels ≠ [] → lookup r.schema.interfaces n = some impls →
      r.env.view w v = .iface (some (goName, goPkg, x)) →
      (∀ i ∈ impls, ¬ (i.goTypeName = goName ∧ i.goPkgPath = goPkg)) → Shows w (.interfaceRef n) v p none sels .null w
  /-- a nil function is null -/
  | nilFunc {w m out v p args sels} : m.isTypeMethod = false → r.env.view w v = .func true →
      Shows w (.method m out) v p args sels .null w
  /-- functions are called with the arguments; their result is shown -/
  | call {w m out v p args sels inputs w1 outs x o w'} : (m.isTypeMethod = true ∨ r.env.view w v = .func false) →
      Inputs r m (args.getD []) inputs → r.env.call w v (pathArg p) inputs = some (w1, outs) →
      (∀ nr, m.errorOutNr = some nr → ∃ e, outs[nr]? = some e ∧ r.env.errOf w1 e = none) → r.env.ctxErr w1 = none →
      outs[m.outNr]? = some x → Shows w1 out x p none sels o w' → Shows w (.method m out) v p args sels o w'
inductive Elems : Obj F → List Seg → List Sel → W → Nat → List V → List Out → W → Prop where
  | nil {o p sels w i} : Elems o p sels w i [] [] w
  | cons {o p sels w i v vs out w1 os w2} : Shows w o v (p ++ [.idx i]) none sels out w1 → Elems o p sels w1 (i + 1) vs os w2 →
      Elems o p sels w i (v :: vs) (out :: os) w2
/-- The members selections contribute to an object of type `t` with value `v`, in order. -/
inductive Selects : Resolver.RType F V → V → List Seg → W → List Sel → List (Bytes × Out) → W → Prop where
  | nil {t v p w} : Selects t v p w [] [] w
  | field {t v p w key name dirs args sub rest w1 f x out w2 ms w3} : Directives r 0 (p ++ [.key key]) w dirs false w1 →
      t.fields.find? (fun f => f.key = fnv1 (name.getD key)) = some f → FieldValue r w1 v f x →
      Shows w1 f.obj x (p ++ [.key key]) args sub out w2 → Selects t v p w2 rest ms w3 →
      Selects t v p w (.field key name dirs args sub :: rest) ((key, out) :: ms) w3
  | typename {t v p w key name dirs rest w1 ms w2} : Directives r 0 (p ++ [.key key]) w dirs false w1 →
      name.getD key = b%"__typename" → t.fields.find? (fun f => f.key = fnv1 b%"__typename") = none →
      Selects t v p w1 rest ms w2 →
      Selects t v p w (.field key name dirs none [] :: rest) ((key, .leaf (quoted t.typeName)) :: ms) w2
  | skipField {t v p w key name dirs args sub rest w1 ms w2} : Directives r 0 (p ++ [.key key]) w dirs true w1 →
      Selects t v p w1 rest ms w2 → Selects t v p w (.field key name dirs args sub :: rest) ms w2
  /-- a spread contributes the members of the fragment of exactly that name, if it is on the type of the object -/
  | spread {t v p w name dirs rest w1 f ms w2 ms' w3} : Directives r 1 p w dirs false w1 →
      r.frags.find? (fun f => f.name = name) = some f → f.typeName = t.typeName →
      Selects t v p w1 f.sels ms w2 → Selects t v p w2 rest ms' w3 →
      Selects t v p w (.spread name dirs :: rest) (ms ++ ms') w3
  | spreadOther {t v p w name dirs rest w1 f ms w2} : Directives r 1 p w dirs false w1 →
      r.frags.find? (fun f => f.name = name) = some f → f.typeName ≠ t.typeName →
      Selects t v p w1 rest ms w2 → Selects t v p w (.spread name dirs :: rest) ms w2
  | skipSpread {t v p w name dirs rest w1 ms w2} : Directives r 1 p w dirs true w1 →
      Selects t v p w1 rest ms w2 → Selects t v p w (.spread name dirs :: rest) ms w2
  | inline {t v p w ty dirs sub rest w1 ms w2 ms' w3} : Directives r 2 p w dirs false w1 → ty = t.typeName →
      Selects t v p w1 sub ms w2 → Selects t v p w2 rest ms' w3 →
      Selects t v p w (.inline ty dirs sub :: rest) (ms ++ ms') w3
  | inlineOther {t v p w ty dirs sub rest w1 ms w2} : Directives r 2 p w dirs false w1 → ty ≠ t.typeName →
      Selects t v p w1 rest ms w2 → Selects t v p w (.inline ty dirs sub :: rest) ms w2
  | skipInline {t v p w ty dirs sub rest w1 ms w2} : Directives r 2 p w dirs true w1 →
      Selects t v p w1 rest ms w2 → Selects t v p w (.inline ty dirs sub :: rest) ms w2
end

/-- An operation without directives: the members of the root object. -/
inductive Operation : W → Doc.Operation → Out → W → Prop where
  | query {w o ms w'} : o.kind = .query → o.dirs = [] →
      Selects r r.schema.rootQuery r.schema.rootQueryValue [] w o.sels ms w' → Operation w o (.obj ms) w'
  | mutation {w o ms w'} : o.kind = .mutation → o.dirs = [] →
      Selects r r.schema.rootMethod r.schema.rootMethodValue [] w o.sels ms w' → Operation w o (.obj ms) w'

end

mutual
/-- The same response, up to the spelling of JSON strings (escapes). -/
inductive Same : Out → Out → Prop where
  | missing : Same .missing .missing
  | null : Same .null .null
  | leaf {t} : Same (.leaf t) (.leaf t)
  | string {t t' cs} : Json.JString t cs → Json.JString t' cs → Same (.leaf t) (.leaf t')
  | list {xs ys} : SameItems xs ys → Same (.list xs) (.list ys)
  | obj {xs ys} : SameMembers xs ys → Same (.obj xs) (.obj ys)
inductive SameItems : List Out → List Out → Prop where
  | nil : SameItems [] []
  | cons {x y xs ys} : Same x y → SameItems xs ys → SameItems (x :: xs) (y :: ys)
inductive SameMembers : List (Bytes × Out) → List (Bytes × Out) → Prop where
  | nil : SameMembers [] []
  | cons {k x y xs ys} : Same x y → SameMembers xs ys → SameMembers ((k, x) :: xs) ((k, y) :: ys)
end

end Shows
end Yarql
