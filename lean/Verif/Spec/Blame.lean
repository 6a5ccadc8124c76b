import Verif.Spec.Shows
import Verif.Spec.Serving

/-!
# Which part of a query an error is about

`Leads frags sels p sel`: the response path `p` (aliases and list indices), followed through the selections `sels`, leads to
the selection `sel` of the query.  A field is found at its response key, or at an index below it (an element of its list); a
fragment spread and an inline fragment are found at the path of the object they are part of.

`Cause r p sel msg`: `sel`, resolved at the response path `p`, is a reason to report the error `msg`.

Independent of the evaluator and of the interpreter model.
-/

namespace Yarql
namespace Blame
open Doc Eval Resolver

inductive Leads (frags : List Fragment) : List Sel → List Seg → Sel → Prop where
  /-- a field, or an element of its list -/
  | field {sels key name dirs args sub} {idxs : List Nat} : Sel.field key name dirs args sub ∈ sels →
      Leads frags sels (.key key :: idxs.map .idx) (.field key name dirs args sub)
  | spread {sels name dirs} : Sel.spread name dirs ∈ sels → Leads frags sels [] (.spread name dirs)
  | inline {sels ty dirs sub} : Sel.inline ty dirs sub ∈ sels → Leads frags sels [] (.inline ty dirs sub)
  | underField {sels key name dirs args sub p sel} {idxs : List Nat} : Sel.field key name dirs args sub ∈ sels →
      Leads frags sub p sel → Leads frags sels (.key key :: idxs.map .idx ++ p) sel
  | underSpread {sels name dirs f p sel} : Sel.spread name dirs ∈ sels → f ∈ frags → f.name = name → Leads frags f.sels p sel →
      Leads frags sels p sel
  | underInline {sels ty dirs sub p sel} : Sel.inline ty dirs sub ∈ sels → Leads frags sub p sel → Leads frags sels p sel

section
variable {F V W : Type}

/-- `m` is called to resolve a field of type `o` -/
inductive Calls (m : Method F) : Obj F → Prop where
  | here {out} : Calls m (.method m out)
  | result {m' out} : Calls m out → Calls m (.method m' out)
  | ptr {o} : Calls m o → Calls m (.ptr o)
  | array {o} : Calls m o → Calls m (.array o)

/-- an object type of the schema -/
def IsObject (schema : RSchema F V) (t : RType F V) : Prop :=
  t = schema.rootQuery ∨ t = schema.rootMethod ∨ ∃ n, lookup schema.types n = some t

variable (r : Shows.Ctx F V W)

/-- the arguments are not ones `m` can be called with -/
def Unbound (m : Method F) (args : List (Bytes × Value)) : Prop := ¬ VarsOK r.vars ∨ ¬ ∃ inputs, Shows.Inputs r m args inputs

/-- a directive is not registered for this location, or its arguments are wrong -/
inductive BadDirective (loc : UInt8) (dirs : List Directive) : Bytes → Prop where
  | unknown {d} : d ∈ dirs → (∀ table, lookup r.schema.directives loc = some table → ∀ x ∈ table, x.name ≠ d.name) →
      BadDirective loc dirs (b%"unknown directive " ++ d.name)
  | arguments {d table x msg} : d ∈ dirs → lookup r.schema.directives loc = some table →
      table.find? (fun x => x.name = d.name) = some x → Unbound r x.method (d.args.getD []) → BadDirective loc dirs msg

/-- `f` is the field a selection of `name` means on some object type -/
def Resolves (name : Bytes) (f : RField F V) : Prop :=
  ∃ t, IsObject r.schema t ∧ t.fields.find? (fun f => f.key = fnv1 name) = some f

inductive Cause (p : List Seg) : Sel → Bytes → Prop where
  | unknownField {key name dirs args sub t} : IsObject r.schema t → (∀ f ∈ t.fields, f.key ≠ fnv1 (name.getD key)) →
      Cause p (.field key name dirs args sub) (name.getD key ++ b%" does not exists on " ++ t.typeName)
  | noSelection {key name dirs args} : Cause p (.field key name dirs args []) b%"must have a selection"
  | selection {key name dirs args sub} : args ≠ none ∨ sub ≠ [] →
      Cause p (.field key name dirs args sub) b%"cannot have a selection set on this field"
  | arguments {key name dirs args sub} : Cause p (.field key name dirs (some args) sub) b%"field arguments not allowed"
  | depth {key name dirs args sub} : Cause p (.field key name dirs args sub) b%"reached max dept"
  | unbound {key name dirs args sub f m msg} : Resolves r (name.getD key) f → Calls m f.obj → Unbound r m args →
      Cause p (.field key name dirs (some args) sub) msg
  /-- the function was called with this field's arguments and path, and returned this error -/
  | returned {key name dirs args args' sub f m msg w fn inputs w1 outs e} {nr : Nat} : Resolves r (name.getD key) f → Calls m f.obj →
      (args' = args.getD [] ∨ args' = []) → Shows.Inputs r m args' inputs →
      r.env.call w fn (Shows.pathArg p) inputs = some (w1, outs) → m.errorOutNr = some nr → outs[nr]? = some e →
      r.env.errOf w1 e = some msg → Cause p (.field key name dirs args sub) msg
  /-- after the function was called, the context of the request was found to be done -/
  | cancelled {key name dirs args args' sub f m msg w fn inputs w1 outs} : Resolves r (name.getD key) f → Calls m f.obj →
      (args' = args.getD [] ∨ args' = []) → Shows.Inputs r m args' inputs →
      r.env.call w fn (Shows.pathArg p) inputs = some (w1, outs) → r.env.ctxErr w1 = some msg →
      Cause p (.field key name dirs args sub) msg
  | fieldDirective {key name dirs args sub msg} : BadDirective r 0 dirs msg → Cause p (.field key name dirs args sub) msg
  | spreadDirective {name dirs msg} : BadDirective r 1 dirs msg → Cause p (.spread name dirs) msg
  | inlineDirective {ty dirs sub msg} : BadDirective r 2 dirs msg → Cause p (.inline ty dirs sub) msg
  | unknownFragment {name dirs} : (∀ f ∈ r.frags, f.name ≠ name) → Cause p (.spread name dirs) (b%"fragment " ++ name ++ b%" not defined")

/-- The errors of an operation: about one of its selections, or about the operation as a whole. -/
inductive Operation (o : Doc.Operation) : Bytes × List Seg → Prop where
  | selection {p sel msg} : Leads r.frags o.sels p sel → Cause r p sel msg → Operation o (msg, p)
  | subscription : o.kind = .subscription → Operation o (b%"subscriptions are not supported", [])
  | directives : o.dirs ≠ [] → Operation o (b%"operation directives unsupported", [])

end
end Blame
end Yarql
