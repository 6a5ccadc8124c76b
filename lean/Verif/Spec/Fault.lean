import Verif.Spec.Blame

/-!
# Errors that are the fault of the request

`Fault r t l sel msg`: the selection `sel`, of an object of type `t` at nesting level `l`, is one the schema does not allow, and
`msg` says so.  Errors that functions return, and a cancelled context, are none.  `Leads r t l sels p t' l' sel` follows a
response path without list indices: the selection is not below a list.  Independent of the evaluator and of the interpreter model.
-/

namespace Yarql
namespace Fault
open Doc Eval Resolver Blame

section
variable {F V W : Type}

/-- the value of a field of type `o` is of type `o'`, possibly behind pointers and functions, but not in a list -/
inductive Reaches : Obj F → Obj F → Prop where
  | refl {o} : Reaches o o
  | ptr {o o'} : Reaches o o' → Reaches (.ptr o) o'
  | method {m o o'} : Reaches o o' → Reaches (.method m o) o'

/-- the field has fields -/
def Composite (o : Obj F) : Prop := ∃ n, Reaches o (.objRef n) ∨ Reaches o (.interfaceRef n)

variable (r : Shows.Ctx F V W)

/-- The value of the field is an object of type `t`; it is nested `n` levels deeper (an interface counts as a level of its own). -/
inductive Opens (o : Obj F) : RType F V → UInt8 → Prop where
  | object {k t} : Reaches o (.objRef k) → lookup r.schema.types k = some t → Opens o t 1
  | interface {k impls i t} : Reaches o (.interfaceRef k) → lookup r.schema.interfaces k = some impls → i ∈ impls →
      lookup r.schema.types i.typeName = some t → Opens o t 2

/-- `f` is the field a selection of `name` means on `t` -/
def Names (t : RType F V) (name : Bytes) (f : RField F V) : Prop := t.fields.find? (fun f => f.key = fnv1 name) = some f

/-- The response path `p`, without indices, leads through the selections `sels` of an object of type `t` at level `l` to the selection
`sel` of an object of type `t'` at level `l'`. -/
inductive Leads : RType F V → UInt8 → List Sel → List Seg → RType F V → UInt8 → Sel → Prop where
  | field {t l sels key name dirs args sub} : Sel.field key name dirs args sub ∈ sels →
      Leads t l sels [.key key] t l (.field key name dirs args sub)
  | spread {t l sels name dirs} : Sel.spread name dirs ∈ sels → Leads t l sels [] t l (.spread name dirs)
  | inline {t l sels ty dirs sub} : Sel.inline ty dirs sub ∈ sels → Leads t l sels [] t l (.inline ty dirs sub)
  | underField {t l sels key name dirs args sub f t1 n p t' l' sel} : Sel.field key name dirs args sub ∈ sels →
      Names t (name.getD key) f → Opens r f.obj t1 n → Leads t1 (l + n) sub p t' l' sel → Leads t l sels (.key key :: p) t' l' sel
  | underSpread {t l sels name dirs f p t' l' sel} : Sel.spread name dirs ∈ sels → f ∈ r.frags → f.name = name → f.typeName = t.typeName →
      Leads t l f.sels p t' l' sel → Leads t l sels p t' l' sel
  | underInline {t l sels dirs sub p t' l' sel} : Sel.inline t.typeName dirs sub ∈ sels → Leads t l sub p t' l' sel → Leads t l sels p t' l' sel

inductive Fault (t : RType F V) (l : UInt8) : Sel → Bytes → Prop where
  | unknownField {key name dirs args sub} : (∀ f ∈ t.fields, f.key ≠ fnv1 (name.getD key)) → name.getD key ≠ b%"__typename" →
      Fault t l (.field key name dirs args sub) (name.getD key ++ b%" does not exists on " ++ t.typeName)
  | noSelection {key name dirs args f} : Names t (name.getD key) f → Composite f.obj →
      Fault t l (.field key name dirs args []) b%"must have a selection"
  | selection {key name dirs args sub f isID kind} : Names t (name.getD key) f → Reaches f.obj (.data isID kind) →
      args ≠ none ∨ sub ≠ [] → Fault t l (.field key name dirs args sub) b%"cannot have a selection set on this field"
  | typename {key name dirs args sub} : name.getD key = b%"__typename" →
      args ≠ none ∨ sub ≠ [] → Fault t l (.field key name dirs args sub) b%"cannot have a selection set on this field"
  | arguments {key name dirs args sub f} : Names t (name.getD key) f → (∀ m out, ¬ Reaches f.obj (.method m out)) →
      Fault t l (.field key name dirs (some args) sub) b%"field arguments not allowed"
  | depth {key name dirs args sub f t' n} : Names t (name.getD key) f → Opens r f.obj t' n → l + n = r.schema.maxDepth →
      Fault t l (.field key name dirs args sub) b%"reached max dept"
  | unbound {key name dirs args sub f m out msg} : Names t (name.getD key) f → Reaches f.obj (.method m out) → Unbound r m args →
      Fault t l (.field key name dirs (some args) sub) msg
  | fieldDirective {key name dirs args sub msg} : BadDirective r 0 dirs msg → Fault t l (.field key name dirs args sub) msg
  | spreadDirective {name dirs msg} : BadDirective r 1 dirs msg → Fault t l (.spread name dirs) msg
  | inlineDirective {ty dirs sub msg} : BadDirective r 2 dirs msg → Fault t l (.inline ty dirs sub) msg
  | unknownFragment {name dirs} : (∀ f ∈ r.frags, f.name ≠ name) → Fault t l (.spread name dirs) (b%"fragment " ++ name ++ b%" not defined")

/-- The error says that a selection of `sels` (not below a list) is not allowed. -/
def AtFault (t : RType F V) (sels : List Sel) (e : Bytes × List Seg) : Prop := ∃ t' l' sel, Leads r t 0 sels e.2 t' l' sel ∧ Fault r t' l' sel e.1

/-- The same for an operation: subscriptions and directives on operations are not supported either. -/
inductive OperationFault (o : Operation) : Bytes × List Seg → Prop where
  | subscription : o.kind = .subscription → OperationFault o (b%"subscriptions are not supported", [])
  | directives : o.dirs ≠ [] → OperationFault o (b%"operation directives unsupported", [])
  | query {e} : o.kind = .query → AtFault r r.schema.rootQuery o.sels e → OperationFault o e
  | mutation {e} : o.kind = .mutation → AtFault r r.schema.rootMethod o.sels e → OperationFault o e

end
end Fault
end Yarql
