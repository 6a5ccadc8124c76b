import Verif.Spec.Faithful

/-!
# Calls and errors that any request may cause

Nothing here refers to the query, the bytecode or the interpreter model.
-/

namespace Yarql
namespace Reveals
open Eval Resolver Delivered

section
variable {F V W : Type}

/-- `o` is `o'` or is inside it: the element of a list or pointer, the result of a function -/
inductive Within (o : Obj F) : Obj F → Prop where
  | here : Within o o
  | array {o'} : Within o o' → Within o (.array o')
  | ptr {o'} : Within o o' → Within o (.ptr o')
  | result {m o'} : Within o o' → Within o (.method m o')

/-- the signature of a function that is a field of an object type, or inside a field -/
def FieldFunction (schema : RSchema F V) (m : Method F) : Prop :=
  ∃ t f out, Known schema t ∧ f ∈ t.fields ∧ Within (.method m out) f.obj

/-- the signature of a field's function, or of the directive `fn` -/
def Signature (schema : RSchema F V) (fn : V) (m : Method F) : Prop :=
  FieldFunction schema m ∨ ∃ loc table d, lookup schema.directives loc = some table ∧ d ∈ table ∧ fn = d.func ∧ m = d.method

/-- One call: of a function, with what its signature admits; it changes the world from `w` to `w'`. -/
def Call (schema : RSchema F V) (env : Env F V W) (w w' : W) : Prop :=
  ∃ fn m p inputs outs, Signature schema fn m ∧ CalledWith env schema.enums schema.inTypes m inputs ∧
    env.call w fn (Shows.pathArg p) inputs = some (w', outs)

/-- any number of calls -/
inductive Calls (schema : RSchema F V) (env : Env F V W) : W → W → Prop where
  | none {w} : Calls schema env w w
  | call {w w1 w2} : Calls schema env w w1 → Call schema env w1 w2 → Calls schema env w w2

/-- The messages of execution errors: a value or a type name is refused, arguments are refused, a function returned an error, the context of the
request is cancelled, the field does not exist, an error of a directive or a fragment. -/
inductive Explained (schema : RSchema F V) (env : Env F V W) (vars : Bind.VarsSrc) : Bytes → Prop where
  | refusal {msg} : msg ∈ refusals → Explained schema env vars msg
  | argument {m msg} : FieldFunction schema m → Reason env schema.enums schema.inTypes vars m.inFields msg → Explained schema env vars msg
  | returned {m w fn p inputs w1 outs msg} : FieldFunction schema m → env.call w fn (Shows.pathArg p) inputs = some (w1, outs) →
      Events.ownError env.errOf m w1 outs = some msg → Explained schema env vars msg
  | cancelled {w1 msg} : env.ctxErr w1 = some msg → Explained schema env vars msg
  | noField {t name} : Known schema t → name ≠ b%"__typename" → Explained schema env vars (name ++ b%" does not exists on " ++ t.typeName)
  | selection {msg} : SelectionError schema env vars msg → Explained schema env vars msg

end
end Reveals
end Yarql
