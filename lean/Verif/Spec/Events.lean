import Verif.Spec.Shows
import Verif.Spec.CallsMade

/-!
# What happens while a request is answered

A tree of events: bytes of the response, errors, calls of user functions, and, nested, everything that happens while a field (under its
response key) or a list element is resolved.  `textOf` is the response data, `errorsAt` the errors with their paths, `Plays` says that the
calls really are the calls of the environment, in order, and what follows a call if the context is cancelled.

Nothing here refers to the query or to the interpreter model.
-/

namespace Yarql
namespace Events
open Resolver Eval Bind

/-- `call m fn inputs w1 outs`: the function `fn` was called; it changed the world to `w1` and returned `outs`. `m` is the signature if it
was called for a field, `none` if for a directive. -/
inductive Ev (F V W : Type) where
  | wrote (b : Bytes)
  | error (msg : Bytes)
  | call (m : Option (Method F)) (fn : V) (inputs : List (Arg F)) (w1 : W) (outs : List V)
  | inside (s : Seg) (body : List (Ev F V W))

section
variable {F V W : Type}

mutual
/-- the bytes written -/
def Ev.text : Ev F V W → Bytes
  | .wrote b => b
  | .inside _ body => textOf body
  | _ => []
def textOf : List (Ev F V W) → Bytes
  | [] => []
  | e :: es => e.text ++ textOf es
end

/-- the error a function of signature `m` returned, as shown by `errOf` -/
def ownError (errOf : W → V → Option Bytes) (m : Method F) (w1 : W) (outs : List V) : Option Bytes :=
  match m.errorOutNr with
  | none => none
  | some nr =>
    match outs[nr]? with
    | none => none
    | some x => errOf w1 x

mutual
/-- the errors, each with the path of the fields and list elements it occurred in; a field's function that returns an error is
one error, at the path of the field -/
def Ev.errors (errOf : W → V → Option Bytes) (p : List Seg) : Ev F V W → List RErr
  | .error msg => [⟨msg, pathJSON p⟩]
  | .call (some m) _ _ w1 outs => (ownError errOf m w1 outs).toList.map (fun msg => ⟨msg, pathJSON p⟩)
  | .inside s body => errorsAt errOf (p ++ [s]) body
  | _ => []
def errorsAt (errOf : W → V → Option Bytes) (p : List Seg) : List (Ev F V W) → List RErr
  | [] => []
  | e :: es => e.errors errOf p ++ errorsAt errOf p es
end

/-- what follows the call of a field's function if the request's context is cancelled now: that is reported and `null` is written -/
def cancelled (env : Env F V W) (w1 : W) : List (Ev F V W) :=
  match env.ctxErr w1 with
  | none => []
  | some msg => [.error msg, .wrote b%"null"]

/-- the function of the field or element whose events these are was called, and the context is cancelled since -/
def Cancelled (env : Env F V W) (body : List (Ev F V W)) : Prop :=
  ∃ m fn inputs w1 outs, .call (some m) fn inputs w1 outs ∈ body ∧ env.ctxErr w1 ≠ none

/-- what is written while a field is resolved: nothing (it is left out, and its function is not called), or its key, possibly after a
comma, and its value; and while a list element is resolved: its value. The value is `null` if the context is cancelled -/
def Written (env : Env F V W) (s : Seg) (body : List (Ev F V W)) : Prop :=
  match s with
  | .idx _ => Cancelled env body → textOf body = b%"null"
  | .key k => (textOf body = [] ∧ ¬ Cancelled env body) ∨ ∃ comma value, (comma = [] ∨ comma = b%",") ∧
      textOf body = comma ++ ([c%'"'] ++ k ++ b%"\":") ++ value ∧ (Cancelled env body → value = b%"null")

/-- the events can happen, in this order, at path `p`, and change the world from `w` to `w'` -/
inductive Plays (env : Env F V W) : List Seg → W → List (Ev F V W) → W → Prop where
  | nil {p w} : Plays env p w [] w
  | wrote {p w b es w'} : Plays env p w es w' → Plays env p w (.wrote b :: es) w'
  | error {p w msg es w'} : Plays env p w es w' → Plays env p w (.error msg :: es) w'
  | directive {p w fn inputs w1 outs es w'} : env.call w fn (Shows.pathArg p) inputs = some (w1, outs) → Plays env p w1 es w' →
      Plays env p w (.call none fn inputs w1 outs :: es) w'
  | field {p w m fn inputs w1 outs es w'} : env.call w fn (Shows.pathArg p) inputs = some (w1, outs) → cancelled env w1 <+: es →
      Plays env p w1 es w' → Plays env p w (.call (some m) fn inputs w1 outs :: es) w'
  | inside {p w s body w1 es w'} : Plays env (p ++ [s]) w body w1 → Written env s body → Plays env p w1 es w' →
      Plays env p w (.inside s body :: es) w'

mutual
/-- the functions called for fields, each with the path of the field, the world it left behind and what it returned -/
def Ev.called (p : List Seg) : Ev F V W → List (List Seg × Method F × W × List V)
  | .call (some m) _ _ w1 outs => [(p, m, w1, outs)]
  | .inside s body => calledAt (p ++ [s]) body
  | _ => []
def calledAt (p : List Seg) : List (Ev F V W) → List (List Seg × Method F × W × List V)
  | [] => []
  | e :: es => e.called p ++ calledAt p es
end

/-- `Level es p l`: what happens at path `p` is `l` -/
inductive Level : List (Ev F V W) → List Seg → List (Ev F V W) → Prop where
  | here {l} : Level l [] l
  | inside {l s body p k} : .inside s body ∈ l → Level body p k → Level l (s :: p) k

end
end Events
end Yarql
