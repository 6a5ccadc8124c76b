import Verif.Spec.Typed
import Verif.Spec.Regular
import Verif.Spec.Eval
import Verif.Props.ParserComplete

/-!
# What it means that a request is served

The hypotheses of the execution theorems, in one place.
-/

namespace Yarql
open Doc Resolver Typed

section
variable {F V W : Type}

/-- The target the parser is given for a request: the empty name means none. -/
def reqTarget (req : Request) : Option Bytes := if req.target = [] then none else some req.target

/-- `req` carries (a text of) the document `d`, whose operation `o` it selects.  `regular`: see `Spec/Regular.lean`; `len`: the
bytecode is shorter than 4 GiB. -/
structure Serves (req : Request) (d : List Def) (o : Operation) : Prop where
  parsed : Parsed req.query (reqTarget req) d
  wf : docWF d
  regular : docRegular d
  len : (encDoc d).length < 2 ^ 32
  chosen : Eval.chosenOperation req.target d = some o

/-- The operation fits on the value stack of 256 entries: no field's type has more than `k` list and interface layers, and its fields
nest `n` deep with `n * (k + 1) ≤ 255`; or there are no interfaces, the depth limit keeps it within bounds, and no selection set above the
limit expands forever: cycles of fragments pass through fields. -/
def Fits (schema : RSchema F V) (frags : List Fragment) (o : Operation) : Prop :=
  ∃ k, (∀ f, IsField schema f → slots f.obj ≤ k) ∧ ((∃ n, Nest frags n o.sels ∧ n * (k + 1) ≤ 255) ∨
    ((∀ f, IsField schema f → noInterface f.obj = true) ∧ 0 < schema.maxDepth.toNat ∧ schema.maxDepth.toNat * (k + 1) ≤ 255 ∧
      Unfolds frags schema.maxDepth.toNat o.sels))

/-- The operation stays below the depth limit: a field adds one level, or two if its type is an interface. -/
def Shallow (schema : RSchema F V) (frags : List Fragment) (o : Operation) : Prop :=
  ∃ n, Nest frags n o.sels ∧ (2 * n < schema.maxDepth.toNat ∨
    ((∀ f, IsField schema f → noInterface f.obj = true) ∧ n < schema.maxDepth.toNat))

/-- The variables of the request are absent or a JSON object. -/
def VarsOK : Bind.VarsSrc → Prop
  | .empty => True
  | .json (.obj _) => True
  | _ => False

end
end Yarql
