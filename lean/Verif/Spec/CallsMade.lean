import Verif.Spec.Blame

/-!
# The calls a request makes

`History env w calls w'`: the world came from `w` to `w'` by these calls of user functions, and nothing else.

`Due r o c m args`: the call `c` is owed to a selection of the query: `c` is a call of the function `m` belonging to the field
(or directive) found at the response path the function is given, and `args` are the arguments written there.

`Given r m args inputs`: in `inputs`, the parameter named by each argument holds the value delivered by it (`Binding.Lit`), and all
other parameters hold their zero values.

Independent of the evaluator and of the interpreter model.
-/

namespace Yarql
namespace CallsMade
open Doc Eval Resolver Blame Binding

/-- a call of a user function: the function, the path it can ask for, its inputs -/
structure Call (F V : Type) where
  fn : V
  path : Bytes
  inputs : List (Arg F)

section
variable {F V W : Type}

inductive History (env : Env F V W) : W → List (Call F V) → W → Prop where
  | nil {w} : History env w [] w
  | cons {w c w1 outs cs w2} : env.call w c.fn c.path c.inputs = some (w1, outs) → History env w1 cs w2 → History env w (c :: cs) w2

/-- `Callee args o m as`: showing a value of type `o`, for a field with arguments `args`, calls `m` with arguments `as`. Arguments go
to the function found behind pointers; functions in lists and functions returned by functions get none. -/
inductive Callee : Option (List (Bytes × Value)) → Obj F → Method F → List (Bytes × Value) → Prop where
  | here {args m out} : Callee args (.method m out) m (args.getD [])
  | ptr {args o m as} : Callee args o m as → Callee args (.ptr o) m as
  | elem {o m as} : Callee none o m as → Callee none (.array o) m as
  | result {args m' out m as} : Callee none out m as → Callee args (.method m' out) m as

variable (r : Shows.Ctx F V W)

/-- the directives of a selection and the location they are looked up under -/
def DirectivesOf : Sel → UInt8 → List Directive → Prop
  | .field _ _ dirs _ _, loc, ds => loc = 0 ∧ ds = dirs
  | .spread _ dirs, loc, ds => loc = 1 ∧ ds = dirs
  | .inline _ dirs _, loc, ds => loc = 2 ∧ ds = dirs

/-- the call, made for the selection `sel` found at `p`, is one of `m` with arguments `args` -/
inductive For (p : List Seg) (c : Call F V) : Sel → Method F → List (Bytes × Value) → Prop where
  | field {key name dirs args sub f m as} : Resolves r (name.getD key) f → Callee args f.obj m as → c.path = Shows.pathArg p →
      For p c (.field key name dirs args sub) m as
  | directive {sel loc ds d table x} : DirectivesOf sel loc ds → d ∈ ds → lookup r.schema.directives loc = some table →
      table.find? (fun x => x.name = d.name) = some x → c.fn = x.func → c.path = Shows.pathArg p →
      For p c sel x.method (d.args.getD [])

def Due (o : Operation) (c : Call F V) (m : Method F) (args : List (Bytes × Value)) : Prop :=
  ∃ p sel, Leads r.frags o.sels p sel ∧ For r p c sel m args

/-- the parameter `a` holds `x` -/
def Holds (inputs : List (Arg F)) (a : ArgField) (x : InVal F) : Prop :=
  ∃ vs, inputs[a.inputIdx]? = some (.val (.struct vs)) ∧ vs[a.goFieldIdx]? = some x

/-- the inputs of a call without arguments -/
def zeros (m : Method F) : List (Arg F) := m.ins.map (fun i => match i with | .ctx => .ctx | .struct z => .val z)

structure Given (m : Method F) (args : List (Bytes × Value)) (inputs : List (Arg F)) : Prop where
  /-- every argument names a parameter -/
  known : ∀ k v, (k, v) ∈ args → ∃ a ∈ m.inFields, a.key = k
  /-- which holds the value the argument denotes -/
  value : ∀ k v a, (k, v) ∈ args → m.inFields.find? (fun a => a.key = k) = some a → ∃ zero x set, Holds (zeros m) a zero ∧
    Lit r.env r.schema.enums r.schema.inTypes (Var r.env r.schema.enums r.schema.inTypes r.vars r.decls) v a.input zero x set ∧
    Holds inputs a x
  /-- parameters without argument keep their zero values -/
  rest : ∀ a ∈ m.inFields, a.key ∉ args.map (·.1) → ∀ zero, Holds (zeros m) a zero → Holds inputs a zero

/-- different parameters are different Go fields -/
def Separate (m : Method F) : Prop :=
  ∀ a ∈ m.inFields, ∀ b ∈ m.inFields, a.inputIdx = b.inputIdx → a.goFieldIdx = b.goFieldIdx → a.key = b.key

end
end CallsMade
end Yarql
