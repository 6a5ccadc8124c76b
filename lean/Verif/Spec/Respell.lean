import Verif.Spec.CallsMade
import Verif.Spec.Shows
import Verif.Spec.Typed

/-!
# The same query, spelled differently

`Respelled renamed permuted sels sels'`: `sels'` is `sels` with, at any depth,

* other response keys (aliases), if `renamed`,
* the arguments of fields and directives in another order, if `permuted`.

The selected fields are the same.
-/

namespace Yarql
namespace Doc

/-- the same arguments, in any order if `permuted` (then each name occurs once) -/
inductive SameArgs (permuted : Prop) : Option (List (Bytes × Value)) → Option (List (Bytes × Value)) → Prop where
  | same {args} : SameArgs permuted args args
  | order {args args'} : permuted → args.Perm args' → (args.map (·.1)).Nodup → SameArgs permuted (some args) (some args')

/-- the same directives, their arguments in any order if `permuted` -/
inductive SameDirs (permuted : Prop) : List Directive → List Directive → Prop where
  | nil : SameDirs permuted [] []
  | cons {d d' ds ds'} : d'.name = d.name → SameArgs permuted d.args d'.args → SameDirs permuted ds ds' → SameDirs permuted (d :: ds) (d' :: ds')

inductive Respelled (renamed permuted : Prop) : List Sel → List Sel → Prop where
  | nil : Respelled renamed permuted [] []
  | field {key key' name name' dirs dirs' args args' sub sub' rest rest'} : key' = key ∨ renamed → name'.getD key' = name.getD key →
      SameDirs permuted dirs dirs' → SameArgs permuted args args' → Respelled renamed permuted sub sub' → Respelled renamed permuted rest rest' →
      Respelled renamed permuted (.field key name dirs args sub :: rest) (.field key' name' dirs' args' sub' :: rest')
  | spread {name dirs dirs' rest rest'} : SameDirs permuted dirs dirs' → Respelled renamed permuted rest rest' →
      Respelled renamed permuted (.spread name dirs :: rest) (.spread name dirs' :: rest')
  | inline {ty dirs dirs' sub sub' rest rest'} : SameDirs permuted dirs dirs' → Respelled renamed permuted sub sub' →
      Respelled renamed permuted rest rest' → Respelled renamed permuted (.inline ty dirs sub :: rest) (.inline ty dirs' sub' :: rest')

/-- fragments of the same names and types -/
inductive RespelledFrags (renamed permuted : Prop) : List Fragment → List Fragment → Prop where
  | nil : RespelledFrags renamed permuted [] []
  | cons {f f' fs fs'} : f'.name = f.name → f'.typeName = f.typeName → Respelled renamed permuted f.sels f'.sels →
      RespelledFrags renamed permuted fs fs' → RespelledFrags renamed permuted (f :: fs) (f' :: fs')

end Doc

namespace Shows
open Doc Eval

mutual
/-- The same response, up to the keys of objects (if `renamed`). -/
inductive ExceptKeys (renamed : Prop) : Out → Out → Prop where
  | missing : ExceptKeys renamed .missing .missing
  | null : ExceptKeys renamed .null .null
  | leaf {t} : ExceptKeys renamed (.leaf t) (.leaf t)
  | list {xs ys} : ExceptKeysItems renamed xs ys → ExceptKeys renamed (.list xs) (.list ys)
  | obj {xs ys} : ExceptKeysMembers renamed xs ys → ExceptKeys renamed (.obj xs) (.obj ys)
inductive ExceptKeysItems (renamed : Prop) : List Out → List Out → Prop where
  | nil : ExceptKeysItems renamed [] []
  | cons {x y xs ys} : ExceptKeys renamed x y → ExceptKeysItems renamed xs ys → ExceptKeysItems renamed (x :: xs) (y :: ys)
inductive ExceptKeysMembers (renamed : Prop) : List (Bytes × Out) → List (Bytes × Out) → Prop where
  | nil : ExceptKeysMembers renamed [] []
  | cons {k k' x y xs ys} : k' = k ∨ renamed → ExceptKeys renamed x y → ExceptKeysMembers renamed xs ys →
      ExceptKeysMembers renamed ((k, x) :: xs) ((k', y) :: ys)
end

section
variable {F V W : Type}

/-- all functions in the type have parameters that are different Go fields -/
def SeparateIn : Obj F → Prop
  | .array o => SeparateIn o
  | .ptr o => SeparateIn o
  | .method m out => CallsMade.Separate m ∧ SeparateIn out
  | _ => True

/-- … all functions of the schema, and those of directives -/
structure SeparateParams (schema : Resolver.RSchema F V) : Prop where
  fields : ∀ f, Typed.IsField schema f → SeparateIn f.obj
  directives : ∀ loc table, lookup schema.directives loc = some table → ∀ x ∈ table, CallsMade.Separate x.method

/-- functions do not ask for the path they are called at -/
def PathBlind (env : Env F V W) : Prop := ∀ w fn p p' inputs, env.call w fn p inputs = env.call w fn p' inputs

end
end Shows
end Yarql
