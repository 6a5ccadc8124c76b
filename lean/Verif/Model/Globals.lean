import Verif.Model.TypeWalk

/-!
# Model of `Implements` (`/repo/interfaces.go`) and `TypeRename` (`/repo/type_rename.go`)

Both write package variables that every later `Parse` reads.  A call that panics (usually at package initialisation, which
ends the program) is `none`.
-/

namespace Yarql
namespace Globals
open TypeWalk

/-- the types of the program, as `reflect` shows them -/
structure Types where
  get : Ty → GoType
  /-- `t.Implements(u)` -/
  implements : Ty → Ty → Bool

/-- `implementationMap`, `structImplementsMap` (interfaces.go:8, 11) and `renamedTypes` (type_rename.go:9) -/
structure State where
  impls : List (Bytes × List Ty)
  structs : List (Bytes × List Ty)
  renames : List (Bytes × Bytes)

def empty : State := ⟨[], [], []⟩

/-- `Implements` (interfaces.go:20-75). The arguments are the dynamic types of the two values, `none` for nil. -/
def implements (T : Types) (g : State) : Option Ty → Option Ty → Option State
  | none, _ => none
  | some p, tv =>
    match (T.get p).shape with
    | .ptr i =>
      match (T.get i).shape with
      | .iface =>
        if (T.get i).name = [] ∨ (T.get i).pkg = [] then none
        else match tv with
          | none => none
          | some t =>
            match (T.get t).shape with
            | .struct _ =>
              if (T.get t).name = [] ∨ (T.get t).pkg = [] then none
              else if T.implements t i = false then none
              else
                let known := (lookup g.impls (T.get i).name).getD []
                if known.any (fun u => (T.get u).name = (T.get t).name ∧ (T.get u).pkg = (T.get t).pkg) then some g
                else some { g with
                  impls := mapSet g.impls (T.get i).name (known ++ [t])
                  structs := mapSet g.structs (T.get t).name ((lookup g.structs (T.get t).name).getD [] ++ [i]) }
            | _ => none
      | _ => none
    | _ => none

/-- `TypeRename` (type_rename.go:13-38); `force` = `len(force) > 0 && force[0]` -/
def typeRename (T : Types) (g : State) (t : Option Ty) (newName : Bytes) (force : Bool) : Option State :=
  match t with
  | none => none
  | some t =>
    if (T.get t).name = [] then none
    else match (T.get t).shape with
      | .struct _ =>
        if (Naming.trimSpace newName).length = 0 then none
        else if force = false ∧ Naming.validGraphQlName (Naming.trimSpace newName) = false then none
        else some { g with renames := mapSet g.renames (T.get t).name (Naming.trimSpace newName) }
      | _ => none

inductive Call where
  | implements (iface struct : Option Ty)
  | rename (ty : Option Ty) (newName : Bytes) (force : Bool)

def step (T : Types) (g : State) : Call → Option State
  | .implements i t => implements T g i t
  | .rename t n f => typeRename T g t n f

/-- a history of calls; one that panics (and is recovered) changes nothing: both functions write after all their checks -/
def run (T : Types) (g : State) : List Call → State
  | [] => g
  | c :: cs => run T ((step T g c).getD g) cs

/-- what `Parse` sees of the package variables -/
def program {F : Type} (T : Types) (g : State) (isError : Ty → Bool) (zero : Ty → InVal F) (enums : List (EnumDef F)) : Program F where
  get := T.get
  implements := T.implements
  isError := isError
  zero := zero
  renamed := lookup g.renames
  implMap := lookup g.impls
  structImpl := fun n => (lookup g.structs n).getD []
  enums := enums

end Globals
end Yarql
