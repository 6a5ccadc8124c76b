import Verif.Model.Naming

/-!
# Model of the registration API (`/repo/directives.go`, `/repo/enums.go`, `Parse`/`Resolve` guards)

A `Schema` is reduced to what these calls read and write: the `parsed` flag, the directive table and the enum
list.  Go values passed as `interface{}` are reduced to what the code asks of them through `reflect`.
-/

namespace Yarql
namespace Registry

/-- `DirectiveLocation` is a `uint8` (directives.go:9) -/
abbrev Loc := UInt8

/-- What `checkDirective` learns about `Directive.Method` (directives.go:121-150). -/
inductive Method where
  /-- untyped nil interface -/
  | nil
  /-- a value whose kind does not support `IsNil` (int, string, struct, array, ...) -/
  | plain
  /-- map, pointer, slice, channel -/
  | nillable (isNil : Bool)
  /-- a function; `outs` tells for every result whether it is `yarql.DirectiveModifier` -/
  | func (isNil : Bool) (outs : List Bool)
deriving DecidableEq

/-- `Directive` (directives.go:50-61); `where_ = none` is a nil slice. `uid` stands for everything else
(method value, description). -/
structure Directive where
  name : Bytes
  where_ : Option (List Loc)
  method : Method
  uid : Nat := 0
deriving DecidableEq

/-- Outcome of a call that returns an `error`. -/
inductive Res where
  | ok
  | err
  | panic
deriving DecidableEq

/-- the accepted characters of `checkDirective` (directives.go:112-117); Go ranges over runes, and every byte of a
non-ASCII rune is rejected here as the rune is there -/
def directiveChar (c : Byte) : Bool :=
  (c%'0' ≤ c && c ≤ c%'9') || (c%'A' ≤ c && c ≤ c%'Z') || (c%'a' ≤ c && c ≤ c%'z') || c == c%'_'

/-- `checkDirective` (directives.go:108-162) -/
def checkDirective (d : Directive) : Res :=
  if d.name.length = 0 then .err
  else if d.name.all directiveChar = false then .err
  else if d.where_ = none then .err
  else match d.method with
    | .nil => .err
    | .plain => .panic                    -- reflect.Value.IsNil on a kind that has no nil
    | .nillable _ => .err                 -- nil: "method must be defined"; otherwise "method is not a function"
    | .func true _ => .err
    | .func false [] => .err
    | .func false [isModifier] => if isModifier then .ok else .err
    | .func false _ => .err

/-- `enum` (enums.go:11-17): the type name and the entries in the order the map iteration produced them. -/
structure Enum (V : Type) where
  typeName : Bytes
  entries : List (Bytes × V)

/-- The argument of `RegisterEnum` as seen by `registerEnumCheck` (enums.go:71-100).  `items` is the iteration
order Go happens to choose. -/
inductive EnumArg (V : Type) where
  /-- untyped nil -/
  | nil
  /-- not a map -/
  | notMap (isZero : Bool) (nillable : Bool) (isNil : Bool)
  /-- `map[K]T`: is it nil, is `K`'s kind string, is `K` exactly `string`, is `T`'s kind an int/uint/string,
  `T`'s package path and name (empty when unnamed) -/
  | map (isNil : Bool) (keyKindString : Bool) (keyIsString : Bool) (validElem : Bool) (pkgPath name : Bytes)
      (items : List (Bytes × V))

/-- Result of `registerEnumCheck` -/
inductive EnumRes (V : Type) where
  | panic
  | err
  | nothing
  | enum (e : Enum V)

/-- the loop over the map (enums.go:106-134): `keyIsString` decides `k.Interface().(string)` -/
def enumLoop {V : Type} (keyIsString : Bool) : List (Bytes × V) → List (Bytes × V) → EnumRes V
  | [], acc => .enum ⟨[], acc⟩
  | (k, v) :: rest, acc =>
    if keyIsString = false then .panic
    else if k = [] then .err
    else if Naming.validGraphQlName k = false then .err
    else enumLoop keyIsString rest (acc ++ [(k, v)])

/-- `registerEnumCheck` (enums.go:71-151) -/
def registerEnumCheck {V : Type} : EnumArg V → EnumRes V
  | .nil => .err
  | .notMap isZero nillable _ =>
    if isZero then .err
    else if nillable = false then .panic   -- reflect.Value.IsNil
    else .err
  | .map isNil keyKindString keyIsString validElem pkgPath name items =>
    if isNil then .err
    else if keyKindString = false then .err
    else if validElem = false then .err
    else if pkgPath = [] ∨ name = [] then .err
    else if items.length = 0 then .nothing
    else match enumLoop keyIsString items [] with
      | .enum e => .enum { e with typeName := name }
      | r => r

/-- The registration part of a `Schema` (parse.go:46-66). `directives l = none`: no key in the map. -/
structure Schema (V : Type) where
  parsed : Bool
  directives : Loc → Option (List Directive)
  enums : List (Enum V)

/-- the loop of `RegisterDirective` (directives.go:89-103): stops at the first clash, keeping what it already
stored -/
def registerLoop (d : Directive) : List Loc → (Loc → Option (List Directive)) → Res × (Loc → Option (List Directive))
  | [], table => (.ok, table)
  | l :: rest, table =>
    let ds := (table l).getD []
    if ds.any (fun x => x.name == d.name) then (.err, table)
    else registerLoop d rest (fun l' => if l' = l then some (ds ++ [d]) else table l')

/-- `RegisterDirective` (directives.go:78-106) -/
def registerDirective {V : Type} (s : Schema V) (d : Directive) : Res × Schema V :=
  if s.parsed then (.err, s)
  else match checkDirective d with
    | .ok =>
      let r := registerLoop d (d.where_.getD []) s.directives
      (r.1, { s with directives := r.2 })
    | e => (e, s)

/-- `RegisterEnum` (enums.go:57-69); the second component is `added` -/
def registerEnum {V : Type} (s : Schema V) (m : EnumArg V) : Res × Bool × Schema V :=
  if s.parsed then (.err, false, s)
  else match registerEnumCheck m with
    | .panic => (.panic, false, s)
    | .err => (.err, false, s)
    | .nothing => (.ok, false, s)
    | .enum e => (.ok, true, { s with enums := s.enums ++ [e] })

/-- `Parse` (parse.go:294-357) as seen by the registration API: it either returns an error or sets `parsed`.
Whether it succeeds is decided by the types it walks (`Model/TypeWalk.lean`), here a parameter. -/
def parse {V : Type} (s : Schema V) (succeeds : Bool) : Res × Schema V :=
  if succeeds then (.ok, { s with parsed := true }) else (.err, s)

/-- The guard of `Resolve` (resolver.go:160-163): `none` = the returned error list is `[invalid setup]` and nothing
else happened; otherwise the request runs. -/
def resolveGuard {V R : Type} (s : Schema V) (run : R) : Option R := if s.parsed then some run else none

/-- One call of the registration API. -/
inductive Call (V : Type) where
  | directive (d : Directive)
  | enum (m : EnumArg V)
  | parse (succeeds : Bool)

def step {V : Type} (s : Schema V) : Call V → Res × Schema V
  | .directive d => registerDirective s d
  | .enum m => ((registerEnum s m).1, (registerEnum s m).2.2)
  | .parse b => Registry.parse s b

def run {V : Type} (s : Schema V) : List (Call V) → Schema V
  | [] => s
  | c :: cs => run (step s c).2 cs

/-- the empty schema literal of `NewSchema` (parse.go:218-227) -/
def empty {V : Type} : Schema V := ⟨false, fun _ => none, []⟩

/-- a directive of `NewSchema`: `skip` / `include` (parse.go:245-282) -/
def builtin (name : Bytes) (uid : Nat) : Directive := ⟨name, some [0, 1, 2], .func false [true], uid⟩

/-- `NewSchema` (parse.go:217-283). The two internal enums are `e₁`, `e₂` (grahql_types.go). -/
def newSchema {V : Type} (e₁ e₂ : EnumArg V) : Schema V :=
  run empty [.enum e₁, .enum e₂, .directive (builtin b%"skip" 1), .directive (builtin b%"include" 2)]

end Registry
end Yarql
