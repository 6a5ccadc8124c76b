import Verif.Model.Time

/-!
# The parsed schema (`/repo/parse.go`, `/repo/directives.go`, `/repo/enums.go`)

Data structures built by `Parse` and read by the resolver, introspection and `Copy`.

* `V` is the type of `reflect.Value`s of user data: opaque handles, observed through the environment of the
  resolver model.
* `F` is the type of floating point numbers (opaque).

`check` returns a *reference* for every struct and interface (parse.go:380-389, 464-471, 547-553: `getRef`/`Add`), so
an object definition never occurs inside another one; definitions live in the tables `types` and `interfaces`.
Go maps are association lists with unique keys in some order (Go's iteration order is arbitrary).
-/

namespace Yarql

/-- bit width of an integer kind; `int`/`uint` are 64 bits wide (64-bit platforms) -/
inductive Width where
  | w8 | w16 | w32 | w64
deriving DecidableEq

def Width.bits : Width → Nat
  | .w8 => 8 | .w16 => 16 | .w32 => 32 | .w64 => 64

/-- the `reflect.Kind`s of `valueTypeData` and scalar inputs -/
inductive Kind where
  | bool
  | int (w : Width)
  | uint (w : Width)
  | float32
  | float64
  | string
deriving DecidableEq

/-- value of a scalar Go variable -/
inductive Scalar (F : Type) where
  | bool (b : Bool)
  | int (i : Int)
  | uint (n : Nat)
  | float (f : F)
  | string (s : Bytes)
deriving DecidableEq

/-- value of a (function input) Go variable -/
inductive InVal (F : Type) where
  | scalar (s : Scalar F)
  | time (t : Time.T)
  | file (handle : Option Nat)
  | ptr (v : Option (InVal F))
  | slice (vs : Option (List (InVal F)))
  | array (vs : List (InVal F))
  | struct (fields : List (InVal F))

/-- `input` (parse.go:169-190): what is known about the Go type of an argument (field).
`struct` is always by reference into `inTypes` (`isStructPointers`, parse.go:718-722). -/
inductive Input where
  | scalar (kind : Kind) (enum : Option Nat) (isID : Bool)
  | time
  | file
  | ptr (elem : Input)
  | slice (elem : Input)
  | array (len : Nat) (elem : Input)
  | struct (name : Bytes)
deriving DecidableEq

/-- one entry of `structContent` (parse.go:189) -/
structure InField where
  key : Bytes
  goFieldIdx : Nat
  input : Input

/-- `inTypes` entry plus the Go zero value of that struct type (`reflect.New(t).Elem()`) -/
structure InStruct (F : Type) where
  fields : List InField
  zero : InVal F

/-- one entry of `objMethod.inFields` (parse.go:164-167) -/
structure ArgField where
  key : Bytes
  inputIdx : Nat
  goFieldIdx : Nat
  input : Input

/-- `baseInput` (parse.go:192-195): the context or a struct, given by its zero value -/
inductive BaseInput (F : Type) where
  | ctx
  | struct (zero : InVal F)

/-- `objMethod` (parse.go:147-162) without the out type -/
structure Method (F : Type) where
  isTypeMethod : Bool
  ins : List (BaseInput F)
  inFields : List ArgField
  outNr : Nat
  errorOutNr : Option Nat

/-- `obj` (parse.go:86-119) as it occurs as a field type -/
inductive Obj (F : Type) where
  | undefined
  | array (inner : Obj F)
  | objRef (typeName : Bytes)
  | data (isID : Bool) (kind : Kind)
  | ptr (inner : Obj F)
  | method (m : Method F) (out : Obj F)
  | enum (idx : Nat)
  | time
  | interfaceRef (typeName : Bytes)

/-- an entry of `objContents` (parse.go:97-98): hash key, name, and the `obj` attributes of a field -/
structure Field (F V : Type) where
  key : UInt32
  qlFieldName : Bytes
  hidden : Bool
  structFieldIdx : Nat
  customObjValue : Option V
  obj : Obj F

/-- an entry of `types` or `interfaces`: a `valueTypeObj` / `valueTypeInterface` `obj`.
`implementations` are references: for an interface the object types implementing it. -/
structure TypeDef (F V : Type) where
  typeName : Bytes
  goTypeName : Bytes
  goPkgPath : Bytes
  fields : List (Field F V)
  implementations : List Bytes

/-- an implementation entry of an interface as the resolver compares it (resolver.go:902-903): Go name, package,
referenced type -/
structure Impl where
  goTypeName : Bytes
  goPkgPath : Bytes
  typeName : Bytes

structure IfaceDef (F V : Type) where
  typeName : Bytes
  fields : List (Field F V)
  implementations : List Impl

/-- `enum` (enums.go:11-17) -/
structure EnumDef (F : Type) where
  typeName : Bytes
  kind : Kind
  entries : List (Bytes × Scalar F)

/-- a registered directive (directives.go:50-61) -/
structure DirectiveDef (F V : Type) where
  name : Bytes
  where_ : List UInt8
  method : Method F
  func : V

/-- `Schema` (parse.go:44-64) -/
structure Schema (F V : Type) where
  types : List (Bytes × TypeDef F V)
  interfaces : List (Bytes × IfaceDef F V)
  inTypes : List (Bytes × InStruct F)
  rootQuery : TypeDef F V
  rootMethod : TypeDef F V
  rootQueryValue : V
  rootMethodValue : V
  maxDepth : UInt8
  enums : List (EnumDef F)
  directives : List (UInt8 × List (DirectiveDef F V))

/-- Go map lookup -/
def lookup {K A : Type} [DecidableEq K] (m : List (K × A)) (k : K) : Option A :=
  (m.find? (fun e => e.1 = k)).map (·.2)

end Yarql
