import Verif.Model.Parser
import Verif.Model.Naming
import Verif.Model.Schema
import Verif.Model.Decimal

/-!
# Model of `Parse`: from Go types to a schema (`/repo/parse.go`, `/repo/interfaces.go`, `/repo/enums.go`)

A Go program is given by its types as `reflect` shows them (`Program`); types are named by numbers.  `check` walks them and
fills the tables `types` and `interfaces`; a second pass (`checkFunctionIns`) handles the inputs of the functions found.

Recursion takes fuel; out of fuel (`oof`) stands for a walk that has not returned.  Go maps are association lists
with one entry per key, in some order.

Simplifications: error messages are replaced by their cause; on an error the tables are dropped (Go leaves them half filled,
and `Parse` returns the error).  `reflect.TypeOf(nil)` as root is not modelled.  While a struct is being walked, Go's table
already holds it, partly filled, under its name; the model holds an entry without fields there until the struct
is done: `check` reads nothing but the Go name and package of an entry.
-/

namespace Yarql
namespace TypeWalk
open Naming

/-! ## Go types -/

abbrev Ty := Nat

/-- a function type; for a method of a struct type `ins` begins with the receiver (`reflect.Method.Type`) -/
structure Sig where
  variadic : Bool
  ins : List Ty
  outs : List Ty
deriving DecidableEq

/-- `reflect.StructField`: `tag` is `Tag.Lookup("gq")` -/
structure GoField where
  name : Bytes
  embedded : Bool
  tag : Option Bytes
  ty : Ty
deriving DecidableEq

/-- `reflect.Kind` with what belongs to it; `other`: maps, channels, complex numbers, ... -/
inductive Shape where
  | scalar (kind : Kind)
  | struct (fields : List GoField)
  | array (len : Nat) (elem : Ty)
  | slice (elem : Ty)
  | ptr (elem : Ty)
  | iface
  | func (sig : Sig)
  | other

/-- `reflect.Type`: `name = []` for unnamed types; `methods` as `Type.Method(i)` lists them -/
structure GoType where
  name : Bytes
  pkg : Bytes
  shape : Shape
  methods : List (Bytes × Sig)

/-- The Go program and what was registered before `Parse`. -/
structure Program (F : Type) where
  get : Ty → GoType
  /-- `t.Implements(u)` -/
  implements : Ty → Ty → Bool
  /-- an interface type that implements `error` (parse.go:786) -/
  isError : Ty → Bool
  /-- the zero value of a type -/
  zero : Ty → InVal F
  /-- `renamedTypes` (type_rename.go:9) -/
  renamed : Bytes → Option Bytes
  /-- `implementationMap` (interfaces.go:8) -/
  implMap : Bytes → Option (List Ty)
  /-- `structImplementsMap` (interfaces.go:11) -/
  structImpl : Bytes → List Ty
  /-- `definedEnums` (parse.go:56) -/
  enums : List (EnumDef F)

variable {F V : Type}

/-- the GraphQL name of a named type (parse.go:378-382, 452-456, 689-692) -/
def qlName (prog : Program F) (name : Bytes) : Bytes := (prog.renamed name).getD name

/-- `validEnumType` (enums.go:40-55) -/
def validEnumKind : Kind → Bool
  | .int _ => true
  | .uint _ => true
  | .string => true
  | _ => false

/-- `getEnum` (enums.go:26-38): by the name of the type only -/
def enumIndex (prog : Program F) (t : Ty) : Option Nat :=
  match (prog.get t).shape with
  | .scalar k =>
    if (prog.get t).pkg = [] ∨ (prog.get t).name = [] ∨ validEnumKind k = false then none
    else prog.enums.findIdx? (fun e => e.typeName = (prog.get t).name)
  | _ => none

/-- `checkValidIDKind` (parse.go:938-947) -/
def validIDKind : Kind → Bool
  | .string => true
  | .int _ => true
  | .uint _ => true
  | _ => false

def isTime (g : GoType) : Bool := decide (g.pkg = b%"time") && decide (g.name = b%"Time")
/-- the package path of yarql itself -/
def yarqlPkg : Bytes := b%"github.com/mjarkk/yarql"
def isAttrID (g : GoType) : Bool := decide (g.name = b%"AttrIsID") && decide (g.pkg = yarqlPkg)
def isStruct (g : GoType) : Bool := match g.shape with | .struct _ => true | _ => false
/-- `isCtx` (parse.go:599-601) -/
def isCtx (g : GoType) : Bool := isStruct g && decide (g.name = b%"Ctx") && decide (g.pkg = yarqlPkg)
def isFileHeader (g : GoType) : Bool := decide (g.name = b%"FileHeader") && decide (g.pkg = b%"mime/multipart")

/-! ## State and results -/

/-- an `obj` while walking.  A method refers to its entry in `parsedMethods`; the references carry the Go names of what
they refer to (`getRef`, parse.go:127-145). -/
inductive WObj where
  | time
  | enum (idx : Nat)
  | data (isID : Bool) (kind : Kind)
  | objRef (name goName goPkg : Bytes)
  | interfaceRef (name goName goPkg : Bytes)
  | array (inner : WObj)
  | ptr (inner : WObj)
  | method (idx : Nat) (isTypeMethod : Bool) (outNr : Nat) (errorOutNr : Option Nat) (out : WObj)
deriving DecidableEq

/-- an entry of `objContents` -/
structure WField where
  key : UInt32
  name : Bytes
  structFieldIdx : Nat
  obj : WObj
deriving DecidableEq

/-- an entry of `types`.  `src`, the Go type the entry was made from, is not in Go and never read by the walk. -/
structure Entry where
  src : Ty
  pkg : Bytes
  goName : Bytes
  fields : List WField
  impls : List Bytes

/-- an entry of `interfaces` -/
structure IEntry where
  src : Ty
  pkg : Bytes
  goName : Bytes
  fields : List WField
  impls : List Impl

/-- an entry of `parsedMethods` (parse.go:205, 816) -/
structure MethodRec where
  name : Bytes
  sig : Sig
  isTypeMethod : Bool
deriving DecidableEq

/-- `parseCtx` and the tables of the schema -/
structure St where
  types : List (Bytes × Entry)
  interfaces : List (Bytes × IEntry)
  unknownTypes : Nat
  methods : List MethodRec

/-- why `Parse` returns an error -/
inductive WErr where
  | structID | twoStructs | interfaceID | inlineInterface | twoInterfaces | noImplementations | implNotStruct
  | implInline | implDoesNot | unsupported | idKind | tag | variadic | noValue | twoErrors | twoValues | noData
  | inputUnsupported | ctxByValue | inputNotStruct | queriesNotStruct | methodsNotStruct | sameRoots
deriving DecidableEq

/-- result of a step: `oof` has not returned -/
inductive WR (S α : Type) where
  | ok (a : α) (s : S)
  | err (e : WErr)
  | panic
  | oof

def M (S α : Type) := S → WR S α

def M.bind {S α β : Type} (m : M S α) (f : α → M S β) : M S β := fun s =>
  match m s with
  | .ok a s' => f a s'
  | .err e => .err e
  | .panic => .panic
  | .oof => .oof

instance {S : Type} : Monad (M S) where
  pure a := fun s => .ok a s
  bind := M.bind

def fail {S α : Type} (e : WErr) : M S α := fun _ => .err e
def panicW {S α : Type} : M S α := fun _ => .panic
def oofW {S α : Type} : M S α := fun _ => .oof
def getS {S : Type} : M S S := fun s => .ok s s
def setS {S : Type} (s : S) : M S Unit := fun _ => .ok () s

/-- `m[k] = a` -/
def mapSet {K A : Type} [DecidableEq K] (m : List (K × A)) (k : K) (a : A) : List (K × A) :=
  (k, a) :: m.filter (fun e => ¬ e.1 = k)

/-- `objContents[getObjKey(name)] = obj` (parse.go:430, 534) -/
def fieldSet (fs : List WField) (f : WField) : List WField := f :: fs.filter (fun g => ¬ g.key = f.key)

/-! ## Functions -/

/-- What the loop over the outputs of `checkFunction` finds (parse.go:776-806). -/
structure Outs where
  outNr : Option Nat
  errorOutNr : Option Nat
  isID : Bool

/-- parse.go:776-806 -/
def scanOuts (prog : Program F) : Nat → List Ty → Outs → Except WErr Outs
  | _, [], o => .ok o
  | i, t :: ts, o =>
    if isAttrID (prog.get t) then scanOuts prog (i + 1) ts { o with isID := true }
    else if prog.isError t then
      if o.errorOutNr.isSome then .error .twoErrors
      else scanOuts prog (i + 1) ts { o with errorOutNr := some i }
    else
      if o.outNr.isSome then .error .twoValues
      else scanOuts prog (i + 1) ts { o with outNr := some i }

/-- `checkFunction` after the name test (parse.go:757-831): the method object.  `chk` is `check`. -/
def checkOuts (prog : Program F) (chk : Ty → Bool → M St WObj) (name : Bytes) (sig : Sig) (isTypeMethod hasID : Bool) :
    M St WObj := do
  if sig.variadic then fail .variadic
  else if sig.outs = [] then fail .noValue
  else
  match scanOuts prog 0 sig.outs ⟨none, none, hasID⟩ with
  | .error e => fail e
  | .ok o =>
  match o.outNr with
  | none => fail .noData
  | some nr =>
  match sig.outs[nr]? with
  | none => panicW
  | some t => do
    let out ← chk t o.isID
    let s ← getS
    setS { s with methods := s.methods ++ [⟨name, sig, isTypeMethod⟩] }
    return .method s.methods.length isTypeMethod nr o.errorOutNr out

/-- the methods of a struct or interface (parse.go:520-541); `i` is the index of the first one -/
def walkMethods (prog : Program F) (chk : Ty → Bool → M St WObj) : Nat → List (Bytes × Sig) → List WField →
    M St (List WField)
  | _, [], acc => return acc
  | i, (name, sig) :: ms, acc => do
    match methodName name with
    | .panic => panicW
    | .ignored => walkMethods prog chk (i + 1) ms acc
    | .exposed ql => do
      let o ← checkOuts prog chk name sig true false
      walkMethods prog chk (i + 1) ms (fieldSet acc ⟨Parser.fnv1 ql, ql, i, o⟩)

/-- `checkStructField` for a field that is not skipped (parse.go:573-596) -/
def checkField (prog : Program F) (chk : Ty → Bool → M St WObj) (f : GoField) (isID : Bool) : M St WObj :=
  match (prog.get f.ty).shape with
  | .func sig => checkOuts prog chk f.name sig false isID
  | _ => chk f.ty isID

/-- the fields of a struct (parse.go:415-432) -/
def walkFields (prog : Program F) (chk : Ty → Bool → M St WObj) : Nat → List GoField → List WField → M St (List WField)
  | _, [], acc => return acc
  | i, f :: fs, acc => do
    if f.embedded then walkFields prog chk (i + 1) fs acc
    else
    match fieldName f.name f.tag with
    | .err => fail .tag
    | .ignored => walkFields prog chk (i + 1) fs acc
    | .named ql isID => do
      let o ← checkField prog chk f isID
      walkFields prog chk (i + 1) fs (fieldSet acc ⟨Parser.fnv1 ql, ql, i, o⟩)

/-! ## Structs and interfaces -/

/-- the interfaces a struct implements (parse.go:393-400) -/
def walkStructImpls (chk : Ty → Bool → M St WObj) : List Ty → List Bytes → M St (List Bytes)
  | [], acc => return acc
  | t :: ts, acc => do
    match ← chk t false with
    | .interfaceRef n _ _ => walkStructImpls chk ts (acc ++ [n])
    | _ => walkStructImpls chk ts acc

/-- a struct that is not registered yet (parse.go:407-432, 520-549) -/
def newStruct (prog : Program F) (chk : Ty → Bool → M St WObj) (t : Ty) (name : Bytes) (fields : List GoField)
    (impls : List Bytes) : M St WObj := do
  let g := prog.get t
  let s ← getS
  setS { s with types := mapSet s.types name ⟨t, g.pkg, g.name, [], impls⟩ }
  let fs ← walkFields prog chk 0 fields []
  let fs ← walkMethods prog chk 0 g.methods fs
  let s ← getS
  setS { s with types := mapSet s.types name ⟨t, g.pkg, g.name, fs, impls⟩ }
  return .objRef name g.name g.pkg

/-- `case reflect.Struct` of `check` (parse.go:372-432) -/
def checkStruct (prog : Program F) (chk : Ty → Bool → M St WObj) (t : Ty) (fields : List GoField) (hasID : Bool) :
    M St WObj := do
  let g := prog.get t
  if hasID then fail .structID
  else if g.name = [] then do
    let s ← getS
    setS { s with unknownTypes := s.unknownTypes + 1 }
    newStruct prog chk t (b%"__UnknownType" ++ natDigits (s.unknownTypes + 1)) fields []
  else do
    let name := qlName prog g.name
    let s ← getS
    match lookup s.types name with
    | some v => if v.pkg ≠ g.pkg then fail .twoStructs else return .objRef name v.goName v.pkg
    | none => do
      let impls ← walkStructImpls chk (prog.structImpl g.name) []
      newStruct prog chk t name fields impls

/-- the implementations of an interface (parse.go:483-503) -/
def walkIfaceImpls (prog : Program F) (chk : Ty → Bool → M St WObj) (t : Ty) : List Ty → List Impl → M St (List Impl)
  | [], acc => return acc
  | u :: us, acc => do
    if isStruct (prog.get u) = false then fail .implNotStruct
    else if (prog.get u).name = [] then fail .implInline
    else if prog.implements u t = false then fail .implDoesNot
    else do
      match ← chk u false with
      | .objRef n gn gp => walkIfaceImpls prog chk t us (acc ++ [⟨gn, gp, n⟩])
      | _ => walkIfaceImpls prog chk t us acc

/-- `case reflect.Interface` of `check` (parse.go:444-503, 520-547) -/
def checkIface (prog : Program F) (chk : Ty → Bool → M St WObj) (t : Ty) (hasID : Bool) : M St WObj := do
  let g := prog.get t
  if hasID then fail .interfaceID
  else if g.name = [] then fail .inlineInterface
  else do
    let name := qlName prog g.name
    let s ← getS
    match lookup s.interfaces name with
    | some v => if v.pkg ≠ g.pkg then fail .twoInterfaces else return .interfaceRef name v.goName v.pkg
    | none => do
      setS { s with interfaces := mapSet s.interfaces name ⟨t, g.pkg, g.name, [], []⟩ }
      match prog.implMap g.name with
      | none => fail .noImplementations
      | some us => do
        let impls ← walkIfaceImpls prog chk t us []
        let fs ← walkMethods prog chk 0 g.methods []
        let s ← getS
        setS { s with interfaces := mapSet s.interfaces name ⟨t, g.pkg, g.name, fs, impls⟩ }
        return .interfaceRef name g.name g.pkg

/-- `default` of the switch in `check` (parse.go:506-520) -/
def checkScalar (prog : Program F) (t : Ty) (k : Kind) (hasID : Bool) : M St WObj :=
  match enumIndex prog t with
  | some i => return .enum i
  | none => if hasID && !validIDKind k then fail .idKind else return .data hasID k

/-- one level of `check` (parse.go:358-556); `chk` is `check` for the types below -/
def checkBody (prog : Program F) (chk : Ty → Bool → M St WObj) (t : Ty) (hasID : Bool) : M St WObj :=
  if isTime (prog.get t) then return .time
  else match (prog.get t).shape with
    | .struct fields => checkStruct prog chk t fields hasID
    | .array _ e => do return .array (← chk e false)
    | .slice e => do return .array (← chk e false)
    | .ptr e => do return .ptr (← chk e hasID)
    | .iface => checkIface prog chk t hasID
    | .func _ => fail .unsupported
    | .other => fail .unsupported
    | .scalar k => checkScalar prog t k hasID

/-- `check` (parse.go:358-556) -/
def check (prog : Program F) : Nat → Ty → Bool → M St WObj
  | 0, _, _ => oofW
  | fuel + 1, t, hasID => checkBody prog (check prog fuel) t hasID

/-! ## Inputs of functions -/

/-- an entry of `inTypes`; `src` as in `Entry` -/
structure InEntry where
  src : Ty
  fields : List InField

structure InSt where
  inTypes : List (Bytes × InEntry)
  unknownInputs : Nat

/-- `structContent[input.gqFieldName] = input` (parse.go:713) -/
def inFieldSet (fs : List InField) (f : InField) : List InField := f :: fs.filter (fun g => ¬ g.key = f.key)

/-- the loop over the fields of an input struct (parse.go:704-714) with `checkFunctionInputStruct` (parse.go:603-636) -/
def walkInFields (chk : Ty → Bool → M InSt Input) : Nat → List GoField → List InField → M InSt (List InField)
  | _, [], acc => return acc
  | i, f :: fs, acc => do
    if f.embedded then walkInFields chk (i + 1) fs acc
    else
    match fieldName f.name f.tag with
    | .err => fail .tag
    | .ignored => walkInFields chk (i + 1) fs acc
    | .named ql isID => do
      let inp ← chk f.ty isID
      walkInFields chk (i + 1) fs (inFieldSet acc ⟨ql, i, inp⟩)

/-- the name of an input struct (parse.go:683-698); `isType` tells which names the output types have -/
def inputName (prog : Program F) (isType : Bytes → Bool) (name : Bytes) : Bytes :=
  if isType (qlName prog name) then qlName prog name ++ b%"__input" else qlName prog name

/-- `case reflect.Struct` of `checkFunctionInput` (parse.go:674-722) -/
def checkInStruct (prog : Program F) (isType : Bytes → Bool) (chk : Ty → Bool → M InSt Input) (t : Ty)
    (fields : List GoField) : M InSt Input := do
  if isTime (prog.get t) then return .time
  else do
    let s ← getS
    if (prog.get t).name = [] then setS { s with unknownInputs := s.unknownInputs + 1 }
    let name := if (prog.get t).name = [] then b%"__UnknownInput" ++ natDigits (s.unknownInputs + 1)
      else inputName prog isType (prog.get t).name
    let s ← getS
    match lookup s.inTypes name with
    | some _ => return .struct name
    | none => do
      setS { s with inTypes := mapSet s.inTypes name ⟨t, []⟩ }
      let fs ← walkInFields chk 0 fields []
      let s ← getS
      setS { s with inTypes := mapSet s.inTypes name ⟨t, fs⟩ }
      return .struct name

/-- one level of `checkFunctionInput` (parse.go:638-730) -/
def checkInputBody (prog : Program F) (isType : Bytes → Bool) (chk : Ty → Bool → M InSt Input) (t : Ty) (hasID : Bool) :
    M InSt Input :=
  match (prog.get t).shape with
  | .scalar k =>
    match enumIndex prog t with
    | some i => return .scalar k (some i) false
    | none => if hasID && !validIDKind k then fail .idKind else return .scalar k none hasID
  | .ptr e => if isFileHeader (prog.get e) then return .file else do return .ptr (← chk e hasID)
  | .array n e => do return .array n (← chk e false)
  | .slice e => do return .slice (← chk e false)
  | .struct fields => checkInStruct prog isType chk t fields
  | .iface => fail .inputUnsupported
  | .func _ => fail .inputUnsupported
  | .other => fail .inputUnsupported

/-- `checkFunctionInput` (parse.go:638-730) -/
def checkInput (prog : Program F) (isType : Bytes → Bool) : Nat → Ty → Bool → M InSt Input
  | 0, _, _ => oofW
  | fuel + 1, t, hasID => checkInputBody prog isType (checkInput prog isType fuel) t hasID

/-- `method.inFields[...] = referToInput{...}` for the fields of one input struct (parse.go:846-858) -/
def argFieldsOf (chk : Ty → Bool → M InSt Input) (inputIdx : Nat) : Nat → List GoField → List ArgField →
    M InSt (List ArgField)
  | _, [], acc => return acc
  | i, f :: fs, acc => do
    if f.embedded then argFieldsOf chk inputIdx (i + 1) fs acc
    else
    match fieldName f.name f.tag with
    | .err => fail .tag
    | .ignored => argFieldsOf chk inputIdx (i + 1) fs acc
    | .named ql isID => do
      let inp ← chk f.ty isID
      argFieldsOf chk inputIdx (i + 1) fs (⟨ql, inputIdx, i, inp⟩ :: acc.filter (fun g => ¬ g.key = ql))

/-- a pointer to `Ctx` (parse.go:838-840) -/
def isCtxPtr (prog : Program F) (t : Ty) : Bool :=
  match (prog.get t).shape with | .ptr e => isCtx (prog.get e) | _ => false

/-- the parameters of a function, the receiver of a method left out (parse.go:834-866) -/
def insOf (prog : Program F) (chk : Ty → Bool → M InSt Input) : Nat → List Ty → List (BaseInput F) → List ArgField →
    M InSt (List (BaseInput F) × List ArgField)
  | _, [], ins, acc => return (ins, acc)
  | i, t :: ts, ins, acc => do
    if isCtxPtr prog t then insOf prog chk (i + 1) ts (ins ++ [.ctx]) acc
    else if isCtx (prog.get t) then fail .ctxByValue
    else match (prog.get t).shape with
      | .struct fields => do
        let acc ← argFieldsOf chk i 0 fields acc
        insOf prog chk (i + 1) ts (ins ++ [.struct (prog.zero t)]) acc
      | _ => fail .inputNotStruct

/-- `checkFunctionIns` (parse.go:822-866) -/
def checkFunctionIns (prog : Program F) (chk : Ty → Bool → M InSt Input) (sig : Sig) (isTypeMethod : Bool) :
    M InSt (List (BaseInput F) × List ArgField) :=
  insOf prog chk 0 (if isTypeMethod then sig.ins.drop 1 else sig.ins) [] []

/-- the loop over `parsedMethods` (parse.go:330-335) -/
def allIns (prog : Program F) (chk : Ty → Bool → M InSt Input) : List MethodRec →
    List (List (BaseInput F) × List ArgField) → M InSt (List (List (BaseInput F) × List ArgField))
  | [], acc => return acc
  | m :: ms, acc => do
    let r ← checkFunctionIns prog chk m.sig m.isTypeMethod
    allIns prog chk ms (acc ++ [r])

/-! ## Parse -/

/-- a registered directive: its function and where it is allowed -/
structure DirDecl (V : Type) where
  name : Bytes
  where_ : List UInt8
  sig : Sig
  outNr : Nat
  func : V

/-- what `injectQLTypes` adds to the root query: the types and values of `__schema` and `__type` (inject_schema.go:11-39) -/
structure Inject (V : Type) where
  schemaTy : Ty
  schemaValue : V
  typeSig : Sig
  typeValue : V

/-- the arguments of `Parse` and what was registered before.  `directives`: the distinct directives, in the order in which
Go's map iteration meets them. -/
structure Decl (V : Type) where
  queries : Ty
  methods : Ty
  queryValue : V
  methodValue : V
  inject : Option (Inject V)
  noEqualCheck : Bool
  maxDepth : UInt8
  directives : List (DirDecl V)

/-- the loop over the directives (parse.go:337-348) -/
def dirIns (prog : Program F) (chk : Ty → Bool → M InSt Input) : List (DirDecl V) →
    List (DirectiveDef F V) → M InSt (List (DirectiveDef F V))
  | [], acc => return acc
  | d :: ds, acc => do
    let r ← checkFunctionIns prog chk d.sig false
    dirIns prog chk ds (acc ++ [⟨d.name, d.where_, ⟨false, r.1, r.2, d.outNr, none⟩, d.func⟩])

/-- the `obj`s with the inputs of their methods filled in -/
def finObj (ms : List (List (BaseInput F) × List ArgField)) : WObj → Obj F
  | .time => .time
  | .enum i => .enum i
  | .data isID k => .data isID k
  | .objRef n _ _ => .objRef n
  | .interfaceRef n _ _ => .interfaceRef n
  | .array o => .array (finObj ms o)
  | .ptr o => .ptr (finObj ms o)
  | .method idx isT outNr errNr out =>
    match ms[idx]? with
    | some r => .method ⟨isT, r.1, r.2, outNr, errNr⟩ (finObj ms out)
    | none => .undefined

def finField (ms : List (List (BaseInput F) × List ArgField)) (f : WField) : Field F V :=
  ⟨f.key, f.name, false, f.structFieldIdx, none, finObj ms f.obj⟩

def finType (ms : List (List (BaseInput F) × List ArgField)) (name : Bytes) (e : Entry) : TypeDef F V :=
  ⟨name, e.goName, e.pkg, e.fields.map (finField ms), e.impls⟩

def finIface (ms : List (List (BaseInput F) × List ArgField)) (name : Bytes) (e : IEntry) : IfaceDef F V :=
  ⟨name, e.fields.map (finField ms), e.impls⟩

/-- `rootQuery.objContents[getObjKey(name)] = ...` for an injected field (inject_schema.go:23, 38) -/
def addHidden (d : TypeDef F V) (name : Bytes) (value : V) (o : Obj F) : TypeDef F V :=
  { d with fields := ⟨Parser.fnv1 name, name, true, 0, some value, o⟩ ::
      d.fields.filter (fun f => ¬ f.key = Parser.fnv1 name) }

/-- the two root types and the injected types (parse.go:296-328, inject_schema.go:11-39): names of the root types and the
`obj`s of `__schema` and `__type`.  An error in `injectQLTypes` ends the process (`log.Fatal`); the model returns it. -/
def walkRoots (prog : Program F) (fuel : Nat) (d : Decl V) : M St (Bytes × Bytes × Option (WObj × WObj)) := do
  match ← check prog fuel d.queries false with
  | .objRef q _ _ => do
    match ← check prog fuel d.methods false with
    | .objRef m _ _ => do
      let s ← getS
      match lookup s.types q, lookup s.types m with
      | some eq, some em =>
        if d.noEqualCheck = false ∧ eq.pkg ++ eq.goName = em.pkg ++ em.goName then fail .sameRoots
        else match d.inject with
          | none => return (q, m, none)
          | some inj => do
            let o ← check prog fuel inj.schemaTy false
            let f ← checkOuts prog (check prog fuel) b%"__type" inj.typeSig false false
            return (q, m, some (o, f))
      | _, _ => panicW
    | _ => fail .methodsNotStruct
  | _ => fail .queriesNotStruct

/-- the directives by location (directives.go:90-107) -/
def dirTables (ds : List (DirectiveDef F V)) : List (UInt8 × List (DirectiveDef F V)) :=
  (ds.flatMap (·.where_)).eraseDups.map (fun loc => (loc, ds.filter (fun d => d.where_.contains loc)))

/-- a type of the schema; the root query gets the injected fields (inject_schema.go:11-39) -/
def finalType (d : Decl V) (q : Bytes) (inj : Option (WObj × WObj)) (ms : List (List (BaseInput F) × List ArgField)) (n : Bytes)
    (e : Entry) : TypeDef F V :=
  if n = q then
    match inj, d.inject with
    | some (o, f), some i =>
      addHidden (addHidden (finType ms n e) b%"__schema" i.schemaValue (finObj ms o)) b%"__type" i.typeValue (finObj ms f)
    | _, _ => finType ms n e
  else finType ms n e

/-- the schema of the walked tables -/
def assemble (prog : Program F) (d : Decl V) (q m : Bytes) (inj : Option (WObj × WObj)) (s : St)
    (ms : List (List (BaseInput F) × List ArgField)) (ins : InSt) (dirs : List (DirectiveDef F V)) :
    Option (Schema F V) :=
  match lookup s.types q, lookup s.types m with
  | some eq, some em =>
    some
      { types := s.types.map (fun e => (e.1, finalType d q inj ms e.1 e.2))
        interfaces := s.interfaces.map (fun e => (e.1, finIface ms e.1 e.2))
        inTypes := ins.inTypes.map (fun e => (e.1, ⟨e.2.fields, prog.zero e.2.src⟩))
        rootQuery := finalType d q inj ms q eq
        rootMethod := finalType d q inj ms m em
        rootQueryValue := d.queryValue
        rootMethodValue := d.methodValue
        maxDepth := d.maxDepth
        enums := prog.enums
        directives := dirTables dirs }
  | _, _ => none

/-- outcome of `Parse` -/
inductive Parsed (F V : Type) where
  | ok (s : Schema F V)
  | err (e : WErr)
  | panic
  | oof

/-- `(*Schema).Parse` (parse.go:288-356) -/
def parse (prog : Program F) (fuel : Nat) (d : Decl V) : Parsed F V :=
  match walkRoots prog fuel d ⟨[], [], 0, []⟩ with
  | .err e => .err e
  | .panic => .panic
  | .oof => .oof
  | .ok (q, m, inj) s =>
    let isType (n : Bytes) : Bool := (lookup s.types n).isSome
    match allIns prog (checkInput prog isType fuel) s.methods [] ⟨[], 0⟩ with
    | .err e => .err e
    | .panic => .panic
    | .oof => .oof
    | .ok ms i =>
      match dirIns prog (checkInput prog isType fuel) d.directives [] i with
      | .err e => .err e
      | .panic => .panic
      | .oof => .oof
      | .ok dirs i =>
        match assemble prog d q m inj s ms i dirs with
        | some schema => .ok schema
        | none => .panic

end TypeWalk
end Yarql
