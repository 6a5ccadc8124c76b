import Verif.Model.Bind
import Verif.Model.Parser

/-!
# Model of the executor (`/repo/resolver.go`)

The resolver interprets the bytecode with a position `charNr` into `res`, an output buffer, the current path, an
error list, and a stack of 256 Go values addressed by a `uint8`.

Not modelled: tracing (timing data only).  `fuel` bounds recursion; running out of it (`oof`) stands for a run that
has not returned yet.
-/

namespace Yarql
namespace Resolver

open Http (J)
open Yarql.Bind

/-- a field as the resolver reads it -/
structure RField (F V : Type) where
  key : UInt32
  structFieldIdx : Nat
  customObjValue : Option V
  obj : Obj F

/-- an object type as the resolver reads it -/
structure RType (F V : Type) where
  typeName : Bytes
  fields : List (RField F V)

/-- the part of `Schema` the resolver reads -/
structure RSchema (F V : Type) where
  types : List (Bytes × RType F V)
  interfaces : List (Bytes × List Impl)
  inTypes : List (Bytes × InStruct F)
  rootQuery : RType F V
  rootMethod : RType F V
  rootQueryValue : V
  rootMethodValue : V
  maxDepth : UInt8
  enums : List (EnumDef F)
  directives : List (UInt8 × List (DirectiveDef F V))

def viewField {F V : Type} (f : Field F V) : RField F V := ⟨f.key, f.structFieldIdx, f.customObjValue, f.obj⟩

def viewType {F V : Type} (d : TypeDef F V) : RType F V := ⟨d.typeName, d.fields.map viewField⟩

/-- what the resolver reads of a schema: everything except names used by introspection only (`qlFieldName`,
`hidden`, Go names) -/
def viewSchema {F V : Type} (s : Schema F V) : RSchema F V :=
  { types := s.types.map (fun e => (e.1, viewType e.2))
    interfaces := s.interfaces.map (fun e => (e.1, e.2.implementations))
    inTypes := s.inTypes
    rootQuery := viewType s.rootQuery
    rootMethod := viewType s.rootMethod
    rootQueryValue := s.rootQueryValue
    rootMethodValue := s.rootMethodValue
    maxDepth := s.maxDepth
    enums := s.enums
    directives := s.directives }

/-- an execution error: message and, unless it occurred outside any field, the JSON text of its path without the
brackets (`ErrorWPath`, resolver.go:319-343) -/
structure RErr where
  msg : Bytes
  path : Option Bytes
deriving DecidableEq

/-- constants of one execution: bytecode, fragment table, schema, environment, variables -/
structure Cfg (F V W : Type) where
  res : Bytes
  frags : List Nat
  schema : RSchema F V
  env : Env F V W
  vars : VarsSrc

/-- the mutable part of `Ctx` (resolver.go:20-50) -/
structure RS (V W : Type) where
  charNr : Nat
  path : Bytes
  out : Bytes
  errs : List RErr
  vals : UInt8 → V
  idx : UInt8
  varsParsed : Bool
  hasArgs : Bool
  argsStart : Nat
  world : W

/-- outcome of a run -/
inductive R (σ α : Type) where
  | ok (a : α) (s : σ)
  | panic
  | oof

/-- resolver functions -/
def M (F V W α : Type) := Cfg F V W → RS V W → R (RS V W) α

section
variable {F V W α β : Type}

def M.pure (a : α) : M F V W α := fun _ s => .ok a s

def M.bind (m : M F V W α) (f : α → M F V W β) : M F V W β := fun c s =>
  match m c s with
  | .ok a s' => f a c s'
  | .panic => .panic
  | .oof => .oof

instance : Monad (M F V W) where
  pure := M.pure
  bind := M.bind

def panicM : M F V W α := fun _ _ => .panic
def oofM : M F V W α := fun _ _ => .oof

/-- `ctx.write` / `writeByte` (resolver.go:132-138) -/
def write (b : Bytes) : M F V W Unit := fun _ s => .ok () { s with out := s.out ++ b }

/-- `writeQuoted` (resolver.go:140-144) -/
def writeQuoted (b : Bytes) : M F V W Unit := write (c%'"' :: b ++ [c%'"'])

/-- `writeNull` (resolver.go:148-150) -/
def writeNull : M F V W Unit := write b%"null"

/-- `readInst` (resolver.go:301-305) -/
def readInst : M F V W Byte := fun c s =>
  match c.res[s.charNr]? with
  | some b => .ok b { s with charNr := s.charNr + 1 }
  | none => .panic

/-- `seekInst` (resolver.go:307-309) -/
def seekInst : M F V W Byte := fun c s =>
  match c.res[s.charNr]? with
  | some b => .ok b s
  | none => .panic

/-- `lastInst` (resolver.go:315-317) -/
def lastInst : M F V W Byte := fun c s =>
  match c.res[s.charNr - 1]? with
  | some b => .ok b s
  | none => .panic

/-- `skipInst` (resolver.go:311-313) -/
def skipInst (n : Nat) : M F V W Unit := fun _ s => .ok () { s with charNr := s.charNr + n }

def getPos : M F V W Nat := fun _ s => .ok s.charNr s
def setPos (n : Nat) : M F V W Unit := fun _ s => .ok () { s with charNr := n }

/-- `ctx.query.Res[i]` -/
def getRes (i : Nat) : M F V W Byte := fun c s =>
  match c.res[i]? with
  | some b => .ok b s
  | none => .panic

/-- `ctx.query.Res[i:j]` -/
def sliceRes (i j : Nat) : M F V W Bytes := fun c s =>
  if i ≤ j ∧ j ≤ c.res.length then .ok ((c.res.take j).drop i) s else .panic

/-- `int(ctx.readUint32(ctx.charNr))` (resolver.go:349-355) -/
def readUint32M : M F V W Nat := fun c s =>
  match readUint32 c.res s.charNr with
  | some v => .ok v.toNat s
  | none => .panic

/-- the loops `for { if ctx.readInst() == 0 { break } }` that read a name or value: the bytes before the next NUL,
the position moves behind it (resolver.go:378-383, 435-440, 483-491, 659-667, 932-939, 974-981, 1414-1421, 1641-1649) -/
def readToNul : M F V W Bytes := fun c s =>
  let rest := c.res.drop s.charNr
  let word := rest.takeWhile (fun b => b != 0)
  if word.length < rest.length then .ok word { s with charNr := s.charNr + word.length + 1 } else .panic

/-- `ctx.err(msg)` (resolver.go:329-343); always returns true -/
def err (msg : Bytes) : M F V W Unit := fun _ s =>
  let e : RErr := match s.path with
    | [] => ⟨msg, none⟩
    | _ :: p => ⟨msg, some p⟩
  .ok () { s with errs := s.errs ++ [e] }

def getCfg : M F V W (Cfg F V W) := fun c s => .ok c s
def getState : M F V W (RS V W) := fun _ s => .ok s s
def setWorld (w : W) : M F V W Unit := fun _ s => .ok () { s with world := w }
def setPath (p : Bytes) : M F V W Unit := fun _ s => .ok () { s with path := p }
def setVarsParsed : M F V W Unit := fun _ s => .ok () { s with varsParsed := true }
def setArgs (has : Bool) (at_ : Nat) : M F V W Unit := fun _ s => .ok () { s with hasArgs := has, argsStart := at_ }

/-- `getGoValue` (resolver.go:64-66) -/
def getGoValue : M F V W V := fun _ s => .ok (s.vals s.idx) s

/-- `setGoValue` (resolver.go:73-75) -/
def setGoValue (v : V) : M F V W Unit := fun _ s =>
  .ok () { s with vals := fun i => if i = s.idx then v else s.vals i }

def incIdx : M F V W Unit := fun _ s => .ok () { s with idx := s.idx + 1 }
def decIdx : M F V W Unit := fun _ s => .ok () { s with idx := s.idx - 1 }

/-- `setNextGoValue` (resolver.go:68-71) -/
def setNextGoValue (v : V) : M F V W Unit := do
  incIdx
  setGoValue v

/-- what reflection sees of a value now -/
def viewOf (v : V) : M F V W (View F V) := fun c s => .ok (c.env.view s.world v) s

/-- run a binding step; `none` = a critical error was reported -/
def liftB (b : B α) : M F V W (Option α) := fun c s =>
  match b with
  | .ok a => .ok (some a) s
  | .err m => (do err m; return none : M F V W (Option α)) c s
  | .panic => .panic

end

section
variable {F V W : Type}

/-! ## Arguments -/

/-- the loop of `findOperatorArgument` (resolver.go:924-947), entered on the first action byte -/
def findArgLoop : Nat → Bytes → M F V W Bool
  | 0, _ => oofM
  | fuel + 1, nameToFind => do
    let startOfArg ← getPos
    if (← readInst) == c%'e' then return false
    let argLen ← readUint32M
    skipInst 4
    let name ← readToNul
    if name = nameToFind then return true
    setPos (startOfArg + argLen + 1)
    findArgLoop fuel nameToFind

/-- `findOperatorArgument` (resolver.go:917-948) -/
def findOperatorArgument (nameToFind : Bytes) : M F V W Bool := do
  let s ← getState
  if !s.hasArgs then return false
  setPos s.argsStart
  skipInst 2
  let c ← getCfg
  findArgLoop (c.res.length + 1) nameToFind

/-- the type loop of `bindOperatorArgumentTo` (resolver.go:956-967): the element input and the byte after the list
markers; `none` = critical error -/
def varTypeLoop (argumentName : Bytes) : Input → M F V W (Option (Input × Byte))
  | .slice e => do
    let c ← readInst
    if c == c%'L' || c == c%'l' then varTypeLoop argumentName e else return some (.slice e, c)
  | inp => do
    let c ← readInst
    if c == c%'L' || c == c%'l' then
      err (b%"variable $" ++ argumentName ++ b%" cannot be bind to " ++ kindString inp)
      return none
    else return some (inp, c)

/-- `bindExternalVariableValue` (resolver.go:1046-1070): `none` = critical error, `some none` = not found -/
def bindExternalVariableValue (cur : InVal F) (inp : Input) (argumentName : Bytes) :
    M F V W (Option (Option (InVal F × Bool))) := do
  let c ← getCfg
  let s ← getState
  let look : M F V W (Option (Option (InVal F × Bool))) :=
    match c.vars.get argumentName with
    | none => return some none
    | some j => do
      match ← liftB (bindJSON c.env c.schema.enums c.schema.inTypes j inp cur) with
      | none => return none
      | some r => return some (some r)
  if s.varsParsed then look
  else
    match c.vars with
    | .empty => return some none
    | .invalid msg =>
      setVarsParsed
      err msg
      return none
    | .json (.obj _) =>
      setVarsParsed
      look
    | .json _ =>
      setVarsParsed
      err b%"variables provided must be of type object"
      return none

/-- `bindOperatorArgumentTo` (resolver.go:950-1044), `bindDefault` is the call of `bindInputToGoValue` at its end.
`none` = critical error; otherwise value and `valueSet`. -/
def bindOperatorArgumentTo (bindDefault : M F V W (Option (InVal F × Bool))) (cur : InVal F) (inp : Input)
    (argumentName : Bytes) : M F V W (Option (InVal F × Bool)) := do
  let rest : M F V W (Option (InVal F × Bool)) := do
    let hasDefaultValue := (← readInst) == c%'t'
    skipInst 1
    match ← bindExternalVariableValue cur inp argumentName with
    | none => return none
    | some (some r) => return some r
    | some none =>
      if !hasDefaultValue then
        err b%"variable has no value nor default"
        return none
      bindDefault
  match ← varTypeLoop argumentName inp with
  | none => return none
  | some (elem, c) =>
    if c == c%'n' || c == c%'N' then
      let typeName ← readToNul
      let cfg ← getCfg
      match ← liftB (checkVarType cfg.schema.enums elem typeName) with
      | none => return none
      | some () => rest
    else rest

/-- `walkInputObject` (resolver.go:1629-1656) after its `skipInst(7)`; `onKey` gets the key and the accumulated
state. `none` = critical error. -/
def walkLoop {σ : Type} (onKey : Bytes → σ → M F V W (Option σ)) : Nat → σ → M F V W (Option σ)
  | 0, _ => oofM
  | fuel + 1, acc => do
    let c ← readInst
    let isEnd ← if c == c%'e' then pure true else if c == 0 then do
      let c' ← readInst
      pure (c' == c%'e') else pure false
    if isEnd then
      skipInst 1
      return some acc
    let key ← readToNul
    match ← onKey key acc with
    | none => return none
    | some acc' => walkLoop onKey fuel acc'

/-- `walkInputObject` (resolver.go:1629-1656) -/
def walkInputObject {σ : Type} (onKey : Bytes → σ → M F V W (Option σ)) (init : σ) : M F V W (Option σ) := do
  skipInst 7
  let c ← getCfg
  walkLoop onKey (c.res.length + 1) init

/-- the loop over list entries (resolver.go:1588-1595) -/
def listLoop (bindElem : M F V W (Option (InVal F × Bool))) : Nat → List (InVal F) → M F V W (Option (List (InVal F)))
  | 0, _ => oofM
  | fuel + 1, acc => do
    if (← seekInst) == c%'e' then return some acc
    match ← bindElem with
    | none => return none
    | some r => listLoop bindElem fuel (acc ++ [r.1])

/-- the pointer part of `bindInputToGoValue` (resolver.go:1402-1412 with `checkInputIsPtr`, 1381-1397): a null literal
leaves the pointer as it is and moves the position by 6 only; otherwise `base` fills a fresh value -/
def bindPtr (base : InVal F → Input → M F V W (Option (InVal F × Bool))) :
    InVal F → Input → M F V W (Option (InVal F × Bool))
  | cur, .ptr e => do
    let cfg ← getCfg
    let pos ← getPos
    if (← getRes (pos + 1)) == c%'n' then
      skipInst 6
      return some (cur, false)
    match ← bindPtr base (zeroOf cfg.env cfg.schema.inTypes e) e with
    | none => return none
    | some (v, true) => return some (.ptr (some v), true)
    | some (_, false) => return some (cur, false)
  | cur, inp => base cur inp

/-- `goValue.Set…` at the end of a scalar case: the value is set, or a critical error was reported -/
def setTo (b : B (InVal F)) : M F V W (Option (InVal F × Bool)) := do
  match ← liftB b with
  | none => return none
  | some v => return some (v, true)

/-- `case bytecode.ValueVariable` (resolver.go:1432-1450); `bindDefault` is `bindInputToGoValue(…, false)` -/
def bindVariable (bindDefault : M F V W (Option (InVal F × Bool))) (variablesAllowed : Bool) (cur : InVal F)
    (inp : Input) : M F V W (Option (InVal F × Bool)) := do
  if !variablesAllowed then
    err b%"variables are not allowed here"
    return none
  let varName ← readToNul
  let restorePositionTo ← getPos
  if !(← findOperatorArgument varName) then
    setPos restorePositionTo
    err (b%"variable " ++ varName ++ b%" not defined")
    return none
  let r ← bindOperatorArgumentTo bindDefault cur inp varName
  setPos restorePositionTo
  return r

/-- `case bytecode.ValueFloat` (resolver.go:1518-1530): the literal is only read for float parameters -/
def bindFloat (cur : InVal F) (inp : Input) : M F V W (Option (InVal F × Bool)) := do
  let cfg ← getCfg
  match inp with
  | .scalar .float32 _ _ | .scalar .float64 _ _ =>
    let digits ← readToNul
    setTo (assignFloat cfg.env inp cur digits)
  | _ => setTo (assignFloat cfg.env inp cur [])

/-- `case bytecode.ValueBoolean` (resolver.go:1538-1543) -/
def bindBoolean (cur : InVal F) (inp : Input) : M F V W (Option (InVal F × Bool)) := do
  let cfg ← getCfg
  match inp with
  | .scalar .bool _ _ =>
    let b ← readInst
    skipInst 1
    setTo (assignBool cfg.env inp cur (b == c%'1'))
  | _ => setTo (assignBool cfg.env inp cur true)

/-- `case bytecode.ValueEnum` (resolver.go:1548-1573) -/
def bindEnum (inp : Input) : M F V W (Option (InVal F × Bool)) := do
  let cfg ← getCfg
  match inp with
  | .scalar _ (some _) _ =>
    let name ← readToNul
    setTo (assignEnumLit cfg.schema.enums inp name)
  | _ => setTo (assignEnumLit cfg.schema.enums inp [])

/-- `case bytecode.ValueList` (resolver.go:1574-1597); `bindElem` is `bindInputToGoValue` for one element -/
def bindList (bindElem : InVal F → Input → M F V W (Option (InVal F × Bool))) (cur : InVal F) (inp : Input) :
    M F V W (Option (InVal F × Bool)) := do
  let cfg ← getCfg
  match inp with
  | .array _ _ =>
    err b%"fixed length arrays not supported"
    return none
  | .slice e =>
    skipInst 1
    match ← listLoop (bindElem (zeroOf cfg.env cfg.schema.inTypes e) e) (cfg.res.length + 1) [] with
    | none => return none
    | some vs => return some (.slice (some vs), true)
  | _ =>
    err (b%"cannot assign list to " ++ goString cfg.env inp cur)
    return none

/-- the callback of `case bytecode.ValueObject` (resolver.go:1611-1620) -/
def bindMember (bindElem : InVal F → Input → M F V W (Option (InVal F × Bool))) (fields : List InField) (key : Bytes)
    (acc : InVal F × Bool) : M F V W (Option (InVal F × Bool)) :=
  match fields.find? (fun f => f.key = key) with
  | none => do
    err (b%"undefined property " ++ key)
    return none
  | some f =>
    match getField acc.1 f.goFieldIdx with
    | none => panicM
    | some c => do
      match ← bindElem c f.input with
      | none => return none
      | some (v, valueSet) => return some (setField acc.1 f.goFieldIdx v, valueSet)

/-- `case bytecode.ValueObject` (resolver.go:1598-1623) -/
def bindObject (bindElem : InVal F → Input → M F V W (Option (InVal F × Bool))) (cur : InVal F) (inp : Input) :
    M F V W (Option (InVal F × Bool)) := do
  let cfg ← getCfg
  let walk (fields : List InField) : M F V W (Option (InVal F × Bool)) := do
    let pos ← getPos
    setPos (pos - 6)
    walkInputObject (bindMember bindElem fields) (cur, true)
  match inp with
  | .struct n =>
    match lookup cfg.schema.inTypes n with
    | none => panicM
    | some d => walk d.fields
  | .time => walk []
  | _ =>
    err (b%"cannot assign object to " ++ goString cfg.env inp cur)
    return none

/-- the rest of `bindInputToGoValue` (resolver.go:1414-1625) for an input that is not a pointer; `bindRec` is
`bindInputToGoValue` -/
def bindBase (bindRec : Bool → InVal F → Input → M F V W (Option (InVal F × Bool))) (variablesAllowed : Bool)
    (cur : InVal F) (inp : Input) : M F V W (Option (InVal F × Bool)) := do
  let cfg ← getCfg
  skipInst 1
  let valueKind ← readInst
  skipInst 4
  if valueKind == c%'$' then bindVariable (bindRec false cur inp) variablesAllowed cur inp
  else if valueKind == c%'i' then
    let digits ← readToNul
    setTo (assignInt cfg.env inp cur digits)
  else if valueKind == c%'f' then bindFloat cur inp
  else if valueKind == c%'s' then
    let str ← readToNul
    setTo (assignString cfg.env cfg.schema.enums inp cur str)
  else if valueKind == c%'b' then bindBoolean cur inp
  else if valueKind == c%'n' then
    skipInst 1
    return some (cur, false)
  else if valueKind == c%'e' then bindEnum inp
  else if valueKind == c%'l' then bindList (bindRec variablesAllowed) cur inp
  else if valueKind == c%'o' then bindObject (bindRec variablesAllowed) cur inp
  else return some (cur, true)

/-- `bindInputToGoValue` (resolver.go:1399-1625): `cur` is the value of the Go variable before; `none` = critical
error; otherwise the value after and `valueSet`. `Input` decides `goValue.Kind()`. -/
def bindInput : Nat → Bool → InVal F → Input → M F V W (Option (InVal F × Bool))
  | 0, _, _, _ => oofM
  | fuel + 1, variablesAllowed, cur, inp => bindPtr (bindBase (bindInput fuel) variablesAllowed) cur inp

/-- set field `goFieldIdx` of function input number `inputIdx` -/
def argField (inputs : List (Arg F)) (a : ArgField) : Option (InVal F) :=
  match inputs[a.inputIdx]? with
  | some (.val v) => getField v a.goFieldIdx
  | _ => none

def setArgField (inputs : List (Arg F)) (a : ArgField) (x : InVal F) : List (Arg F) :=
  match inputs[a.inputIdx]? with
  | some (.val v) => inputs.set a.inputIdx (.val (setField v a.goFieldIdx x))
  | _ => inputs

/-- the inputs of a function before binding (resolver.go:624-631) -/
def freshInputs (m : Method F) : List (Arg F) :=
  m.ins.map (fun i => match i with
    | .ctx => .ctx
    | .struct z => .val z)

/-- `ctx.GetPath()` (resolver.go:125-130) -/
def jsonPath (path : Bytes) : Bytes :=
  match path with
  | [] => b%"[]"
  | _ :: p => c%'[' :: p ++ [c%']']

/-- the callback that binds one argument (resolver.go:635-644) -/
def bindArgument (m : Method F) (fuel : Nat) (key : Bytes) (inputs : List (Arg F)) :
    M F V W (Option (List (Arg F))) := do
  match m.inFields.find? (fun a => a.key = key) with
  | none =>
    err (b%"undefined input: " ++ key)
    return none
  | some a =>
    match argField inputs a with
    | none => panicM
    | some cur =>
      match ← bindInput fuel true cur a.input with
      | none => return none
      | some (v, _) => return some (setArgField inputs a v)

/-- `goValue.Call(ctx.funcInputs)` (resolver.go:651-652) -/
def callFn (fn : V) (inputs : List (Arg F)) : M F V W (List V) := do
  let cfg ← getCfg
  let s ← getState
  match cfg.env.call s.world fn (jsonPath s.path) inputs with
  | none => panicM
  | some (w, outs) =>
    setWorld w
    return outs

/-- `callQlMethod` (resolver.go:623-653): `none` = critical error -/
def callQlMethod (m : Method F) (fn : V) (parseArguments : Bool) : M F V W (Option (List V)) := do
  let cfg ← getCfg
  if parseArguments then
    match ← walkInputObject (bindArgument m (2 * (cfg.res.length + 1))) (freshInputs m) with
    | none => return none
    | some inputs => return some (← callFn fn inputs)
  else return some (← callFn fn (freshInputs m))

/-- `resolveDirective` (resolver.go:655-694): `none` = critical error, otherwise `modifier.Skip` -/
def resolveDirective (location : UInt8) : M F V W (Option Bool) := do
  skipInst 1
  let hasArguments := (← readInst) == c%'t'
  let directiveName ← readToNul
  let cfg ← getCfg
  match lookup cfg.schema.directives location with
  | none =>
    err (b%"unknown directive " ++ directiveName)
    return none
  | some ds =>
    match ds.find? (fun d => d.name = directiveName) with
    | none =>
      err (b%"unknown directive " ++ directiveName)
      return none
    | some d =>
      match ← callQlMethod d.method d.func hasArguments with
      | none => return none
      | some outs =>
        match outs[0]? with
        | none => panicM
        | some o => do
          let s ← getState
          return some (cfg.env.skip s.world o)

/-- the loop over directives (resolver.go:444-457, 542-559): `none` = critical error, `some true` = skip -/
def resolveDirectives (location : UInt8) : Nat → M F V W (Option Bool)
  | 0 => return some false
  | n + 1 => do
    match ← resolveDirective location with
    | none => return none
    | some true => return some true
    | some false => resolveDirectives location n

/-! ## Values -/

/-- `valueToJSON` (resolver.go:1658-1686) for the scalar kinds; a value of another kind than the schema says does not
occur (panic in the model) -/
def scalarText (env : Env F V W) : Kind → Scalar F → Option Bytes
  | .string, .string s => some (JsonString.stringToJSON s [])
  | .bool, .bool b => some (if b then b%"true" else b%"false")
  | .int _, .int i => some (intDigits i)
  | .uint _, .uint n => some (natDigits n)
  | .float32, .float f => some (env.floatText true f)
  | .float64, .float f => some (env.floatText false f)
  | _, _ => none

/-- `case valueTypeData` (resolver.go:776-790) -/
def dataText (env : Env F V W) (isID : Bool) (kind : Kind) (s : Scalar F) : Option Bytes :=
  if isID && kind != .string then (scalarText env kind s).map (fun t => c%'"' :: t ++ [c%'"'])
  else scalarText env kind s

/-- comparison of an enum's Go value with an entry (resolver.go:833-861); `none` = wrong kind of value -/
def enumKey [DecidableEq F] (e : EnumDef F) (v : Scalar F) : Option (Option Bytes) :=
  match e.kind, v with
  | .int _, .int _ | .uint _, .uint _ | .string, .string _ =>
    some ((e.entries.find? (fun x => x.2 = v)).map (·.1))
  | .int _, _ | .uint _, _ | .string, _ => none
  | _, _ => some none

/-- is there a method behind the pointers? (resolver.go:699-704) -/
def methodBehindPtr : Obj F → Bool
  | .ptr i => methodBehindPtr i
  | .method _ _ => true
  | _ => false

/-- the loop over the elements of a list (resolver.go:727-745); `body` resolves one element, its critical error is
dropped -/
def elemsLoop (body : M F V W Bool) (startCharNr : Nat) : Nat → List V → M F V W Unit
  | _, [] => return ()
  | i, v :: vs => do
    setPos startCharNr
    let s ← getState
    let prefPath := s.path
    setPath (prefPath ++ c%',' :: intDigits i)
    setGoValue v
    let _ ← body
    if !vs.isEmpty then write [c%',']
    setPath prefPath
    elemsLoop body startCharNr (i + 1) vs

/-- `goValue.Field(i)` -/
def fieldOf (v : V) (i : Nat) : M F V W V := do
  match ← viewOf v with
  | .struct fs =>
    match fs[i]? with
    | some x => return x
    | none => panicM
  | _ => panicM

/-- the value a field is resolved against (resolver.go:583-590) -/
def fieldValue (goValue : V) (f : RField F V) : M F V W V := do
  let cfg ← getCfg
  match f.customObjValue with
  | some v => return v
  | none =>
    match f.obj with
    | .method m _ => if m.isTypeMethod then return cfg.env.method goValue f.structFieldIdx else fieldOf goValue f.structFieldIdx
    | _ => fieldOf goValue f.structFieldIdx

/-- `bytes.Equal(ctx.query.Res[fragmentNameStart:fragmentNameEnd], name)` over the fragment table
(resolver.go:472-478): position behind the matching prefix -/
def findFragment (res : Bytes) (name : Bytes) : List Nat → Option Nat
  | [] => none
  | location :: rest =>
    let start := location + 1
    let stop := start + name.length
    if stop ≥ res.length then findFragment res name rest
    else if (res.take stop).drop start = name then some stop
    else findFragment res name rest

/-- a method field that is a nil func (resolver.go:797-800) -/
def isNilFunc (m : Method F) (goValue : V) : M F V W Bool :=
  if m.isTypeMethod then return false
  else do
    match ← viewOf goValue with
    | .func b => return b
    | _ => panicM

/-- the error a method returned is reported (resolver.go:808-819) -/
def reportMethodErr (m : Method F) (outs : List V) : M F V W Unit := do
  let cfg ← getCfg
  match m.errorOutNr with
  | none => return ()
  | some nr =>
    match outs[nr]? with
    | none => panicM
    | some e =>
      let s ← getState
      match cfg.env.errOf s.world e with
      | none => return ()
      | some msg => err msg

/-- the check of the request's context, then `next` on the result value (resolver.go:821-833) -/
def afterCall (m : Method F) (outs : List V) (next : V → M F V W Bool) : M F V W Bool := do
  let cfg ← getCfg
  let s ← getState
  match cfg.env.ctxErr s.world with
  | some msg =>
    err msg
    writeNull
    return false
  | none =>
    match outs[m.outNr]? with
    | none => panicM
    | some v => next v

/-- `case valueTypeMethod` behind the nil check (resolver.go:802-833) -/
def callAndResolve (m : Method F) (goValue : V) (next : V → Bool → M F V W Bool) : M F V W Bool := do
  let inst ← seekInst
  match ← callQlMethod m goValue (inst == c%'v') with
  | none => return true
  | some outs =>
    let inst ← seekInst
    reportMethodErr m outs
    afterCall m outs (fun v => next v (inst != c%'e'))

variable [DecidableEq F]

mutual
/-- `resolveSelectionSet` (resolver.go:399-423): result is (criticalErr, firstField) -/
def resolveSelectionSet : Nat → RType F V → UInt8 → Bool → M F V W (Bool × Bool)
  | 0, _, _, _ => oofM
  | fuel + 1, typeObj, dept, firstField => do
    let inst ← readInst
    if inst == c%'e' then return (false, firstField)
    else if inst == c%'f' then
      let (skipped, criticalErr) ← resolveField fuel typeObj dept (!firstField)
      if criticalErr then return (true, firstField)
      resolveSelectionSet fuel typeObj dept (firstField && skipped)
    else if inst == c%'s' then
      let (criticalErr, firstField) ← resolveSpread fuel typeObj dept firstField
      if criticalErr then return (true, firstField)
      resolveSelectionSet fuel typeObj dept firstField
    else
      err (b%"unsupported operation " ++ Parser.strOfByte (← lastInst))
      return (true, firstField)

/-- `resolveSpread` (resolver.go:425-504) -/
def resolveSpread : Nat → RType F V → UInt8 → Bool → M F V W (Bool × Bool)
  | 0, _, _, _ => oofM
  | fuel + 1, typeObj, dept, firstField => do
    let isInline := (← readInst) == c%'t'
    let directivesCount ← readInst
    let lenOfDirective ← readUint32M
    skipInst 4
    let nameStart ← getPos
    let name ← readToNul
    let location : UInt8 := if isInline then 2 else 1
    match ← resolveDirectives location directivesCount.toNat with
    | none =>
      setPos (nameStart + lenOfDirective + 1)
      return (true, firstField)
    | some true =>
      setPos (nameStart + lenOfDirective + 1)
      return (false, firstField)
    | some false =>
      if isInline then
        if typeObj.typeName ≠ name then
          setPos (nameStart + lenOfDirective + 1)
          return (false, firstField)
        let r ← resolveSelectionSet fuel typeObj dept firstField
        skipInst 1
        return r
      else
        let cfg ← getCfg
        match findFragment cfg.res name cfg.frags with
        | none =>
          err (b%"fragment " ++ name ++ b%" not defined")
          return (true, firstField)
        | some fragmentNameEnd =>
          let originalCharNr ← getPos
          setPos (fragmentNameEnd + 1)
          let typeName ← readToNul
          if typeObj.typeName ≠ typeName then
            setPos (nameStart + lenOfDirective + 1)
            return (false, firstField)
          let r ← resolveSelectionSet fuel typeObj dept firstField
          setPos originalCharNr
          return r

/-- `resolveField` (resolver.go:506-621): result is (skipped, criticalErr) -/
def resolveField : Nat → RType F V → UInt8 → Bool → M F V W (Bool × Bool)
  | 0, _, _, _ => oofM
  | fuel + 1, typeObj, dept, addCommaBefore => do
    let directivesCount ← readInst
    let fieldLen ← readUint32M
    skipInst 4
    let nameKey ← readUint32M
    skipInst 4
    let endOfField := (← getPos) + fieldLen
    let aliasLen := (← readInst).toNat
    let startOfAlias ← getPos
    let endOfAlias := startOfAlias + aliasLen
    let alias ← sliceRes startOfAlias endOfAlias
    skipInst aliasLen
    let prefPath := (← getState).path
    setPath (prefPath ++ b%",\"" ++ alias ++ [c%'"'])
    let lenOfName ← readInst
    let nameAt ← getPos
    let startOfName := if lenOfName = 0 then startOfAlias else nameAt
    let endOfName := if lenOfName = 0 then endOfAlias else nameAt + lenOfName.toNat
    skipInst lenOfName.toNat
    skipInst 1
    match ← resolveDirectives 0 directivesCount.toNat with
    | none =>
      setPath prefPath
      setPos (endOfField + 1)
      return (true, true)
    | some true =>
      setPath prefPath
      setPos (endOfField + 1)
      return (true, false)
    | some false =>
      if addCommaBefore then write [c%',']
      writeQuoted alias
      write [c%':']
      let fieldHasSelection := (← seekInst) != c%'e'
      let criticalErr ← do
        match typeObj.fields.find? (fun f => f.key.toNat = nameKey) with
        | none =>
          let name ← sliceRes startOfName endOfName
          if name = b%"__typename" then
            if fieldHasSelection then
              err b%"cannot have a selection set on this field"
              pure true
            else
              writeQuoted typeObj.typeName
              pure false
          else
            writeNull
            err (name ++ b%" does not exists on " ++ typeObj.typeName)
            pure true
        | some f =>
          let goValue ← getGoValue
          let v ← fieldValue goValue f
          setNextGoValue v
          let crit ← resolveFieldDataValue fuel f.obj dept fieldHasSelection
          decIdx
          pure crit
      setPath prefPath
      setPos (endOfField + 1)
      return (false, criticalErr)

/-- `resolveFieldDataValue` (resolver.go:696-915): result is criticalErr -/
def resolveFieldDataValue : Nat → Obj F → UInt8 → Bool → M F V W Bool
  | 0, _, _, _ => oofM
  | fuel + 1, typeObj, dept, hasSubSelection => do
    let cfg ← getCfg
    let goValue ← getGoValue
    if (← seekInst) == c%'v' && !methodBehindPtr typeObj then
      writeNull
      err b%"field arguments not allowed"
      return true
    match typeObj with
    | .undefined =>
      writeNull
      return false
    | .array inner =>
      match ← viewOf goValue with
      | .seq none =>
        writeNull
        return false
      | .seq (some vs) =>
        write [c%'[']
        incIdx
        let startCharNr ← getPos
        elemsLoop (resolveFieldDataValue fuel inner dept hasSubSelection) startCharNr 0 vs
        decIdx
        write [c%']']
        return false
      | _ => panicM
    | .objRef typeName =>
      if !hasSubSelection then
        writeNull
        err b%"must have a selection"
        return true
      match lookup cfg.schema.types typeName with
      | none =>
        writeNull
        return false
      | some t =>
        if dept + 1 = cfg.schema.maxDepth then
          writeNull
          err b%"reached max dept"
          return true
        write [c%'{']
        let (criticalErr, _) ← resolveSelectionSet fuel t (dept + 1) true
        write [c%'}']
        return criticalErr
    | .data isID kind =>
      if hasSubSelection then
        writeNull
        err b%"cannot have a selection set on this field"
        return true
      match ← viewOf goValue with
      | .scalar x =>
        match dataText cfg.env isID kind x with
        | some t =>
          write t
          return false
        | none => panicM
      | _ => panicM
    | .ptr inner =>
      match ← viewOf goValue with
      | .ptr none =>
        writeNull
        return false
      | .ptr (some v) =>
        setGoValue v
        resolveFieldDataValue fuel inner dept hasSubSelection
      | _ => panicM
    | .method m out =>
      if ← isNilFunc m goValue then
        writeNull
        return false
      callAndResolve m goValue (fun v hasSubSelection => do
        setGoValue v
        resolveFieldDataValue fuel out dept hasSubSelection)
    | .enum idx =>
      match cfg.schema.enums[idx]? with
      | none => panicM
      | some e =>
        match ← viewOf goValue with
        | .scalar x =>
          match enumKey e x with
          | none => panicM
          | some (some key) =>
            writeQuoted key
            return false
          | some none =>
            writeNull
            return false
        | _ => panicM
    | .time =>
      match ← viewOf goValue with
      | .time t =>
        write (c%'"' :: Time.timeToIso8601String [] t ++ [c%'"'])
        return false
      | _ =>
        writeNull
        return false
    | .interfaceRef typeName =>
      if !hasSubSelection then
        writeNull
        err b%"must have a selection"
        return true
      match lookup cfg.schema.interfaces typeName with
      | none =>
        writeNull
        return false
      | some impls =>
        match ← viewOf goValue with
        | .iface none =>
          writeNull
          return false
        | .iface (some (goName, goPkg, v)) =>
          setNextGoValue v
          match impls.find? (fun i => i.goTypeName = goName ∧ i.goPkgPath = goPkg) with
          | some i =>
            let crit ← resolveFieldDataValue fuel (.objRef i.typeName) (dept + 1) hasSubSelection
            decIdx
            return crit
          | none =>
            decIdx
            writeNull
            return false
        | _ => panicM
end

/-- `resolveOperation` (resolver.go:357-397); `rootValue` is written to stack slot 0 -/
def resolveOperation (fuel : Nat) : M F V W Bool := do
  let cfg ← getCfg
  skipInst 2
  let kind ← readInst
  let setRoot (v : V) : M F V W Unit := fun _ s => .ok () { s with vals := fun i => if i = 0 then v else s.vals i }
  if kind == c%'s' then
    err b%"subscriptions are not supported"
    return true
  if kind == c%'q' then setRoot cfg.schema.rootQueryValue
  if kind == c%'m' then setRoot cfg.schema.rootMethodValue
  let hasArgs := (← readInst) == c%'t'
  setArgs hasArgs 0
  let directivesCount ← readInst
  if directivesCount > 0 then
    err b%"operation directives unsupported"
    return true
  let _ ← readToNul
  if hasArgs then
    let argumentsLen ← readUint32M
    setArgs true ((← getPos) + 5)
    skipInst (argumentsLen + 5)
  let root := if kind == c%'m' then cfg.schema.rootMethod else cfg.schema.rootQuery
  let (criticalErr, _) ← resolveSelectionSet fuel root 0 true
  return criticalErr

end

/-! ## The response -/

/-- an error of a request: a parse error with its location, or an execution error (`ctx.query.Errors`) -/
inductive ReqErr where
  | located (msg : Bytes) (line column : Nat)
  | exec (e : RErr)

def ReqErr.msg : ReqErr → Bytes
  | .located m _ _ => m
  | .exec e => e.msg

/-- one entry of the errors array (resolver.go:252-270) -/
def errorJSON : ReqErr → Bytes
  | .located msg line column =>
    b%"{\"message\":" ++ JsonString.stringToJSON msg [] ++ b%",\"locations\":[{\"line\":" ++ natDigits line ++
      b%",\"column\":" ++ natDigits column ++ b%"}]}"
  | .exec ⟨msg, some (p :: ps)⟩ =>
    b%"{\"message\":" ++ JsonString.stringToJSON msg [] ++ b%",\"path\":[" ++ (p :: ps) ++ b%"]}"
  | .exec ⟨msg, _⟩ => b%"{\"message\":" ++ JsonString.stringToJSON msg [] ++ b%"}"

/-- the loop over the errors (resolver.go:247-271) -/
def errorsJSON : List ReqErr → Bytes
  | [] => []
  | [e] => errorJSON e
  | e :: es => errorJSON e ++ c%',' :: errorsJSON es

/-- everything `Resolve` writes around the data (resolver.go:219-221, 241-291), tracing disabled -/
def envelope (noMeta : Bool) (data : Bytes) (errs : List ReqErr) : Bytes :=
  if noMeta then data
  else if errs.isEmpty then b%"{\"data\":" ++ data ++ b%"}"
  else b%"{\"data\":" ++ data ++ b%",\"errors\":[" ++ errorsJSON errs ++ b%"]" ++ b%",\"extensions\":{}}"

/-- parameters of one request -/
structure Request where
  query : Bytes
  /-- `OperatorTarget`; the empty string means none -/
  target : Bytes
  noMeta : Bool
  vars : VarsSrc

/-- `Resolve` (resolver.go:165-298) on a parsed schema, without the cache (see C10 for the cache) and without
tracing. `vals` is the value stack left by earlier requests (resolver.go:192). Result: what `(*Schema).Result` holds,
the returned errors, and the world after. -/
def resolve {F V W : Type} [DecidableEq F] (fuel : Nat) (schema : RSchema F V) (env : Env F V W) (vals : UInt8 → V)
    (w : W) (req : Request) : R W (Bytes × List ReqErr) :=
  match Parser.parseQuery req.query (if req.target = [] then none else some req.target) with
  | .panic => .panic
  | .oof => .oof
  | .ok () p =>
    if p.errs.isEmpty then
      match p.targetIdx with
      | none =>
        let msg := if req.target = [] then b%"no operator found"
          else b%"no operator with name " ++ req.target ++ b%" found"
        let errs := [ReqErr.exec ⟨msg, none⟩]
        .ok (envelope req.noMeta b%"{}" errs, errs) w
      | some at_ =>
        let cfg : Cfg F V W := ⟨p.res, p.frags, schema, env, req.vars⟩
        let s : RS V W := ⟨at_, [], [c%'{'], [], vals, 0, false, false, 0, w⟩
        match resolveOperation fuel cfg s with
        | .ok _ s' =>
          let errs := s'.errs.map ReqErr.exec
          .ok (envelope req.noMeta (s'.out ++ [c%'}']) errs, errs) s'.world
        | .panic => .panic
        | .oof => .oof
    else
      let errs := p.errs.map (fun e => ReqErr.located e.msg e.line e.col)
      .ok (envelope req.noMeta b%"{}" errs, errs) w

end Resolver
end Yarql
