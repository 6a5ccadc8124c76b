import Verif.Model.Resolver
import Verif.Spec.Document
import Verif.Spec.Response

/-!
# What a query means: an evaluator on documents

The evaluator works on the syntax tree of a query (`Spec/Document.lean`), on parent *values* and response *paths* passed as
arguments, and returns a response tree; it knows neither bytecode positions nor an output buffer nor a value stack.  It is the
specification the interpreter of `Model/Resolver.lean` is proved to refine (`Proofs/Refine.lean`).

It reads the same tables (`RSchema`), calls the same environment (`Env`: user functions and data) and uses the same conversions
of scalars (`Model/Bind.lean`: `assignInt`, `bindJSON`, …), which have theorems of their own (C23, C24, C27).

`none` means: not described here.  This is the case when the fuel is too small, when a value stack of 256 entries would
overflow (`room`), when user code panics, or when data does not have the shape its Go type says.
-/

namespace Yarql
namespace Eval

open Http (J)
open Yarql.Bind Doc
open Resolver (RField RType RSchema argField setArgField freshInputs jsonPath dataText enumKey)

/-- what evaluation changes: reported errors with the path of their field, the user's world, and whether the variables
text has been looked at -/
structure ES (W : Type) where
  errs : List (Bytes × List Seg)
  world : W
  varsParsed : Bool

/-- evaluation steps -/
def E (W α : Type) := ES W → Option (α × ES W)

section
variable {F V W α β : Type}

def E.pure (a : α) : E W α := fun s => some (a, s)

def E.bind (m : E W α) (f : α → E W β) : E W β := fun s =>
  match m s with
  | some (a, s') => f a s'
  | none => none

instance : Monad (E W) where
  pure := E.pure
  bind := E.bind

def undefinedE : E W α := fun _ => none

/-- report an error of the field at `path` -/
def report (path : List Seg) (msg : Bytes) : E W Unit := fun s => some ((), { s with errs := s.errs ++ [(msg, path)] })

def getWorld : E W W := fun s => some (s.world, s)
def setWorld (w : W) : E W Unit := fun s => some ((), { s with world := w })
def getVarsParsed : E W Bool := fun s => some (s.varsParsed, s)
def setVarsParsed : E W Unit := fun s => some ((), { s with varsParsed := true })

/-- report a critical error -/
def fail (path : List Seg) (msg : Bytes) : E W (Option α) := do
  report path msg
  return none

/-- run a conversion; `none` = a critical error was reported -/
def convert (path : List Seg) : B α → E W (Option α)
  | .ok a => return some a
  | .err m => fail path m
  | .panic => undefinedE

/-- what one request works on: tables, environment, variables, the document's fragments and the declared variables of
the chosen operation -/
structure Req (F V W : Type) where
  schema : RSchema F V
  env : Env F V W
  vars : VarsSrc
  frags : List Fragment
  decls : List VarDef

/-! ## Argument values -/

/-- a bound value and whether it counts as set -/
abbrev Bound (F : Type) := Option (InVal F × Bool)

/-- conversion of a scalar literal -/
def setE (path : List Seg) (b : B (InVal F)) : E W (Bound F) := do
  match ← convert path b with
  | none => return none
  | some v => return some (v, true)

/-- pointers: null leaves the pointer alone, anything else is bound to a fresh value and pointed to (if set) -/
def ptrBind (r : Req F V W) (isNull : Bool) (base : InVal F → Input → E W (Bound F)) : InVal F → Input → E W (Bound F)
  | cur, .ptr e =>
    if isNull then return some (cur, false)
    else do
      match ← ptrBind r isNull base (zeroOf r.env r.schema.inTypes e) e with
      | none => return none
      | some (v, true) => return some (.ptr (some v), true)
      | some (_, false) => return some (cur, false)
  | cur, inp => base cur inp

def isNullLit : Value → Bool
  | .null => true
  | _ => false

mutual
/-- bind a literal to a Go variable (not a pointer) of input type `inp` that holds `cur`; `onVar` handles variables -/
def bindLitBase (r : Req F V W) (path : List Seg) (onVar : Bytes → InVal F → Input → E W (Bound F)) :
    Value → InVal F → Input → E W (Bound F)
  | .var n, cur, inp => onVar n cur inp
  | .int d, cur, inp => setE path (assignInt r.env inp cur d)
  | .float d, cur, inp => setE path (assignFloat r.env inp cur d)
  | .str s, cur, inp => setE path (assignString r.env r.schema.enums inp cur s)
  | .bool b, cur, inp => setE path (assignBool r.env inp cur b)
  | .null, cur, _ => return some (cur, false)
  | .enum n, _, inp => setE path (assignEnumLit r.schema.enums inp n)
  | .list vs, cur, inp =>
    match inp with
    | .array _ _ => fail path b%"fixed length arrays not supported"
    | .slice e => do
      match ← bindItems r path onVar vs e with
      | none => return none
      | some xs => return some (.slice (some xs), true)
    | _ => fail path (b%"cannot assign list to " ++ goString r.env inp cur)
  | .obj fs, cur, inp =>
    match inp with
    | .struct n =>
      match lookup r.schema.inTypes n with
      | none => undefinedE
      | some d => bindMembers r path onVar fs d.fields (cur, true)
    | .time => bindMembers r path onVar fs [] (cur, true)
    | _ => fail path (b%"cannot assign object to " ++ goString r.env inp cur)
/-- the items of a list, each into a fresh element -/
def bindItems (r : Req F V W) (path : List Seg) (onVar : Bytes → InVal F → Input → E W (Bound F)) :
    List Value → Input → E W (Option (List (InVal F)))
  | [], _ => return some []
  | v :: vs, e => do
    match ← ptrBind r (isNullLit v) (fun c i => bindLitBase r path onVar v c i) (zeroOf r.env r.schema.inTypes e) e with
    | none => return none
    | some x =>
      match ← bindItems r path onVar vs e with
      | none => return none
      | some xs => return some (x.1 :: xs)
/-- the members of an object, each into its field; the result counts as set if the last member does -/
def bindMembers (r : Req F V W) (path : List Seg) (onVar : Bytes → InVal F → Input → E W (Bound F)) :
    List (Bytes × Value) → List InField → InVal F × Bool → E W (Bound F)
  | [], _, acc => return some acc
  | (k, v) :: ms, fields, acc =>
    match fields.find? (fun f => f.key = k) with
    | none => fail path (b%"undefined property " ++ k)
    | some f =>
      match getField acc.1 f.goFieldIdx with
      | none => undefinedE
      | some c => do
        match ← ptrBind r (isNullLit v) (fun c i => bindLitBase r path onVar v c i) c f.input with
        | none => return none
        | some (x, set) => bindMembers r path onVar ms fields (setField acc.1 f.goFieldIdx x, set)
end

/-- bind a literal to a Go variable -/
def bindLit (r : Req F V W) (path : List Seg) (onVar : Bytes → InVal F → Input → E W (Bound F)) (v : Value)
    (cur : InVal F) (inp : Input) : E W (Bound F) :=
  ptrBind r (isNullLit v) (fun c i => bindLitBase r path onVar v c i) cur inp

/-- variables are not allowed in default values -/
def noVars (path : List Seg) (_ : Bytes) (_ : InVal F) (_ : Input) : E W (Bound F) :=
  fail path b%"variables are not allowed here"

/-- the declared type of a variable against the parameter: list types peel slices, the name inside must fit -/
def checkDeclared (r : Req F V W) (path : List Seg) (name : Bytes) : Ty → Input → E W (Option Unit)
  | .named n _, inp => convert path (checkVarType r.schema.enums inp n)
  | .list t _, .slice e => checkDeclared r path name t e
  | .list _ _, inp => fail path (b%"variable $" ++ name ++ b%" cannot be bind to " ++ kindString inp)

/-- the value supplied for a variable: `some none` = there is none. The first look at an unusable variables text is an
error. -/
def suppliedValue (r : Req F V W) (path : List Seg) (name : Bytes) : E W (Option (Option J)) := do
  if ← getVarsParsed then return some (r.vars.get name)
  else
    match r.vars with
    | .empty => return some none
    | .invalid msg =>
      setVarsParsed
      fail path msg
    | .json (.obj ms) =>
      setVarsParsed
      return some (Http.get ms name)
    | .json _ =>
      setVarsParsed
      fail path b%"variables provided must be of type object"

/-- a variable reference: declared, of a fitting type, then the supplied value, then the default -/
def bindVar (r : Req F V W) (path : List Seg) (name : Bytes) (cur : InVal F) (inp : Input) : E W (Bound F) :=
  match r.decls.find? (fun d => d.name = name) with
  | none => fail path (b%"variable " ++ name ++ b%" not defined")
  | some d => do
    match ← checkDeclared r path name d.ty inp with
    | none => return none
    | some () =>
      match ← suppliedValue r path name with
      | none => return none
      | some (some j) => convert path (bindJSON r.env r.schema.enums r.schema.inTypes j inp cur)
      | some none =>
        match d.default with
        | none => fail path b%"variable has no value nor default"
        | some v => bindLit r path (noVars path) v cur inp

/-- the arguments of a call, in order, each into the field of the function input that declares it -/
def bindArgs (r : Req F V W) (path : List Seg) (m : Method F) :
    List (Bytes × Value) → List (Arg F) → E W (Option (List (Arg F)))
  | [], inputs => return some inputs
  | (k, v) :: rest, inputs =>
    match m.inFields.find? (fun a => a.key = k) with
    | none => fail path (b%"undefined input: " ++ k)
    | some a =>
      match argField inputs a with
      | none => undefinedE
      | some cur => do
        match ← bindLit r path (bindVar r path) v cur a.input with
        | none => return none
        | some (x, _) => bindArgs r path m rest (setArgField inputs a x)

/-- call a Go function with fresh inputs filled from `args` -/
def callWith (r : Req F V W) (path : List Seg) (m : Method F) (fn : V) (args : List (Bytes × Value)) :
    E W (Option (List V)) := do
  match ← bindArgs r path m args (freshInputs m) with
  | none => return none
  | some inputs =>
    match r.env.call (← getWorld) fn (jsonPath (pathText path)) inputs with
    | none => undefinedE
    | some (w, outs) =>
      setWorld w
      return some outs

/-! ## Directives -/

/-- one directive at a location (0 = field, 1 = fragment spread, 2 = inline fragment): skip? -/
def evalDirective (r : Req F V W) (path : List Seg) (location : UInt8) (d : Directive) : E W (Option Bool) :=
  match (lookup r.schema.directives location).bind (fun ds => ds.find? (fun x => x.name = d.name)) with
  | none => fail path (b%"unknown directive " ++ d.name)
  | some x => do
    match ← callWith r path x.method x.func (d.args.getD []) with
    | none => return none
    | some outs =>
      match outs[0]? with
      | none => undefinedE
      | some o => return some (r.env.skip (← getWorld) o)

/-- directives in order until one skips or fails -/
def evalDirectives (r : Req F V W) (path : List Seg) (location : UInt8) : List Directive → E W (Option Bool)
  | [] => return some false
  | d :: ds => do
    match ← evalDirective r path location d with
    | none => return none
    | some true => return some true
    | some false => evalDirectives r path location ds

/-! ## Values -/

/-- field `i` of a struct value -/
def structField (r : Req F V W) (v : V) (i : Nat) : E W V := do
  match r.env.view (← getWorld) v with
  | .struct fs =>
    match fs[i]? with
    | some x => return x
    | none => undefinedE
  | _ => undefinedE

/-- the value of a field of `parent`: a fixed value, a method of the parent or a struct field -/
def valueOfField (r : Req F V W) (parent : V) (f : RField F V) : E W V :=
  match f.customObjValue with
  | some v => return v
  | none =>
    match f.obj with
    | .method m _ =>
      if m.isTypeMethod then return r.env.method parent f.structFieldIdx else structField r parent f.structFieldIdx
    | _ => structField r parent f.structFieldIdx

/-- can this take arguments? -/
def takesArgs : Obj F → Bool
  | .ptr o => takesArgs o
  | .method _ _ => true
  | _ => false

/-- the elements of a list, each at its index; critical errors end an element only -/
def evalElems (elem : Nat → V → E W (Out × Bool)) : Nat → List V → E W (List Out)
  | _, [] => return []
  | i, v :: vs => do
    let (o, _) ← elem i v
    let os ← evalElems elem (i + 1) vs
    return o :: os

/-- After a call: a cancelled context gives null and an error, otherwise `next` continues with the result value. -/
def evalResult (r : Req F V W) (path : List Seg) (m : Method F) (outs : List V) (next : V → E W (Out × Bool)) :
    E W (Out × Bool) := do
  match r.env.ctxErr (← getWorld) with
  | some msg =>
    report path msg
    return (.null, false)
  | none =>
    match outs[m.outNr]? with
    | none => undefinedE
    | some x => next x

/-- Call a resolver function and continue with its result. If its arguments cannot be bound it is not called (and the
implementation writes no value); an error it returns is reported. -/
def evalCall (r : Req F V W) (path : List Seg) (m : Method F) (fn : V) (args : List (Bytes × Value))
    (next : V → E W (Out × Bool)) : E W (Out × Bool) := do
  match ← callWith r path m fn args with
  | none => return (.missing, true)
  | some outs =>
    match m.errorOutNr with
    | none => evalResult r path m outs next
    | some nr =>
      match outs[nr]? with
      | none => undefinedE
      | some e =>
        match r.env.errOf (← getWorld) e with
        | none => evalResult r path m outs next
        | some msg =>
          report path msg
          evalResult r path m outs next

variable [DecidableEq F]

mutual
/-- Selections of an object of type `t` with value `v`: the members they contribute, in order, and whether a critical
error stopped them. -/
def evalSels (r : Req F V W) : Nat → RType F V → V → UInt8 → List Seg → Nat → List Sel → E W (List (Bytes × Out) × Bool)
  | 0, _, _, _, _, _, _ => undefinedE
  | _ + 1, _, _, _, _, _, [] => return ([], false)
  | fuel + 1, t, v, dept, path, room, .field key name dirs args sels :: rest => do
    let (m, crit) ← evalField r fuel t v dept path room key (name.getD key) dirs args sels
    if crit then return (m.toList, true)
    let (ms, crit) ← evalSels r fuel t v dept path room rest
    return (m.toList ++ ms, crit)
  | fuel + 1, t, v, dept, path, room, .spread name dirs :: rest => do
    let (ms, crit) ← evalSpread r fuel t v dept path room name dirs
    if crit then return (ms, true)
    let (ms', crit) ← evalSels r fuel t v dept path room rest
    return (ms ++ ms', crit)
  | fuel + 1, t, v, dept, path, room, .inline ty dirs sels :: rest => do
    let (ms, crit) ← evalInline r fuel t v dept path room ty dirs sels
    if crit then return (ms, true)
    let (ms', crit) ← evalSels r fuel t v dept path room rest
    return (ms ++ ms', crit)

/-- `...name`: the selections of the fragment of that name, if it is on this object type -/
def evalSpread (r : Req F V W) : Nat → RType F V → V → UInt8 → List Seg → Nat → Bytes → List Directive →
    E W (List (Bytes × Out) × Bool)
  | 0, _, _, _, _, _, _, _ => undefinedE
  | fuel + 1, t, v, dept, path, room, name, dirs => do
    match ← evalDirectives r path 1 dirs with
    | none => return ([], true)
    | some true => return ([], false)
    | some false =>
      match r.frags.find? (fun f => f.name = name) with
      | none =>
        report path (b%"fragment " ++ name ++ b%" not defined")
        return ([], true)
      | some f => if t.typeName = f.typeName then evalSels r fuel t v dept path room f.sels else return ([], false)

/-- `... on ty { sels }` -/
def evalInline (r : Req F V W) : Nat → RType F V → V → UInt8 → List Seg → Nat → Bytes → List Directive → List Sel →
    E W (List (Bytes × Out) × Bool)
  | 0, _, _, _, _, _, _, _, _ => undefinedE
  | fuel + 1, t, v, dept, path, room, ty, dirs, sels => do
    match ← evalDirectives r path 2 dirs with
    | none => return ([], true)
    | some true => return ([], false)
    | some false => if t.typeName = ty then evalSels r fuel t v dept path room sels else return ([], false)

/-- A field: nothing if a directive skips it, otherwise its response key and value. -/
def evalField (r : Req F V W) : Nat → RType F V → V → UInt8 → List Seg → Nat → Bytes → Bytes → List Directive →
    Option (List (Bytes × Value)) → List Sel → E W (Option (Bytes × Out) × Bool)
  | 0, _, _, _, _, _, _, _, _, _, _ => undefinedE
  | fuel + 1, t, v, dept, path, room, key, name, dirs, args, sels => do
    let path := path ++ [Seg.key key]
    match ← evalDirectives r path 0 dirs with
    | none => return (none, true)
    | some true => return (none, false)
    | some false =>
      match t.fields.find? (fun f => f.key = fnv1 name) with
      | none =>
        if name = b%"__typename" then
          if args.isSome || !sels.isEmpty then
            report path b%"cannot have a selection set on this field"
            return (some (key, .missing), true)
          else return (some (key, .leaf ([c%'"'] ++ t.typeName ++ [c%'"'])), false)
        else
          report path (name ++ b%" does not exists on " ++ t.typeName)
          return (some (key, .null), true)
      | some f =>
        match room with
        | 0 => undefinedE
        | room + 1 =>
          let x ← valueOfField r v f
          let (o, crit) ← evalData r fuel f.obj x dept path room args sels
          return (some (key, o), crit)

/-- The value of a field: `v` seen as type `o`, with the field's arguments and selections. -/
def evalData (r : Req F V W) : Nat → Obj F → V → UInt8 → List Seg → Nat → Option (List (Bytes × Value)) → List Sel →
    E W (Out × Bool)
  | 0, _, _, _, _, _, _, _ => undefinedE
  | fuel + 1, o, v, dept, path, room, args, sels => do
    let hasSelection := args.isSome || !sels.isEmpty
    if args.isSome && !takesArgs o then
      report path b%"field arguments not allowed"
      return (.null, true)
    else
    match o with
    | .undefined => return (.null, false)
    | .array inner =>
      match r.env.view (← getWorld) v with
      | .seq none => return (.null, false)
      | .seq (some vs) =>
        match room with
        | 0 => undefinedE
        | room + 1 =>
          let os ← evalElems (fun i x => evalData r fuel inner x dept (path ++ [Seg.idx i]) room args sels) 0 vs
          return (.list os, false)
      | _ => undefinedE
    | .objRef typeName =>
      if !hasSelection then
        report path b%"must have a selection"
        return (.null, true)
      else
      match lookup r.schema.types typeName with
      | none => return (.null, false)
      | some t =>
        if dept + 1 = r.schema.maxDepth then
          report path b%"reached max dept"
          return (.null, true)
        else
          let (ms, crit) ← evalSels r fuel t v (dept + 1) path room sels
          return (.obj ms, crit)
    | .data isID kind =>
      if hasSelection then
        report path b%"cannot have a selection set on this field"
        return (.null, true)
      else
      match r.env.view (← getWorld) v with
      | .scalar x =>
        match dataText r.env isID kind x with
        | some t => return (.leaf t, false)
        | none => undefinedE
      | _ => undefinedE
    | .ptr inner =>
      match r.env.view (← getWorld) v with
      | .ptr none => return (.null, false)
      | .ptr (some x) => evalData r fuel inner x dept path room args sels
      | _ => undefinedE
    | .method m out =>
      if !m.isTypeMethod then
        match r.env.view (← getWorld) v with
        | .func true => return (.null, false)
        | .func false => evalCall r path m v (args.getD []) (fun x => evalData r fuel out x dept path room none sels)
        | _ => undefinedE
      else evalCall r path m v (args.getD []) (fun x => evalData r fuel out x dept path room none sels)
    | .enum idx =>
      match r.schema.enums[idx]? with
      | none => undefinedE
      | some e =>
        match r.env.view (← getWorld) v with
        | .scalar x =>
          match enumKey e x with
          | none => undefinedE
          | some (some key) => return (.leaf ([c%'"'] ++ key ++ [c%'"']), false)
          | some none => return (.null, false)
        | _ => undefinedE
    | .time =>
      match r.env.view (← getWorld) v with
      | .time t => return (.leaf ([c%'"'] ++ Time.timeToIso8601String [] t ++ [c%'"']), false)
      | _ => return (.null, false)
    | .interfaceRef typeName =>
      if !hasSelection then
        report path b%"must have a selection"
        return (.null, true)
      else
      match lookup r.schema.interfaces typeName with
      | none => return (.null, false)
      | some impls =>
        match r.env.view (← getWorld) v with
        | .iface none => return (.null, false)
        | .iface (some (goName, goPkg, x)) =>
          match room with
          | 0 => undefinedE
          | room + 1 =>
            match impls.find? (fun i => i.goTypeName = goName ∧ i.goPkgPath = goPkg) with
            | some i => evalData r fuel (.objRef i.typeName) x (dept + 1) path room args sels
            | none => return (.null, false)
        | _ => undefinedE

end

/-- An operation: its members. Subscriptions and operation directives are errors. -/
def evalOperation (r : Req F V W) (fuel : Nat) (o : Operation) : E W (Out × Bool) :=
  match o.kind with
  | .subscription => do
    report [] b%"subscriptions are not supported"
    return (.obj [], true)
  | .query =>
    if o.dirs ≠ [] then do
      report [] b%"operation directives unsupported"
      return (.obj [], true)
    else do
      let (ms, crit) ← evalSels r fuel r.schema.rootQuery r.schema.rootQueryValue 0 [] 255 o.sels
      return (.obj ms, crit)
  | .mutation =>
    if o.dirs ≠ [] then do
      report [] b%"operation directives unsupported"
      return (.obj [], true)
    else do
      let (ms, crit) ← evalSels r fuel r.schema.rootMethod r.schema.rootMethodValue 0 [] 255 o.sels
      return (.obj ms, crit)

end

/-- the fragments of a document, in order -/
def fragmentsOf (d : List Def) : List Fragment :=
  d.filterMap (fun x => match x with | .frag f => some f | .op _ => none)

/-- the operations of a document, in order -/
def operationsOf (d : List Def) : List Operation :=
  d.filterMap (fun x => match x with | .op o => some o | .frag _ => none)

/-- the operation a target selects: the last one (of that name); the empty target means none -/
def chosenOperation (target : Bytes) (d : List Def) : Option Operation :=
  if target = [] then (operationsOf d).getLast? else ((operationsOf d).filter (fun o => o.name == target)).getLast?

end Eval
end Yarql
