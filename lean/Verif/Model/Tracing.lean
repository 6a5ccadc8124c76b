import Verif.Model.Resolver
import Verif.Model.Introspect

/-!
# Model of tracing (`/repo/apollo_tracing.go` and the tracing statements of `/repo/resolver.go`)

`Model/Resolver.lean` models the resolver without its tracing statements.  This file has the functions that contain such
statements, or call functions that do, with the statements in: they run on the resolver's state (`rs`) extended by the tracer.
Everything else is used from the resolver model through `lift`.

The clock: `clock n` is the result of the `n`-th reading (`time.Now`, `time.Since`) of this request, in nanoseconds; it is
arbitrary, so user code may take any time between two readings.
-/

namespace Yarql
namespace Tracing
open Resolver

/-- `tracerResolver` (apollo_tracing.go:29-36); `path` is the raw JSON of `ctx.GetPath()` -/
structure Entry where
  path : Bytes
  parentType : Bytes
  fieldName : Bytes
  returnType : Bytes
  startOffset : Int
  duration : Int
deriving DecidableEq

/-- constants of one traced execution. `goStart`: `tracing.GoStartTime`; `typeText`: `objToQlTypeName` (parse.go:949-974), `none` = nil
dereference. -/
structure TCfg (F V W : Type) where
  cfg : Cfg F V W
  enabled : Bool
  clock : Nat → Int
  goStart : Int
  typeText : Obj F → Option Bytes

/-- the resolver's state, the number of clock readings so far, `prefRecordingStartTime`, `tracing.Execution.Resolvers` -/
structure TS (V W : Type) where
  rs : RS V W
  reads : Nat
  start : Int
  entries : List Entry

def TM (F V W α : Type) := TCfg F V W → TS V W → R (TS V W) α

section
variable {F V W α β : Type}

def TM.bind (m : TM F V W α) (f : α → TM F V W β) : TM F V W β := fun c s =>
  match m c s with
  | .ok a s' => f a c s'
  | .panic => .panic
  | .oof => .oof

instance : Monad (TM F V W) where
  pure a := fun _ s => .ok a s
  bind := TM.bind

/-- a step without tracing statements -/
def lift (m : M F V W α) : TM F V W α := fun c s =>
  match m c.cfg s.rs with
  | .ok a r => .ok a { s with rs := r }
  | .panic => .panic
  | .oof => .oof

def panicT : TM F V W α := fun _ _ => .panic

def getT : TM F V W (TCfg F V W × TS V W) := fun c s => .ok (c, s) s

/-- `time.Now()` -/
def now : TM F V W Int := fun c s => .ok (c.clock s.reads) { s with reads := s.reads + 1 }

def isEnabled : TM F V W Bool := fun c s => .ok c.enabled s

def setStart (t : Int) : TM F V W Unit := fun _ s => .ok () { s with start := t }

/-- `startTrace` (resolver.go:1688-1692) -/
def startTrace : TM F V W Unit := do
  if ← isEnabled then
    let t ← now
    setStart t
  else return ()

/-- `finishTrace` (resolver.go:1694-1699): offset and duration -/
def finishTrace : TM F V W (Int × Int) := do
  let (c, s) ← getT
  let t ← now
  return (s.start - c.goStart, t - s.start)

/-- `append(ctx.tracing.Execution.Resolvers, ...)` -/
def addEntry (e : Entry) : TM F V W Unit := fun _ s => .ok () { s with entries := s.entries ++ [e] }

/-- the entry of a resolved field (resolver.go:596-613) -/
def record (parentType fieldName : Bytes) (o : Obj F) : TM F V W Unit := do
  let (offset, duration) ← finishTrace
  let (c, s) ← getT
  match c.typeText o with
  | none => panicT
  | some returnType => addEntry ⟨jsonPath s.rs.path, parentType, fieldName, returnType, offset, duration⟩

/-- `elemsLoop` of the resolver model (resolver.go:727-745) -/
def elemsLoopT (body : TM F V W Bool) (startCharNr : Nat) : Nat → List V → TM F V W Unit
  | _, [] => return ()
  | i, v :: vs => do
    lift (setPos startCharNr)
    let s ← lift getState
    let prefPath := s.path
    lift (setPath (prefPath ++ c%',' :: intDigits i))
    lift (setGoValue v)
    let _ ← body
    if !vs.isEmpty then lift (write [c%','])
    lift (setPath prefPath)
    elemsLoopT body startCharNr (i + 1) vs

/-- `afterCall` of the resolver model (resolver.go:821-833) -/
def afterCallT (m : Method F) (outs : List V) (next : V → TM F V W Bool) : TM F V W Bool := do
  let cfg ← lift getCfg
  let s ← lift getState
  match cfg.env.ctxErr s.world with
  | some msg =>
    lift (err msg)
    lift writeNull
    return false
  | none =>
    match outs[m.outNr]? with
    | none => lift panicM
    | some v => next v

/-- `callAndResolve` of the resolver model (resolver.go:802-833) -/
def callAndResolveT (m : Method F) (goValue : V) (next : V → Bool → TM F V W Bool) : TM F V W Bool := do
  let inst ← lift seekInst
  match ← lift (callQlMethod m goValue (inst == c%'v')) with
  | none => return true
  | some outs =>
    let inst ← lift seekInst
    lift (reportMethodErr m outs)
    afterCallT m outs (fun v => next v (inst != c%'e'))

variable [DecidableEq F]

mutual
/-- `resolveSelectionSet` (resolver.go:399-423) -/
def resolveSelectionSetT : Nat → RType F V → UInt8 → Bool → TM F V W (Bool × Bool)
  | 0, _, _, _ => lift oofM
  | fuel + 1, typeObj, dept, firstField => do
    let inst ← lift readInst
    if inst == c%'e' then return (false, firstField)
    else if inst == c%'f' then
      let (skipped, criticalErr) ← resolveFieldT fuel typeObj dept (!firstField)
      if criticalErr then return (true, firstField)
      resolveSelectionSetT fuel typeObj dept (firstField && skipped)
    else if inst == c%'s' then
      let (criticalErr, firstField) ← resolveSpreadT fuel typeObj dept firstField
      if criticalErr then return (true, firstField)
      resolveSelectionSetT fuel typeObj dept firstField
    else
      let b ← lift lastInst
      lift (err (b%"unsupported operation " ++ Parser.strOfByte b))
      return (true, firstField)

/-- `resolveSpread` (resolver.go:425-504) -/
def resolveSpreadT : Nat → RType F V → UInt8 → Bool → TM F V W (Bool × Bool)
  | 0, _, _, _ => lift oofM
  | fuel + 1, typeObj, dept, firstField => do
    let inl ← lift readInst
    let isInline := inl == c%'t'
    let directivesCount ← lift readInst
    let lenOfDirective ← lift readUint32M
    lift (skipInst 4)
    let nameStart ← lift getPos
    let name ← lift readToNul
    let location : UInt8 := if isInline then 2 else 1
    match ← lift (resolveDirectives location directivesCount.toNat) with
    | none =>
      lift (setPos (nameStart + lenOfDirective + 1))
      return (true, firstField)
    | some true =>
      lift (setPos (nameStart + lenOfDirective + 1))
      return (false, firstField)
    | some false =>
      if isInline then
        if typeObj.typeName ≠ name then
          lift (setPos (nameStart + lenOfDirective + 1))
          return (false, firstField)
        let r ← resolveSelectionSetT fuel typeObj dept firstField
        lift (skipInst 1)
        return r
      else
        let cfg ← lift getCfg
        match findFragment cfg.res name cfg.frags with
        | none =>
          lift (err (b%"fragment " ++ name ++ b%" not defined"))
          return (true, firstField)
        | some fragmentNameEnd =>
          let originalCharNr ← lift getPos
          lift (setPos (fragmentNameEnd + 1))
          let typeName ← lift readToNul
          if typeObj.typeName ≠ typeName then
            lift (setPos (nameStart + lenOfDirective + 1))
            return (false, firstField)
          let r ← resolveSelectionSetT fuel typeObj dept firstField
          lift (setPos originalCharNr)
          return r

/-- `resolveField` (resolver.go:506-621) -/
def resolveFieldT : Nat → RType F V → UInt8 → Bool → TM F V W (Bool × Bool)
  | 0, _, _, _ => lift oofM
  | fuel + 1, typeObj, dept, addCommaBefore => do
    startTrace
    let directivesCount ← lift readInst
    let fieldLen ← lift readUint32M
    lift (skipInst 4)
    let nameKey ← lift readUint32M
    lift (skipInst 4)
    let pos ← lift getPos
    let endOfField := pos + fieldLen
    let aliasByte ← lift readInst
    let aliasLen := aliasByte.toNat
    let startOfAlias ← lift getPos
    let endOfAlias := startOfAlias + aliasLen
    let alias ← lift (sliceRes startOfAlias endOfAlias)
    lift (skipInst aliasLen)
    let s ← lift getState
    let prefPath := s.path
    lift (setPath (prefPath ++ b%",\"" ++ alias ++ [c%'"']))
    let lenOfName ← lift readInst
    let nameAt ← lift getPos
    let startOfName := if lenOfName = 0 then startOfAlias else nameAt
    let endOfName := if lenOfName = 0 then endOfAlias else nameAt + lenOfName.toNat
    lift (skipInst lenOfName.toNat)
    lift (skipInst 1)
    match ← lift (resolveDirectives 0 directivesCount.toNat) with
    | none =>
      lift (setPath prefPath)
      lift (setPos (endOfField + 1))
      return (true, true)
    | some true =>
      lift (setPath prefPath)
      lift (setPos (endOfField + 1))
      return (true, false)
    | some false =>
      if addCommaBefore then lift (write [c%','])
      lift (writeQuoted alias)
      lift (write [c%':'])
      let sel ← lift seekInst
      let fieldHasSelection := sel != c%'e'
      let criticalErr ← do
        match typeObj.fields.find? (fun f => f.key.toNat = nameKey) with
        | none =>
          let name ← lift (sliceRes startOfName endOfName)
          if name = b%"__typename" then
            if fieldHasSelection then
              lift (err b%"cannot have a selection set on this field")
              pure true
            else
              lift (writeQuoted typeObj.typeName)
              pure false
          else
            lift writeNull
            lift (err (name ++ b%" does not exists on " ++ typeObj.typeName))
            pure true
        | some f =>
          let goValue ← lift getGoValue
          let v ← lift (fieldValue goValue f)
          lift (setNextGoValue v)
          let crit ← resolveFieldDataValueT fuel f.obj dept fieldHasSelection
          lift decIdx
          if ← isEnabled then
            let name ← lift (sliceRes startOfName endOfName)
            record typeObj.typeName name f.obj
            pure crit
          else pure crit
      lift (setPath prefPath)
      lift (setPos (endOfField + 1))
      return (false, criticalErr)

/-- `resolveFieldDataValue` (resolver.go:696-915) -/
def resolveFieldDataValueT : Nat → Obj F → UInt8 → Bool → TM F V W Bool
  | 0, _, _, _ => lift oofM
  | fuel + 1, typeObj, dept, hasSubSelection => do
    let cfg ← lift getCfg
    let goValue ← lift getGoValue
    let inst ← lift seekInst
    if inst == c%'v' && !methodBehindPtr typeObj then
      lift writeNull
      lift (err b%"field arguments not allowed")
      return true
    match typeObj with
    | .array inner =>
      match ← lift (viewOf goValue) with
      | .seq none =>
        lift writeNull
        return false
      | .seq (some vs) =>
        lift (write [c%'['])
        lift incIdx
        let startCharNr ← lift getPos
        elemsLoopT (resolveFieldDataValueT fuel inner dept hasSubSelection) startCharNr 0 vs
        lift decIdx
        lift (write [c%']'])
        return false
      | _ => lift panicM
    | .objRef typeName =>
      if !hasSubSelection then
        lift writeNull
        lift (err b%"must have a selection")
        return true
      match lookup cfg.schema.types typeName with
      | none =>
        lift writeNull
        return false
      | some t =>
        if dept + 1 = cfg.schema.maxDepth then
          lift writeNull
          lift (err b%"reached max dept")
          return true
        lift (write [c%'{'])
        let (criticalErr, _) ← resolveSelectionSetT fuel t (dept + 1) true
        lift (write [c%'}'])
        return criticalErr
    | .ptr inner =>
      match ← lift (viewOf goValue) with
      | .ptr none =>
        lift writeNull
        return false
      | .ptr (some v) =>
        lift (setGoValue v)
        resolveFieldDataValueT fuel inner dept hasSubSelection
      | _ => lift panicM
    | .method m out =>
      if ← lift (isNilFunc m goValue) then
        lift writeNull
        return false
      callAndResolveT m goValue (fun v hasSubSelection => do
        lift (setGoValue v)
        resolveFieldDataValueT fuel out dept hasSubSelection)
    | .interfaceRef typeName =>
      if !hasSubSelection then
        lift writeNull
        lift (err b%"must have a selection")
        return true
      match lookup cfg.schema.interfaces typeName with
      | none =>
        lift writeNull
        return false
      | some impls =>
        match ← lift (viewOf goValue) with
        | .iface none =>
          lift writeNull
          return false
        | .iface (some (goName, goPkg, v)) =>
          lift (setNextGoValue v)
          match impls.find? (fun i => i.goTypeName = goName ∧ i.goPkgPath = goPkg) with
          | some i =>
            let crit ← resolveFieldDataValueT fuel (.objRef i.typeName) (dept + 1) hasSubSelection
            lift decIdx
            return crit
          | none =>
            lift decIdx
            lift writeNull
            return false
        | _ => lift panicM
    | .undefined => do
      lift writeNull
      return false
    | .data isID kind => do
      if hasSubSelection then
        lift writeNull
        lift (err b%"cannot have a selection set on this field")
        return true
      match ← lift (viewOf goValue) with
      | .scalar x =>
        match dataText cfg.env isID kind x with
        | some t =>
          lift (write t)
          return false
        | none => lift panicM
      | _ => lift panicM
    | .enum idx =>
      match cfg.schema.enums[idx]? with
      | none => lift panicM
      | some e =>
        match ← lift (viewOf goValue) with
        | .scalar x =>
          match enumKey e x with
          | none => lift panicM
          | some (some key) =>
            lift (writeQuoted key)
            return false
          | some none =>
            lift writeNull
            return false
        | _ => lift panicM
    | .time => do
      match ← lift (viewOf goValue) with
      | .time t =>
        lift (write (c%'"' :: Time.timeToIso8601String [] t ++ [c%'"']))
        return false
      | _ =>
        lift writeNull
        return false
end

/-- `ctx.reflectValues[0] = v` -/
def setRoot (v : V) : M F V W Unit := fun _ s => .ok () { s with vals := fun i => if i = 0 then v else s.vals i }

/-- `resolveOperation` (resolver.go:357-397) -/
def resolveOperationT (fuel : Nat) : TM F V W Bool := do
  let cfg ← lift getCfg
  lift (skipInst 2)
  let kind ← lift readInst
  if kind == c%'s' then
    lift (err b%"subscriptions are not supported")
    return true
  if kind == c%'q' then lift (setRoot cfg.schema.rootQueryValue)
  if kind == c%'m' then lift (setRoot cfg.schema.rootMethodValue)
  let argsByte ← lift readInst
  let hasArgs := argsByte == c%'t'
  lift (setArgs hasArgs 0)
  let directivesCount ← lift readInst
  if directivesCount > 0 then
    lift (err b%"operation directives unsupported")
    return true
  let _ ← lift readToNul
  if hasArgs then
    let argumentsLen ← lift readUint32M
    let pos ← lift getPos
    lift (setArgs true (pos + 5))
    lift (skipInst (argumentsLen + 5))
  let root := if kind == c%'m' then cfg.schema.rootMethod else cfg.schema.rootQuery
  let (criticalErr, _) ← resolveSelectionSetT fuel root 0 true
  return criticalErr

end

/-! ## The response -/

/-- `tracer` (apollo_tracing.go:8-18) as it is marshalled; the texts of `StartTime` and `EndTime` are those of the two instants -/
structure Tracer where
  startTime : Int
  endTime : Int
  duration : Int
  parsingOffset : Int
  parsingDuration : Int
  validationOffset : Int
  resolvers : List Entry

/-- what `Resolve` writes around the data with tracing (resolver.go:241-291); `tracingJSON`: what `json.Marshal` returned, `none` = error -/
def envelopeT (noMeta : Bool) (data : Bytes) (errs : List ReqErr) (tracingJSON : Option Bytes) : Bytes :=
  if noMeta then data
  else b%"{\"data\":" ++ data ++ (if errs.isEmpty then [] else b%",\"errors\":[" ++ errorsJSON errs ++ b%"]") ++
    b%",\"extensions\":{\"tracing\":" ++ tracingJSON.getD b%"null" ++ b%"}}"

/-- the response body, the returned errors and the tracer of a traced request -/
structure Response where
  body : Bytes
  errs : List ReqErr
  tracer : Tracer

/-- `Resolve` (resolver.go:165-298) with `opts.Tracing`, on a parsed schema; without the cache, as `resolve`.
Clock readings: `reset` (0), the first `startTrace` (1), the end of parsing (2), the validation offset (3), the fields, `finish`. -/
def resolveT {F V W : Type} [DecidableEq F] (fuel : Nat) (s : Schema F V) (env : Env F V W) (clock : Nat → Int)
    (marshal : Tracer → Option Bytes) (vals : UInt8 → V) (w : W) (req : Request) : R W Response :=
  let goStart := clock 0
  let fin (reads : Nat) (entries : List Entry) (data : Bytes) (errs : List ReqErr) : Response :=
    let t : Tracer := ⟨goStart, clock reads, clock reads - goStart, clock 1 - goStart, clock 2 - clock 1, clock 3 - clock 1, entries⟩
    ⟨envelopeT req.noMeta data errs (marshal t), errs, t⟩
  match Parser.parseQuery req.query (if req.target = [] then none else some req.target) with
  | .panic => .panic
  | .oof => .oof
  | .ok () p =>
    if p.errs.isEmpty then
      match p.targetIdx with
      | none =>
        let msg := if req.target = [] then b%"no operator found"
          else b%"no operator with name " ++ req.target ++ b%" found"
        .ok (fin 4 [] b%"{}" [ReqErr.exec ⟨msg, none⟩]) w
      | some at_ =>
        let cfg : Cfg F V W := ⟨p.res, p.frags, viewSchema s, env, req.vars⟩
        let st : TS V W := ⟨⟨at_, [], [c%'{'], [], vals, 0, false, false, 0, w⟩, 4, clock 1, []⟩
        match resolveOperationT fuel ⟨cfg, true, clock, goStart, Introspect.objToQlTypeName s⟩ st with
        | .ok _ st' => .ok (fin st'.reads st'.entries (st'.rs.out ++ [c%'}']) (st'.rs.errs.map ReqErr.exec)) st'.rs.world
        | .panic => .panic
        | .oof => .oof
    else .ok (fin 4 [] b%"{}" (p.errs.map (fun e => ReqErr.located e.msg e.line e.col))) w

end Tracing
end Yarql
