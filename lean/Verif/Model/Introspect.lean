import Verif.Model.Schema

/-!
# Model of introspection (`/repo/inject_schema.go`, `objToQlTypeName` in `/repo/parse.go`) and of `Copy`
(`/repo/copy_schema.go`)

A `qlType` is reduced to what type references show: its name, or `LIST`/`NON_NULL` around another type.  The
closures `Fields`, `PossibleTypes`, ... of a named type are modelled as operations on the type name, run later, as
they are in Go.
-/

namespace Yarql

/-- `qlType` (grahql_types.go) as a type reference -/
inductive QT where
  | named (name : Bytes)
  | list (ofType : QT)
  | nonNull (ofType : QT)
deriving DecidableEq

namespace Introspect

variable {F V : Type}

/-- `wrapQLTypeInNonNull` (inject_schema.go:202-210) -/
def wrap : QT × Bool → QT
  | (t, true) => .nonNull t
  | (t, false) => t

/-- the scalar of a data kind: `resolveObjToScalar` (inject_schema.go:421-441) and `inputToQLType` -/
def scalarName : Kind → Bytes
  | .bool => b%"Boolean"
  | .int _ => b%"Int"
  | .uint _ => b%"Int"
  | .float32 => b%"Float"
  | .float64 => b%"Float"
  | .string => b%"String"

/-- `objToQLType` (inject_schema.go:306-419); `none` = nil pointer (dangling reference or `valueTypeUndefined`). -/
def objToQLType (s : Schema F V) : Obj F → Option (QT × Bool)
  | .undefined => none
  | .array inner => (objToQLType s inner).map (fun r => (.list (wrap r), false))
  | .objRef n => (lookup s.types n).map (fun d => (.named d.typeName, true))
  | .enum idx => (s.enums[idx]?).map (fun e => (.named e.typeName, true))
  | .ptr inner => (objToQLType s inner).map (fun r => (r.1, false))
  | .method m out => (objToQLType s out).map (fun r => (r.1, r.2 && m.isTypeMethod))
  | .interfaceRef n => (lookup s.interfaces n).map (fun d => (.named d.typeName, false))
  | .data isID kind => some (.named (if isID then b%"ID" else scalarName kind), true)
  | .time => some (.named b%"Time", true)

/-- `inputToQLType` (inject_schema.go:212-283). `isEnum` is not consulted. -/
def inputToQLType : Input → QT × Bool
  | .scalar kind _ isID => if isID then (.named b%"ID", true) else (.named (scalarName kind), true)
  | .time => (.named b%"Time", true)
  | .file => (.named b%"File", false)
  | .struct name => (.named name, true)
  | .slice elem => (.list (wrap (inputToQLType elem)), false)
  | .array _ elem => (.list (wrap (inputToQLType elem)), false)
  | .ptr elem => ((inputToQLType elem).1, false)

/-- the loop of `objToQlTypeName` (parse.go:954-973): brackets go to the target, closing characters to a suffix in
the order they are met -/
def typeNameLoop : QT → Bytes → Bytes → Bytes
  | .list t, target, suffix => typeNameLoop t (target ++ [c%'[']) (suffix ++ [c%']'])
  | .nonNull t, target, suffix => typeNameLoop t target (suffix ++ [c%'!'])
  | .named n, target, suffix => target ++ n ++ suffix

/-- `objToQlTypeName` (parse.go:949-974) -/
def objToQlTypeName (s : Schema F V) (item : Obj F) : Option Bytes :=
  (objToQLType s item).map (fun r => typeNameLoop (wrap r) [] [])

/-- `qlField` (grahql_types.go): name, arguments, type -/
structure QField where
  name : Bytes
  args : List (Bytes × QT)
  type : QT
deriving DecidableEq

/-- Go's `<=` on strings -/
def bytesLe : Bytes → Bytes → Bool
  | [], _ => true
  | _ :: _, [] => false
  | a :: x, b :: y => decide (a < b) || (a == b && bytesLe x y)

/-- `sort.Slice(res, func(a, b) bool { return res[a].Name < res[b].Name })` (inject_schema.go:67, 93, 303, 360, 408):
a sort by name. The library's algorithm is not modelled; names within one list are distinct (they are the keys of a
Go map, resp. hash keys of names), so the result does not depend on it. -/
def insertBy {A : Type} (name : A → Bytes) (x : A) : List A → List A
  | [] => [x]
  | y :: l => if bytesLe (name x) (name y) then x :: y :: l else y :: insertBy name x l

@[inherit_doc insertBy] def sortBy {A : Type} (name : A → Bytes) : List A → List A
  | [] => []
  | x :: l => insertBy name x (sortBy name l)

/-- `getMethodArgs` (inject_schema.go:292-304) -/
def getMethodArgs (inFields : List ArgField) : List (Bytes × QT) :=
  sortBy (·.1) (inFields.map (fun a => (a.key, wrap (inputToQLType a.input))))

/-- the `InputFields` closure of a struct input (inject_schema.go:234-248): one entry per `structContent` entry -/
def inputFieldsOf (structContent : List InField) : List (Bytes × QT) :=
  sortBy (·.1) (structContent.map (fun a => (a.key, wrap (inputToQLType a.input))))

/-- `__type(name: n) { inputFields }` for an input type: `getAllQLTypes` passes the table entry itself
(inject_schema.go:162-166) -/
def inputFieldsByName (s : Schema F V) (n : Bytes) : Option (List (Bytes × QT)) :=
  (lookup s.inTypes n).map (fun d => inputFieldsOf d.fields)

/-- `structContent` of an argument: arguments of struct type hold a reference `{kind, structName, isStructPointers}`
whose `structContent` is nil (parse.go:718-722) -/
def refStructContent : Input → List InField := fun _ => []

/-- `args { type { inputFields } }` on an argument (or, through `ofType`, on its non-null wrapper or elements):
the closure runs on the argument's own `input` value -/
def inputFieldsByArg (i : Input) : List (Bytes × QT) := inputFieldsOf (refStructContent i)

/-- `getObjectArgs` (inject_schema.go:285-290) -/
def getObjectArgs : Obj F → List (Bytes × QT)
  | .method m _ => getMethodArgs m.inFields
  | _ => []

/-- one entry of a `Fields` closure (inject_schema.go:61-65, 87-91, 354-358, 402-406) -/
def describe (s : Schema F V) (f : Field F V) : Option QField :=
  (objToQLType s f.obj).map (fun r => ⟨f.qlFieldName, getObjectArgs f.obj, wrap r⟩)

/-- the computation of a `Fields` closure of an object type: visible fields, sorted by name
(inject_schema.go:56-67, 82-93, 349-360); `none` = crash -/
def computeFields (s : Schema F V) (fs : List (Field F V)) : Option (List QField) :=
  ((fs.filter (fun f => !f.hidden)).mapM (describe s)).map (sortBy QField.name)

/-- the same for an interface: the test there is `item.hidden`, the (never hidden) interface itself
(inject_schema.go:397-408) -/
def computeIfaceFields (s : Schema F V) (fs : List (Field F V)) : Option (List QField) :=
  (fs.mapM (describe s)).map (sortBy QField.name)

/-- `graphqlObjFields` (parse.go:63) -/
abbrev Memo := Bytes → Option (List QField)

def store (m : Memo) (k : Bytes) (v : List QField) : Memo := fun k' => if k' = k then some v else m k'

/-- a request for the fields of a type -/
inductive Ask where
  /-- `__schema { queryType { fields } }` -/
  | query
  /-- `__schema { mutationType { fields } }` -/
  | mutation
  /-- `__type(name:) { fields }` / `types { fields }` / `ofType { fields }` on an object type -/
  | object (name : Bytes)
  /-- the same on an interface -/
  | iface (name : Bytes)

/-- The `Fields` closures with their memo (inject_schema.go:50-70, 76-96, 343-363, 391-411).
`none` = the type does not exist or the computation crashes. Note the key the mutation's result is stored under. -/
def fields (s : Schema F V) (memo : Memo) : Ask → Option (List QField × Memo)
  | .query =>
    match memo s.rootQuery.typeName with
    | some r => some (r, memo)
    | none => (computeFields s s.rootQuery.fields).map (fun r => (r, store memo s.rootQuery.typeName r))
  | .mutation =>
    match memo s.rootMethod.typeName with
    | some r => some (r, memo)
    | none => (computeFields s s.rootMethod.fields).map (fun r => (r, store memo s.rootQuery.typeName r))
  | .object n =>
    (lookup s.types n).bind (fun d =>
      match memo d.typeName with
      | some r => some (r, memo)
      | none => (computeFields s d.fields).map (fun r => (r, store memo d.typeName r)))
  | .iface n =>
    (lookup s.interfaces n).bind (fun d =>
      match memo d.typeName with
      | some r => some (r, memo)
      | none => (computeIfaceFields s d.fields).map (fun r => (r, store memo d.typeName r)))

/-- a history of requests; `none` as soon as one crashes -/
def asks (s : Schema F V) (memo : Memo) : List Ask → Option Memo
  | [] => some memo
  | a :: rest => (fields s memo a).bind (fun r => asks s r.2 rest)

/-- the memo of a new or copied schema: empty (parse.go:223, copy_schema.go:54) -/
def emptyMemo : Memo := fun _ => none

/-! ## Directives in introspection -/

/-- `qlDirective` as `getDirectives` builds it (inject_schema.go:132-137) -/
structure QDirective where
  name : Bytes
  args : List (Bytes × QT)

/-- `Parse` (parse.go:327-351) for one directive: `checkDirective` left `inFields` empty (directives.go:152-159);
`injectQLTypes` evaluates `getDirectives` first, then `checkFunctionIns` fills `inFields` from the declared argument
struct.  Result: what introspection will show, and what calls will use. -/
def parseDirective (name : Bytes) (declared : List ArgField) : QDirective × List ArgField :=
  let inFieldsAfterRegister : List ArgField := []
  let shown : QDirective := ⟨name, getMethodArgs inFieldsAfterRegister⟩
  let inFieldsAfterParse := inFieldsAfterRegister ++ declared
  (shown, inFieldsAfterParse)

/-! ## Copy -/

/-- `input.copy` (copy_schema.go:248-277) -/
def copyInput : Input → Input
  | .scalar k e i => .scalar k e i
  | .time => .time
  | .file => .file
  | .ptr e => .ptr (copyInput e)
  | .slice e => .slice (copyInput e)
  | .array n e => .array n (copyInput e)
  | .struct n => .struct n

/-- `baseInput.copy` (copy_schema.go:279-291) -/
def copyBase : BaseInput F → BaseInput F
  | .ctx => .ctx
  | .struct z => .struct z

/-- `objMethod.copy`, `referToInput.copy`, `baseInput.copy` (copy_schema.go:208-246, 279-291) -/
def copyMethod (m : Method F) : Method F :=
  { isTypeMethod := m.isTypeMethod
    ins := m.ins.map copyBase
    inFields := m.inFields.map (fun a => ⟨a.key, a.inputIdx, a.goFieldIdx, copyInput a.input⟩)
    outNr := m.outNr
    errorOutNr := m.errorOutNr }

/-- `obj.copy` (copy_schema.go:169-206) on field types -/
def copyObj : Obj F → Obj F
  | .undefined => .undefined
  | .array i => .array (copyObj i)
  | .objRef n => .objRef n
  | .data i k => .data i k
  | .ptr i => .ptr (copyObj i)
  | .method m o => .method (copyMethod m) (copyObj o)
  | .enum i => .enum i
  | .time => .time
  | .interfaceRef n => .interfaceRef n

/-- `obj.copy` (copy_schema.go:169-206) on the attributes of a field: `hidden` is not copied -/
def copyField (f : Field F V) : Field F V :=
  { key := f.key
    qlFieldName := f.qlFieldName
    hidden := false
    structFieldIdx := f.structFieldIdx
    customObjValue := f.customObjValue
    obj := copyObj f.obj }

def copyType (d : TypeDef F V) : TypeDef F V := { d with fields := d.fields.map copyField }

def copyIface (d : IfaceDef F V) : IfaceDef F V := { d with fields := d.fields.map copyField }

/-- `Copy` (copy_schema.go:13-59); the memo of the copy is empty, its cache rule is the default (below). -/
def copySchema (s : Schema F V) : Schema F V :=
  { types := s.types.map (fun e => (e.1, copyType e.2))
    interfaces := s.interfaces.map (fun e => (e.1, copyIface e.2))
    inTypes := s.inTypes.map (fun e => (e.1, ⟨e.2.fields.map (fun f => ⟨f.key, f.goFieldIdx, copyInput f.input⟩), e.2.zero⟩))
    rootQuery := copyType s.rootQuery
    rootMethod := copyType s.rootMethod
    rootQueryValue := s.rootQueryValue
    rootMethodValue := s.rootMethodValue
    maxDepth := s.maxDepth
    enums := s.enums.map (fun e => ⟨e.typeName, e.kind, e.entries.map (fun x => (x.1, x.2))⟩)
    directives := s.directives.map (fun e => (e.1, e.2.map (fun d => ⟨d.name, d.where_, copyMethod d.method, d.func⟩))) }

/-- `CacheableQueryMinLen` of a new parser context (bytecode.go:39) -/
def defaultCacheLen : Int := 300

/-- `SetCacheRules` (parse.go:285-291) on the cache rule of a schema's context -/
def setCacheRules (_cur : Int) (n : Int) : Int := n

/-- the cache rule of a copy: `*bytecode.NewParserCtx()` (copy_schema.go:64), whatever the original's was -/
def copyCacheLen (_original : Int) : Int := defaultCacheLen

/-- the shown parts of an enum's `qlType` -/
structure EnumQL where
  name : Option Bytes
  description : Option Bytes
deriving DecidableEq

/-- `registerEnumCheck` (enums.go:137-142): name and an empty description -/
def enumQL (name : Bytes) : EnumQL := ⟨some name, some []⟩

/-- `qlType.copy` (copy_schema.go:121-149) on name and description: the branch for the description assigns the name
again (`none` = nil dereference) -/
def copyQL (q : EnumQL) : Option EnumQL :=
  let res : EnumQL := ⟨none, none⟩
  let res := match q.name with
    | some n => { res with name := some n }
    | none => res
  match q.description, q.name with
  | some _, some n => some { res with name := some n }
  | some _, none => none
  | none, _ => some res

end Introspect
end Yarql
