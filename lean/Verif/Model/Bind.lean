import Verif.Model.Schema
import Verif.Model.Http

/-!
# Binding values to Go function inputs: the parts that do not read bytecode (`/repo/resolver.go`)

A Go variable being filled (`goValue *reflect.Value`) is modelled by its value before (`cur`) and after.  Its
`goValue.Kind()` is the kind recorded in the `input` (parse.go:648-722 fills `input.kind` from the same Go type; a
`time.Time` has kind struct, a `*multipart.FileHeader` kind ptr).  Every `ctx.err` in these functions is returned as
critical error right away, so a run reports at most one message.
-/

namespace Yarql

open Http (J)

/-- result of a binding step: a value, one (critical) error message, or a panic -/
inductive B (α : Type) where
  | ok (a : α)
  | err (msg : Bytes)
  | panic

namespace B

def bind {α β : Type} (m : B α) (f : α → B β) : B β :=
  match m with
  | .ok a => f a
  | .err e => .err e
  | .panic => .panic

instance : Monad B where
  pure := B.ok
  bind := B.bind

end B

/-- one element of `ctx.funcInputs` (resolver.go:624-631) -/
inductive Arg (F : Type) where
  | ctx
  | val (v : InVal F)

/-- What reflection sees of a Go value. -/
inductive View (F V : Type) where
  | scalar (s : Scalar F)
  | time (t : Time.T)
  | ptr (v : Option V)
  /-- slice (`none` = nil) or array -/
  | seq (vs : Option (List V))
  | struct (fields : List V)
  | func (isNil : Bool)
  /-- interface value: nil, or name and package of the dynamic type and the dynamic value -/
  | iface (v : Option (Bytes × Bytes × V))

/-- Everything outside the repository: user data and functions (with a world `W` they may change), floating point,
library error texts. -/
structure Env (F V W : Type) where
  view : W → V → View F V
  /-- `goValue.Method(i)` -/
  method : V → Nat → V
  /-- `goValue.Call(args)`; the function can also see the current path (`GetPath`). `none` = the function panics. -/
  call : W → V → (path : Bytes) → List (Arg F) → Option (W × List V)
  /-- an error result: `none` = nil -/
  errOf : W → V → Option Bytes
  /-- `DirectiveModifier.Skip` of a directive's result -/
  skip : W → V → Bool
  /-- `ctx.context.Err()`, `none` also when there is no context -/
  ctxErr : W → Option Bytes
  /-- `ResolveOptions.GetFormFile` -/
  formFile : Option (Bytes → Except Bytes (Option Nat))
  /-- `strconv.ParseFloat(_, 64)` -/
  parseFloat : Bytes → Option F
  floatOfInt : Int → F
  /-- rounding done by `SetFloat` on a float32 -/
  toF32 : F → F
  floatZero : F
  /-- `(*fastjson.Value).GetFloat64` of a number -/
  jsonFloat : Bytes → F
  /-- `helpers.FloatToJSON(bits, f)` (helpers/encodeFloat.go) -/
  floatText : (is32 : Bool) → F → Bytes
  /-- error text of a strconv function -/
  numError : (fn : Bytes) → Bytes → Bytes
  /-- error text of `(*fastjson.Value).Int64` -/
  jsonIntError : Bytes → Bytes
  /-- `goValue.String()` of a value that is not a string: `<T Value>` -/
  typeString : Input → Bytes

namespace Bind

variable {F V W : Type}

/-- `time.Time{}` -/
def zeroTime : Time.T := ⟨1, 1, 1, 0, 0, 0, 0, 0⟩

def zeroScalar (env : Env F V W) : Kind → Scalar F
  | .bool => .bool false
  | .int _ => .int 0
  | .uint _ => .uint 0
  | .float32 => .float env.floatZero
  | .float64 => .float env.floatZero
  | .string => .string []

/-- `reflect.New(t).Elem()`: the zero value of an input type -/
def zeroOf (env : Env F V W) (inTypes : List (Bytes × InStruct F)) : Input → InVal F
  | .scalar k _ _ => .scalar (zeroScalar env k)
  | .time => .time zeroTime
  | .file => .file none
  | .ptr _ => .ptr none
  | .slice _ => .slice none
  | .array n e => .array (List.replicate n (zeroOf env inTypes e))
  | .struct n => match lookup inTypes n with
    | some d => d.zero
    | none => .struct []

/-- `int8(x)` etc.: two's complement truncation, as done by `SetInt` -/
def wrapInt (w : Width) (i : Int) : Int :=
  let m : Int := 2 ^ w.bits
  let r := i % m
  if r < 2 ^ (w.bits - 1) then r else r - m

/-- `uint8(x)` etc., as done by `SetUint` -/
def wrapUint (w : Width) (n : Nat) : Nat := n % 2 ^ w.bits

/-- value of a non-empty string of decimal digits -/
def digitsVal (bs : Bytes) : Option Nat := if bs = [] then none else Time.atoiDigits bs 0

/-- `strconv.ParseUint(s, 10, 64)`; `none` = error -/
def parseUint64 (s : Bytes) : Option Nat :=
  (digitsVal s).bind (fun n => if n < 2 ^ 64 then some n else none)

/-- `strconv.ParseInt(s, 10, 64)` (also `strconv.Atoi` on 64-bit platforms and `fastjson`'s `Int64` on JSON numbers);
`none` = error -/
def parseInt64 (s : Bytes) : Option Int :=
  match s with
  | [] => none
  | c :: r =>
    if c = c%'-' then (digitsVal r).bind (fun n => if n ≤ 2 ^ 63 then some (-(n : Int)) else none)
    else if c = c%'+' then (digitsVal r).bind (fun n => if n < 2 ^ 63 then some (n : Int) else none)
    else (digitsVal (c :: r)).bind (fun n => if n < 2 ^ 63 then some (n : Int) else none)

/-- `goValue.String()` in error messages: the string itself for strings (a Go variable of type string holds a string, the last case of the
inner match does not occur) -/
def goString (env : Env F V W) (inp : Input) (cur : InVal F) : Bytes :=
  match inp with
  | .scalar .string _ _ => match cur with
    | .scalar (.string s) => s
    | _ => []
  | _ => env.typeString inp

/-- the width named in the overflow messages -/
def widthText : Width → Bytes
  | .w8 => b%"8" | .w16 => b%"16" | .w32 => b%"32" | .w64 => b%"64"

/-- `case bytecode.ValueInt` of `bindInputToGoValue` (resolver.go:1451-1516) -/
def assignInt (env : Env F V W) (inp : Input) (cur : InVal F) (digits : Bytes) : B (InVal F) :=
  match inp with
  | .scalar (.int w) _ _ =>
    match parseInt64 digits with
    | none => .err (env.numError b%"ParseInt" digits)
    | some i =>
      if wrapInt w i ≠ i then .err (b%"cannot assign " ++ digits ++ b%" to a " ++ widthText w ++ b%"bit integer")
      else .ok (.scalar (.int i))
  | .scalar (.uint w) _ _ =>
    match parseUint64 digits with
    | none => .err (env.numError b%"ParseUint" digits)
    | some n =>
      if wrapUint w n ≠ n then
        .err (b%"cannot assign " ++ digits ++ b%" to a " ++ widthText w ++ b%"bit unsigned integer")
      else .ok (.scalar (.uint n))
  | .scalar .float32 _ _ =>
    match parseInt64 digits with
    | none => .err (env.numError b%"ParseInt" digits)
    | some i => .ok (.scalar (.float (env.toF32 (env.floatOfInt i))))
  | .scalar .float64 _ _ =>
    match parseInt64 digits with
    | none => .err (env.numError b%"ParseInt" digits)
    | some i => .ok (.scalar (.float (env.floatOfInt i)))
  | .scalar .bool _ _ =>
    match parseInt64 digits with
    | none => .err (env.numError b%"ParseInt" digits)
    | some i => .ok (.scalar (.bool (decide (i > 0))))
  | _ => .err (b%"cannot assign int to " ++ goString env inp cur)

/-- `case bytecode.ValueFloat` (resolver.go:1518-1530) -/
def assignFloat (env : Env F V W) (inp : Input) (cur : InVal F) (digits : Bytes) : B (InVal F) :=
  match inp with
  | .scalar .float32 _ _ =>
    match env.parseFloat digits with
    | none => .err (env.numError b%"ParseFloat" digits)
    | some f => .ok (.scalar (.float (env.toF32 f)))
  | .scalar .float64 _ _ =>
    match env.parseFloat digits with
    | none => .err (env.numError b%"ParseFloat" digits)
    | some f => .ok (.scalar (.float f))
  | _ => .err (b%"cannot assign float to " ++ goString env inp cur)

/-- the loop over `enum.entries` (resolver.go:1103-1121, 1315-1333, 1556-1573) -/
def assignEnum (enums : List (EnumDef F)) (idx : Nat) (key : Bytes) : B (InVal F) :=
  match enums[idx]? with
  | none => .panic
  | some e =>
    match e.entries.find? (fun x => x.1 = key) with
    | none => .err (b%"unknown enum value " ++ key ++ b%" for enum " ++ e.typeName)
    | some x =>
      match e.kind with
      | .string | .int _ | .uint _ => .ok (.scalar x.2)
      | _ => .err b%"internal error, type missmatch on enum"

/-- assignment of a string to an ID field (resolver.go:1122-1150, 1334-1357); no check of the width (TODO in the
source) -/
def assignID (kind : Kind) (s : Bytes) : B (InVal F) :=
  match kind with
  | .string => .ok (.scalar (.string s))
  | .int w =>
    match parseInt64 s with
    | none => .err b%"id argument must match a number type"
    | some i => .ok (.scalar (.int (wrapInt w i)))
  | .uint w =>
    match parseInt64 s with
    | none => .err b%"id argument must match a number type"
    | some i =>
      if i < 0 then .err b%"id argument must match a number above 0"
      else .ok (.scalar (.uint (wrapUint w i.toNat)))
  | _ => .err b%"internal error: cannot assign to this ID field"

/-- time argument (helpers/time.go:12-18) -/
def assignTime (s : Bytes) : B (InVal F) :=
  match Time.parseIso8601String s with
  | some t => .ok (.time t)
  | none => .err b%"time value doesn't match the ISO 8601 layout"

/-- `assignStringToValue` (resolver.go:1314-1379) -/
def assignString (env : Env F V W) (enums : List (EnumDef F)) (inp : Input) (cur : InVal F) (s : Bytes) : B (InVal F) :=
  match inp with
  | .scalar _ (some e) _ => assignEnum enums e s
  | .scalar k none true => assignID k s
  | .file =>
    match env.formFile with
    | none => .err b%"form files are not supported"
    | some f => match f s with
      | .error e => .err e
      | .ok h => .ok (.file h)
  | .time => assignTime s
  | .scalar .string none false => .ok (.scalar (.string s))
  | _ => .err (b%"cannot assign string to " ++ goString env inp cur)

/-- `case bytecode.ValueBoolean` (resolver.go:1538-1543) -/
def assignBool (env : Env F V W) (inp : Input) (cur : InVal F) (b : Bool) : B (InVal F) :=
  match inp with
  | .scalar .bool _ _ => .ok (.scalar (.bool b))
  | _ => .err (b%"cannot assign boolean to " ++ goString env inp cur)

/-- `case bytecode.ValueEnum` (resolver.go:1548-1573) -/
def assignEnumLit (enums : List (EnumDef F)) (inp : Input) (key : Bytes) : B (InVal F) :=
  match inp with
  | .scalar _ (some e) _ => assignEnum enums e key
  | _ => .err b%"cannot assign enum to non enum value"

/-- `checkInputIsPtr` (resolver.go:1381-1397): `base` is run on the pointed-to input with a fresh zero value -/
def ptrWrap (env : Env F V W) (inTypes : List (Bytes × InStruct F)) (base : Input → InVal F → B (InVal F × Bool)) :
    Input → InVal F → B (InVal F × Bool)
  | .ptr e, cur =>
    match ptrWrap env inTypes base e (zeroOf env inTypes e) with
    | .ok (v, true) => .ok (.ptr (some v), true)
    | .ok (_, false) => .ok (cur, false)
    | .err m => .err m
    | .panic => .panic
  | i, cur => base i cur

/-- `goValue.Field(i)` of a struct being filled -/
def getField : InVal F → Nat → Option (InVal F)
  | .struct fs, i => fs[i]?
  | _, _ => none

def setField : InVal F → Nat → InVal F → InVal F
  | .struct fs, i, v => .struct (fs.set i v)
  | x, _, _ => x

/-- `case fastjson.TypeNumber` (resolver.go:1233-1294). In the unsigned branch the overflow switch compares with the
*signed* kinds, so no width is checked; `SetUint` truncates. -/
def jsonNumber (env : Env F V W) (inp : Input) (cur : InVal F) (repr : Bytes) : B (InVal F × Bool) :=
  match inp with
  | .scalar .float32 _ _ => .ok (.scalar (.float (env.toF32 (env.jsonFloat repr))), true)
  | .scalar .float64 _ _ => .ok (.scalar (.float (env.jsonFloat repr)), true)
  | _ =>
    match parseInt64 repr with
    | none => .err (env.jsonIntError repr)
    | some i =>
      match inp with
      | .scalar (.int w) _ _ =>
        if wrapInt w i ≠ i then
          .err (b%"cannot assign " ++ intDigits i ++ b%" to a " ++ widthText w ++ b%"bit integer")
        else .ok (.scalar (.int i), true)
      | .scalar (.uint w) _ _ =>
        if i < 0 then .err (b%"cannot assign " ++ intDigits i ++ b%" to a unsigned integer")
        else .ok (.scalar (.uint (wrapUint w i.toNat)), true)
      | .scalar .bool _ _ => .ok (.scalar (.bool (decide (i > 0))), true)
      | _ => .err (b%"cannot assign number to " ++ goString env inp cur)

/-- the special inputs of `bindJSONToValue` (resolver.go:1081-1181): enum, ID, file, time take only strings. A file
variable calls `ctx.getFormFile` without testing it for nil. -/
def jsonSpecial (env : Env F V W) (enums : List (EnumDef F)) (inp : Input) (j : J) : B (InVal F × Bool) :=
  let what : Bytes := match inp with
    | .scalar _ (some _) _ => b%"Enum"
    | .file => b%"File"
    | .time => b%"Time"
    | _ => b%"ID"
  match j with
  | .str s =>
    match inp with
    | .scalar _ (some e) _ => (assignEnum enums e s).bind (fun v => .ok (v, true))
    | .scalar k none _ => (assignID k s).bind (fun v => .ok (v, true))
    | .file =>
      match env.formFile with
      | none => .panic
      | some f => match f s with
        | .error e => .err e
        | .ok h => .ok (.file h, true)
    | _ => (assignTime s).bind (fun v => .ok (v, true))
  | _ => .err (b%"cannot assign " ++ j.typeName ++ b%" to " ++ what ++ b%" value")

def isSpecial : Input → Bool
  | .scalar _ (some _) _ => true
  | .scalar _ none isID => isID
  | .file => true
  | .time => true
  | _ => false

mutual
/-- `bindJSONToValue` (resolver.go:1072-1312) for an input that is not a pointer; pointers are `ptrWrap`.
`Int64` of fastjson is `parseInt64`. Result: new value and `valueSet`. -/
def bindJSONBase (env : Env F V W) (enums : List (EnumDef F)) (inTypes : List (Bytes × InStruct F)) :
    J → Input → InVal F → B (InVal F × Bool)
  | .null, inp, cur => if isSpecial inp then jsonSpecial env enums inp .null else .ok (cur, false)
  | .bool b, inp, cur =>
    if isSpecial inp then jsonSpecial env enums inp (.bool b)
    else match inp with
      | .scalar .bool _ _ => .ok (.scalar (.bool b), true)
      | _ => .err (b%"cannot assign boolean to " ++ goString env inp cur)
  | .num r, inp, cur =>
    if isSpecial inp then jsonSpecial env enums inp (.num r) else jsonNumber env inp cur r
  | .str s, inp, cur =>
    if isSpecial inp then jsonSpecial env enums inp (.str s)
    else (assignString env enums inp cur s).bind (fun v => .ok (v, true))
  | .arr items, inp, cur =>
    if isSpecial inp then jsonSpecial env enums inp (.arr [])
    else match inp with
      | .slice e => (bindJSONItems env enums inTypes items e).bind (fun vs => .ok (.slice (some vs), true))
      | _ => .err (b%"cannot assign slice to " ++ goString env inp cur)
  | .obj members, inp, cur =>
    if isSpecial inp then jsonSpecial env enums inp (.obj [])
    else match inp with
      | .struct n =>
        match lookup inTypes n with
        | none => .panic
        | some d => (bindJSONMembers env enums inTypes members d.fields cur).bind (fun v => .ok (v, true))
      | _ => .err b%"cannot assign object to non object value"
/-- the loop over a JSON array (resolver.go:1215-1222) -/
def bindJSONItems (env : Env F V W) (enums : List (EnumDef F)) (inTypes : List (Bytes × InStruct F)) :
    List J → Input → B (List (InVal F))
  | [], _ => .ok []
  | j :: js, e =>
    (ptrWrap env inTypes (fun i c => bindJSONBase env enums inTypes j i c) e (zeroOf env inTypes e)).bind (fun r =>
      (bindJSONItems env enums inTypes js e).bind (fun vs => .ok (r.1 :: vs)))
/-- `jsonObj.Visit` (resolver.go:1191-1207) -/
def bindJSONMembers (env : Env F V W) (enums : List (EnumDef F)) (inTypes : List (Bytes × InStruct F)) :
    List (Bytes × J) → List InField → InVal F → B (InVal F)
  | [], _, cur => .ok cur
  | (k, j) :: ms, fields, cur =>
    match fields.find? (fun f => f.key = k) with
    | none => .err (b%"undefined property " ++ k)
    | some f =>
      match getField cur f.goFieldIdx with
      | none => .panic
      | some c =>
        (ptrWrap env inTypes (fun i c => bindJSONBase env enums inTypes j i c) f.input c).bind (fun r =>
          bindJSONMembers env enums inTypes ms fields (setField cur f.goFieldIdx r.1))
end

/-- `bindJSONToValue` (resolver.go:1072-1312) -/
def bindJSON (env : Env F V W) (enums : List (EnumDef F)) (inTypes : List (Bytes × InStruct F)) (j : J) (inp : Input)
    (cur : InVal F) : B (InVal F × Bool) :=
  ptrWrap env inTypes (fun i c => bindJSONBase env enums inTypes j i c) inp cur

/-- `reflect.Kind.String()` of an input's recorded kind (a time input records kind string, parse.go:678-683).
Simplified: the Go kinds `int` and `int64` (`uint` and `uint64`) are one kind in the model, for which Go would print
`int` (`uint`) in the first case; the text occurs in one error message only (resolver.go:963). -/
def kindString : Input → Bytes
  | .scalar .bool _ _ => b%"bool"
  | .scalar (.int .w8) _ _ => b%"int8"
  | .scalar (.int .w16) _ _ => b%"int16"
  | .scalar (.int .w32) _ _ => b%"int32"
  | .scalar (.int .w64) _ _ => b%"int64"
  | .scalar (.uint .w8) _ _ => b%"uint8"
  | .scalar (.uint .w16) _ _ => b%"uint16"
  | .scalar (.uint .w32) _ _ => b%"uint32"
  | .scalar (.uint .w64) _ _ => b%"uint64"
  | .scalar .float32 _ _ => b%"float32"
  | .scalar .float64 _ _ => b%"float64"
  | .scalar .string _ _ => b%"string"
  | .time => b%"string"
  | .file => b%"ptr"
  | .ptr _ => b%"ptr"
  | .slice _ => b%"slice"
  | .array _ _ => b%"array"
  | .struct _ => b%"struct"

/-- the check of a variable's declared (element) type name (resolver.go:983-1023): `some msg` = error -/
def checkVarType (enums : List (EnumDef F)) (inp : Input) (typeName : Bytes) : B Unit :=
  let expect (n : Bytes) : B Unit :=
    if typeName ≠ n then .err (b%"expected variable type " ++ n ++ b%" but got " ++ typeName) else .ok ()
  let expectOrString (n : Bytes) : B Unit :=
    if typeName ≠ n ∧ typeName ≠ b%"String" then .err (b%"expected variable type " ++ n ++ b%" but got " ++ typeName)
    else .ok ()
  match inp with
  | .scalar _ (some e) _ =>
    match enums[e]? with
    | none => .panic
    | some d => expectOrString d.typeName
  | .scalar _ none true => expectOrString b%"ID"
  | .file => expectOrString b%"File"
  | .time => expectOrString b%"Time"
  | .scalar .bool none false => .ok ()
  | .scalar (.int _) none false => expect b%"Int"
  | .scalar (.uint _) none false => expect b%"Int"
  | .scalar .float32 none false => expect b%"Float"
  | .scalar .float64 none false => expect b%"Float"
  | .scalar .string none false => expect b%"String"
  | .array _ _ => expect b%"List"
  | .slice _ => expect b%"List"
  | .struct n => expect n
  | .ptr _ => .err b%"cannot set field using variable"

/-- `ctx.rawVariables` and what `fastjson` makes of it (resolver.go:1047-1061) -/
inductive VarsSrc where
  | empty
  | invalid (msg : Bytes)
  | json (j : J)

/-- `ctx.variables.Get(name)` after parsing: a nil value (parse error) and non-objects have no members (names are not
array indices) -/
def VarsSrc.get : VarsSrc → Bytes → Option J
  | .json (.obj ms), name => Http.get ms name
  | _, _ => none

end Bind
end Yarql
