import Verif.Spec.Shows

/-!
# What any function is called with, and why a call is refused

`Delivered inp x y`: a Go variable of input type `inp` that held `x` may hold `y` after something was bound to it, whatever it was: a literal,
a variable, a default value.  `CalledWith m inputs`: what a function of signature `m` may be called with.  `Reason params msg`: the reasons for
which binding the arguments of a function with parameters `params` fails.

Unlike `Spec/Binding.lean` this does not say which value is delivered for what is written in the query.
-/

namespace Yarql
namespace Delivered
open Binding Http

section
variable {F V W : Type}
variable (env : Env F V W) (enums : List (EnumDef F)) (inTypes : List (Bytes × InStruct F))

inductive Delivered : Input → InVal F → InVal F → Prop where
  | same {inp x} : Delivered inp x x
  | int {w e id x i} : InRange w i → Delivered (.scalar (.int w) e id) x (.scalar (.int i))
  | uint {w e id x n} : InURange w n → Delivered (.scalar (.uint w) e id) x (.scalar (.uint n))
  | float32 {e id x f} : Delivered (.scalar .float32 e id) x (.scalar (.float f))
  | float64 {e id x f} : Delivered (.scalar .float64 e id) x (.scalar (.float f))
  | bool {e id x b} : Delivered (.scalar .bool e id) x (.scalar (.bool b))
  | string {id x s} : Delivered (.scalar .string none id) x (.scalar (.string s))
  /-- a value registered in the enum -/
  | enum {k e id x key s} : EnumValue enums e key s → Delivered (.scalar k (some e) id) x (.scalar s)
  | time {x s t} : Time.Reads s t → Delivered .time x (.time t)
  | file {x s f h} : env.formFile = some f → f s = .ok h → Delivered .file x (.file h)
  /-- pointers point to fresh values, lists have fresh elements -/
  | ptr {e x y} : Delivered e (Zero env inTypes e) y → Delivered (.ptr e) x (.ptr (some y))
  | list {e x ys} : (∀ y ∈ ys, Delivered e (Zero env inTypes e) y) → Delivered (.slice e) x (.slice (some ys))
  /-- declared members are replaced, one after the other -/
  | member {n d x y f old z y'} : lookup inTypes n = some d → Delivered (.struct n) x y → f ∈ d.fields →
      WithField y f.goFieldIdx old z y' → Delivered f.input old z → Delivered (.struct n) x y'

/-- The inputs of a function before anything is bound: the context, and structs of zero values. -/
def fresh (m : Method F) : List (Arg F) := m.ins.map (fun i => match i with | .ctx => .ctx | .struct z => .val z)

/-- declared parameters are replaced, one after the other -/
inductive CalledWith (m : Method F) : List (Arg F) → Prop where
  | fresh : CalledWith m (fresh m)
  | arg {inputs a old x inputs'} : CalledWith m inputs → a ∈ m.inFields → WithArg inputs a old x inputs' →
      Delivered env enums inTypes a.input old x → CalledWith m inputs'

def bitsText : Width → Bytes
  | .w8 => b%"8"
  | .w16 => b%"16"
  | .w32 => b%"32"
  | .w64 => b%"64"

/-- the name of the kind of a Go type -/
def kindName : Input → Bytes
  | .scalar .bool _ _ => b%"bool"
  | .scalar (.int w) _ _ => b%"int" ++ bitsText w
  | .scalar (.uint w) _ _ => b%"uint" ++ bitsText w
  | .scalar .float32 _ _ => b%"float32"
  | .scalar .float64 _ _ => b%"float64"
  | .scalar .string _ _ => b%"string"
  | .time => b%"string"
  | .array _ _ => b%"array"
  | .slice _ => b%"slice"
  | .struct _ => b%"struct"
  | _ => b%"ptr"

/-- the name of the kind of a JSON value -/
def jsonName : J → Bytes
  | .null => b%"null"
  | .bool b => if b then b%"true" else b%"false"
  | .num _ => b%"number"
  | .str _ => b%"string"
  | .arr _ => b%"array"
  | .obj _ => b%"object"

/-- how a Go variable is shown in a message: the text of a string, the type of anything else -/
inductive Shown : Input → Bytes → Prop where
  | text {e id s} : Shown (.scalar .string e id) s
  | type {inp} : (∀ e id, inp ≠ .scalar .string e id) → Shown inp (env.typeString inp)

/-- the name a variable for the parameter is expected to be declared with -/
inductive Named : Input → Bytes → Prop where
  | enum {k e id d} : enums[e]? = some d → Named (.scalar k (some e) id) d.typeName
  | id {k} : Named (.scalar k none true) b%"ID"
  | file : Named .file b%"File"
  | time : Named .time b%"Time"
  | int {w} : Named (.scalar (.int w) none false) b%"Int"
  | uint {w} : Named (.scalar (.uint w) none false) b%"Int"
  | float32 : Named (.scalar .float32 none false) b%"Float"
  | float64 : Named (.scalar .float64 none false) b%"Float"
  | string : Named (.scalar .string none false) b%"String"
  | array {n e} : Named (.array n e) b%"List"
  | list {e} : Named (.slice e) b%"List"
  | struct {n} : Named (.struct n) n

/-- parameters that take JSON strings only, and how they are called in messages -/
inductive TextKind : Input → Bytes → Prop where
  | enum {k e id} : TextKind (.scalar k (some e) id) b%"Enum"
  | id {k} : TextKind (.scalar k none true) b%"ID"
  | file : TextKind .file b%"File"
  | time : TextKind .time b%"Time"

variable (vars : Bind.VarsSrc)

/-- `Refused inp msg`: what is given for a parameter of type `inp` can be refused with the message `msg`. -/
inductive Refused : Input → Bytes → Prop where
  /-- something inside is refused -/
  | inPtr {e msg} : Refused e msg → Refused (.ptr e) msg
  | inList {e msg} : Refused e msg → Refused (.slice e) msg
  | inMember {n d f msg} : lookup inTypes n = some d → f ∈ d.fields → Refused f.input msg → Refused (.struct n) msg
  | noMember {n d k} : lookup inTypes n = some d → (∀ f ∈ d.fields, f.key ≠ k) → Refused (.struct n) (b%"undefined property " ++ k)
  | noTimeMember {k} : Refused .time (b%"undefined property " ++ k)
  /-- integer literals: not a 64 bit number, or out of range -/
  | noNumber {k e id d} : k ≠ .string → (∀ w, k ≠ .uint w) → (¬ ∃ i, IntText d i ∧ InRange .w64 i) →
      Refused (.scalar k e id) (env.numError b%"ParseInt" d)
  | range {w e id d i} : IntText d i → ¬ InRange w i →
      Refused (.scalar (.int w) e id) (b%"cannot assign " ++ d ++ b%" to a " ++ bitsText w ++ b%"bit integer")
  | noNatural {w e id d} : (¬ ∃ n, NatText d n ∧ InURange .w64 n) → Refused (.scalar (.uint w) e id) (env.numError b%"ParseUint" d)
  | natRange {w e id d n} : NatText d n → ¬ InURange w n →
      Refused (.scalar (.uint w) e id) (b%"cannot assign " ++ d ++ b%" to a " ++ bitsText w ++ b%"bit unsigned integer")
  | noInt {inp t} : (∀ k e id, inp = .scalar k e id → k = .string) → Shown env inp t → Refused inp (b%"cannot assign int to " ++ t)
  /-- other literals -/
  | badFloat {k e id d} : (k = .float32 ∨ k = .float64) → env.parseFloat d = none → Refused (.scalar k e id) (env.numError b%"ParseFloat" d)
  | noFloat {inp t} : (∀ k e id, inp = .scalar k e id → k ≠ .float32 ∧ k ≠ .float64) → Shown env inp t → Refused inp (b%"cannot assign float to " ++ t)
  | noString {inp t} : ¬ TextOnly inp → (∀ e id, inp ≠ .scalar .string e id) → Shown env inp t → Refused inp (b%"cannot assign string to " ++ t)
  | noBool {inp t} : (∀ e id, inp ≠ .scalar .bool e id) → Shown env inp t → Refused inp (b%"cannot assign boolean to " ++ t)
  | noEnum {inp} : (∀ k e id, inp ≠ .scalar k (some e) id) → Refused inp b%"cannot assign enum to non enum value"
  | noList {inp t} : (∀ e, inp ≠ .slice e) → Shown env inp t → Refused inp (b%"cannot assign list to " ++ t)
  | array {n e} : Refused (.array n e) b%"fixed length arrays not supported"
  | noObject {inp t} : (∀ n, inp ≠ .struct n) → inp ≠ .time → Shown env inp t → Refused inp (b%"cannot assign object to " ++ t)
  /-- JSON values -/
  | noJsonNumber {inp d} : (∀ k e id, inp = .scalar k e id → k ≠ .float32 ∧ k ≠ .float64) → (¬ ∃ i, IntText d i ∧ InRange .w64 i) →
      Refused inp (env.jsonIntError d)
  | jsonRange {w i t} : ¬ InRange w i → Shows.IntCanon t i →
      Refused (.scalar (.int w) none false) (b%"cannot assign " ++ t ++ b%" to a " ++ bitsText w ++ b%"bit integer")
  | negative {w i t} : i < 0 → Shows.IntCanon t i → Refused (.scalar (.uint w) none false) (b%"cannot assign " ++ t ++ b%" to a unsigned integer")
  | jsonNumber {inp t} : (∀ k e id, inp = .scalar k e id → k = .string) → Shown env inp t → Refused inp (b%"cannot assign number to " ++ t)
  | jsonList {inp t} : (∀ e, inp ≠ .slice e) → Shown env inp t → Refused inp (b%"cannot assign slice to " ++ t)
  | jsonObject {inp} : (∀ n, inp ≠ .struct n) → Refused inp b%"cannot assign object to non object value"
  | jsonKind {inp what j} : TextKind inp what → (∀ s, j ≠ .str s) → Refused inp (b%"cannot assign " ++ jsonName j ++ b%" to " ++ what ++ b%" value")
  /-- texts: a key that is not registered, an ID that is no number, a date that is no date, a file that is no file -/
  | unknownKey {k e id d key} : enums[e]? = some d → (∀ x ∈ d.entries, x.1 ≠ key) →
      Refused (.scalar k (some e) id) (b%"unknown enum value " ++ key ++ b%" for enum " ++ d.typeName)
  | enumKind {k e id d} : enums[e]? = some d → (d.kind = .bool ∨ d.kind = .float32 ∨ d.kind = .float64) →
      Refused (.scalar k (some e) id) b%"internal error, type missmatch on enum"
  | idNumber {k} : ((∃ w, k = .int w) ∨ ∃ w, k = .uint w) → Refused (.scalar k none true) b%"id argument must match a number type"
  | idNegative {w} : Refused (.scalar (.uint w) none true) b%"id argument must match a number above 0"
  | idKind {k} : (k = .bool ∨ k = .float32 ∨ k = .float64) → Refused (.scalar k none true) b%"internal error: cannot assign to this ID field"
  | noTime {s} : (∀ t, ¬ Time.Reads s t) → Refused .time b%"time value doesn't match the ISO 8601 layout"
  | noFiles : env.formFile = none → Refused .file b%"form files are not supported"
  | file {f s msg} : env.formFile = some f → f s = .error msg → Refused .file msg
  /-- variables -/
  | notHere {inp} : Refused inp b%"variables are not allowed here"
  | undeclared {inp n} : Refused inp (b%"variable " ++ n ++ b%" not defined")
  | listType {inp n} : (∀ e, inp ≠ .slice e) → Refused inp (b%"variable $" ++ n ++ b%" cannot be bind to " ++ kindName inp)
  | otherType {inp expected got} : Named enums inp expected → ¬ TypeFits enums inp got →
      Refused inp (b%"expected variable type " ++ expected ++ b%" but got " ++ got)
  | pointer {e} : Refused (.ptr e) b%"cannot set field using variable"
  | noValue {inp} : Refused inp b%"variable has no value nor default"
  | noVariables {inp} : (∀ ms, vars ≠ .json (.obj ms)) → Refused inp b%"variables provided must be of type object"
  | badVariables {inp msg} : vars = .invalid msg → Refused inp msg

/-- why a function with the parameters `params` is not called -/
inductive Reason (params : List ArgField) : Bytes → Prop where
  | noParameter {k} : (∀ a ∈ params, a.key ≠ k) → Reason params (b%"undefined input: " ++ k)
  | argument {a msg} : a ∈ params → Refused env enums inTypes vars a.input msg → Reason params msg

end
end Delivered
end Yarql
