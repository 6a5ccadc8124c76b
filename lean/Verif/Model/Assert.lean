import Verif.Model.Decimal

/-!
# Model of `/repo/assert/assert.go` and `/repo/assert/assertion_compare.go`: the assertions

An assertion is given Go values, and returns whether it passed and what it reported through `t.Errorf`.
-/

namespace Yarql
namespace Assert

/-! ## Go values as the assertions see them -/

/-- sizes of Go's integers; `plain` is `int`/`uint` -/
inductive Size where
  | plain | s8 | s16 | s32 | s64
deriving DecidableEq, Repr

/-- a `float64` (or `float32`, all of whose values are `float64`s): not a number, finite (the two zeros are one), infinite -/
inductive Fl where
  | nan
  | fin (q : Rat)
  | inf (negative : Bool)
deriving DecidableEq, Repr

/-- keys of maps. `nan` is any key that is not equal to itself -/
inductive Key where
  | str (s : Bytes)
  | int (i : Int)
  | nan
deriving DecidableEq, Repr

/-- a Go `interface{}`. `own`: the type is not the predeclared one of that kind but declared by the user (`type Celsius float64`).
Pointers are taken to lead to finite structures. -/
inductive Val where
  | nil
  | bool (own : Bool) (b : Bool)
  | int (s : Size) (own : Bool) (v : Int)
  | uint (s : Size) (own : Bool) (v : Nat)
  | float (single : Bool) (own : Bool) (x : Fl)
  | string (own : Bool) (s : Bytes)
  | slice (isNil : Bool) (l : List Val)
  | array (l : List Val)
  | map (isNil : Bool) (l : List (Key × Val))
  | struct (l : List Val)
  | ptr (to : Option Val)
  | chan (isNil : Bool) (len : Nat)
  | func (isNil : Bool)

/-- `reflect.Kind`, as far as the code distinguishes them -/
inductive Kind where
  | invalid | bool | int (s : Size) | uint (s : Size) | float32 | float64 | string | slice | array | map | struct | ptr | chan | func
deriving DecidableEq, Repr

/-- `reflect.ValueOf(v).Kind()` -/
def Val.kind : Val → Kind
  | .nil => .invalid
  | .bool _ _ => .bool
  | .int s _ _ => .int s
  | .uint s _ _ => .uint s
  | .float single _ _ => if single then .float32 else .float64
  | .string _ _ => .string
  | .slice _ _ => .slice
  | .array _ => .array
  | .map _ _ => .map
  | .struct _ => .struct
  | .ptr _ => .ptr
  | .chan _ _ => .chan
  | .func _ => .func

/-! ## Reports -/

/-- the assertions of assertion_compare.go -/
inductive Rel where
  | greater | greaterOrEqual | less | lessOrEqual | positive | negative
deriving DecidableEq, Repr

/-- the `failureMessage`s -/
inductive Failure where
  | notSameType
  | cannotCompare
  | not (r : Rel)
  | notNumerical
  | expectedNaN
  | actualNaN
  | difference
  | notSlices
  | notMaps
  | keyCount
  | missingExpected
  | missingActual
  | epsilonNaN
  | relative
  | expectedZero
  | expectedNotFloat
  | actualNotFloat
  | relativeExpectedNaN
  | relativeActualNaN
  | isNil
  | isNotNil
  | isEmpty
  | isNotEmpty
  | isTrue
  | isFalse
  | isZero
  | isNotZero
  | funcs
  | equal
  | notEqual
deriving DecidableEq, Repr

/-- an element of `msgAndArgs`: a string, a list, or something else -/
inductive Arg where
  | str (s : Bytes)
  | list (l : List Arg)
  | other (n : Nat)

/-- one call of `t.Errorf` by `Fail`: the failure and what `messageFromMsgAndArgs` gets -/
structure Report where
  failure : Failure
  msgAndArgs : List Arg

/-- result and reports of an assertion; `none` = a panic -/
abbrev Outcome := Option (Bool × List Report)

/-- `return true` -/
def pass : Outcome := some (true, [])

/-- `Fail` (assert.go:189-210). That formatting `msgAndArgs` panics if the first of several is not a string is left to `messageFromMsgAndArgs`. -/
def fail (f : Failure) (msgAndArgs : List Arg) : Outcome := some (false, [⟨f, msgAndArgs⟩])

/-! ## assertion_compare.go -/

/-- `compareType` (assertion_compare.go:8-14) -/
inductive CompareType where
  | less | equal | greater
deriving DecidableEq, Repr

/-- the three comparisons of each case of `compare` -/
def three (gt eq lt : Bool) : CompareType × Bool :=
  if gt then (.greater, true) else if eq then (.equal, true) else if lt then (.less, true) else (.equal, false)

/-- Go's `<` of floats -/
def Fl.lt : Fl → Fl → Bool
  | .nan, _ => false
  | _, .nan => false
  | .fin a, .fin b => decide (a < b)
  | .fin _, .inf n => !n
  | .inf n, .fin _ => n
  | .inf n, .inf m => n && !m

/-- Go's `==` of floats -/
def Fl.eq : Fl → Fl → Bool
  | .nan, _ => false
  | _, .nan => false
  | a, b => decide (a = b)

/-- Go's `<` of strings: byte by byte -/
def strLt : Bytes → Bytes → Bool
  | [], [] => false
  | [], _ :: _ => true
  | _ :: _, [] => false
  | a :: s, b :: t => if a < b then true else if b < a then false else strLt s t

/-- `compare` (assertion_compare.go:35-305). It is called with the kind of both values only; then the conversions to the predeclared type
(`Convert`) keep the value. -/
def compare (obj1 obj2 : Val) : CompareType × Bool :=
  match obj1, obj2 with
  | .int _ _ x, .int _ _ y => three (decide (x > y)) (decide (x = y)) (decide (x < y))
  | .uint _ _ x, .uint _ _ y => three (decide (x > y)) (decide (x = y)) (decide (x < y))
  | .float _ _ x, .float _ _ y => three (Fl.lt y x) (Fl.eq x y) (Fl.lt x y)
  | .string _ x, .string _ y => three (strLt y x) (decide (x = y)) (strLt x y)
  | _, _ => (.equal, false)

/-- `containsValue` (assertion_compare.go:382-390) -/
def containsValue : List CompareType → CompareType → Bool
  | [], _ => false
  | v :: vs, x => if v = x then true else containsValue vs x

/-- `compareTwoValues` (assertion_compare.go:363-380) -/
def compareTwoValues (e1 e2 : Val) (allowed : List CompareType) (failMessage : Rel) (msgAndArgs : List Arg) : Outcome :=
  if e1.kind ≠ e2.kind then fail .notSameType msgAndArgs
  else if (compare e1 e2).2 = false then fail .cannotCompare msgAndArgs
  else if containsValue allowed (compare e1 e2).1 = false then fail (.not failMessage) msgAndArgs
  else pass

/-- `Greater` (assertion_compare.go:312-314). `msgAndArgs` is handed on as one argument, not as the arguments (no `...`); so do the others. -/
def Greater (e1 e2 : Val) (msgAndArgs : List Arg) : Outcome := compareTwoValues e1 e2 [.greater] .greater [.list msgAndArgs]

/-- `GreaterOrEqual` (assertion_compare.go:322-324) -/
def GreaterOrEqual (e1 e2 : Val) (msgAndArgs : List Arg) : Outcome := compareTwoValues e1 e2 [.greater, .equal] .greaterOrEqual [.list msgAndArgs]

/-- `Less` (assertion_compare.go:331-333) -/
def Less (e1 e2 : Val) (msgAndArgs : List Arg) : Outcome := compareTwoValues e1 e2 [.less] .less [.list msgAndArgs]

/-- `LessOrEqual` (assertion_compare.go:341-343) -/
def LessOrEqual (e1 e2 : Val) (msgAndArgs : List Arg) : Outcome := compareTwoValues e1 e2 [.less, .equal] .lessOrEqual [.list msgAndArgs]

/-- `reflect.Zero(reflect.TypeOf(v)).Interface()`; panics for `nil`. The zero of an array or struct depends on its type, which a `Val` does not
carry; only the kind of it matters here. -/
def zeroOf : Val → Option Val
  | .nil => none
  | .bool own _ => some (.bool own false)
  | .int s own _ => some (.int s own 0)
  | .uint s own _ => some (.uint s own 0)
  | .float s own _ => some (.float s own (.fin 0))
  | .string own _ => some (.string own [])
  | .slice _ _ => some (.slice true [])
  | .array l => some (.array l)
  | .map _ _ => some (.map true [])
  | .struct l => some (.struct l)
  | .ptr _ => some (.ptr none)
  | .chan _ _ => some (.chan true 0)
  | .func _ => some (.func true)

/-- `Positive` (assertion_compare.go:349-352) -/
def Positive (e : Val) (msgAndArgs : List Arg) : Outcome :=
  (zeroOf e).bind (fun z => compareTwoValues e z [.greater] .positive [.list msgAndArgs])

/-- `Negative` (assertion_compare.go:358-361) -/
def Negative (e : Val) (msgAndArgs : List Arg) : Outcome :=
  (zeroOf e).bind (fun z => compareTwoValues e z [.less] .negative [.list msgAndArgs])

/-! ## assert.go: tolerances

`round` is the rounding of exact results to `float64`. -/

/-- `toFloat` (assert.go:487-521): a switch over the predeclared types, so types declared by the user are not numbers -/
def toFloat (round : Rat → Fl) : Val → Option Fl
  | .int _ false v => some (round v)
  | .uint _ false v => some (round v)
  | .float _ false x => some x
  | _ => none

/-- `a - b` -/
def Fl.sub (round : Rat → Fl) : Fl → Fl → Fl
  | .nan, _ => .nan
  | _, .nan => .nan
  | .fin a, .fin b => round (a - b)
  | .fin _, .inf n => .inf (!n)
  | .inf n, .fin _ => .inf n
  | .inf n, .inf m => if n = m then .nan else .inf n

/-- `-a` -/
def Fl.neg : Fl → Fl
  | .nan => .nan
  | .fin a => .fin (-a)
  | .inf n => .inf (!n)

/-- `math.Abs` -/
def Fl.abs : Fl → Fl
  | .nan => .nan
  | .fin a => .fin (if a < 0 then -a else a)
  | .inf _ => .inf false

/-- `a / b`, for a positive `b` (the only use) -/
def Fl.div (round : Rat → Fl) : Fl → Fl → Fl
  | .nan, _ => .nan
  | _, .nan => .nan
  | .fin a, .fin b => round (a / b)
  | .fin _, .inf _ => .fin 0
  | .inf n, .fin _ => .inf n
  | .inf _, .inf _ => .nan

/-- `InDelta` (assert.go:526-548) -/
def InDelta (round : Rat → Fl) (expected actual : Val) (delta : Fl) (msgAndArgs : List Arg) : Outcome :=
  match toFloat round expected, toFloat round actual with
  | some af, some bf =>
    if af = .nan then fail .expectedNaN msgAndArgs
    else if bf = .nan then fail .actualNaN msgAndArgs
    else if Fl.lt (Fl.sub round af bf) (Fl.neg delta) || Fl.lt delta (Fl.sub round af bf) then fail .difference msgAndArgs
    else pass
  | _, _ => fail .notNumerical msgAndArgs

/-- the loop of `InDeltaSlice` and of `InEpsilonSlice` (assert.go:561-566, 662-667): over the elements of `actual`; the element of `expected`
at the same index is the *second* argument, and the loop panics if there is none -/
def overSlice (one : Val → Val → Outcome) : (actual expected : List Val) → Outcome
  | [], _ => pass
  | _ :: _, [] => none
  | a :: as, e :: es => (one a e).bind (fun r => if r.1 = false then some r else overSlice one as es)

/-- `InDeltaSlice` (assert.go:551-569) -/
def InDeltaSlice (round : Rat → Fl) (expected actual : Val) (delta : Fl) (msgAndArgs : List Arg) : Outcome :=
  match expected, actual with
  | .slice _ es, .slice _ as => overSlice (fun a e => InDelta round a e delta msgAndArgs) as es
  | _, _ => fail .notSlices msgAndArgs

/-- `MapIndex` -/
def mapIndex (m : List (Key × Val)) (k : Key) : Option Val :=
  if k = .nan then none else (m.find? (fun p => p.1 = k)).map (·.2)

/-- the loop of `InDeltaMapValues` (assert.go:586-607) over the keys `ks` of `e` -/
def overMap (round : Rat → Fl) (delta : Fl) (msgAndArgs : List Arg) (e a : List (Key × Val)) : List Key → Outcome
  | [] => pass
  | k :: ks =>
    match mapIndex e k, mapIndex a k with
    | none, _ => fail .missingExpected msgAndArgs
    | some _, none => fail .missingActual msgAndArgs
    | some ev, some av => (InDelta round ev av delta msgAndArgs).bind (fun r => if r.1 = false then some r else overMap round delta msgAndArgs e a ks)

/-- `InDeltaMapValues` (assert.go:572-610). The keys come in the order of the list; Go's order is any. -/
def InDeltaMapValues (round : Rat → Fl) (expected actual : Val) (delta : Fl) (msgAndArgs : List Arg) : Outcome :=
  match expected, actual with
  | .map _ es, .map _ as =>
    if es.length ≠ as.length then fail .keyCount msgAndArgs
    else overMap round delta msgAndArgs es as (es.map (·.1))
  | _, _ => fail .notMaps msgAndArgs

/-- `calcRelativeError` (assert.go:612-632) -/
def calcRelativeError (round : Rat → Fl) (expected actual : Val) : Except Failure Fl :=
  match toFloat round expected with
  | none => .error .expectedNotFloat
  | some af =>
    if af = .nan then .error .relativeExpectedNaN
    else if af = .fin 0 then .error .expectedZero
    else match toFloat round actual with
      | none => .error .actualNotFloat
      | some bf => if bf = .nan then .error .relativeActualNaN else .ok (Fl.div round (Fl.abs (Fl.sub round af bf)) (Fl.abs af))

/-- `InEpsilon` (assert.go:635-649) -/
def InEpsilon (round : Rat → Fl) (expected actual : Val) (epsilon : Fl) (msgAndArgs : List Arg) : Outcome :=
  if epsilon = .nan then fail .epsilonNaN []
  else match calcRelativeError round expected actual with
    | .error f => fail f msgAndArgs
    | .ok e => if Fl.lt epsilon e then fail .relative msgAndArgs else pass

/-- `InEpsilonSlice` (assert.go:652-670) -/
def InEpsilonSlice (round : Rat → Fl) (expected actual : Val) (epsilon : Fl) (msgAndArgs : List Arg) : Outcome :=
  match expected, actual with
  | .slice _ es, .slice _ as => overSlice (fun a e => InEpsilon round a e epsilon []) as es
  | _, _ => fail .notSlices msgAndArgs

/-! ## assert.go: nil, empty, zero, true, equal -/

/-- `isNil` (assert.go:326-345) -/
def isNil : Val → Bool
  | .nil => true
  | .chan n _ => n
  | .func n => n
  | .map n _ => n
  | .ptr to => to.isNone
  | .slice n _ => n
  | _ => false

mutual
/-- `reflect.DeepEqual(v, reflect.Zero(reflect.TypeOf(v)).Interface())` for a `v` that is not nil: a slice or map without elements is equal to
nil only if it is nil; as an element of an array or struct, a nil interface is zero -/
def isZero : Val → Bool
  | .nil => true
  | .bool _ b => !b
  | .int _ _ v => decide (v = 0)
  | .uint _ _ v => decide (v = 0)
  | .float _ _ x => Fl.eq x (.fin 0)
  | .string _ s => s.isEmpty
  | .slice n _ => n
  | .array l => allZero l
  | .map n _ => n
  | .struct l => allZero l
  | .ptr to => to.isNone
  | .chan n _ => n
  | .func n => n
/-- elements of an array, fields of a struct -/
def allZero : List Val → Bool
  | [] => true
  | v :: vs => isZero v && allZero vs
end

/-- `isEmpty` (assert.go:358-383) -/
def isEmpty : Val → Bool
  | .nil => true
  | .array l => l.isEmpty
  | .chan _ n => n = 0
  | .map _ l => l.isEmpty
  | .slice _ l => l.isEmpty
  | .ptr none => true
  | .ptr (some v) => isEmpty v
  | v => isZero v

/-- `Nil` (assert.go:350-355) -/
def Nil (v : Val) (msgAndArgs : List Arg) : Outcome := if isNil v then pass else fail .isNotNil msgAndArgs

/-- `NotNil` (assert.go:307-312) -/
def NotNil (v : Val) (msgAndArgs : List Arg) : Outcome := if isNil v = false then pass else fail .isNil msgAndArgs

/-- `Empty` (assert.go:389-396) -/
def Empty (v : Val) (msgAndArgs : List Arg) : Outcome := if isEmpty v = false then fail .isNotEmpty msgAndArgs else pass

/-- `NotEmpty` (assert.go:404-411) -/
def NotEmpty (v : Val) (msgAndArgs : List Arg) : Outcome := if isEmpty v then fail .isEmpty msgAndArgs else pass

/-- `True` (assert.go:416-422) -/
def IsTrue (b : Bool) (msgAndArgs : List Arg) : Outcome := if b = false then fail .isFalse msgAndArgs else pass

/-- `False` (assert.go:427-433) -/
def IsFalse (b : Bool) (msgAndArgs : List Arg) : Outcome := if b then fail .isTrue msgAndArgs else pass

/-- `i == nil` -/
def untypedNil : Val → Bool
  | .nil => true
  | _ => false

/-- `Zero` (assert.go:725-730) -/
def Zero (v : Val) (msgAndArgs : List Arg) : Outcome := if !untypedNil v && !isZero v then fail .isNotZero msgAndArgs else pass

/-- `NotZero` (assert.go:733-738) -/
def NotZero (v : Val) (msgAndArgs : List Arg) : Outcome := if untypedNil v || isZero v then fail .isZero msgAndArgs else pass

/-- `isFunction` (assert.go:803-808) -/
def isFunction : Val → Bool
  | .func _ => true
  | _ => false

/-- `validateEqualArgs` (assert.go:266-275): whether there is an error -/
def invalidEqualArgs (expected actual : Val) : Bool :=
  if untypedNil expected && untypedNil actual then false else isFunction expected || isFunction actual

/-- `Equal` (assert.go:247-262), where `same` is `ObjectsAreEqual` -/
def Equal (same : Val → Val → Bool) (expected actual : Val) (msgAndArgs : List Arg) : Outcome :=
  if invalidEqualArgs expected actual then fail .funcs msgAndArgs
  else if same expected actual = false then fail .notEqual msgAndArgs
  else pass

/-- `NotEqual` (assert.go:441-452) -/
def NotEqual (same : Val → Val → Bool) (expected actual : Val) (msgAndArgs : List Arg) : Outcome :=
  if invalidEqualArgs expected actual then fail .funcs msgAndArgs
  else if same expected actual then fail .equal msgAndArgs
  else pass

/-! ## assert.go: the text of a failure -/

/-- `messageFromMsgAndArgs` (assert.go:152-167). `sprintf` is `fmt.Sprintf` (the first argument a string), `plusV` the format `%+v`. `none`: the first
of several arguments is not a string, which panics. -/
def messageFromMsgAndArgs (sprintf : Bytes → List Arg → Bytes) (plusV : Arg → Bytes) : List Arg → Option Bytes
  | [] => some []
  | [.str s] => some s
  | [a] => some (plusV a)
  | .str s :: as => some (sprintf s as)
  | _ => none

/-- `bufio.MaxScanTokenSize` -/
def maxToken : Nat := 64 * 1024

/-- the lines a `bufio.Scanner` finds: up to the first `\n` or the end, without a final `\r` (`bufio.ScanLines`); the scanner gives up at the first
line that does not fit into its buffer (with its newline). `line` is the line so far, reversed. -/
def scan (line : Bytes) : Bytes → List Bytes
  | [] => if line = [] then [] else if line.length ≥ maxToken then [] else [dropCR line]
  | c :: cs =>
    if c = 10 then (if line.length ≥ maxToken then [] else dropCR line :: scan [] cs)
    else scan (c :: line) cs
where
  /-- `dropCR` of `bufio` (on the reversed line), and the line the right way round -/
  dropCR : Bytes → Bytes
    | 13 :: l => l.reverse
    | l => l.reverse

/-- the loop of `indentMessageLines` (assert.go:176-183) after the first line -/
def indentRest (longest : Nat) : List Bytes → Bytes
  | [] => []
  | l :: ls => 10 :: 9 :: (List.replicate (longest + 1) 32 ++ 9 :: l ++ indentRest longest ls)

/-- `indentMessageLines` (assert.go:173-186) -/
def indentMessageLines (message : Bytes) (longest : Nat) : Bytes :=
  match scan [] message with
  | [] => []
  | l :: ls => l ++ indentRest longest ls

/-- the first loop of `labeledOutput` (assert.go:228-232) -/
def longestLabel (content : List (Bytes × Bytes)) : Nat := content.foldl (fun m v => if v.1.length > m then v.1.length else m) 0

/-- the second loop of `labeledOutput` (assert.go:234-236) -/
def sections (longest : Nat) : List (Bytes × Bytes) → Bytes
  | [] => []
  | v :: vs => 9 :: (v.1 ++ 58 :: (List.replicate (longest - v.1.length) 32 ++ 9 :: (indentMessageLines v.2 longest ++ 10 :: sections longest vs)))

/-- `labeledOutput` (assert.go:226-238) -/
def labeledOutput (content : List (Bytes × Bytes)) : Bytes := sections (longestLabel content) content

end Assert
end Yarql
