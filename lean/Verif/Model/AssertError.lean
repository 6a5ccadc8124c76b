import Verif.Model.Assert

/-!
# Model of `/repo/assert/assert.go`: assertions about errors and panics, and where a report says it comes from
-/

namespace Yarql
namespace Assert

/-! ## Errors -/

/-- an error value: what it is when compared with `==` (`id`; `comparable`: its type can be compared), its text, and what its method
`Is(error) bool` says of a given error (`false` without that method) -/
structure Link where
  id : Nat
  comparable : Bool
  text : Bytes
  is : Nat → Bool

/-- an `error`: `[]` is nil; otherwise the value, and behind it what `errors.Unwrap` gives, again and again (which is taken to end) -/
abbrev Err := List Link

/-- `errors.Is` of the standard library (go 1.16, as go.mod says): the loop -/
def isLoop (target : Link) : Err → Bool
  | [] => false
  | l :: ls => if target.comparable && l.id == target.id then true else if l.is target.id then true else isLoop target ls

/-- `errors.Is` -/
def errorsIs (err : Err) : Err → Bool
  | [] => err.isEmpty
  | t :: _ => isLoop t err

/-- `errors.As` of the standard library: the value the target is set to; `fits` tells if a value is of the type of the target or if its method
`As` takes the target -/
def errorsAs (fits : Link → Bool) : Err → Option Link
  | [] => none
  | l :: ls => if fits l then some l else errorsAs fits ls

/-- result and calls of `Fail` with their failure message and `msgAndArgs` -/
structure Told where
  passed : Bool
  reports : List (Bytes × List Arg)

/-- `return true` -/
def fine : Told := ⟨true, []⟩

/-- `return Fail(t, message, msgAndArgs...)` -/
def failWith (message : Bytes) (msgAndArgs : List Arg) : Told := ⟨false, [(message, msgAndArgs)]⟩

/-- `err.Error()` of an error that is not nil -/
def errorText : Err → Bytes
  | [] => []
  | l :: _ => l.text

/-- `NoError` (assert.go:682-688); `plus` is the format `%+v` -/
def NoError (plus : Err → Bytes) (err : Err) (msgAndArgs : List Arg) : Told :=
  if err ≠ [] then failWith (b%"Received unexpected error:\n" ++ plus err) msgAndArgs else fine

/-- `Error` (assert.go:696-702) -/
def Error (err : Err) (msgAndArgs : List Arg) : Told :=
  if err = [] then failWith b%"An error is expected but got nil." msgAndArgs else fine

/-- `EqualError` (assert.go:709-722); `quote` is the format `%q` -/
def EqualError (quote : Bytes → Bytes) (err : Err) (errString : Bytes) (msgAndArgs : List Arg) : Told :=
  if (Error err msgAndArgs).passed = false then ⟨false, (Error err msgAndArgs).reports⟩
  else if errString ≠ errorText err then
    failWith (b%"Error message not equal:\nexpected: " ++ quote errString ++ b%"\nactual  : " ++ quote (errorText err)) msgAndArgs
  else fine

/-- the loop of `buildErrorChainString` (assert.go:872-875) -/
def chainRest (quote : Bytes → Bytes) : Err → Bytes
  | [] => []
  | l :: ls => b%"\n\t" ++ quote l.text ++ chainRest quote ls

/-- `buildErrorChainString` (assert.go:865-877) -/
def buildErrorChainString (quote : Bytes → Bytes) : Err → Bytes
  | [] => []
  | l :: ls => quote l.text ++ chainRest quote ls

/-- `ErrorIs` (assert.go:812-828) -/
def ErrorIs (quote : Bytes → Bytes) (err target : Err) (msgAndArgs : List Arg) : Told :=
  if errorsIs err target then fine
  else failWith (b%"Target error should be in err chain:\nexpected: " ++ quote (errorText target) ++ b%"\nin chain: " ++ buildErrorChainString quote err) msgAndArgs

/-- `NotErrorIs` (assert.go:832-848) -/
def NotErrorIs (quote : Bytes → Bytes) (err target : Err) (msgAndArgs : List Arg) : Told :=
  if errorsIs err target = false then fine
  else failWith (b%"Target error should not be in err chain:\nfound: " ++ quote (errorText target) ++ b%"\nin chain: " ++ buildErrorChainString quote err) msgAndArgs

/-- `ErrorAs` (assert.go:852-863) with what the target is set to; `target` is the target in the format `%q` -/
def ErrorAs (quote : Bytes → Bytes) (target : Bytes) (fits : Link → Bool) (err : Err) (msgAndArgs : List Arg) : Told × Option Link :=
  match errorsAs fits err with
  | some l => (fine, some l)
  | none => (failWith (b%"Should be in error chain:\nexpected: " ++ target ++ b%"\nin chain: " ++ buildErrorChainString quote err) msgAndArgs, none)

/-! ## Panics -/

/-- how a call of a function ends: it returns, panics with a value (`none` is nil), or ends its goroutine (`runtime.Goexit`, which
`t.FailNow` calls) -/
inductive Run where
  | returns
  | panics (v : Option Nat)
  | exits
deriving DecidableEq

/-- `didPanic` (assert.go:455-474): if it did, and the value; `none`: it does not return. Of a panic with nil `recover` returns nil (before
go 1.21, and for a go.mod of an earlier version, as this one) -/
def didPanic : Run → Option (Bool × Option Nat)
  | .returns => some (false, none)
  | .panics v => if v ≠ none then some (true, v) else some (false, v)
  | .exits => none

/-- `Panics` (assert.go:479-485); `sharp` is the format `%#v` -/
def Panics (sharp : Option Nat → Bytes) (f : Run) (msgAndArgs : List Arg) : Option Told :=
  (didPanic f).map fun r => if r.1 = false then failWith (b%"func f should panic\n\tPanic value:\t" ++ sharp r.2) msgAndArgs else fine

/-! ## The place of a report -/

/-- what `runtime.Caller` says of a call: the file, the line and the name of the function (`none`: `runtime.FuncForPC` finds none) -/
structure Frame where
  file : Bytes
  line : Nat
  name : Option Bytes

/-- `strings.Split(s, sep)` for one byte -/
def split (sep : Byte) : Bytes → List Bytes
  | [] => [[]]
  | c :: cs =>
    if c = sep then [] :: split sep cs
    else match split sep cs with
      | [] => [[c]]
      | l :: ls => (c :: l) :: ls

/-- `isTest` (assert.go:141-150); `lower` tells if the first rune is a lower case letter -/
def isTest (lower : Bytes → Bool) (name pre : Bytes) : Bool :=
  if ¬ pre <+: name then false
  else if name.length = pre.length then true
  else !lower (name.drop pre.length)

/-- the last element, or nothing of an empty list (which `split` never gives) -/
def lastPart (l : List Bytes) : Bytes := l.getLast?.getD []

/-- one round of the loop of `callerInfo` (assert.go:110-118): what is appended -/
def shown (f : Frame) : List Bytes :=
  let parts := split c%'/' f.file
  let file := lastPart parts
  if parts.length > 1 then
    let dir := lastPart parts.dropLast
    if (dir ≠ b%"assert" ∧ dir ≠ b%"mock" ∧ dir ≠ b%"require") ∨ file = b%"mock_test.go" then [file ++ c%':' :: natDigits f.line] else []
  else []

/-- `callerInfo` (assert.go:79-136): the loop; at the end of the list `runtime.Caller` fails -/
def callerInfo (lower : Bytes → Bool) : List Frame → List Bytes
  | [] => []
  | f :: fs =>
    if f.file = b%"<autogenerated>" then []
    else match f.name with
      | none => []
      | some name =>
        if name = b%"testing.tRunner" then []
        else
          let last := lastPart (split c%'.' name)
          if isTest lower last b%"Test" || isTest lower last b%"Benchmark" || isTest lower last b%"Example" then shown f
          else shown f ++ callerInfo lower fs

/-- the lines of a report that say where it comes from: `strings.Join(callerInfo(), "\n\t\t\t")` (assert.go:191) -/
def errorTrace : List Bytes → Bytes
  | [] => []
  | [l] => l
  | l :: ls => l ++ b%"\n\t\t\t" ++ errorTrace ls

/-- the sections of a report (assert.go:190-206), with its place; `test`: the name of the test, if `t` tells it; the message as
`messageFromMsgAndArgs` gives it -/
def reportContent (places : List Bytes) (failure : Bytes) (test : Option Bytes) (message : Bytes) : List (Bytes × Bytes) :=
  [(b%"Error Trace", errorTrace places), (b%"Error", failure)] ++ (match test with | some n => [(b%"Test", n)] | none => []) ++
    (if message.length > 0 then [(b%"Messages", message)] else [])

/-- `Fail` (assert.go:189-210), called with this stack by a `t` with this name: its result and what it gives to `t.Errorf`, formatted. `none`: it panics.
`sprintf` is `fmt.Sprintf`, `plusV` the format `%+v`. -/
def Fail (lower : Bytes → Bool) (sprintf : Bytes → List Arg → Bytes) (plusV : Arg → Bytes) (stack : List Frame) (test : Option Bytes) (failure : Bytes)
    (msgAndArgs : List Arg) : Option (Bool × Bytes) :=
  match messageFromMsgAndArgs sprintf plusV msgAndArgs with
  | none => none
  | some message => some (false, b%"\n" ++ labeledOutput (reportContent (callerInfo lower stack) failure test message))

end Assert
end Yarql
