import Verif.Spec.Assert
import Verif.Model.AssertError

/-!
# What the assertions about errors and the place of a report should do
-/

namespace Yarql
namespace Assert

/-- it passes and reports nothing -/
def Silent (r : Told) : Prop := r.passed = true ∧ r.reports = []

/-- it fails with one report, with this message and what the user gave -/
def Reports (r : Told) (message : Bytes) (m : List Arg) : Prop := r.passed = false ∧ r.reports = [(message, m)]

/-- An error matches a target if it or an error in it is the target, or says that it is. Only nil matches nil. -/
inductive Matches : Err → Err → Prop where
  | nil : Matches [] []
  | equal {before l after t rest} : t.comparable = true → l.id = t.id → Matches (before ++ l :: after) (t :: rest)
  | claims {before l after t rest} : l.is t.id = true → Matches (before ++ l :: after) (t :: rest)

/-- texts one below the other -/
inductive Stacked : List Bytes → Bytes → Prop where
  | none : Stacked [] []
  | one {x} : Stacked [x] x
  | more {x y ys t} : Stacked (y :: ys) t → Stacked (x :: y :: ys) (x ++ b%"\n\t" ++ t)

/-- A function name whose last part is `base`. -/
def Named (base name : Bytes) : Prop := c%'.' ∉ base ∧ (name = base ∨ ∃ package, name = package ++ c%'.' :: base)

/-- A file in a directory. -/
def Lies (dir file path : Bytes) : Prop := c%'/' ∉ dir ∧ c%'/' ∉ file ∧ (path = dir ++ c%'/' :: file ∨ ∃ above, path = above ++ c%'/' :: (dir ++ c%'/' :: file))

/-- The name of a test: `Test`, `Benchmark` or `Example`, alone or followed by something that does not start with a lower case letter. -/
inductive TestName (lower : Bytes → Bool) : Bytes → Prop where
  | alone {pre} : pre ∈ [b%"Test", b%"Benchmark", b%"Example"] → TestName lower pre
  | more {pre rest} : pre ∈ [b%"Test", b%"Benchmark", b%"Example"] → rest ≠ [] → lower rest = false → TestName lower (pre ++ rest)

/-- The directories whose files are taken for those of an assertion library. -/
def libraries : List Bytes := [b%"assert", b%"mock", b%"require"]

/-- a call of a function of a library that is not a test, -/
def InLibrary (lower : Bytes → Bool) (f : Frame) : Prop :=
  (∃ dir file, Lies dir file f.file ∧ dir ∈ libraries ∧ file ≠ b%"mock_test.go") ∧ f.file ≠ b%"<autogenerated>" ∧
    ∃ name base, f.name = some name ∧ Named base name ∧ name ≠ b%"testing.tRunner" ∧ ¬ TestName lower base

/-- a call of a function that is neither in a library nor a test, at this place, -/
def Helper (lower : Bytes → Bool) (f : Frame) (place : Bytes) : Prop :=
  (∃ dir file, Lies dir file f.file ∧ dir ∉ libraries ∧ place = file ++ c%':' :: natDigits f.line) ∧ f.file ≠ b%"<autogenerated>" ∧
    ∃ name base, f.name = some name ∧ Named base name ∧ name ≠ b%"testing.tRunner" ∧ ¬ TestName lower base

/-- and a call of a test. -/
def IsTest (lower : Bytes → Bool) (f : Frame) (place : Bytes) : Prop :=
  (∃ dir file, Lies dir file f.file ∧ dir ∉ libraries ∧ place = file ++ c%':' :: natDigits f.line) ∧ f.file ≠ b%"<autogenerated>" ∧
    ∃ name base, f.name = some name ∧ Named base name ∧ name ≠ b%"testing.tRunner" ∧ TestName lower base

/-- The calls, the innermost first, and the places a report should name: those outside of libraries, up to the test or to the runner of tests. -/
inductive Trace (lower : Bytes → Bool) : List Frame → List Bytes → Prop where
  | library {f fs ps} : InLibrary lower f → Trace lower fs ps → Trace lower (f :: fs) ps
  | helper {f fs p ps} : Helper lower f p → Trace lower fs ps → Trace lower (f :: fs) (p :: ps)
  | test {f fs p} : IsTest lower f p → Trace lower (f :: fs) [p]
  | runner {f fs} : f.name = some b%"testing.tRunner" → Trace lower (f :: fs) []

/-- A section of a report: nothing if there is no text for it, else a label and the lines of the text, each short enough. -/
inductive Section (label : Bytes) : Option Bytes → List (Bytes × List Bytes) → Prop where
  | left : Section label none []
  | some {text lines} : Lines text lines → (∀ l ∈ lines, l.length < 65535) → Section label (some text) [(label, lines)]

/-- The lines that name places: one each, the first one not indented. -/
def placeLines : List Bytes → List Bytes
  | [] => []
  | p :: ps => p :: ps.map fun p => [9, 9, 9] ++ p

/-- What a failure should say on behalf of the user who gave `msgAndArgs`: nothing, a text as it stands (a `%` in it means nothing), any other single
value in the format `%+v`, and several values formatted by the first one. -/
inductive Wanted (sprintf : Bytes → List Arg → Bytes) (plusV : Arg → Bytes) : List Arg → Bytes → Prop where
  | nothing : Wanted sprintf plusV [] []
  | text {s} : Wanted sprintf plusV [.str s] s
  | value {v} : (∀ s, v ≠ .str s) → Wanted sprintf plusV [v] (plusV v)
  | format {f v vs} : Wanted sprintf plusV (.str f :: v :: vs) (sprintf f (v :: vs))

end Assert
end Yarql
