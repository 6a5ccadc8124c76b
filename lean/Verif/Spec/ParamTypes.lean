import Verif.Spec.Explained

/-!
# Values of parameter types

`Of inp x`: `x` is a Go value of the parameter type `inp`: integers are in range, a string enum holds the empty text or a registered value, ...
-/

namespace Yarql
namespace ParamTypes
open Binding

section
variable {F : Type} (enums : List (EnumDef F)) (inTypes : List (Bytes × InStruct F))

inductive Of : Input → InVal F → Prop where
  | bool {e id b} : Of (.scalar .bool e id) (.scalar (.bool b))
  | int {w e id i} : InRange w i → Of (.scalar (.int w) e id) (.scalar (.int i))
  | uint {w e id n} : InURange w n → Of (.scalar (.uint w) e id) (.scalar (.uint n))
  | float32 {e id f} : Of (.scalar .float32 e id) (.scalar (.float f))
  | float64 {e id f} : Of (.scalar .float64 e id) (.scalar (.float f))
  | string {id s} : Of (.scalar .string none id) (.scalar (.string s))
  /-- a string enum that is not given is empty -/
  | noEnum {e id} : Of (.scalar .string (some e) id) (.scalar (.string []))
  | enum {k e id d key s} : enums[e]? = some d → (key, s) ∈ d.entries → Of (.scalar k (some e) id) (.scalar s)
  | time {t} : Of .time (.time t)
  | file {f} : Of .file (.file f)
  | nilPtr {e} : Of (.ptr e) (.ptr none)
  | ptr {e x} : Of e x → Of (.ptr e) (.ptr (some x))
  | nilList {e} : Of (.slice e) (.slice none)
  | list {e xs} : (∀ x ∈ xs, Of e x) → Of (.slice e) (.slice (some xs))
  | array {n e xs} : xs.length = n → (∀ x ∈ xs, Of e x) → Of (.array n e) (.array xs)
  | struct {n d vs} : lookup inTypes n = some d → (∀ f ∈ d.fields, f.goFieldIdx < vs.length) →
      (∀ f ∈ d.fields, ∀ x, vs[f.goFieldIdx]? = some x → Of f.input x) → Of (.struct n) (.struct vs)
  /-- types that are not known: anything -/
  | unknown {n x} : lookup inTypes n = none → Of (.struct n) x

/-- The inputs of a function: all declared parameters are there and have values of their types. -/
def Inputs (m : Method F) (inputs : List (Arg F)) : Prop :=
  ∀ a ∈ m.inFields, ∃ vs x, inputs[a.inputIdx]? = some (.val (.struct vs)) ∧ vs[a.goFieldIdx]? = some x ∧ Of enums inTypes a.input x

/-- Struct types as Go has them: a struct field has one type, and the zero value is a value of the type. -/
def StructsOK : Prop := ∀ n d, lookup inTypes n = some d →
  (∀ f ∈ d.fields, ∀ g ∈ d.fields, f.goFieldIdx = g.goFieldIdx → f.input = g.input) ∧ Of enums inTypes (.struct n) d.zero

/-- Signatures as Go has them: a parameter has one type, and the zero value is a value of it. -/
def SignatureOK (m : Method F) : Prop :=
  (∀ a ∈ m.inFields, ∀ b ∈ m.inFields, a.inputIdx = b.inputIdx → a.goFieldIdx = b.goFieldIdx → a.input = b.input) ∧
  Inputs enums inTypes m (Delivered.fresh m)

end
end ParamTypes
end Yarql
