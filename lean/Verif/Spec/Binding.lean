import Verif.Model.Bind
import Verif.Spec.Document
import Verif.Spec.Time

/-!
# What it means that an argument is delivered to a Go parameter

`Lit … v inp cur x set`: the literal `v`, given for a Go variable of type `inp` that holds `cur`, makes it hold `x`;
`set = false`: it counts as not given (null).  `FromJSON` is the same for a JSON value from the variables object.

The relations list the successful deliveries only, with the numbers as mathematical integers; they share with the model
(`Model/Bind.lean`) the data types and the environment's opaque floating point functions, but none of its
conversion functions.
-/

namespace Yarql
namespace Binding
open Doc Http

/-! ## Numbers -/

/-- value of a string of decimal digits -/
def decimal (ds : Bytes) : Nat := ds.foldl (fun a b => a * 10 + (b.toNat - 48)) 0

/-- `d` is a non-empty string of decimal digits with value `n` -/
def NatText (d : Bytes) (n : Nat) : Prop := d ≠ [] ∧ Digits d ∧ decimal d = n

/-- `d` is a decimal integer, with an optional sign, of value `i` -/
def IntText (d : Bytes) (i : Int) : Prop :=
  ∃ ds n, NatText ds n ∧ ((d = ds ∧ i = n) ∨ (d = c%'+' :: ds ∧ i = n) ∨ (d = c%'-' :: ds ∧ i = -(n : Int)))

/-- the values of a signed integer type -/
def InRange (w : Width) (i : Int) : Prop := -(2 ^ (w.bits - 1) : Int) ≤ i ∧ i < 2 ^ (w.bits - 1)

/-- the values of an unsigned integer type -/
def InURange (w : Width) (n : Nat) : Prop := n < 2 ^ w.bits

/-- `i` truncated to a signed type: the value of the type that is congruent to `i` -/
def Truncates (w : Width) (i j : Int) : Prop := InRange w j ∧ (2 ^ w.bits : Int) ∣ i - j

/-- `n` truncated to an unsigned type -/
def UTruncates (w : Width) (n m : Nat) : Prop := InURange w m ∧ (2 ^ w.bits : Int) ∣ (n : Int) - m

section
variable {F V W : Type}

/-- the Go value registered under `key` in an enum -/
def EnumValue (enums : List (EnumDef F)) (idx : Nat) (key : Bytes) (x : Scalar F) : Prop :=
  ∃ e, enums[idx]? = some e ∧ (e.kind = .string ∨ (∃ w, e.kind = .int w) ∨ ∃ w, e.kind = .uint w) ∧
    e.entries.find? (fun p => p.1 = key) = some (key, x)

/-- an ID given as text -/
inductive IDValue : Kind → Bytes → Scalar F → Prop where
  | string {s} : IDValue .string s (.string s)
  /-- numeric IDs must be 64-bit integers; smaller types truncate -/
  | int {w s i j} : IntText s i → InRange .w64 i → Truncates w i j → IDValue (.int w) s (.int j)
  | uint {w s i n} : IntText s i → InRange .w64 i → 0 ≤ i → UTruncates w i.toNat n → IDValue (.uint w) s (.uint n)

variable (env : Env F V W) (enums : List (EnumDef F)) (inTypes : List (Bytes × InStruct F))

/-- a text for a parameter: string literals and JSON strings -/
inductive TextValue : Bytes → Input → InVal F → Prop where
  | string {s} : TextValue s (.scalar .string none false) (.scalar (.string s))
  | enum {s k e id x} : EnumValue enums e s x → TextValue s (.scalar k (some e) id) (.scalar x)
  | id {s k x} : IDValue k s x → TextValue s (.scalar k none true) (.scalar x)
  | time {s t} : Time.Reads s t → TextValue s .time (.time t)
  | file {s f h} : env.formFile = some f → f s = .ok h → TextValue s .file (.file h)

/-- literals that are neither variables, null, lists nor objects -/
inductive ScalarLit : Value → Input → InVal F → Prop where
  | int {d i w e id} : IntText d i → InRange w i → ScalarLit (.int d) (.scalar (.int w) e id) (.scalar (.int i))
  | uint {d n w e id} : NatText d n → InURange w n → ScalarLit (.int d) (.scalar (.uint w) e id) (.scalar (.uint n))
  | intFloat32 {d i e id} : IntText d i → InRange .w64 i →
      ScalarLit (.int d) (.scalar .float32 e id) (.scalar (.float (env.toF32 (env.floatOfInt i))))
  | intFloat64 {d i e id} : IntText d i → InRange .w64 i →
      ScalarLit (.int d) (.scalar .float64 e id) (.scalar (.float (env.floatOfInt i)))
  | intBool {d i e id} : IntText d i → InRange .w64 i →
      ScalarLit (.int d) (.scalar .bool e id) (.scalar (.bool (decide (0 < i))))
  | float32 {d f e id} : env.parseFloat d = some f → ScalarLit (.float d) (.scalar .float32 e id) (.scalar (.float (env.toF32 f)))
  | float64 {d f e id} : env.parseFloat d = some f → ScalarLit (.float d) (.scalar .float64 e id) (.scalar (.float f))
  | str {s inp x} : TextValue env enums s inp x → ScalarLit (.str s) inp x
  | bool {b e id} : ScalarLit (.bool b) (.scalar .bool e id) (.scalar (.bool b))
  | enum {n k e id x} : EnumValue enums e n x → ScalarLit (.enum n) (.scalar k (some e) id) (.scalar x)

/-- the struct `x` with its field at `i` replaced by `y` -/
def WithField (x : InVal F) (i : Nat) (old y : InVal F) (x' : InVal F) : Prop :=
  ∃ vs, x = .struct vs ∧ vs[i]? = some old ∧ x' = .struct (vs.set i y)

/-- the zero value of a Go type: false, zero, the empty text, 1 January of year 1, no file, nil, nil, an array of zero values, a
struct of zero values -/
def Zero : Input → InVal F
  | .scalar .bool _ _ => .scalar (.bool false)
  | .scalar (.int _) _ _ => .scalar (.int 0)
  | .scalar (.uint _) _ _ => .scalar (.uint 0)
  | .scalar .float32 _ _ => .scalar (.float env.floatZero)
  | .scalar .float64 _ _ => .scalar (.float env.floatZero)
  | .scalar .string _ _ => .scalar (.string [])
  | .time => .time { year := 1, month := 1, day := 1, hour := 0, min := 0, sec := 0, nsec := 0, offset := 0 }
  | .file => .file none
  | .ptr _ => .ptr none
  | .slice _ => .slice none
  | .array n e => .array (List.replicate n (Zero e))
  | .struct n => match lookup inTypes n with
    | some d => d.zero
    | none => .struct []

theorem zeroOf_eq (e : Input) : Bind.zeroOf env inTypes e = Zero env inTypes e := by
  induction e with
  | scalar k _ _ => cases k <;> rfl
  | array n e ih => unfold Bind.zeroOf Zero; rw [ih]
  | _ => rfl

/-- parameters that take texts only -/
def TextOnly : Input → Prop
  | .scalar _ e id => e.isSome ∨ id = true
  | .file => True
  | .time => True
  | _ => False

mutual
/-- a JSON value for a parameter -/
inductive FromJSON : J → Input → InVal F → InVal F → Bool → Prop where
  | null {inp cur} : ¬ TextOnly inp → (∀ e, inp ≠ .ptr e) → FromJSON .null inp cur cur false
  | ptr {j e cur x} : FromJSON j e (Zero env inTypes e) x true → FromJSON j (.ptr e) cur (.ptr (some x)) true
  /-- null leaves a pointer alone -/
  | ptrNull {j e cur x} : FromJSON j e (Zero env inTypes e) x false → FromJSON j (.ptr e) cur cur false
  | bool {b cur} : FromJSON (.bool b) (.scalar .bool none false) cur (.scalar (.bool b)) true
  | str {s inp cur x} : TextValue env enums s inp x → FromJSON (.str s) inp cur x true
  | int {r i w cur} : IntText r i → InRange .w64 i → InRange w i →
      FromJSON (.num r) (.scalar (.int w) none false) cur (.scalar (.int i)) true
  /-- too large numbers are truncated (a defect, see C24) -/
  | uint {r i w n cur} : IntText r i → InRange .w64 i → 0 ≤ i → UTruncates w i.toNat n →
      FromJSON (.num r) (.scalar (.uint w) none false) cur (.scalar (.uint n)) true
  | numBool {r i cur} : IntText r i → InRange .w64 i →
      FromJSON (.num r) (.scalar .bool none false) cur (.scalar (.bool (decide (0 < i)))) true
  | float32 {r cur} : FromJSON (.num r) (.scalar .float32 none false) cur (.scalar (.float (env.toF32 (env.jsonFloat r)))) true
  | float64 {r cur} : FromJSON (.num r) (.scalar .float64 none false) cur (.scalar (.float (env.jsonFloat r))) true
  | arr {js e cur xs} : ItemsJSON js e xs → FromJSON (.arr js) (.slice e) cur (.slice (some xs)) true
  | obj {ms n d cur x} : lookup inTypes n = some d → MembersJSON ms d.fields cur x → FromJSON (.obj ms) (.struct n) cur x true
/-- each item fills a fresh element -/
inductive ItemsJSON : List J → Input → List (InVal F) → Prop where
  | nil {e} : ItemsJSON [] e []
  | cons {j js e x set xs} : FromJSON j e (Zero env inTypes e) x set → ItemsJSON js e xs → ItemsJSON (j :: js) e (x :: xs)
/-- each member fills the field declared under its name -/
inductive MembersJSON : List (Bytes × J) → List InField → InVal F → InVal F → Prop where
  | nil {fs cur} : MembersJSON [] fs cur cur
  | cons {k j ms fs f cur c x set cur' cur''} : fs.find? (fun f => f.key = k) = some f → FromJSON j f.input c x set →
      WithField cur f.goFieldIdx c x cur' → MembersJSON ms fs cur' cur'' → MembersJSON ((k, j) :: ms) fs cur cur''
end

variable (var : Bytes → Input → InVal F → InVal F → Bool → Prop)

mutual
/-- a literal for a parameter; `var` says what a variable reference delivers -/
inductive Lit : Value → Input → InVal F → InVal F → Bool → Prop where
  | null {inp cur} : Lit .null inp cur cur false
  | ptr {v e cur x} : v ≠ .null → Lit v e (Zero env inTypes e) x true → Lit v (.ptr e) cur (.ptr (some x)) true
  /-- a value that counts as not given leaves a pointer alone -/
  | ptrUnset {v e cur x} : v ≠ .null → Lit v e (Zero env inTypes e) x false → Lit v (.ptr e) cur cur false
  | var {n inp cur x set} : (∀ e, inp ≠ .ptr e) → var n inp cur x set → Lit (.var n) inp cur x set
  | scalar {v inp cur x} : ScalarLit env enums v inp x → Lit v inp cur x true
  | list {vs e cur xs} : Items vs e xs → Lit (.list vs) (.slice e) cur (.slice (some xs)) true
  | obj {fs n d cur x set} : lookup inTypes n = some d → Members fs d.fields (cur, true) (x, set) → Lit (.obj fs) (.struct n) cur x set
  /-- the empty object leaves a time alone -/
  | emptyTime {cur} : Lit (.obj []) .time cur cur true
/-- each item fills a fresh element -/
inductive Items : List Value → Input → List (InVal F) → Prop where
  | nil {e} : Items [] e []
  | cons {v vs e x set xs} : Lit v e (Zero env inTypes e) x set → Items vs e xs → Items (v :: vs) e (x :: xs)
/-- each member fills the field declared under its name; the object counts as given if its last member does -/
inductive Members : List (Bytes × Value) → List InField → InVal F × Bool → InVal F × Bool → Prop where
  | nil {fs acc} : Members [] fs acc acc
  | cons {k v ms fs f cur s0 c x set cur' acc} : fs.find? (fun f => f.key = k) = some f → Lit v f.input c x set →
      WithField cur f.goFieldIdx c x cur' → Members ms fs (cur', set) acc → Members ((k, v) :: ms) fs (cur, s0) acc
end

/-- function inputs with the field `a` of one of them replaced -/
def WithArg (inputs : List (Arg F)) (a : ArgField) (old y : InVal F) (inputs' : List (Arg F)) : Prop :=
  ∃ v v', inputs[a.inputIdx]? = some (.val v) ∧ WithField v a.goFieldIdx old y v' ∧ inputs' = inputs.set a.inputIdx (.val v')

/-- The arguments of a call: each fills the parameter declared under its name. -/
inductive Args (params : List ArgField) : List (Bytes × Value) → List (Arg F) → List (Arg F) → Prop where
  | nil {inputs} : Args params [] inputs inputs
  | cons {k v rest inputs a old x set inputs' inputs''} : params.find? (fun a => a.key = k) = some a →
      Lit env enums inTypes var v a.input old x set → WithArg inputs a old x inputs' → Args params rest inputs' inputs'' →
      Args params ((k, v) :: rest) inputs inputs''

/-! ## Variables -/

/-- The type names a variable may be declared with for a parameter. -/
def TypeFits : Input → Bytes → Prop
  | .scalar _ (some e) _, n => ∃ d, enums[e]? = some d ∧ (n = d.typeName ∨ n = b%"String")
  | .scalar _ none true, n => n = b%"ID" ∨ n = b%"String"
  | .file, n => n = b%"File" ∨ n = b%"String"
  | .time, n => n = b%"Time" ∨ n = b%"String"
  -- any type name is accepted for a boolean
  | .scalar .bool none false, _ => True
  | .scalar (.int _) none false, n => n = b%"Int"
  | .scalar (.uint _) none false, n => n = b%"Int"
  | .scalar .float32 none false, n => n = b%"Float"
  | .scalar .float64 none false, n => n = b%"Float"
  | .scalar .string none false, n => n = b%"String"
  -- lists are declared with brackets; a type named `List` is accepted as well
  | .array _ _, n => n = b%"List"
  | .slice _, n => n = b%"List"
  | .struct n', n => n = n'
  | .ptr _, _ => False

/-- brackets of the declared type match slices of the parameter -/
inductive DeclFits : Ty → Input → Prop where
  | named {n nn inp} : TypeFits enums inp n → DeclFits (.named n nn) inp
  | list {t nn e} : DeclFits t e → DeclFits (.list t nn) (.slice e)

/-- No variable is allowed. -/
def noVar : Bytes → Input → InVal F → InVal F → Bool → Prop := fun _ _ _ _ _ => False

/-- The value supplied for a variable: a member of the variables object. -/
def Supplied (vars : Bind.VarsSrc) (name : Bytes) : Option J :=
  match vars with
  | .json (.obj ms) => (ms.find? (fun m => m.1 = name)).map (·.2)
  | _ => none

/-- A variable reference: declared, with a fitting type; the supplied value if there is one, else the default. -/
inductive Var (vars : Bind.VarsSrc) (decls : List VarDef) : Bytes → Input → InVal F → InVal F → Bool → Prop where
  | supplied {name d j inp cur x set} : decls.find? (fun d => d.name = name) = some d → DeclFits enums d.ty inp →
      Supplied vars name = some j → FromJSON env enums inTypes j inp cur x set → Var vars decls name inp cur x set
  | default {name d v inp cur x set} : decls.find? (fun d => d.name = name) = some d → DeclFits enums d.ty inp →
      Supplied vars name = none → d.default = some v → Lit env enums inTypes noVar v inp cur x set →
      Var vars decls name inp cur x set

end
end Binding
end Yarql
