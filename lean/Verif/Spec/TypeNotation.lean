import Verif.Model.Introspect

/-!
# Specification: GraphQL type notation, and what a field listing must contain
-/

namespace Yarql

/-- two lists correspond element by element -/
inductive Pointwise {A B : Type} (R : A → B → Prop) : List A → List B → Prop where
  | nil : Pointwise R [] []
  | cons {a : A} {b : B} {l : List A} {m : List B} : R a b → Pointwise R l m → Pointwise R (a :: l) (b :: m)

theorem Pointwise.imp {A B : Type} {R S : A → B → Prop} (h : ∀ a b, R a b → S a b) {l : List A} {m : List B}
    (hp : Pointwise R l m) : Pointwise S l m := by
  induction hp with
  | nil => exact .nil
  | cons h1 _ ih => exact .cons (h _ _ h1) ih

/-- GraphQL type notation: `Name`, `[T]`, `T!` -/
def QT.print : QT → Bytes
  | .named n => n
  | .list t => c%'[' :: t.print ++ [c%']']
  | .nonNull t => t.print ++ [c%'!']

/-- a list whose elements are declared non-null occurs in the type, as in `[Int!]` -/
def QT.HasListOfNonNull : QT → Prop
  | .named _ => False
  | .list (.nonNull _) => True
  | .list t => t.HasListOfNonNull
  | .nonNull t => t.HasListOfNonNull

namespace Introspect

variable {F V : Type}

/-- Can a Go value of this type be nil? Structs, scalars, enums and times cannot; a resolver function stored in a
struct field can (`isTypeMethod = false`), a method cannot, but its result may. -/
def canBeNull : Obj F → Prop
  | .objRef _ | .data _ _ | .enum _ | .time => False
  | .undefined | .array _ | .ptr _ | .interfaceRef _ => True
  | .method m out => m.isTypeMethod = false ∨ canBeNull out

/-- `GraphQLType s o t`: the GraphQL type of a Go output type, ignoring nullability at the outermost level; `elem`
decides it for list elements. -/
inductive BaseType (s : Schema F V) : Obj F → QT → Prop where
  | struct (n : Bytes) (d : TypeDef F V) : lookup s.types n = some d → BaseType s (.objRef n) (.named d.typeName)
  | iface (n : Bytes) (d : IfaceDef F V) : lookup s.interfaces n = some d → BaseType s (.interfaceRef n) (.named d.typeName)
  | enum (i : Nat) (e : EnumDef F) : s.enums[i]? = some e → BaseType s (.enum i) (.named e.typeName)
  | time : BaseType s .time (.named b%"Time")
  | id (k : Kind) : BaseType s (.data true k) (.named b%"ID")
  | bool : BaseType s (.data false .bool) (.named b%"Boolean")
  | int (w : Width) : BaseType s (.data false (.int w)) (.named b%"Int")
  | uint (w : Width) : BaseType s (.data false (.uint w)) (.named b%"Int")
  | float32 : BaseType s (.data false .float32) (.named b%"Float")
  | float64 : BaseType s (.data false .float64) (.named b%"Float")
  | string : BaseType s (.data false .string) (.named b%"String")
  | ptr (o : Obj F) (t : QT) : BaseType s o t → BaseType s (.ptr o) t
  | method (m : Method F) (o : Obj F) (t : QT) : BaseType s o t → BaseType s (.method m o) t
  | listNullable (o : Obj F) (t : QT) : BaseType s o t → canBeNull o → BaseType s (.array o) (.list t)
  | listNonNull (o : Obj F) (t : QT) : BaseType s o t → ¬ canBeNull o → BaseType s (.array o) (.list (.nonNull t))

/-- the GraphQL type of a field: non-null exactly when the Go value cannot be nil -/
def FieldType (s : Schema F V) (o : Obj F) (t : QT) : Prop :=
  (canBeNull o ∧ BaseType s o t) ∨ (¬ canBeNull o ∧ ∃ t', t = .nonNull t' ∧ BaseType s o t')

/-- the GraphQL type of an argument (enum arguments are described by their underlying kind) -/
inductive InType : Input → QT → Prop where
  | id (k : Kind) (e : Option Nat) : InType (.scalar k e true) (.nonNull (.named b%"ID"))
  | bool (e : Option Nat) : InType (.scalar .bool e false) (.nonNull (.named b%"Boolean"))
  | int (w : Width) (e : Option Nat) : InType (.scalar (.int w) e false) (.nonNull (.named b%"Int"))
  | uint (w : Width) (e : Option Nat) : InType (.scalar (.uint w) e false) (.nonNull (.named b%"Int"))
  | float32 (e : Option Nat) : InType (.scalar .float32 e false) (.nonNull (.named b%"Float"))
  | float64 (e : Option Nat) : InType (.scalar .float64 e false) (.nonNull (.named b%"Float"))
  | string (e : Option Nat) : InType (.scalar .string e false) (.nonNull (.named b%"String"))
  | time : InType .time (.nonNull (.named b%"Time"))
  | file : InType .file (.named b%"File")
  | struct (n : Bytes) : InType (.struct n) (.nonNull (.named n))
  | ptrNonNull (i : Input) (t : QT) : InType i (.nonNull t) → InType (.ptr i) t
  | ptrNullable (i : Input) (t : QT) : InType i t → (∀ u, t ≠ .nonNull u) → InType (.ptr i) t
  | slice (i : Input) (t : QT) : InType i t → InType (.slice i) (.list t)
  | array (n : Nat) (i : Input) (t : QT) : InType i t → InType (.array n i) (.list t)

/-- the declared arguments of a field -/
def argsOf : Obj F → List ArgField
  | .method m _ => m.inFields
  | _ => []

/-- `q` describes the field `f`: its name, one entry per declared argument with that argument's type, sorted by name,
and its type -/
def Describes (s : Schema F V) (f : Field F V) (q : QField) : Prop :=
  q.name = f.qlFieldName ∧ FieldType s f.obj q.type ∧
  q.args.Pairwise (fun a b => bytesLe a.1 b.1 = true) ∧
  ∃ l, q.args.Perm l ∧ Pointwise (fun a x => x.1 = a.key ∧ InType a.input x.2) (argsOf f.obj) l

/-- `res` is the right listing of the fields `fs`: exactly one entry per visible field, describing it, sorted by
name. -/
def Lists (s : Schema F V) (fs : List (Field F V)) (res : List QField) : Prop :=
  res.Pairwise (fun a b => bytesLe a.name b.name = true) ∧
  ∃ l : List QField, res.Perm l ∧ Pointwise (Describes s) (fs.filter (fun f => !f.hidden)) l

end Introspect
end Yarql
