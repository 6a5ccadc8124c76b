import Verif.Model.Bytes

/-!
# Documents and the documented bytecode encoding

Independent of the parser model: the abstract syntax of the query language yarql supports, and the encoding
described by the comments of `/repo/bytecode/bytecode_instructions.go`.
-/

namespace Yarql
namespace Doc

/-- Value literals.  `int`/`float` carry the normalised digits (no `+`, no `_`, exponent letter `E`). -/
inductive Value where
  | var (name : Bytes)
  | int (digits : Bytes)
  | float (digits : Bytes)
  | str (content : Bytes)
  | bool (b : Bool)
  | null
  | enum (name : Bytes)
  | list (items : List Value)
  | obj (fields : List (Bytes × Value))

/-- `@name` or `@name(args)` -/
structure Directive where
  name : Bytes
  args : Option (List (Bytes × Value))

/-- Selections.  `field key (some name)` is `key: name`, `field key none` is `key`. A field without selection set and
one with an empty selection set are the same. -/
inductive Sel where
  | field (key : Bytes) (name : Option Bytes) (dirs : List Directive)
      (args : Option (List (Bytes × Value))) (sels : List Sel)
  | spread (name : Bytes) (dirs : List Directive)
  | inline (typeName : Bytes) (dirs : List Directive) (sels : List Sel)

/-- Types in variable definitions: a named type or a list type, each possibly non-null. -/
inductive Ty where
  | named (name : Bytes) (nonNull : Bool)
  | list (inner : Ty) (nonNull : Bool)

/-- `$name: type = default` -/
structure VarDef where
  name : Bytes
  ty : Ty
  default : Option Value

inductive OpKind where
  | query | mutation | subscription
deriving DecidableEq

structure Operation where
  kind : OpKind
  /-- `[]` = anonymous -/
  name : Bytes
  vars : Option (List VarDef)
  dirs : List Directive
  sels : List Sel

structure Fragment where
  name : Bytes
  typeName : Bytes
  sels : List Sel

inductive Def where
  | op (o : Operation)
  | frag (f : Fragment)

/-! ## Encoding -/

/-- 32-bit little-endian length -/
def len32 (n : Nat) : Bytes := le32 (UInt32.ofNat n)

/-- Every value is `0 v <kind> <length of the rest, 4 bytes> <rest>`. -/
def encHead (kind : Byte) (body : Bytes) : Bytes := [0, c%'v', kind] ++ len32 body.length ++ body

/-- end-of-construct instruction -/
def endI : Bytes := [0, c%'e']

mutual
/-- value instruction -/
def encValue : Value → Bytes
  | .var n => encHead c%'$' n
  | .int d => encHead c%'i' d
  | .float d => encHead c%'f' d
  | .str s => encHead c%'s' s
  | .bool b => encHead c%'b' [if b then c%'1' else c%'0']
  | .null => encHead c%'n' []
  | .enum n => encHead c%'e' n
  | .list vs => encHead c%'l' (encValues vs ++ endI)
  | .obj fs => encHead c%'o' (encFields fs ++ endI)
def encValues : List Value → Bytes
  | [] => []
  | v :: vs => encValue v ++ encValues vs
/-- `0 u <name>` followed by the value, per field -/
def encFields : List (Bytes × Value) → Bytes
  | [] => []
  | (n, v) :: fs => [0, c%'u'] ++ n ++ (encValue v ++ encFields fs)
end

/-- optional argument object -/
def encArgs : Option (List (Bytes × Value)) → Bytes
  | none => []
  | some fs => encValue (.obj fs)

/-- `0 d <t/f> <name>` and, with `t`, the argument object -/
def encDirective (d : Directive) : Bytes :=
  [0, c%'d', if d.args.isSome then c%'t' else c%'f'] ++ d.name ++ encArgs d.args

def encDirectives : List Directive → Bytes
  | [] => []
  | d :: ds => encDirective d ++ encDirectives ds

/-- 32-bit FNV-1 hash of a name -/
def fnv1 (name : Bytes) : UInt32 :=
  name.foldl (fun h b => (h * 16777619) ^^^ b.toUInt32) 2166136261

/-- What a field instruction holds after its fixed-size header: `<key length> <key> <name length> <name> dirs args`. -/
def encFieldHead (key : Bytes) (name : Option Bytes) (dirs : List Directive)
    (args : Option (List (Bytes × Value))) : Bytes :=
  [UInt8.ofNat key.length] ++ key ++ [UInt8.ofNat (name.getD []).length] ++ name.getD [] ++ encDirectives dirs ++
    encArgs args

mutual
/-- Field: `0 f <directive count> <length> <hash of the field name> <body>`; spread and inline fragment:
`0 s <t/f> <directive count> <length> <name> ...`. -/
def encSel : Sel → Bytes
  | .field key name dirs args sels =>
    let body := encFieldHead key name dirs args ++ encSels sels ++ endI
    [0, c%'f', UInt8.ofNat dirs.length] ++ len32 body.length ++ le32 (fnv1 (name.getD key)) ++ body
  | .spread name dirs =>
    let body := name ++ encDirectives dirs
    [0, c%'s', c%'f', UInt8.ofNat dirs.length] ++ len32 body.length ++ body
  | .inline ty dirs sels =>
    let body := ty ++ encDirectives dirs ++ encSels sels ++ endI
    [0, c%'s', c%'t', UInt8.ofNat dirs.length] ++ len32 body.length ++ body
def encSels : List Sel → Bytes
  | [] => []
  | s :: ss => encSel s ++ encSels ss
end

/-- `n`/`N` name, `l`/`L` element type -/
def encTy : Ty → Bytes
  | .named n nn => (if nn then c%'N' else c%'n') :: n
  | .list t nn => (if nn then c%'L' else c%'l') :: encTy t

/-- what follows the length of a variable definition -/
def encVarBody (v : VarDef) : Bytes :=
  v.name ++ [0] ++ encTy v.ty ++ [0] ++
    match v.default with
    | none => [c%'f']
    | some d => c%'t' :: encValue d

/-- `0 a <length of everything after the leading 0> <name> 0 <type> 0 <t/f> [default]` -/
def encVarDef (v : VarDef) : Bytes :=
  [0, c%'a'] ++ len32 ((encVarBody v).length + 5) ++ encVarBody v

def encVarDefs : List VarDef → Bytes
  | [] => []
  | v :: vs => encVarDef v ++ encVarDefs vs

def OpKind.code : OpKind → Byte
  | .query => c%'q'
  | .mutation => c%'m'
  | .subscription => c%'s'

/-- the variable-definition block: `0 <length> 0 A <definitions> 0 e` -/
def encVars : Option (List VarDef) → Bytes
  | none => []
  | some vs =>
    let body := [0, c%'A'] ++ encVarDefs vs ++ endI
    [0] ++ len32 body.length ++ body

/-- `0 o <kind> <t/f: has variables> <directive count> <name> vars dirs selections end` -/
def encOperation (o : Operation) : Bytes :=
  [0, c%'o', o.kind.code, if o.vars.isSome then c%'t' else c%'f', UInt8.ofNat o.dirs.length] ++ o.name ++
    encVars o.vars ++ encDirectives o.dirs ++ encSels o.sels ++ endI

/-- `0 F <name> 0 <type> selections end` -/
def encFragment (f : Fragment) : Bytes :=
  [0, c%'F'] ++ f.name ++ [0] ++ f.typeName ++ encSels f.sels ++ endI

def encDef : Def → Bytes
  | .op o => encOperation o
  | .frag f => encFragment f

def encDoc : List Def → Bytes
  | [] => []
  | d :: ds => encDef d ++ encDoc ds

/-- Positions of the fragment definitions (of the `F` byte) in the encoding that starts at `at_`. -/
def fragPositions (at_ : Nat) : List Def → List Nat
  | [] => []
  | .op o :: ds => fragPositions (at_ + (encOperation o).length) ds
  | .frag f :: ds => (at_ + 1) :: fragPositions (at_ + (encFragment f).length) ds

/-- Positions of the operations in the encoding that starts at `at_`, with their names. -/
def opPositions (at_ : Nat) : List Def → List (Nat × Bytes)
  | [] => []
  | .op o :: ds => (at_, o.name) :: opPositions (at_ + (encOperation o).length) ds
  | .frag f :: ds => opPositions (at_ + (encFragment f).length) ds

/-- The operation a target selects: the last operation without a target, the last operation of that name with one.
(`none` and the empty name are "no target".) -/
def selectedOp (target : Option Bytes) (ops : List (Nat × Bytes)) : Option Nat :=
  match target with
  | none | some [] => (ops.getLast?).map (·.1)
  | some t => ((ops.filter (fun o => o.2 == t)).getLast?).map (·.1)

/-! ## Well-formedness -/

/-- `[a-zA-Z_]` -/
def NameStart (c : Byte) : Prop :=
  (c%'a' ≤ c ∧ c ≤ c%'z') ∨ (c%'A' ≤ c ∧ c ≤ c%'Z') ∨ c = c%'_'

/-- `[a-zA-Z_0-9]` -/
def NameChar (c : Byte) : Prop := NameStart c ∨ (c%'0' ≤ c ∧ c ≤ c%'9')

/-- A name: `[a-zA-Z_][a-zA-Z_0-9]*`, at most 254 characters. -/
def IsName (n : Bytes) : Prop :=
  n.length ≤ 254 ∧ ∃ c cs, n = c :: cs ∧ NameStart c ∧ ∀ x ∈ cs, NameChar x

def Digits (ds : Bytes) : Prop := ∀ d ∈ ds, c%'0' ≤ d ∧ d ≤ c%'9'

/-- What the parser stores for an integer: sign and digits (the parser also accepts literals without digits, such
as `-`; they are rejected when bound to a parameter). -/
def IsInt (b : Bytes) : Prop := ∃ sign ds, b = sign ++ ds ∧ (sign = [] ∨ sign = [c%'-']) ∧ Digits ds

/-- What the parser stores for a float: sign, digits, and a fraction or an exponent (or both). -/
def IsFloat (b : Bytes) : Prop :=
  ∃ i f e, b = i ++ f ++ e ∧ IsInt i ∧ (f = [] ∨ ∃ ds, f = c%'.' :: ds ∧ Digits ds) ∧
    (e = [] ∨ ∃ x, e = c%'E' :: x ∧ IsInt x) ∧ (f ≠ [] ∨ e ≠ [])

mutual
/-- Well-formed values: names are names, numbers are numbers. -/
def Value.WF : Value → Prop
  | .var n => IsName n
  | .int d => IsInt d
  | .float d => IsFloat d
  | .str _ => True
  | .bool _ => True
  | .null => True
  | .enum n => IsName n
  | .list vs => valuesWF vs
  | .obj fs => fieldsWF fs
def valuesWF : List Value → Prop
  | [] => True
  | v :: vs => v.WF ∧ valuesWF vs
def fieldsWF : List (Bytes × Value) → Prop
  | [] => True
  | (n, v) :: fs => IsName n ∧ v.WF ∧ fieldsWF fs
end

def argsWF : Option (List (Bytes × Value)) → Prop
  | none => True
  | some fs => fieldsWF fs

def Directive.WF (d : Directive) : Prop := IsName d.name ∧ argsWF d.args

def dirsWF (ds : List Directive) : Prop := ds.length ≤ 255 ∧ ∀ d ∈ ds, d.WF

mutual
def Sel.WF : Sel → Prop
  | .field key name dirs args sels =>
    IsName key ∧ (∀ n, name = some n → IsName n) ∧ dirsWF dirs ∧ argsWF args ∧ selsWF sels
  | .spread name dirs => IsName name ∧ dirsWF dirs
  | .inline ty dirs sels => IsName ty ∧ dirsWF dirs ∧ selsWF sels
def selsWF : List Sel → Prop
  | [] => True
  | s :: ss => s.WF ∧ selsWF ss
end

def Ty.WF : Ty → Prop
  | .named n _ => IsName n
  | .list t _ => t.WF

def VarDef.WF (v : VarDef) : Prop := IsName v.name ∧ v.ty.WF ∧ ∀ d, v.default = some d → d.WF

def Operation.WF (o : Operation) : Prop :=
  (o.name = [] ∨ IsName o.name) ∧ (∀ vs, o.vars = some vs → ∀ v ∈ vs, v.WF) ∧ dirsWF o.dirs ∧ selsWF o.sels

def Fragment.WF (f : Fragment) : Prop := IsName f.name ∧ IsName f.typeName ∧ selsWF f.sels

def Def.WF : Def → Prop
  | .op o => o.WF
  | .frag f => f.WF

def docWF (d : List Def) : Prop := ∀ x ∈ d, x.WF

end Doc
end Yarql
