import Verif.Model.Bytes

/-!
# Model of the Go name → GraphQL name rules (`/repo/parse.go`)

Go strings are byte lists.  Simplification: `strings.TrimSpace` and `strings.ToLower` of tag parts are
modelled on ASCII only (a Unicode space around a tag name, or `İd` as modifier, is not treated as Go does).
The struct tag lookup `field.Tag.Lookup("gq")` (reflect) is a parameter: `none` = no `gq` key.
-/

namespace Yarql
namespace Naming

/-- `bytes.ToLower([]byte{b})` / `strings.ToLower` of a one-byte string: ASCII letters are mapped, a byte
`≥ 0x80` is invalid UTF-8 and becomes U+FFFD (three bytes). -/
def toLower1 (b : Byte) : Bytes :=
  if 0x80 ≤ b then [0xEF, 0xBF, 0xBD]
  else if c%'A' ≤ b ∧ b ≤ c%'Z' then [b + 32] else [b]

/-- `bytes.ToUpper([]byte{b})[0]` -/
def toUpperFirst (b : Byte) : Byte :=
  if 0x80 ≤ b then 0xEF
  else if c%'a' ≤ b ∧ b ≤ c%'z' then b - 32 else b

/-- `strings.ToUpper(string(b))[0]` for a byte `b`: Go converts the byte to the rune of that number
(Latin-1), upper-cases it and the first byte of the UTF-8 encoding is taken (parse.go:744). -/
def toUpperRuneFirst (b : Byte) : Byte :=
  if 0x80 ≤ b then
    if b = 0xB5 then 0xCE            -- µ ↦ U+039C
    else if b < 0xC0 then 0xC2
    else if b = 0xFF then 0xC5       -- ÿ ↦ U+0178
    else 0xC3
  else if c%'a' ≤ b ∧ b ≤ c%'z' then b - 32 else b

/-- `formatGoNameToQL` (parse.go:868-879) -/
def formatGoNameToQL : Bytes → Bytes
  | [] => []
  | [b] => toLower1 b
  | b :: d :: r => if d = toUpperFirst d then b :: d :: r else toLower1 b ++ d :: r

/-- one step of the loop of `validGraphQlName` (parse.go:918-935) -/
def validNameByte (i : Nat) (char : Byte) : Bool :=
  (c%'A' ≤ char && char ≤ c%'Z') || (c%'a' ≤ char && char ≤ c%'z') ||
  (decide (0 < i) && ((c%'0' ≤ char && char ≤ c%'9') || char == c%'_'))

/-- the loop of `validGraphQlName` (parse.go:918-935) from index `i` -/
def validNameFrom (i : Nat) : Bytes → Bool
  | [] => true
  | char :: rest => validNameByte i char && validNameFrom (i + 1) rest

/-- `validGraphQlName` (parse.go:914-936); `true` = nil error -/
def validGraphQlName (name : Bytes) : Bool :=
  if name.length = 0 then false else validNameFrom 0 name

/-- `unicode.IsSpace` on ASCII, as used by `strings.TrimSpace` -/
def isSpace (b : Byte) : Bool := b == 9 || b == 10 || b == 11 || b == 12 || b == 13 || b == 32

/-- `strings.TrimSpace` -/
def trimSpace (s : Bytes) : Bytes := ((s.dropWhile isSpace).reverse.dropWhile isSpace).reverse

/-- `strings.Split(val, ",")` -/
def splitComma : Bytes → List Bytes
  | [] => [[]]
  | b :: rest =>
    if b = c%',' then [] :: splitComma rest
    else match splitComma rest with
      | [] => [[b]]
      | part :: parts => (b :: part) :: parts

/-- `strings.ToLower` on ASCII -/
def toLower (s : Bytes) : Bytes := s.map fun b => if c%'A' ≤ b ∧ b ≤ c%'Z' then b + 32 else b

/-- What `parseFieldTagGQ` returns: an error, "ignore this field", or an optional name and the ID flag. -/
inductive Tag where
  | err
  | ignore
  | ok (newName : Option Bytes) (isID : Bool)
deriving DecidableEq

/-- the modifier loop of `parseFieldTagGQ` (parse.go:901-909) -/
def tagModifiers : List Bytes → Bool
  | [] => true
  | m :: rest => if toLower (trimSpace m) = b%"id" then tagModifiers rest else false

/-- `parseFieldTagGQ` (parse.go:881-912) -/
def parseFieldTagGQ (tag : Option Bytes) : Tag :=
  match tag with
  | none => .ok none false
  | some val =>
    if val = [] then .ok none false
    else match splitComma val with
      | [] => .ok none false
      | arg0 :: mods =>
        let nameArg := trimSpace arg0
        if nameArg = b%"-" then .ignore
        else
          let nameErr := nameArg ≠ [] ∧ validGraphQlName nameArg = false
          if tagModifiers mods = false then .err
          else if nameErr then .err
          else .ok (if nameArg = [] then none else some nameArg) (!mods.isEmpty)

/-- The GraphQL name of a struct field: `checkStructField` + `check` (parse.go:563-567, 422-428) and
`checkFunctionInputStruct` (parse.go:613-628).  `goName` is the Go field name. -/
inductive FieldName where
  | err
  | ignored
  | named (name : Bytes) (isID : Bool)
deriving DecidableEq

def fieldName (goName : Bytes) (tag : Option Bytes) : FieldName :=
  match parseFieldTagGQ tag with
  | .err => .err
  | .ignore => .ignored
  | .ok none isID => .named (formatGoNameToQL goName) isID
  | .ok (some n) isID => .named n isID

/-- The naming part of `checkFunction` for a method of a type, `isTypeMethod = true` (parse.go:736-757, 818) -/
inductive MethodName where
  | panic
  | ignored
  | exposed (name : Bytes)
deriving DecidableEq

def methodName (name : Bytes) : MethodName :=
  if b%"Resolve" <+: name then
    match name.drop 7 with
    | [] => .panic                                -- trimmedName[0]: index out of range
    | c :: rest =>
      if toUpperRuneFirst c ≠ c then .ignored
      else .exposed (formatGoNameToQL (c :: rest))
  else .ignored

end Naming
end Yarql
