import Verif.Spec.Document

/-!
# The concrete syntax: tokens, layouts, and which token sequences spell a document

Independent of the parser model.
-/

namespace Yarql
namespace Grammar
open Doc

/-! ## Ignored text -/

/-- space, tab, line feed, carriage return, NUL -/
def Blank (c : Byte) : Prop := c = c%' ' ∨ c = c%'\t' ∨ c = c%'\n' ∨ c = c%'\r' ∨ c = 0

/-- line feed, carriage return -/
def LineEnd (c : Byte) : Prop := c = c%'\n' ∨ c = c%'\r'

/-- Text consisting only of blanks and comments closed by a line end. -/
inductive Ignored : Bytes → Prop
  | nil : Ignored []
  | blank {c t} : Blank c → Ignored t → Ignored (c :: t)
  | comment {body c t} : (∀ x ∈ body, ¬ LineEnd x) → LineEnd c → Ignored t →
      Ignored (c%'#' :: (body ++ c :: t))

/-- Text allowed after the last token: ignored text, possibly ending in an unclosed comment. -/
inductive Trailing : Bytes → Prop
  | plain {t} : Ignored t → Trailing t
  | comment {t body} : Ignored t → (∀ x ∈ body, ¬ LineEnd x) → Trailing (t ++ c%'#' :: body)

/-! ## Tokens -/

/-- A number literal: sign, digits, optional fraction digits, optional exponent (sign and digits). -/
structure Num where
  neg : Bool
  int : Bytes
  frac : Option Bytes
  exp : Option (Bool × Bytes)

/-- The number as stored: an optional `-`, digits, `.digits`, `E` with an optional `-` and digits. -/
def Num.text (n : Num) : Bytes :=
  (if n.neg then [c%'-'] else []) ++ n.int ++
    (match n.frac with | none => [] | some f => c%'.' :: f) ++
    (match n.exp with | none => [] | some (neg, e) => c%'E' :: ((if neg then [c%'-'] else []) ++ e))

def Num.isInt (n : Num) : Bool := n.frac.isNone && n.exp.isNone

inductive Tok where
  /-- one punctuator: `{ } ( ) [ ] : = ! ,` -/
  | punct (c : Byte)
  /-- `$name` or `@name` (the parser wants the name right behind the sign) -/
  | sigil (c : Byte) (n : Bytes)
  /-- `...` -/
  | dots
  /-- the `]` of a list type that is not followed by `!` -/
  | listEnd
  /-- `]!` (the parser wants the bang of a list type right behind the bracket) -/
  | listEndBang
  | name (n : Bytes)
  /-- a keyword that starts a definition, or the `on` of a fragment definition: yarql does not want it set apart from a
  name that follows (`queryA{f}` is `query A{f}`) -/
  | word (n : Bytes)
  | num (n : Num)
  /-- a quoted or block string, by its decoded content -/
  | str (content : Bytes)

/-- Digits with `_` separators allowed anywhere. -/
inductive DigitRun : Bytes → Bytes → Prop
  | nil : DigitRun [] []
  | digit {d t ds} : c%'0' ≤ d ∧ d ≤ c%'9' → DigitRun t ds → DigitRun (d :: t) (d :: ds)
  | sep {t ds} : DigitRun t ds → DigitRun (c%'_' :: t) ds

/-- Sign spelling: `-` for negative, nothing or `+` otherwise. -/
inductive SignSpell : Bool → Bytes → Prop
  | neg : SignSpell true [c%'-']
  | none : SignSpell false []
  | plus : SignSpell false [c%'+']

/-- Spellings of a number (first character a sign, a digit or a dot). -/
inductive NumSpell : Num → Bytes → Prop
  | mk {n : Num} {sgn i f e : Bytes} :
      SignSpell n.neg sgn → DigitRun i n.int →
      (n.frac = none ∧ f = [] ∨ ∃ ds t, n.frac = some ds ∧ f = c%'.' :: t ∧ DigitRun t ds) →
      (n.exp = none ∧ e = [] ∨ ∃ neg ds l s t, n.exp = some (neg, ds) ∧ (l = c%'e' ∨ l = c%'E') ∧ SignSpell neg s ∧
        DigitRun t ds ∧ e = l :: (s ++ t)) →
      (∃ c r, sgn ++ i ++ f ++ e = c :: r ∧ (c = c%'-' ∨ c = c%'+' ∨ c = c%'.' ∨ c%'0' ≤ c ∧ c ≤ c%'9')) →
      NumSpell n (sgn ++ i ++ f ++ e)

/-- hex digit value -/
inductive HexDigit : Byte → Nat → Prop
  | dec {c} : c%'0' ≤ c → c ≤ c%'9' → HexDigit c (c.toNat - 48)
  | low {c} : c%'a' ≤ c → c ≤ c%'f' → HexDigit c (c.toNat - 87)
  | upp {c} : c%'A' ≤ c → c ≤ c%'F' → HexDigit c (c.toNat - 55)

/-- UTF-8 of a code point below 0x10000; a surrogate reads as U+FFFD. -/
def utf8of (u : Nat) : Bytes :=
  let u := if 0xD800 ≤ u ∧ u < 0xE000 then 0xFFFD else u
  if u < 0x80 then [UInt8.ofNat u]
  else if u < 0x800 then [UInt8.ofNat (0xC0 + u / 64), UInt8.ofNat (0x80 + u % 64)]
  else [UInt8.ofNat (0xE0 + u / 4096), UInt8.ofNat (0x80 + u / 64 % 64), UInt8.ofNat (0x80 + u % 64)]

/-- What may follow a backslash, and what it denotes. -/
inductive Escape : Bytes → Bytes → Prop
  | b : Escape [c%'b'] [8]
  | f : Escape [c%'f'] [12]
  | n : Escape [c%'n'] [10]
  | r : Escape [c%'r'] [13]
  | t : Escape [c%'t'] [9]
  | u {c1 c2 c3 c4 d1 d2 d3 d4} : HexDigit c1 d1 → HexDigit c2 d2 → HexDigit c3 d3 → HexDigit c4 d4 →
      Escape [c%'u', c1, c2, c3, c4] (utf8of (d1 * 4096 + d2 * 256 + d3 * 16 + d4))
  | nul : Escape [0] []
  | other {c} : c ≠ 0 → ¬ LineEnd c → c ≠ c%'b' → c ≠ c%'f' → c ≠ c%'n' → c ≠ c%'r' → c ≠ c%'t' → c ≠ c%'u' →
      Escape [c] [c]

/-- The characters of a quoted string (between the quotes) and the content they denote. NUL bytes are skipped. -/
inductive StrChars : Bytes → Bytes → Prop
  | nil : StrChars [] []
  | nul {t v} : StrChars t v → StrChars (0 :: t) v
  | plain {c t v} : c ≠ 0 → ¬ LineEnd c → c ≠ c%'"' → c ≠ c%'\\' → StrChars t v → StrChars (c :: t) (c :: v)
  | esc {e d t v} : Escape e d → StrChars t v → StrChars (c%'\\' :: (e ++ t)) (d ++ v)

/-- Blanks a block string may start with. -/
def BlockBlank (c : Byte) : Prop := c = c%' ' ∨ c = c%'\t' ∨ c = c%'\n' ∨ c = c%'\r'

/-- `rest` does not continue a run of characters satisfying `p`. -/
def Stops (p : Byte → Prop) (rest : Bytes) : Prop := ∀ c r, rest = c :: r → ¬ p c

/-- The text of a block string from its first non-blank character up to and including the closing `"""`, and the content
it denotes before trimming its end: line breaks are kept, the indentation after them is dropped. -/
inductive BlockTail : Bytes → Bytes → Prop
  | close : BlockTail b%"\"\"\"" []
  | nul {t v} : BlockTail t v → BlockTail (0 :: t) v
  | plain {c t v} : c ≠ 0 → ¬ LineEnd c → c ≠ c%'"' → c ≠ c%'\\' → BlockTail t v → BlockTail (c :: t) (c :: v)
  | quote {t v} : (∀ r, t ≠ c%'"' :: c%'"' :: r) → BlockTail t v → BlockTail (c%'"' :: t) (c%'"' :: v)
  | esc {e d t v} : Escape e d → BlockTail t v → BlockTail (c%'\\' :: (e ++ t)) (d ++ v)
  | line {lb ind t v} : (lb = [c%'\n'] ∨ lb = [c%'\r', c%'\n'] ∨ (lb = [c%'\r'] ∧ Stops (· = c%'\n') (ind ++ t))) →
      (∀ x ∈ ind, x = c%' ' ∨ x = c%'\t') → Stops (fun x => x = c%' ' ∨ x = c%'\t') t →
      BlockTail t v → BlockTail (lb ++ (ind ++ t)) (lb ++ v)

/-- Drop the spaces and line ends at the end. -/
def trimEnd (v : Bytes) : Bytes :=
  (v.reverse.dropWhile (fun c => c == c%' ' || c == c%'\n' || c == c%'\r')).reverse

/-- Spellings of the tokens. -/
inductive Spell : Tok → Bytes → Prop
  | punct {c} : Spell (.punct c) [c]
  | sigil {c n} : Spell (.sigil c n) (c :: n)
  | dots : Spell .dots b%"..."
  | listEnd : Spell .listEnd b%"]"
  | listEndBang : Spell .listEndBang b%"]!"
  | name {n} : Spell (.name n) n
  | word {n} : Spell (.word n) n
  | num {n t} : NumSpell n t → Spell (.num n) t
  | str {v t} : StrChars t v → Spell (.str v) (c%'"' :: (t ++ [c%'"']))
  | block {pad t v} : (∀ x ∈ pad, BlockBlank x) → Stops BlockBlank t → BlockTail t v →
      Spell (.str (trimEnd v)) (b%"\"\"\"" ++ (pad ++ t))

/-- A token must be told apart from what follows: a name is not followed by a name character, a number is followed by
a punctuator, a comma or ignored text, the empty string `""` is not followed by a third quote.  The second argument is the spelling of the token. -/
def Separated : Tok → Bytes → Bytes → Prop
  | .name _, _, rest => ∀ c r, rest = c :: r → ¬ NameChar c
  | .sigil _ _, _, rest => ∀ c r, rest = c :: r → ¬ NameChar c
  | .num _, _, rest => ∀ c r, rest = c :: r →
      Blank c ∨ c = c%'#' ∨ c = c%',' ∨ c = c%'!' ∨ c = c%'$' ∨ c = c%'(' ∨ c = c%')' ∨ c = c%':' ∨ c = c%'=' ∨
        c = c%'@' ∨ c = c%'[' ∨ c = c%']' ∨ c = c%'{' ∨ c = c%'|' ∨ c = c%'}'
  | .str _, sp, rest => sp = b%"\"\"" → ∀ c r, rest = c :: r → c ≠ c%'"'
  | .listEnd, _, rest => ∀ c r, rest = c :: r → c ≠ c%'!'
  | _, _, _ => True

mutual
/-- `text` starts right at the first of the tokens `ts` and spells them, in some layout. -/
inductive LexAt : List Tok → Bytes → Prop
  | nil : LexAt [] []
  | cons {t ts sp rest} : Spell t sp → Separated t sp rest → Lex ts rest → LexAt (t :: ts) (sp ++ rest)
/-- As `LexAt`, with ignored text in front. -/
inductive Lex : List Tok → Bytes → Prop
  | trailing {t} : Trailing t → Lex [] t
  | mk {t ts ign rest} : Ignored ign → LexAt (t :: ts) rest → Lex (t :: ts) (ign ++ rest)
end

/-! ## Token sequences of a document -/

/-- At most one comma. -/
inductive OptComma : List Tok → Prop
  | none : OptComma []
  | comma : OptComma [.punct c%',']

mutual
inductive ValT : Value → List Tok → Prop
  | var {n} : IsName n → ValT (.var n) [.sigil c%'$' n]
  | int {n : Num} : n.isInt = true → ValT (.int n.text) [.num n]
  | float {n : Num} : n.isInt = false → ValT (.float n.text) [.num n]
  | str {v} : ValT (.str v) [.str v]
  | true : ValT (.bool true) [.name b%"true"]
  | false : ValT (.bool false) [.name b%"false"]
  | null : ValT .null [.name b%"null"]
  | enum {n} : IsName n → n ≠ b%"true" → n ≠ b%"false" → n ≠ b%"null" → ValT (.enum n) [.name n]
  | list {vs ts} : ValsT vs ts → ValT (.list vs) (.punct c%'[' :: (ts ++ [.punct c%']']))
  | obj {fs ts} : FieldsT fs ts → ValT (.obj fs) (.punct c%'{' :: (ts ++ [.punct c%'}']))
/-- values separated by optional commas (also after the last) -/
inductive ValsT : List Value → List Tok → Prop
  | nil : ValsT [] []
  | cons {v vs t c ts} : ValT v t → OptComma c → ValsT vs ts → ValsT (v :: vs) (t ++ (c ++ ts))
inductive FieldsT : List (Bytes × Value) → List Tok → Prop
  | nil : FieldsT [] []
  | cons {n v fs t c ts} : IsName n → ValT v t → OptComma c → FieldsT fs ts →
      FieldsT ((n, v) :: fs) (.name n :: .punct c%':' :: (t ++ (c ++ ts)))
end

/-- `( ... )` -/
inductive ArgsT : Option (List (Bytes × Value)) → List Tok → Prop
  | none : ArgsT none []
  | some {fs ts} : FieldsT fs ts → ArgsT (some fs) (.punct c%'(' :: (ts ++ [.punct c%')']))

inductive DirsT : List Directive → List Tok → Prop
  | nil : DirsT [] []
  | cons {n a ts ds ts'} : IsName n → ArgsT a ts → DirsT ds ts' →
      DirsT (⟨n, a⟩ :: ds) (.sigil c%'@' n :: (ts ++ ts'))

/-- Arguments of a field cannot follow a directive that has none: in `f @d (a: 1)` the arguments belong to `@d`. -/
def Apart (dirs : List Directive) (args : Option (List (Bytes × Value))) : Prop :=
  args = none ∨ ∀ d, dirs.getLast? = some d → d.args ≠ none

mutual
/-- A selection.  Note the order yarql wants: directives, then arguments. -/
inductive SelT : Sel → List Tok → Prop
  | field {k dirs args sels td ta ts} : IsName k → DirsT dirs td → dirs.length ≤ 255 → ArgsT args ta → Apart dirs args →
      BodyT sels ts → SelT (.field k none dirs args sels) (.name k :: (td ++ (ta ++ ts)))
  | aliased {k n dirs args sels td ta ts} : IsName k → IsName n → DirsT dirs td → dirs.length ≤ 255 → ArgsT args ta →
      Apart dirs args → BodyT sels ts →
      SelT (.field k (some n) dirs args sels) (.name k :: .punct c%':' :: .name n :: (td ++ (ta ++ ts)))
  | spread {n dirs td} : IsName n → n ≠ b%"on" → DirsT dirs td → dirs.length ≤ 255 →
      SelT (.spread n dirs) (.dots :: .name n :: td)
  | inline {n dirs sels td ts} : IsName n → DirsT dirs td → dirs.length ≤ 255 → SelsT sels ts →
      SelT (.inline n dirs sels) (.dots :: .name b%"on" :: .name n :: (td ++ (.punct c%'{' :: (ts ++ [.punct c%'}']))))
/-- optional selection set -/
inductive BodyT : List Sel → List Tok → Prop
  | none : BodyT [] []
  | some {sels ts} : SelsT sels ts → BodyT sels (.punct c%'{' :: (ts ++ [.punct c%'}']))
inductive SelsT : List Sel → List Tok → Prop
  | nil : SelsT [] []
  | cons {s ss t c ts} : SelT s t → OptComma c → SelsT ss ts → SelsT (s :: ss) (t ++ (c ++ ts))
end

inductive TyT : Ty → List Tok → Prop
  | named {n} : IsName n → TyT (.named n false) [.name n]
  | namedNN {n} : IsName n → TyT (.named n true) [.name n, .punct c%'!']
  | list {t ts} : TyT t ts → TyT (.list t false) (.punct c%'[' :: (ts ++ [.listEnd]))
  | listNN {t ts} : TyT t ts → TyT (.list t true) (.punct c%'[' :: (ts ++ [.listEndBang]))

inductive VarT : VarDef → List Tok → Prop
  | plain {n ty ts} : IsName n → TyT ty ts → VarT ⟨n, ty, none⟩ (.sigil c%'$' n :: .punct c%':' :: ts)
  | default {n ty ts d td} : IsName n → TyT ty ts → ValT d td →
      VarT ⟨n, ty, some d⟩ (.sigil c%'$' n :: .punct c%':' :: (ts ++ (.punct c%'=' :: td)))

inductive VarsT : List VarDef → List Tok → Prop
  | nil : VarsT [] []
  | cons {v vs t c ts} : VarT v t → OptComma c → VarsT vs ts → VarsT (v :: vs) (t ++ (c ++ ts))

/-- `query`, `mutation`, `subscription` -/
def keyword : OpKind → Bytes
  | .query => b%"query"
  | .mutation => b%"mutation"
  | .subscription => b%"subscription"

inductive VarDefsT : Option (List VarDef) → List Tok → Prop
  | none : VarDefsT none []
  /-- a comma in front of the first variable is accepted -/
  | some {c vs ts} : OptComma c → VarsT vs ts → VarDefsT (some vs) (.punct c%'(' :: (c ++ (ts ++ [.punct c%')'])))

inductive OpNameT : Bytes → List Tok → Prop
  | none : OpNameT [] []
  | some {n} : IsName n → OpNameT n [.name n]

inductive DefT : Def → List Tok → Prop
  /-- `{ ... }` -/
  | short {sels ts} : SelsT sels ts → DefT (.op ⟨.query, [], none, [], sels⟩) (.punct c%'{' :: (ts ++ [.punct c%'}']))
  | op {k n vs dirs sels tn tv td ts} : OpNameT n tn → VarDefsT vs tv → DirsT dirs td → dirs.length ≤ 255 →
      SelsT sels ts →
      DefT (.op ⟨k, n, vs, dirs, sels⟩)
        (.word (keyword k) :: (tn ++ (tv ++ (td ++ (.punct c%'{' :: (ts ++ [.punct c%'}']))))))
  | frag {n ty sels ts} : IsName n → IsName ty → SelsT sels ts →
      DefT (.frag ⟨n, ty, sels⟩)
        (.word b%"fragment" :: .name n :: .word b%"on" :: .name ty :: .punct c%'{' :: (ts ++ [.punct c%'}']))

inductive DocT : List Def → List Tok → Prop
  | nil : DocT [] []
  | cons {d ds t ts} : DefT d t → DocT ds ts → DocT (d :: ds) (t ++ ts)

/-- `text` is a text of the document `d`, in some layout. -/
def Text (d : List Def) (text : Bytes) : Prop := ∃ toks, DocT d toks ∧ Lex toks text

end Grammar
end Yarql
