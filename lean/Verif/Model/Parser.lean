import Verif.Model.Bytes

/-!
# Model of the query parser (`/repo/bytecode/bytecode.go`, `/repo/bytecode/bytecode_instructions.go`)

`ParserCtx` is split into the part that is constant during one call of `ParseQueryToBytecode`
(`PCfg`: query bytes and operation target) and the mutable part (`PS`).  A Go method on `*ParserCtx`
becomes a function `PCfg → PS → R α`, where `R` has three outcomes: normal return, Go run-time panic
(index out of range), and out-of-fuel (the model's bound on a Go loop or recursion was hit; the
theorems show that this never happens with the fuel used by `parseQuery`).
-/

namespace Yarql
namespace Parser

/-- `ErrorWLocation` (bytecode.go:1260-1264). -/
structure PErr where
  msg : Bytes
  line : Nat
  col : Nat
deriving Repr, DecidableEq

/-- The constant part of `ParserCtx` (bytecode.go:16-28): `Query` and `target`.  The hasher is
modelled by the pure function `fnv1` below; the cache is in `Model/Cache.lean`. -/
structure PCfg where
  query : Bytes
  target : Option Bytes

/-- The mutable part of `ParserCtx` (bytecode.go:16-28): `Res`, `FragmentLocations`, `charNr`,
`Errors`, `TargetIdx` (`none` = -1).  Go `int` positions are `Nat`: the only decrement of `charNr`
(`decCharNr`) panics in the model at 0, which is shown unreachable. -/
structure PS where
  res : Bytes
  frags : List Nat
  charNr : Nat
  errs : List PErr
  targetIdx : Option Nat
deriving Repr, DecidableEq

/-- Outcome of a parser function. -/
inductive R (α : Type) where
  | ok (a : α) (s : PS)
  | panic
  | oof
deriving Repr

/-- Parser functions. -/
def P (α : Type) := PCfg → PS → R α

instance : Monad P where
  pure a := fun _ s => .ok a s
  bind m f := fun cfg s =>
    match m cfg s with
    | .ok a s' => f a cfg s'
    | .panic => .panic
    | .oof => .oof

/-- Go run-time panic. -/
def panicP {α} : P α := fun _ _ => .panic
/-- The fuel of a modelled loop is used up. -/
def oofP {α} : P α := fun _ _ => .oof

/-- `ctx.charNr` -/
def getPos : P Nat := fun _ s => .ok s.charNr s
/-- `ctx.charNr = n` -/
def setPos (n : Nat) : P Unit := fun _ s => .ok () { s with charNr := n }
/-- `ctx.charNr++` -/
def incPos : P Unit := fun _ s => .ok () { s with charNr := s.charNr + 1 }
/-- `ctx.charNr--`; Go would go to -1 at 0, the model panics there (unreachable). -/
def decCharNr : P Unit := fun _ s =>
  match s.charNr with
  | 0 => .panic
  | n + 1 => .ok () { s with charNr := n }
/-- `len(ctx.Res)` -/
def resLen : P Nat := fun _ s => .ok s.res.length s
/-- `ctx.Res = append(ctx.Res, bs...)` -/
def emit (bs : Bytes) : P Unit := fun _ s => .ok () { s with res := s.res ++ bs }
/-- `ctx.Res[at] = b` -/
def setRes (i : Nat) (b : Byte) : P Unit := fun _ s =>
  if i < s.res.length then .ok () { s with res := s.res.set i b } else .panic
/-- `ctx.Res = ctx.Res[:n]` -/
def truncRes (n : Nat) : P Unit := fun _ s =>
  if n ≤ s.res.length then .ok () { s with res := s.res.take n } else .panic
/-- `ctx.Res[i]` -/
def getRes (i : Nat) : P Byte := fun _ s =>
  match s.res[i]? with
  | some b => .ok b s
  | none => .panic
/-- `ctx.Res[i:j]` -/
def sliceRes (i j : Nat) : P Bytes := fun _ s =>
  if i ≤ j ∧ j ≤ s.res.length then .ok ((s.res.take j).drop i) s else .panic
/-- `ctx.Res[i:]` -/
def sliceResFrom (i : Nat) : P Bytes := fun _ s =>
  if i ≤ s.res.length then .ok (s.res.drop i) s else .panic

/-- `writeUint32` (bytecode.go:80-85) and `writeUint32At` (testing_framework.go:8-14):
four byte stores, each bounds checked.  `uint32(n)` of a Go `int` wraps modulo 2^32. -/
def writeUint32 (value : UInt32) (at_ : Nat) : P Unit := fun _ s =>
  if at_ + 3 < s.res.length then .ok () { s with res := patch s.res at_ (le32 value) } else .panic

/-- Loop fuel that suffices for every loop that advances `charNr` in each iteration. -/
def loopFuel : P Nat := fun cfg s => .ok (cfg.query.length + 2) s

/-! ## ITERATOR HELPERS (bytecode.go:1093-1346) -/

/-- `checkC` (bytecode.go:1097-1102), `eof` (1108-1110), `c` (1104-1106): `none` = end of input. -/
def checkC (nr : Nat) : P (Option Byte) := fun cfg s => .ok cfg.query[nr]? s

/-- `currentC` (bytecode.go:1112-1114): panics past the end. -/
def currentC : P Byte := fun cfg s =>
  match cfg.query[s.charNr]? with
  | some c => .ok c s
  | none => .panic

/-- `isPunctuator` (bytecode.go:1132-1134) -/
def isPunctuator (c : Byte) : Bool :=
  c == c%'!' || c == c%'$' || c == c%'(' || c == c%')' || c == c%'.' || c == c%':' || c == c%'=' ||
  c == c%'@' || c == c%'[' || c == c%']' || c == c%'{' || c == c%'|' || c == c%'}'

/-- `isLineTerminator` (bytecode.go:1143-1156); moves onto the LF of a CRLF pair. -/
def isLineTerminator : P Bool := do
  let c ← currentC
  if c == c%'\n' then return true
  if c == c%'\r' then
    let next ← checkC ((← getPos) + 1)
    if next == some c%'\n' then
      incPos
      return true
    return true
  return false

/-- `parseComment` (bytecode.go:1169-1179) -/
def parseComment : Nat → P Unit
  | 0 => oofP
  | fuel + 1 => do
    let c ← checkC (← getPos)
    if c.isNone then return ()
    if ← isLineTerminator then return ()
    incPos
    parseComment fuel

/-- `isComment(true)` (bytecode.go:1159-1167) -/
def isComment : P Bool := do
  let c ← currentC
  if c == c%'#' then
    parseComment (← loopFuel)
    return true
  return false

/-- `isIgnoredToken` (bytecode.go:1137-1140), with Go's short-circuit evaluation order. -/
def isIgnoredToken (c : Byte) : P Bool := do
  if c == c%' ' || c == c%'\t' then return true
  if ← isLineTerminator then return true
  if ← isComment then return true
  return c == 0

/-- loop of `mightIgnoreNextTokens` -/
def mightIgnoreLoop : Nat → P (Option Byte)
  | 0 => oofP
  | fuel + 1 => do
    match ← checkC (← getPos) with
    | none => return none
    | some c =>
      if ← isIgnoredToken c then
        incPos
        mightIgnoreLoop fuel
      else return some c

/-- `mightIgnoreNextTokens` (bytecode.go:1116-1130): `none` = eof. -/
def mightIgnore : P (Option Byte) := do
  mightIgnoreLoop (← loopFuel)

/-- `matches` with a single key (bytecode.go:1203-1223) -/
def matches1Loop (key : Bytes) (startIdx : Nat) : Nat → P (Option Nat)
  | 0 => oofP
  | fuel + 1 => do
    match ← checkC (← getPos) with
    | none =>
      setPos startIdx
      return none
    | some c =>
      let offset := (← getPos) - startIdx
      match key[offset]? with
      | none => panicP
      | some k =>
        if k != c then
          setPos startIdx
          return none
        else if key.length == offset + 1 then
          incPos
          return some 0
        else
          incPos
          matches1Loop key startIdx fuel

/-- The inner `for idx, key := range oneOf` of `matches` (bytecode.go:1235-1248): returns the index of a
completed key, else the keys with the mismatching ones nullified, and `lastChecked`. -/
def matchScan (c : Byte) (offset : Nat) : Nat → List Bytes → Bytes → Option Nat × List Bytes × Bytes
  | _, [], last => (none, [], last)
  | idx, key :: keys, last =>
    if offset < key.length then
      if key[offset]? != some c then
        let (r, ks, last') := matchScan c offset (idx + 1) keys last
        (r, [] :: ks, last')
      else if key.length == offset + 1 then
        (some idx, key :: keys, last)
      else
        let (r, ks, last') := matchScan c offset (idx + 1) keys key
        (r, key :: ks, last')
    else
      let (r, ks, last') := matchScan c offset (idx + 1) keys last
      (r, key :: ks, last')

/-- `matches` with several keys (bytecode.go:1225-1256).  As in Go, `lastChecked` is never reset, so after
one partial match the loop runs on to the end of the input. -/
def matchesNLoop (startIdx : Nat) : Nat → List Bytes → Bytes → P (Option Nat)
  | 0, _, _ => oofP
  | fuel + 1, oneOf, lastChecked => do
    match ← checkC (← getPos) with
    | none =>
      setPos startIdx
      return none
    | some c =>
      let offset := (← getPos) - startIdx
      match matchScan c offset 0 oneOf lastChecked with
      | (some idx, _, _) =>
        incPos
        return some idx
      | (none, oneOf', lastChecked') =>
        if lastChecked' == [] then
          setPos startIdx
          return none
        else
          incPos
          matchesNLoop startIdx fuel oneOf' lastChecked'

/-- `matches` (bytecode.go:1200-1257): `none` = -1. -/
def matchesKw (oneOf : List Bytes) : P (Option Nat) := do
  let startIdx ← getPos
  match oneOf with
  | [key] => matches1Loop key startIdx (← loopFuel)
  | _ => matchesNLoop startIdx (← loopFuel) oneOf []

/-- `[a-zA-Z_]` as tested at bytecode.go:1314 -/
def isNameStart (c : Byte) : Bool :=
  (c%'a' ≤ c && c ≤ c%'z') || (c%'A' ≤ c && c ≤ c%'Z') || c == c%'_'

/-- `[a-zA-Z_0-9]` as tested at bytecode.go:1192 and 1328 -/
def isNameChar (c : Byte) : Bool :=
  (c%'a' ≤ c && c ≤ c%'z') || (c%'A' ≤ c && c ≤ c%'Z') || c == c%'_' || (c%'0' ≤ c && c ≤ c%'9')

/-- `matchesWord` (bytecode.go:1181-1198) -/
def matchesWord (oneOf : List Bytes) : P (Option Nat) := do
  let startIdx ← getPos
  match ← matchesKw oneOf with
  | none => return none
  | some m =>
    match ← checkC (← getPos) with
    | none => return some m
    | some c =>
      if isNameChar c then
        setPos startIdx
        return none
      else return some m

/-- The loop of `err` (bytecode.go:1274-1293): `idx` is the index of the head of the remaining query,
`prev` the byte before it. -/
def locLoop (charNr : Nat) : Bytes → Nat → Option Byte → Nat → Nat → Nat × Nat
  | [], _, _, line, column => (line, column)
  | char :: rest, idx, prev, line, column =>
    if idx == charNr then (line, column)
    else if char == c%'\n' then
      if column == 0 && decide (idx > 0) && prev == some c%'\r' then
        locLoop charNr rest (idx + 1) (some char) line column
      else
        locLoop charNr rest (idx + 1) (some char) (line + 1) 0
    else if char == c%'\r' then
      locLoop charNr rest (idx + 1) (some char) (line + 1) 0
    else
      locLoop charNr rest (idx + 1) (some char) line (column + 1)

/-- `err` (bytecode.go:1271-1301); always returns `true` (critical). -/
def err (msg : Bytes) : P Bool := fun cfg s =>
  let (line, col) := locLoop s.charNr cfg.query 0 none 1 0
  .ok true { s with errs := s.errs ++ [⟨msg, line, col⟩] }

/-- `unexpectedEOF` (bytecode.go:1303-1306) -/
def unexpectedEOF : P Bool := err b%"unexpected EOF"

/-- Go `string(c)` for a byte `c`: the UTF-8 encoding of the code point `c`. -/
def strOfByte (c : Byte) : Bytes :=
  if c < 0x80 then [c] else [(0xC0 : UInt8) ||| (c >>> 6), (0x80 : UInt8) ||| (c &&& 0x3F)]

/-- ``err(`<pre>` + string(c) + `"`)`` -/
def errC (pre : Bytes) (c : Byte) : P Bool := err (pre ++ strOfByte c ++ [c%'"'])

/-- loop of `parseAndWriteName` (bytecode.go:1322-1339); `nameLength` is a `uint8`. -/
def nameLoop : Nat → UInt8 → P (UInt8 × Bool)
  | 0, _ => oofP
  | fuel + 1, nameLength => do
    match ← checkC (← getPos) with
    | none => return (nameLength, ← unexpectedEOF)
    | some c =>
      if isNameChar c then
        emit [c]
        incPos
        let nameLength := nameLength + 1
        if nameLength == 255 then
          return (nameLength, ← err b%"names cannot be longer than 254 chars")
        nameLoop fuel nameLength
      else
        return (nameLength, false)

/-- `parseAndWriteName` (bytecode.go:1308-1340): returns `(nameLength, criticalError)`. -/
def parseAndWriteName : P (UInt8 × Bool) := do
  match ← checkC (← getPos) with
  | none => return (0, ← unexpectedEOF)
  | some c =>
    if isNameStart c then
      emit [c]
      incPos
      nameLoop (← loopFuel) 1
    else
      return (0, false)

/-! ## Instructions (bytecode_instructions.go) -/

/-- bytecode_instructions.go:56-60 -/
def instructionNewOperation (kind : Byte) : P Unit := emit [0, c%'o', kind, c%'f', 0]
/-- bytecode_instructions.go:62-64 -/
def instructionNewOperationArgs : P Unit := emit [0, c%'A']
/-- bytecode_instructions.go:79-82, returns the location of the length -/
def instructionNewOperationArg : P Nat := do
  emit [0, c%'a', 0, 0, 0, 0]
  return (← resLen) - 4
/-- bytecode_instructions.go:94-98 -/
def instructionNewFragment : P Unit := emit [0, c%'F']
/-- bytecode_instructions.go:112-114 -/
def instructionNewField : P Unit := emit [0, c%'f', 0, 0, 0, 0, 0, 0, 0, 0, 0]
/-- bytecode_instructions.go:130-136 -/
def instructionNewFragmentSpread (isInline : Bool) : P Unit :=
  if isInline then emit [0, c%'s', c%'t', 0, 0, 0, 0, 0] else emit [0, c%'s', c%'f', 0, 0, 0, 0, 0]
/-- bytecode_instructions.go:147-149 -/
def instructionNewDirective : P Unit := emit [0, c%'d', c%'f']
/-- bytecode_instructions.go:161-163 -/
def instructionNewValueObject : P Unit := emit [0, c%'v', c%'o', 0, 0, 0, 0]
/-- bytecode_instructions.go:165-167 -/
def instructionNewValueList : P Unit := emit [0, c%'v', c%'l', 0, 0, 0, 0]
/-- bytecode_instructions.go:169-175 -/
def instructionNewValueBoolean (val : Bool) : P Unit :=
  if val then emit [0, c%'v', c%'b', 1, 0, 0, 0, c%'1'] else emit [0, c%'v', c%'b', 1, 0, 0, 0, c%'0']
/-- bytecode_instructions.go:177-179 -/
def instructionNewValueNull : P Unit := emit [0, c%'v', c%'n', 0, 0, 0, 0]
/-- bytecode_instructions.go:183-185 -/
def instructionNewValueEnum : P Unit := emit [0, c%'v', c%'e', 0, 0, 0, 0]
/-- bytecode_instructions.go:189-191 -/
def instructionNewValueVariable : P Unit := emit [0, c%'v', c%'$', 0, 0, 0, 0]
/-- bytecode_instructions.go:195-197 -/
def instructionNewValueInt : P Unit := emit [0, c%'v', c%'i', 0, 0, 0, 0]
/-- bytecode_instructions.go:201-203 -/
def instructionNewValueString : P Unit := emit [0, c%'v', c%'s', 0, 0, 0, 0]
/-- bytecode_instructions.go:218-220 -/
def instructionStartNewValueObjectField : P Unit := emit [0, c%'u']
/-- bytecode_instructions.go:235-237 -/
def instructionEnd : P Unit := emit [0, c%'e']

/-- 32-bit FNV-1 (`hash/fnv.New32`, used at bytecode.go:574-580 and parse.go:121-125):
offset basis 2166136261, multiply by 16777619 then xor. -/
def fnv1 (bs : Bytes) : UInt32 :=
  bs.foldl (fun h b => (h * 16777619) ^^^ b.toUInt32) 2166136261

/-! ## Values -/

/-- `c >= '0' && c <= '9'` -/
def isDigit (c : Byte) : Bool := c%'0' ≤ c && c ≤ c%'9'

/-- `isPunctuator(c) || ctx.isIgnoredToken(c) || c == ','` (bytecode.go:843, 878, 918) in Go's
evaluation order (so the side effects of `isIgnoredToken` happen only for non-punctuators). -/
def endOfNumber (c : Byte) : P Bool := do
  if isPunctuator c then return true
  if ← isIgnoredToken c then return true
  return c == c%','

/-- `writeUint32(uint32(len(ctx.Res)-start), start-4)`, the closing of every value. -/
def closeLen (start : Nat) : P Unit := do
  writeUint32 (UInt32.ofNat ((← resLen) - start)) (start - 4)

/-- Outcome of one digit loop of `parseNumberInputValue`: stop with a final return value, or fall out of the
loop with the current character. -/
inductive NumStep where
  | ret (crit : Bool)
  | brk (c : Byte)

/-- first digit loop (bytecode.go:836-856) -/
def intLoop (startOfInt : Nat) : Nat → Byte → P NumStep
  | 0, _ => oofP
  | fuel + 1, c => do
    let next : P NumStep := do
      incPos
      match ← checkC (← getPos) with
      | none => return .ret (← unexpectedEOF)
      | some c => intLoop startOfInt fuel c
    if isDigit c then
      emit [c]
      next
    else if c == c%'.' || c == c%'e' || c == c%'E' then
      return .brk c
    else if c == c%'_' then
      next
    else if ← endOfNumber c then
      closeLen startOfInt
      return .ret false
    else
      return .ret (← errC b%"unexpected character in int or float value, char: \"" c)

/-- fraction loop (bytecode.go:862-885) -/
def fracLoop (startOfInt : Nat) : Nat → P NumStep
  | 0 => oofP
  | fuel + 1 => do
    incPos
    match ← checkC (← getPos) with
    | none => return .ret (← unexpectedEOF)
    | some c =>
      if isDigit c then
        emit [c]
        fracLoop startOfInt fuel
      else if c == c%'e' || c == c%'E' then
        return .brk c
      else if c == c%'_' then
        fracLoop startOfInt fuel
      else if c == c%'.' then
        return .ret (← errC b%"unexpected character in float value, char: \"" c)
      else if ← endOfNumber c then
        closeLen startOfInt
        return .ret false
      else
        return .ret (← errC b%"unexpected character in float value, char: \"" c)

/-- exponent loop (bytecode.go:909-930) -/
def expLoop : Nat → Byte → P NumStep
  | 0, _ => oofP
  | fuel + 1, c => do
    let next : P NumStep := do
      incPos
      match ← checkC (← getPos) with
      | none => return .ret (← unexpectedEOF)
      | some c => expLoop fuel c
    if isDigit c then
      emit [c]
      next
    else if c == c%'e' || c == c%'E' || c == c%'.' then
      return .ret (← errC b%"unexpected character in float value, char: \"" c)
    else if c == c%'_' then
      next
    else if ← endOfNumber c then
      return .brk c
    else
      return .ret (← errC b%"unexpected character in float value, char: \"" c)

/-- The exponent part (bytecode.go:888-934), entered with the current character `c`. -/
def parseExponent (startOfInt valueTypeAt : Nat) (c : Byte) : P Bool := do
  if c == c%'e' || c == c%'E' then
    setRes valueTypeAt c%'f'
    emit [c%'E']
    incPos
    match ← checkC (← getPos) with
    | none => unexpectedEOF
    | some c =>
      let go (c : Byte) : P Bool := do
        match ← expLoop (← loopFuel) c with
        | .ret crit => return crit
        | .brk _ =>
          closeLen startOfInt
          return false
      if c == c%'+' || c == c%'-' then
        if c == c%'-' then emit [c]
        incPos
        match ← checkC (← getPos) with
        | none => unexpectedEOF
        | some c => go c
      else go c
  else
    closeLen startOfInt
    return false

/-- After the sign (bytecode.go:835-934) -/
def parseNumberTail (startOfInt valueTypeAt : Nat) (c : Byte) : P Bool := do
  match ← intLoop startOfInt (← loopFuel) c with
  | .ret crit => return crit
  | .brk c =>
    if c == c%'.' then
      setRes valueTypeAt c%'f'
      emit [c%'.']
      match ← fracLoop startOfInt (← loopFuel) with
      | .ret crit => return crit
      | .brk c => parseExponent startOfInt valueTypeAt c
    else
      parseExponent startOfInt valueTypeAt c

/-- `parseNumberInputValue` (bytecode.go:812-935) -/
def parseNumberInputValue : P Bool := do
  instructionNewValueInt
  let startOfInt ← resLen
  let valueTypeAt := (← resLen) - 5
  let c ← currentC
  if c == c%'-' then
    incPos
    emit [c%'-']
    match ← checkC (← getPos) with
    | none => unexpectedEOF
    | some c => parseNumberTail startOfInt valueTypeAt c
  else if c == c%'+' then
    incPos
    match ← checkC (← getPos) with
    | none => unexpectedEOF
    | some c => parseNumberTail startOfInt valueTypeAt c
  else parseNumberTail startOfInt valueTypeAt c

/-- Value of a hex digit as in `encoding/hex`. -/
def hexVal (c : Byte) : Option Byte :=
  if c%'0' ≤ c && c ≤ c%'9' then some (c - c%'0')
  else if c%'a' ≤ c && c ≤ c%'f' then some (c - c%'a' + 10)
  else if c%'A' ≤ c && c ≤ c%'F' then some (c - c%'A' + 10)
  else none

/-- `hex.Decode` of four characters followed by `uint16(res[1]) | uint16(res[0])<<8`
(bytecode.go:1061-1074).  `none` = hex error. -/
def hex4 (c1 c2 c3 c4 : Byte) : Option Nat := do
  let a ← hexVal c1
  let b ← hexVal c2
  let c ← hexVal c3
  let d ← hexVal c4
  return a.toNat * 4096 + b.toNat * 256 + c.toNat * 16 + d.toNat

/-- `utf16.Decode([]uint16{u})[0]`: a lone surrogate becomes U+FFFD (bytecode.go:1074). -/
def utf16Single (u : Nat) : Nat := if 0xD800 ≤ u ∧ u < 0xE000 then 0xFFFD else u

/-- `utf8.EncodeRune` for a rune below 0x10000 (bytecode.go:1079). -/
def encodeRune3 (r : Nat) : Bytes :=
  if r < 0x80 then [UInt8.ofNat r]
  else if r < 0x800 then [UInt8.ofNat (0xC0 + r / 64), UInt8.ofNat (0x80 + r % 64)]
  else [UInt8.ofNat (0xE0 + r / 4096), UInt8.ofNat (0x80 + r / 64 % 64), UInt8.ofNat (0x80 + r % 64)]

/-- The loop that trims leading blanks of a block string (bytecode.go:946-957); `some crit` = return. -/
def blockTrimStart : Nat → P (Option Bool)
  | 0 => oofP
  | fuel + 1 => do
    match ← checkC (← getPos) with
    | none => return some (← unexpectedEOF)
    | some c =>
      if c == c%' ' || c == c%'\t' || c == c%'\n' || c == c%'\r' then
        incPos
        blockTrimStart fuel
      else
        decCharNr
        return none

/-- The loop that skips indentation after a newline in a block string (bytecode.go:988-999). -/
def blockIndent : Nat → P (Option Bool)
  | 0 => oofP
  | fuel + 1 => do
    incPos
    match ← checkC (← getPos) with
    | none => return some (← unexpectedEOF)
    | some c =>
      if c == c%' ' || c == c%'\t' then blockIndent fuel
      else
        decCharNr
        return none

/-- Trim trailing newlines and spaces off the written output (bytecode.go:1011-1018). -/
def blockTrimEnd : Nat → P Unit
  | 0 => oofP
  | fuel + 1 => do
    let n ← resLen
    if n == 0 then panicP
    else
      let lastInst ← getRes (n - 1)
      if lastInst == c%'\n' || lastInst == c%'\r' || lastInst == c%' ' then
        truncRes (n - 1)
        blockTrimEnd fuel
      else return ()

/-- The escape switch (bytecode.go:1025-1087), entered on the backslash.  `some crit` = return. -/
def parseEscape : P (Option Bool) := do
  incPos
  match ← checkC (← getPos) with
  | none => return some (← unexpectedEOF)
  | some c =>
    if c == 0 then return none
    else if c == c%'\n' || c == c%'\r' then
      return some (← err b%"newline and carriage returns not allowed in strings")
    else if c == c%'b' then
      emit [8]
      return none
    else if c == c%'f' then
      emit [12]
      return none
    else if c == c%'n' then
      emit [10]
      return none
    else if c == c%'r' then
      emit [13]
      return none
    else if c == c%'t' then
      emit [9]
      return none
    else if c == c%'u' then
      incPos
      let c1 ← checkC (← getPos)
      incPos
      let c2 ← checkC (← getPos)
      incPos
      let c3 ← checkC (← getPos)
      incPos
      match ← checkC (← getPos) with
      | none => return some (← unexpectedEOF)
      | some c4 =>
        match hex4 (c1.getD 0) (c2.getD 0) (c3.getD 0) c4 with
        | none => return some (← err b%"encoding/hex: invalid byte")
        | some u =>
          emit (encodeRune3 (utf16Single u))
          return none
    else
      emit [c]
      return none

/-- `mainLoop` of `parseStringInputValue` (bytecode.go:961-1090).  Simplification: the text of the hex error
message (bytecode.go:1065) is cut to its constant prefix. -/
def stringLoop (isBlock : Bool) (startOfString : Nat) : Nat → P Bool
  | 0 => oofP
  | fuel + 1 => do
    incPos
    match ← checkC (← getPos) with
    | none => unexpectedEOF
    | some c =>
      if c == 0 then stringLoop isBlock startOfString fuel
      else if c == c%'\n' || c == c%'\r' then
        if !isBlock then err b%"newline and carriage returns not allowed in strings"
        else
          emit [c]
          if c == c%'\r' then
            let n ← checkC ((← getPos) + 1)
            if n == some c%'\n' then
              emit [c%'\n']
              incPos
          match ← blockIndent (← loopFuel) with
          | some crit => return crit
          | none => stringLoop isBlock startOfString fuel
      else
        let rest : P Bool := do
          if c == c%'\\' then
            match ← parseEscape with
            | some crit => return crit
            | none => stringLoop isBlock startOfString fuel
          else
            emit [c]
            stringLoop isBlock startOfString fuel
        if c == c%'"' then
          if !isBlock then
            incPos
            closeLen startOfString
            return false
          else if (← matchesKw [b%"\"\"\""]) == some 0 then
            blockTrimEnd ((← resLen) + 1)
            closeLen startOfString
            return false
          else rest
        else rest

/-- `parseStringInputValue` (bytecode.go:937-1091) -/
def parseStringInputValue : P Bool := do
  instructionNewValueString
  let startOfString ← resLen
  if (← matchesKw [b%"\"\"\""]) == some 0 then
    match ← blockTrimStart (← loopFuel) with
    | some crit => return crit
    | none => stringLoop true startOfString (← loopFuel)
  else
    stringLoop false startOfString (← loopFuel)

mutual
/-- `parseInputValue` (bytecode.go:706-810) -/
def parseInputValue : Nat → P Bool
  | 0 => oofP
  | fuel + 1 => do
    match ← mightIgnore with
    | none => unexpectedEOF
    | some c =>
      if c == c%'$' then
        incPos
        instructionNewValueVariable
        let startOfVariable ← resLen
        let (nameLen, crit) ← parseAndWriteName
        if crit then return crit
        if nameLen == 0 then
          errC b%"variable input should have a name, got character: \"" (← currentC)
        else
          closeLen startOfVariable
          return false
      else if c == c%'-' || c == c%'+' || c == c%'.' || isDigit c then
        parseNumberInputValue
      else if c == c%'"' then
        parseStringInputValue
      else if c == c%'[' then
        incPos
        instructionNewValueList
        let startOfList ← resLen
        match ← mightIgnore with
        | none => unexpectedEOF
        | some c =>
          if c == c%']' then
            incPos
            instructionEnd
            closeLen startOfList
            return false
          else listLoop fuel startOfList
      else if c == c%'{' then
        incPos
        parseAssignmentSet fuel c%'}'
      else
        let enum : P Bool := do
          instructionNewValueEnum
          let startOfEnum ← resLen
          let (nameLen, crit) ← parseAndWriteName
          if crit then return crit
          if nameLen == 0 then
            errC b%"unknown value kind, got character: \"" (← currentC)
          else
            closeLen startOfEnum
            return false
        if c == c%'t' || c == c%'f' then
          match ← matchesWord [b%"false", b%"true"] with
          | some m =>
            instructionNewValueBoolean (m == 1)
            return false
          | none => enum
        else if c == c%'n' then
          if (← matchesWord [b%"null"]) == some 0 then
            instructionNewValueNull
            return false
          else enum
        else enum

/-- The element loop of a list value (bytecode.go:754-779) -/
def listLoop : Nat → Nat → P Bool
  | 0, _ => oofP
  | fuel + 1, startOfList => do
    if ← parseInputValue fuel then return true
    match ← mightIgnore with
    | none => unexpectedEOF
    | some c =>
      let fin (c : Byte) : P Bool := do
        if c == c%']' then
          incPos
          instructionEnd
          closeLen startOfList
          return false
        else listLoop fuel startOfList
      if c == c%',' then
        incPos
        match ← mightIgnore with
        | none => unexpectedEOF
        | some c => fin c
      else fin c

/-- `parseAssignmentSet` (bytecode.go:646-704) -/
def parseAssignmentSet : Nat → Byte → P Bool
  | 0, _ => oofP
  | fuel + 1, closure => do
    instructionNewValueObject
    let startOfObj ← resLen
    match ← mightIgnore with
    | none => unexpectedEOF
    | some c =>
      if c == closure then
        instructionEnd
        incPos
        closeLen startOfObj
        return false
      else assignLoop fuel closure startOfObj

/-- The field loop of `parseAssignmentSet` (bytecode.go:661-703) -/
def assignLoop : Nat → Byte → Nat → P Bool
  | 0, _, _ => oofP
  | fuel + 1, closure, startOfObj => do
    instructionStartNewValueObjectField
    let (nameLen, crit) ← parseAndWriteName
    if crit then return crit
    if nameLen == 0 then
      errC b%"expected name character but got: \"" (← currentC)
    else
    match ← mightIgnore with
    | none => unexpectedEOF
    | some c =>
      if c != c%':' then errC b%"expected \":\" but got \"" c
      else
      incPos
      if ← parseInputValue fuel then return true
      match ← mightIgnore with
      | none => unexpectedEOF
      | some c =>
        let fin (c : Byte) : P Bool := do
          if c == closure then
            instructionEnd
            incPos
            closeLen startOfObj
            return false
          else assignLoop fuel closure startOfObj
        if c == c%',' then
          incPos
          match ← mightIgnore with
          | none => unexpectedEOF
          | some c => fin c
        else fin c
end

/-- loop of `parseDirectives` (bytecode.go:337-376); returns `(directivesAmount, criticalErr)`. -/
def parseDirectives : Nat → UInt8 → P (UInt8 × Bool)
  | 0, _ => oofP
  | fuel + 1, amount => do
    match ← mightIgnore with
    | none => return (amount, ← unexpectedEOF)
    | some c =>
      if c != c%'@' then return (amount, false)
      else if amount == 255 then
        return (amount, ← err b%"cannot have more than 255 directives")
      else
      let amount := amount + 1
      incPos
      instructionNewDirective
      let hasArgsFlag := (← resLen) - 1
      let (nameLen, crit) ← parseAndWriteName
      if crit then return (amount, crit)
      if nameLen == 0 then
        return (amount, ← errC b%"expected directive name but got char \"" (← currentC))
      else
      match ← mightIgnore with
      | none => return (amount, ← unexpectedEOF)
      | some c =>
        if c != c%'(' then parseDirectives fuel amount
        else
        setRes hasArgsFlag c%'t'
        incPos
        if ← parseAssignmentSet fuel c%')' then return (amount, true)
        parseDirectives fuel amount

/-- `parseGraphqlTypeName` (bytecode.go:379-437) -/
def parseGraphqlTypeName : Nat → Byte → P Bool
  | 0, _ => oofP
  | fuel + 1, c => do
    let operationLocation ← resLen
    if c == c%'[' then
      emit [c%'l']
      incPos
      match ← mightIgnore with
      | none => unexpectedEOF
      | some c =>
      if ← parseGraphqlTypeName fuel c then return true
      match ← mightIgnore with
      | none => unexpectedEOF
      | some c =>
      if c != c%']' then errC b%"expected list closure (\"]\") but got \"" c
      else
      incPos
      match ← checkC (← getPos) with
      | none => unexpectedEOF
      | some c =>
      if c == c%'!' then
        setRes operationLocation c%'L'
        incPos
        return false
      else return false
    else
      emit [c%'n']
      let (nameLen, crit) ← parseAndWriteName
      if crit then return crit
      if nameLen == 0 then errC b%"invalid typename char \"" (← currentC)
      else
      match ← mightIgnore with
      | none => unexpectedEOF
      | some c =>
      if c == c%'!' then
        setRes operationLocation c%'N'
        incPos
        return false
      else return false

/-- `parseOperatorArgument` (bytecode.go:271-334) -/
def parseOperatorArgument (fuel : Nat) : P Bool := do
  let startOfArgument := (← resLen) + 1
  let argLengthLocation ← instructionNewOperationArg
  let (nameLen, crit) ← parseAndWriteName
  if crit then return crit
  if nameLen == 0 then errC b%"expected argument name but got \"" (← currentC)
  else
  match ← mightIgnore with
  | none => unexpectedEOF
  | some c =>
  if c != c%':' then errC b%"expected \":\" name but got \"" (← currentC)
  else
  incPos
  emit [0]
  match ← mightIgnore with
  | none => unexpectedEOF
  | some c =>
  if ← parseGraphqlTypeName fuel c then return true
  emit [0]
  match ← mightIgnore with
  | none => unexpectedEOF
  | some c =>
  let fin : P Bool := do
    let endOfArgument ← resLen
    writeUint32 (UInt32.ofNat (endOfArgument - startOfArgument)) argLengthLocation
    return false
  if c == c%'=' then
    emit [c%'t']
    incPos
    match ← mightIgnore with
    | none => unexpectedEOF
    | some _ =>
      if ← parseInputValue fuel then return true
      fin
  else
    emit [c%'f']
    fin

/-- loop of `parseOperatorArguments` (bytecode.go:240-268) -/
def operatorArgsLoop : Nat → P Bool
  | 0 => oofP
  | fuel + 1 => do
    match ← mightIgnore with
    | none => unexpectedEOF
    | some c =>
      let rest (c : Byte) : P Bool := do
        if c == c%')' then
          incPos
          instructionEnd
          return false
        else if c != c%'$' then errC b%"expected \"$\" but got \"" c
        else
        incPos
        if ← parseOperatorArgument fuel then return true
        operatorArgsLoop fuel
      if c == c%',' then
        incPos
        match ← mightIgnore with
        | none => unexpectedEOF
        | some c => rest c
      else rest c

/-- `parseOperatorArguments` (bytecode.go:237-269) -/
def parseOperatorArguments (fuel : Nat) : P Bool := do
  instructionNewOperationArgs
  operatorArgsLoop fuel

/-- `if c == ',' { charNr++; c = mightIgnore }`, then `if c == '}' { charNr++; return false }`, then loop
(bytecode.go:526-539 and 629-640). -/
def selNext (c : Byte) (again : P Bool) : P Bool := do
  let fin (c : Byte) : P Bool := do
    if c == c%'}' then
      incPos
      return false
    else again
  if c == c%',' then
    incPos
    match ← mightIgnore with
    | none => unexpectedEOF
    | some c => fin c
  else fin c

mutual
/-- `parseSelectionSet` (bytecode.go:439-642) -/
def parseSelectionSet : Nat → P Bool
  | 0 => oofP
  | fuel + 1 => do
    match ← mightIgnore with
    | none => unexpectedEOF
    | some c =>
      if c == c%'}' then
        incPos
        return false
      else selLoop fuel

/-- One iteration of the loop of `parseSelectionSet` (bytecode.go:450-641) and what follows it. -/
def selLoop : Nat → P Bool
  | 0 => oofP
  | fuel + 1 => do
    instructionNewField
    let directivesCountLocation := (← resLen) - 9
    let startField ← resLen
    emit [0]
    let (aliasOrNameLen, crit) ← parseAndWriteName
    if crit then return crit
    setRes startField aliasOrNameLen
    if aliasOrNameLen == 0 then
      truncRes ((← resLen) - 12)
      if (← matchesKw [b%"..."]) == some 0 then
        spread fuel
      else
        errC b%"unexpected character, expected valid name or selection closure but got: \"" (← currentC)
    else
    match ← mightIgnore with
    | none => unexpectedEOF
    | some c =>
    let nameLenAt ← resLen
    emit [0]
    if c == c%':' then
      incPos
      match ← mightIgnore with
      | none => unexpectedEOF
      | some _ =>
      let (nameLen, crit) ← parseAndWriteName
      if crit then return crit
      if nameLen == 0 then
        errC b%"unexpected character, expected valid name char but got \"" c
      else
      setRes nameLenAt nameLen
      match ← mightIgnore with
      | none => unexpectedEOF
      | some c =>
      let nm ← sliceRes (nameLenAt + 1) (nameLenAt + 1 + nameLen.toNat)
      writeUint32 (fnv1 nm) (startField - 4)
      fieldTail fuel directivesCountLocation startField c
    else
      let nm ← sliceRes (startField + 1) (startField + 1 + aliasOrNameLen.toNat)
      writeUint32 (fnv1 nm) (startField - 4)
      fieldTail fuel directivesCountLocation startField c

/-- The part of the field iteration after the name (bytecode.go:583-640). -/
def fieldTail : Nat → Nat → Nat → Byte → P Bool
  | 0, _, _, _ => oofP
  | fuel + 1, directivesCountLocation, startField, c => do
    if c == c%'@' then
      let (amount, crit) ← parseDirectives fuel 0
      setRes directivesCountLocation amount
      if crit then return crit
      let c ← currentC
      fieldArgs fuel startField c
    else fieldArgs fuel startField c

/-- Arguments, selection set and end of a field (bytecode.go:592-640). -/
def fieldArgs : Nat → Nat → Byte → P Bool
  | 0, _, _ => oofP
  | fuel + 1, startField, c => do
    if c == c%'(' then
      incPos
      match ← mightIgnore with
      | none => unexpectedEOF
      | some _ =>
      if ← parseAssignmentSet fuel c%')' then return true
      match ← mightIgnore with
      | none => unexpectedEOF
      | some c => fieldSel fuel startField c
    else fieldSel fuel startField c

/-- Selection set and end of a field (bytecode.go:610-640). -/
def fieldSel : Nat → Nat → Byte → P Bool
  | 0, _, _ => oofP
  | fuel + 1, startField, c => do
    let fin (c : Byte) : P Bool := do
      instructionEnd
      writeUint32 (UInt32.ofNat ((← resLen) - startField)) (startField - 8)
      selNext c (selLoop fuel)
    if c == c%'{' then
      incPos
      if ← parseSelectionSet fuel then return true
      match ← mightIgnore with
      | none => unexpectedEOF
      | some c => fin c
    else fin c

/-- Fragment spread and inline fragment (bytecode.go:467-539), entered after "...". As in Go, the critical
flag of the nested `parseSelectionSet` is dropped (bytecode.go:516). -/
def spread : Nat → P Bool
  | 0 => oofP
  | fuel + 1 => do
    match ← mightIgnore with
    | none => unexpectedEOF
    | some _ =>
    let isInline := (← matchesWord [b%"on"]) == some 0
    if isInline then
      match ← mightIgnore with
      | none => unexpectedEOF
      | some _ => spreadName fuel isInline
    else spreadName fuel isInline

/-- bytecode.go:481-539 -/
def spreadName : Nat → Bool → P Bool
  | 0, _ => oofP
  | fuel + 1, isInline => do
    instructionNewFragmentSpread isInline
    let directivesCountLocation := (← resLen) - 5
    let startFragment ← resLen
    let (nameLen, crit) ← parseAndWriteName
    if crit then return crit
    match ← mightIgnore with
    | none => unexpectedEOF
    | some c =>
    if nameLen == 0 then
      if isInline then errC b%"expected fragment type name but got char: \"" c
      else errC b%"expected fragment name but got char: \"" c
    else
    if c == c%'@' then
      let (amount, crit) ← parseDirectives fuel 0
      setRes directivesCountLocation amount
      if crit then return crit
      let c ← currentC
      spreadTail fuel isInline startFragment c
    else spreadTail fuel isInline startFragment c

/-- bytecode.go:510-539 -/
def spreadTail : Nat → Bool → Nat → Byte → P Bool
  | 0, _, _, _ => oofP
  | fuel + 1, isInline, startFragment, c => do
    let fin (c : Byte) : P Bool := do
      writeUint32 (UInt32.ofNat ((← resLen) - startFragment)) (startFragment - 4)
      selNext c (selLoop fuel)
    if isInline then
      if c != c%'{' then
        errC b%"expected selection set open (\"{\") on inline fragment but got \"" c
      else
      incPos
      let _ ← parseSelectionSet fuel
      instructionEnd
      match ← mightIgnore with
      | none => unexpectedEOF
      | some c => fin c
    else fin c
end

/-- `ctx.hasTarget` (bytecode.go:52) -/
def hasTarget (cfg : PCfg) : Bool :=
  match cfg.target with
  | none => false
  | some t => decide (t.length > 0)

/-- `if !ctx.hasTarget { ctx.TargetIdx = operationStartsAt }` (bytecode.go:97-99, 103-105) -/
def setTargetIfNone (at_ : Nat) : P Unit := fun cfg s =>
  if hasTarget cfg then .ok () s else .ok () { s with targetIdx := some at_ }

/-- `if len(name) > 0 && ctx.hasTarget && b2s(name) == *ctx.target { ctx.TargetIdx = operationStartsAt }`
(bytecode.go:128-131) -/
def setTargetIfName (name : Bytes) (at_ : Nat) : P Unit := fun cfg s =>
  if decide (name.length > 0) && hasTarget cfg && cfg.target == some name then
    .ok () { s with targetIdx := some at_ }
  else .ok () s

/-- `ctx.FragmentLocations = append(ctx.FragmentLocations, n)` -/
def addFrag (n : Nat) : P Unit := fun _ s => .ok () { s with frags := s.frags ++ [n] }

/-- The common end of `parseOperatorOrFragment` (bytecode.go:227-234), entered on `{`. -/
def opBody (fuel : Nat) : P Bool := do
  incPos
  if ← parseSelectionSet fuel then return true
  instructionEnd
  return false

/-- Directives and selection-set opener of an operation (bytecode.go:156-165). -/
def opDirectives (fuel : Nat) (directivesCountLocation : Nat) : P Bool := do
  let (amount, crit) ← parseDirectives fuel 0
  setRes directivesCountLocation amount
  if crit then return crit
  let c ← currentC
  if c != c%'{' then errC b%"expected selection set opener (\"{\") but got \"" c
  else opBody fuel

/-- The operation instruction of the matched keyword (bytecode.go:107-115). -/
def instructionOfKeyword (m : Nat) : P Unit :=
  if m == 0 then instructionNewOperation c%'q'
  else if m == 1 then instructionNewOperation c%'m'
  else instructionNewOperation c%'s'

/-- An operation with a keyword (bytecode.go:102-165). -/
def parseOperation (fuel : Nat) (operationStartsAt : Nat) (m : Nat) : P Bool := do
  setTargetIfNone operationStartsAt
  instructionOfKeyword m
  let hasArgsFlagLocation := (← resLen) - 2
  let directivesCountLocation := (← resLen) - 1
  match ← mightIgnore with
  | none => unexpectedEOF
  | some _ =>
  let startOfName ← resLen
  let (_, crit) ← parseAndWriteName
  if crit then return crit
  let name ← sliceResFrom startOfName
  setTargetIfName name operationStartsAt
  match ← mightIgnore with
  | none => unexpectedEOF
  | some c =>
  if c == c%'(' then
    setRes hasArgsFlagLocation c%'t'
    emit [0, 0, 0, 0, 0]
    let endAt := (← resLen) - 4
    let argumentsStartAt ← resLen
    incPos
    if ← parseOperatorArguments fuel then return true
    writeUint32 (UInt32.ofNat (← resLen) - UInt32.ofNat argumentsStartAt) endAt
    opDirectives fuel directivesCountLocation
  else
    opDirectives fuel directivesCountLocation

/-- A fragment definition (bytecode.go:166-222). -/
def parseFragment (fuel : Nat) : P Bool := do
  addFrag ((← resLen) + 1)
  instructionNewFragment
  match ← mightIgnore with
  | none => unexpectedEOF
  | some _ =>
  let (nameLen, crit) ← parseAndWriteName
  if crit then return crit
  if nameLen == 0 then errC b%"expected fragment name but got \"" (← currentC)
  else
  match ← mightIgnore with
  | none => unexpectedEOF
  | some c =>
  if c != c%'o' then errC b%"expected \"on\" keyword but got \"" c
  else
  incPos
  match ← checkC (← getPos) with
  | none => unexpectedEOF
  | some c =>
  if c != c%'n' then errC b%"expected \"on\" keyword but got \"" c
  else
  incPos
  match ← mightIgnore with
  | none => unexpectedEOF
  | some _ =>
  emit [0]
  let (nameLen, crit) ← parseAndWriteName
  if crit then return crit
  if nameLen == 0 then errC b%"expected fragment type target but got \"" (← currentC)
  else
  match ← mightIgnore with
  | none => unexpectedEOF
  | some c =>
  if c != c%'{' then errC b%"expected selection set opener (\"{\") but got \"" c
  else opBody fuel

/-- `parseOperatorOrFragment` (bytecode.go:89-235): returns `stop`. -/
def parseOperatorOrFragment (fuel : Nat) : P Bool := do
  match ← mightIgnore with
  | none => return true
  | some c =>
    let operationStartsAt ← resLen
    if c == c%'{' then
      setTargetIfNone operationStartsAt
      instructionNewOperation c%'q'
      opBody fuel
    else
    match ← matchesKw [b%"query", b%"mutation", b%"subscription"] with
    | some m => parseOperation fuel operationStartsAt m
    | none =>
    match ← matchesKw [b%"fragment"] with
    | some _ => parseFragment fuel
    | none =>
      errC b%"expected query, mutation, subscription or a simple query (\"{...}\") but got \"" c

/-- The loop of `ParseQueryToBytecode` (bytecode.go:70-77). -/
def docLoop (fuel : Nat) : Nat → P Unit
  | 0 => oofP
  | n + 1 => do
    if ← parseOperatorOrFragment fuel then return ()
    docLoop fuel n

/-- The state `ParseQueryToBytecode` starts from (bytecode.go:46-57). -/
def PS.init : PS := { res := [], frags := [], charNr := 0, errs := [], targetIdx := none }

/-- Recursion fuel used by `parseQuery`. -/
def parseFuel (query : Bytes) : Nat := 8 * query.length + 16

/-- `ParseQueryToBytecode` without the cache (bytecode.go:45-57, 70-78). -/
def parseQuery (query : Bytes) (target : Option Bytes) : R Unit :=
  docLoop (parseFuel query) (query.length + 2) ⟨query, target⟩ PS.init

end Parser
end Yarql
