/-!
# Bytes

Go `[]byte` is modelled as `List UInt8`.  This file has no counterpart in the repository except for
`writeUint32` / `readUint32`.
-/

namespace Yarql

abbrev Byte := UInt8
abbrev Bytes := List UInt8

/-- `c%'x'` is the ASCII code of a character literal, as a `UInt8` numeral. -/
syntax:max (name := byteLit) "c%" char : term

open Lean in
macro_rules
  | `(c%$c:char) => do
      let n := Syntax.mkNumLit (toString c.getChar.toNat)
      `(($n : UInt8))

/-- Bytes of an ASCII string literal; elaborates to an explicit list. -/
syntax:max (name := bytesLit) "b%" str : term

open Lean in
macro_rules
  | `(b%$s:str) => do
      let elems := s.getString.toUTF8.toList.map fun b =>
        (Syntax.mkNumLit (toString b.toNat) : TSyntax `term)
      let arr := elems.toArray
      `(([$arr,*] : List UInt8))

/-- The four bytes stored by `writeUint32` (bytecode/bytecode.go:80-85) and `writeUint32At`
(bytecode/testing_framework.go:8-14): little endian, `byte(0xff & (value >> 8k))`. -/
def le32 (v : UInt32) : Bytes :=
  [(v &&& 0xff).toUInt8, ((v >>> 8) &&& 0xff).toUInt8, ((v >>> 16) &&& 0xff).toUInt8,
   ((v >>> 24) &&& 0xff).toUInt8]

/-- `uint32(data[0]) | uint32(data[1])<<8 | ...` (resolver.go:349-355). -/
def rd32 (a b c d : Byte) : UInt32 :=
  a.toUInt32 ||| (b.toUInt32 <<< 8) ||| (c.toUInt32 <<< 16) ||| (d.toUInt32 <<< 24)

/-- `readUint32` (resolver.go:349-355); `none` = slice bounds out of range. -/
def readUint32 (res : Bytes) (startAt : Nat) : Option UInt32 :=
  match (res.take (startAt + 4)).drop startAt with
  | [a, b, c, d] => some (rd32 a b c d)
  | _ => none

/-- Overwrite bytes from position `i`; bytes beyond the end are dropped (callers check bounds). -/
def patch : Bytes → Nat → Bytes → Bytes
  | l, _, [] => l
  | l, i, x :: xs => patch (l.set i x) (i + 1) xs

end Yarql
