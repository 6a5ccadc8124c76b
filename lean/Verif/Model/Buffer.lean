import Verif.Model.Bytes

/-!
# Model of the memory behind string arguments

`ctx.query.Res` (`/repo/bytecode/bytecode.go:17`) is one byte slice that every request of a schema reuses: a request
starts with `Res: ctx.Res[:0]` (bytecode.go:47), then appends to it, stores bytes in it and cuts it back.  A string
argument is handed to a function as `b2s(ctx.query.Res[start:end])` (`/repo/resolver.go:1531-1534`, 1374), which makes
a Go string *without copying* (resolver.go:1701-1705): a pointer into the backing array of `Res`, and a length.
This file models that memory.  The same happens with the strings of the JSON variables, which point into the buffer
of `ctx.variablesJSONParser` (resolver.go:1096, 1231); that buffer belongs to the library `fastjson` and is not
modelled.
-/

namespace Yarql
namespace Buffer

/-- Backing arrays of byte slices; the length of an array is its capacity. -/
abbrev Heap := List Bytes

/-- A byte slice that starts at index 0 of backing array number `arr` (`ctx.query.Res`). -/
structure Slice where
  arr : Nat
  len : Nat
deriving DecidableEq, Repr

/-- What `b2s(ctx.query.Res[off:off+len])` returns (resolver.go:1703-1705): an address and a length. -/
structure Str where
  arr : Nat
  off : Nat
  len : Nat
deriving DecidableEq, Repr

/-- The array a slice lies in. -/
def Heap.array (h : Heap) (a : Nat) : Bytes := h.getD a []

/-- The content of a slice. -/
def Heap.read (h : Heap) (s : Slice) : Bytes := (h.array s.arr).take s.len

/-- What a program that looks at the string sees now. -/
def Heap.readStr (h : Heap) (s : Str) : Bytes := ((h.array s.arr).drop s.off).take s.len

/-- The three ways the parser changes `Res`. -/
inductive Write where
  /-- `ctx.Res = append(ctx.Res, bs...)` (e.g. bytecode.go:63, 142, 296); `extra` is the unused capacity the Go runtime
  adds if the bytes do not fit into the array -/
  | push (bs : Bytes) (extra : Nat)
  /-- `ctx.Res[i] = b` (e.g. bytecode.go:81-84, 138) -/
  | set (i : Nat) (b : Byte)
  /-- `ctx.Res = ctx.Res[:n]` (bytecode.go:464) -/
  | cut (n : Nat)

/-- The bytes of an array from index `i` on replaced by `bs`. -/
def overwrite (a : Bytes) (i : Nat) (bs : Bytes) : Bytes := a.take i ++ bs ++ a.drop (i + bs.length)

/-- One such statement on the memory.  Indices out of range do not change anything here; in Go they panic, which the
parser never does (C01). -/
def step (m : Heap × Slice) : Write → Heap × Slice
  | .push bs extra =>
    if m.2.len + bs.length ≤ (m.1.array m.2.arr).length then
      (m.1.set m.2.arr (overwrite (m.1.array m.2.arr) m.2.len bs), { m.2 with len := m.2.len + bs.length })
    else (m.1 ++ [m.1.read m.2 ++ bs ++ List.replicate extra 0], ⟨m.1.length, m.2.len + bs.length⟩)
  | .set i b => if i < m.2.len then (m.1.set m.2.arr ((m.1.array m.2.arr).set i b), m.2) else m
  | .cut n => if n ≤ m.2.len then (m.1, { m.2 with len := n }) else m

/-- A request: `Res: ctx.Res[:0]` (bytecode.go:47), then the parser's writes.  Executing the bytecode only reads
`Res` (resolver.go contains no assignment to it). -/
def request (m : Heap × Slice) (ws : List Write) : Heap × Slice := ws.foldl step (m.1, { m.2 with len := 0 })

/-- The requests a schema answers, one after the other. -/
def history (m : Heap × Slice) (rs : List (List Write)) : Heap × Slice := rs.foldl request m

/-- `NewParserCtx`: `Res: make([]byte, 2048)` (bytecode.go:33). -/
def new : Heap × Slice := ([List.replicate 2048 0], ⟨0, 2048⟩)

end Buffer
end Yarql
