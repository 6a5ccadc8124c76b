import Verif.Model.Parser

/-!
# Model of the query cache

`/repo/bytecode/cache/bytecode_cache.go` and the cache part of `ParseQueryToBytecode`
(`/repo/bytecode/bytecode.go:45-78`).

The Go map is an association list with distinct keys (the query lengths).  Go's unspecified map iteration
order (which 5 keys are deleted) and the growth policy of `append` are arguments supplied with every
operation, so the theorems hold for every choice.  `FragmentLocations` is the only slice the cache stores
without copying, so fragment tables live in an explicit heap of backing arrays.
-/

namespace Yarql
namespace Cache

/-- What a caller of `ParseQueryToBytecode` can see afterwards: `Res`, `FragmentLocations`, `TargetIdx`,
`Errors` (bytecode.go:16-28). -/
structure Outcome where
  res : Bytes
  frags : List Nat
  targetIdx : Option Nat
  errs : List Parser.PErr
deriving DecidableEq, Repr

/-- A Go slice of `int`s that starts at index 0 of backing array number `arr`. -/
structure Slice where
  arr : Nat
  len : Nat
deriving DecidableEq, Repr

/-- Backing arrays; the length of an array is its capacity. -/
abbrev Heap := List (List Nat)

/-- The content of a slice. -/
def Heap.read (h : Heap) (s : Slice) : List Nat := (h.getD s.arr []).take s.len

/-- `append(s, x)`: in place when there is capacity, else a new backing array with the old content
copied and `extra` unused slots (Go's growth policy is unspecified). -/
def Heap.push (extra : Nat) (h : Heap) (s : Slice) (x : Nat) : Heap × Slice :=
  if s.len < (h.getD s.arr []).length then
    (h.set s.arr ((h.getD s.arr []).set s.len x), { s with len := s.len + 1 })
  else
    (h ++ [h.read s ++ x :: List.replicate extra 0], ⟨h.length, s.len + 1⟩)

/-- `append(s, xs...)` one element after the other. -/
def Heap.pushAll (extra : Nat) (h : Heap) (s : Slice) : List Nat → Heap × Slice
  | [] => (h, s)
  | x :: xs => let (h', s') := h.push extra s x; Heap.pushAll extra h' s' xs

/-- `cacheEntry` (bytecode_cache.go:14-20) -/
structure Entry where
  query : Bytes
  bytecode : Bytes
  target : Option Bytes
  targetIdx : Option Nat
  fragmentLocation : Slice
deriving DecidableEq, Repr

/-- `BytecodeCache` (bytecode_cache.go:12) -/
abbrev BC := List (Nat × List Entry)

/-- `c[n]` -/
def lookup (c : BC) (n : Nat) : Option (List Entry) := (c.find? (fun kv => kv.1 == n)).map (·.2)

/-- `GetEntry` (bytecode_cache.go:23-36) -/
def getEntry (c : BC) (query : Bytes) (target : Option Bytes) : Option Entry :=
  match lookup c query.length with
  | none => none
  | some entries => entries.find? (fun e => e.query == query && e.target == target)

/-- `delete(c, key)` for the keys met by the range loop (bytecode_cache.go:40-51) -/
def evict (victims : List Nat) (c : BC) : BC :=
  if c.length == 100 then c.filter (fun kv => !victims.contains kv.1) else c

/-- `SetEntry` (bytecode_cache.go:39-76).  Assignment to a map key keeps one binding per key. -/
def setEntry (victims : List Nat) (c : BC) (query bytecode : Bytes) (target : Option Bytes)
    (targetIdx : Option Nat) (fragmentLocation : Slice) : BC :=
  let c := evict victims c
  let entries :=
    match lookup c query.length with
    | none => []
    | some entries => if entries.length == 20 then entries.dropLast else entries
  (query.length, ⟨query, bytecode, target, targetIdx, fragmentLocation⟩ :: entries) ::
    c.filter (fun kv => !(kv.1 == query.length))

/-- The part of `ParserCtx` that survives from one parse to the next (bytecode.go:46-57): the backing
array of `FragmentLocations` and the cache. -/
structure Ctx where
  heap : Heap
  frag : Slice
  cache : BC

/-- `NewParserCtx` (bytecode.go:31-41): `FragmentLocations: make([]int, 8)`, empty cache. -/
def Ctx.new : Ctx := { heap := [List.replicate 8 0], frag := ⟨0, 8⟩, cache := [] }

/-- One call of `ParseQueryToBytecode` with the values that Go leaves open. -/
structure Op where
  query : Bytes
  target : Option Bytes
  minLen : Nat
  victims : List Nat
  extra : Nat

/-- What a victim list must satisfy: the range loop meets distinct existing keys and stops after five
(bytecode_cache.go:43-50). -/
def Op.valid (o : Op) (c : BC) : Prop :=
  c.length = 100 → o.victims.Nodup ∧ o.victims.length = 5 ∧ ∀ v ∈ o.victims, v ∈ c.map (·.1)

/-- `ParseQueryToBytecode` (bytecode.go:45-78).  `F` is the cache-less parser. -/
def step (F : Bytes → Option Bytes → Outcome) (s : Ctx) (o : Op) : Ctx × Outcome :=
  let frag0 : Slice := { s.frag with len := 0 }
  let cacheable := decide (o.query.length > o.minLen)
  match (if cacheable then getEntry s.cache o.query o.target else none) with
  | some e =>
    let (h, fs) := s.heap.pushAll o.extra frag0 (s.heap.read e.fragmentLocation)
    ({ s with heap := h, frag := fs }, ⟨e.bytecode, h.read fs, e.targetIdx, []⟩)
  | none =>
    let out := F o.query o.target
    let (h, fs) := s.heap.pushAll o.extra frag0 out.frags
    let c :=
      if cacheable && out.errs.isEmpty then
        setEntry o.victims s.cache o.query out.res o.target out.targetIdx fs
      else s.cache
    ({ heap := h, frag := fs, cache := c }, ⟨out.res, h.read fs, out.targetIdx, out.errs⟩)

/-- A history of parses on one context. -/
def run (F : Bytes → Option Bytes → Outcome) (s : Ctx) : List Op → Ctx
  | [] => s
  | o :: os => run F (step F s o).1 os

/-- Every eviction choice of the history is one Go can make. -/
def ValidRun (F : Bytes → Option Bytes → Outcome) : Ctx → List Op → Prop
  | _, [] => True
  | s, o :: os => o.valid s.cache ∧ ValidRun F (step F s o).1 os

/-- The parser of `Model/Parser.lean` as an outcome; a panic (excluded by C01) yields `none`. -/
def parseOutcome (query : Bytes) (target : Option Bytes) : Option Outcome :=
  match Parser.parseQuery query target with
  | .ok _ s => some ⟨s.res, s.frags, s.targetIdx, s.errs⟩
  | _ => none

/-- The parser as a total function (the `none` case does not occur, see `C01`). -/
def parseF (query : Bytes) (target : Option Bytes) : Outcome :=
  (parseOutcome query target).getD ⟨[], [], none, []⟩

end Cache
end Yarql
