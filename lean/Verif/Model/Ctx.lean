/-!
# Model of the request context: user values, Go context, error slice (`/repo/resolver.go`)
-/

namespace Yarql
namespace Ctx

/-! ## User values -/

/-- a Go `map[string]interface{}` as the function it denotes -/
abbrev GoMap (K V : Type) := K → Option V

/-- `ctx.values *map[string]interface{}` (resolver.go:48): a nil pointer, or a pointer to a map variable, which
itself may be the nil map. The pointee is the caller's map (`ResolveOptions.Values`), so a write is visible there. -/
inductive Values (K V : Type) where
  | nilPtr
  | ptr (m : Option (GoMap K V))

/-- `GetValueOk` (resolver.go:86-92); reading a nil map finds nothing -/
def getValueOk {K V : Type} (vs : Values K V) (k : K) : Option V :=
  match vs with
  | .nilPtr => none
  | .ptr none => none
  | .ptr (some m) => m k

/-- `GetValue` (resolver.go:78-83): `none` is the nil interface value, which is also what an absent key gives;
`V` values are non-nil or nil interface values (`isNil`), kept as they are -/
def getValue {K V : Type} (nilValue : V) (vs : Values K V) (k : K) : V :=
  match vs with
  | .nilPtr => nilValue
  | .ptr none => nilValue
  | .ptr (some m) => (m k).getD nilValue

/-- `SetValue` (resolver.go:95-103); `none` = panic (assignment to entry in nil map) -/
def setValue {K V : Type} [DecidableEq K] (vs : Values K V) (k : K) (v : V) : Option (Values K V) :=
  match vs with
  | .nilPtr => some (.ptr (some (fun k' => if k' = k then some v else none)))
  | .ptr none => none
  | .ptr (some m) => some (.ptr (some (fun k' => if k' = k then some v else m k')))

/-- a sequence of `SetValue` calls -/
def setValues {K V : Type} [DecidableEq K] (vs : Values K V) : List (K × V) → Option (Values K V)
  | [] => some vs
  | (k, v) :: rest => (setValue vs k v).bind (fun vs' => setValues vs' rest)

/-! ## The Go context -/

/-- `GetContext` (resolver.go:106-111): the field `ctx.context` is a pointer; `none` = nil pointer. -/
def getContext {C : Type} (context : Option C) : Option C := context

/-- `SetContext` (resolver.go:114-122). The middle branch tests `ctx == nil` (the receiver, never nil) where
`ctx.context == nil` was meant, so a non-nil argument always dereferences `ctx.context`.
Outer `none` = panic (nil pointer dereference). -/
def setContext {C : Type} (context : Option C) (newContext : Option C) : Option (Option C) :=
  match newContext with
  | none => some none
  | some c => match context with
    | none => none
    | some _ => some (some c)

/-- a sequence of `SetContext` calls -/
def setContexts {C : Type} (context : Option C) : List (Option C) → Option (Option C)
  | [] => some context
  | c :: rest => (setContext context c).bind (fun x => setContexts x rest)

/-- `Resolve` sets the context from the options (resolver.go:199-201): nil stays nil. -/
def initContext {C : Type} (opts : Option C) : Option C := opts

/-! ## The returned error slice -/

/-- A Go slice of errors: backing array and length; the capacity is the array's length. -/
structure Slice where
  arr : Nat
  len : Nat

/-- heap of backing arrays; `none` cells are unused capacity -/
abbrev Heap (E : Type) := List (List (Option E))

/-- what a reader of the slice sees -/
def read {E : Type} (h : Heap E) (s : Slice) : List (Option E) := ((h[s.arr]?).getD []).take s.len

/-- `append(errors, e)` (bytecode.go:1295, resolver.go:332,337): in place when capacity is left, otherwise in a new
array; `extra` is the additional capacity the runtime chooses. -/
def append {E : Type} (extra : Nat → Nat) (h : Heap E) (s : Slice) (e : E) : Heap E × Slice :=
  let a := (h[s.arr]?).getD []
  if s.len < a.length then (h.set s.arr (a.set s.len (some e)), ⟨s.arr, s.len + 1⟩)
  else (h ++ [a.take s.len ++ some e :: List.replicate (extra s.len) none], ⟨h.length, s.len + 1⟩)

def appendAll {E : Type} (extra : Nat → Nat) (h : Heap E) (s : Slice) : List E → Heap E × Slice
  | [] => (h, s)
  | e :: es => let r := append extra h s e; appendAll extra r.1 r.2 es

/-- One request that reports the errors `es`: `Errors: ctx.Errors[:0]` (bytecode.go:50), appends, and
`return ctx.query.Errors` (resolver.go:297); the returned slice is also the next request's starting point. -/
def request {E : Type} (extra : Nat → Nat) (h : Heap E) (s : Slice) (es : List E) : Heap E × Slice :=
  appendAll extra h ⟨s.arr, 0⟩ es

/-- a history of requests, each given by the errors it reports; all returned slices, oldest first -/
def history {E : Type} (extra : Nat → Nat) (h : Heap E) (s : Slice) : List (List E) → Heap E × Slice
  | [] => (h, s)
  | es :: rest => let r := request extra h s es; history extra r.1 r.2 rest

/-- `NewParserCtx`: `Errors: []error{}` (bytecode.go:36) -/
def init (E : Type) : Heap E × Slice := ([[]], ⟨0, 0⟩)

end Ctx
end Yarql
