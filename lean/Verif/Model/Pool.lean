import Verif.Model.Introspect

/-!
# Model of a pool of schemas: `NewSchema`/`Parse` and `Copy` (`/repo/parse.go`, `/repo/copy_schema.go`), as far as schemas share memory

A schema made by `Parse` gets its own context with its own tracer (resolver.go:52-62), and the value of its `__schema` field holds
closures over the schema itself (inject_schema.go:17-23, 42-110).  `Copy` makes new tables, a new memo, a new context with a new
parser, value stack and result buffer; it takes over the pointer to the tracer (copy_schema.go:72) and, with the root query's fields,
the value of `__schema` (copy_schema.go:177), whose closures stay bound to the schema they were made for.  `__type` uses the schema of
the context (inject_schema.go:26-28), which is the copy.
-/

namespace Yarql
namespace Pool
open Introspect

variable {F V : Type}

/-- a schema in memory -/
structure Inst (F V : Type) where
  /-- its tables -/
  schema : Schema F V
  /-- `graphqlObjFields` -/
  memo : Memo
  /-- the schema the value of its `__schema` field belongs to -/
  bound : Nat
  /-- address of the tracer its context points to -/
  tracer : Nat

/-- what a program does with schemas -/
inductive Op (F V : Type) where
  /-- `Parse`: its result is the next schema -/
  | parse (s : Schema F V)
  /-- `(schema i).Copy()` -/
  | copy (i : Nat)
  /-- schema `i` resolves a request that asks for the fields of a type below `__schema` -/
  | viaSchema (i : Nat) (a : Ask)
  /-- schema `i` resolves a request that asks for the fields of a type below `__type` -/
  | viaType (i : Nat) (a : Ask)

/-- `Fields()` of a type that belongs to schema `b`, with its memo (`Introspect.fields`) -/
def askAt (heap : List (Inst F V)) (b : Nat) (a : Ask) : Option (List QField × List (Inst F V)) :=
  (heap[b]?).bind (fun inst => (fields inst.schema inst.memo a).map (fun r => (r.1, heap.set b { inst with memo := r.2 })))

/-- the schema whose closures a request runs: inject_schema.go:17-23 with copy_schema.go:177, inject_schema.go:26-28 -/
def answer (heap : List (Inst F V)) : Op F V → Option (List QField × List (Inst F V))
  | .viaSchema i a => (heap[i]?).bind (fun inst => askAt heap inst.bound a)
  | .viaType i a => askAt heap i a
  | _ => none

/-- one operation; `none` = crash or no such schema. A tracer's address is the number of the schema it was made for
(resolver.go:58). -/
def step (heap : List (Inst F V)) : Op F V → Option (List (Inst F V))
  | .parse s => some (heap ++ [⟨s, emptyMemo, heap.length, heap.length⟩])
  | .copy i => (heap[i]?).map (fun inst => heap ++ [⟨copySchema inst.schema, emptyMemo, inst.bound, inst.tracer⟩])
  | op => (answer heap op).map (·.2)

def run (heap : List (Inst F V)) : List (Op F V) → Option (List (Inst F V))
  | [] => some heap
  | op :: ops => (step heap op).bind (fun heap' => run heap' ops)

/-- the memory a request writes -/
inductive Cell where
  /-- `Ctx`: parser state, path, values, variables (resolver.go:174-205) -/
  | ctx (i : Nat)
  /-- `Result` (resolver.go:172) -/
  | result (i : Nat)
  /-- `graphqlTypesList`, `graphqlTypesMap`, `graphqlObjFields` (inject_schema.go:68, 96, 147-182, 188-195, 361, 409) -/
  | memo (i : Nat)
  /-- `tracer` (resolver.go:197, 215-222, 283, 603) -/
  | tracer (t : Nat)
deriving DecidableEq

/-- what matters of a request -/
structure Kind where
  /-- `ResolveOptions.Tracing` -/
  traced : Bool
  /-- types are asked for below `__schema` -/
  asksSchema : Bool
  /-- `__type` is asked for -/
  asksType : Bool

/-- the cells a request on schema `i` writes -/
def writes (i : Nat) (inst : Inst F V) (k : Kind) : List Cell :=
  [.ctx i, .result i] ++ (if k.traced then [.tracer inst.tracer] else []) ++ (if k.asksSchema then [.memo inst.bound] else []) ++
    (if k.asksType then [.memo i] else [])

end Pool
end Yarql
