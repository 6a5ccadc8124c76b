import Verif.Model.Buffer
import Verif.Model.Http

/-!
# Model of the memory behind response bodies

`(*Schema).Result` (`/repo/parse.go:61`, 226) is one byte slice that every request of a schema reuses: `Resolve` cuts it to
length 0 and appends the response (`/repo/resolver.go:171`, 132-138 and the other appends to `ctx.schema.Result`), and
`HandleRequest` returns that very slice (`/repo/implement_helpers.go:104`, 113), or a slice of its own for a batch (line
92) and for refused requests (lines 33-38).  This is `Model/Http.lean` with that memory.
-/

namespace Yarql
namespace Body
open Buffer Http

/-- A schema and all byte arrays of the program. -/
structure St (W : Type) where
  world : W
  heap : Heap
  /-- `(*Schema).Result` -/
  result : Slice
  /-- `(*Schema).parsed` -/
  parsed : Bool

/-- `fastjson` and the execution of a request; `resolve` gives the state afterwards, the bytes that are appended to
`Result` (one list per append, with the unused capacity that Go adds if the array has to be replaced), and the errors. -/
structure Env (W : Type) where
  parse : Bytes → Option J
  render : J → Bytes
  resolve : W → Req → W × List (Bytes × Nat) × List Bytes

/-- The schema of `NewSchema` (parse.go:218-243): `Result: make([]byte, 16384)`. -/
def St.new {W : Type} (w : W) : St W := ⟨w, [List.replicate 16384 0], ⟨0, 16384⟩, false⟩

/-- `Resolve` (resolver.go:165-298), as to `Result`. -/
def resolve {W : Type} (env : Env W) (st : St W) (req : Req) : St W × List Bytes :=
  if st.parsed then
    let m := request (st.heap, st.result) ((env.resolve st.world req).2.1.map (fun c => .push c.1 c.2))
    ({ st with world := (env.resolve st.world req).1, heap := m.1, result := m.2 }, (env.resolve st.world req).2.2)
  else (st, [b%"invalid setup"])

/-- A slice of a new array (`[]byte(…)`, `bytes.NewBuffer`). While a batch or an error response is being written nothing else
can reach the array, so only its final content is modelled. -/
def alloc {W : Type} (st : St W) (b : Bytes) : St W × Slice := ({ st with heap := st.heap ++ [b] }, ⟨st.heap.length, b.length⟩)

/-- `errRes` (implement_helpers.go:33-38) -/
def refuse {W : Type} (st : St W) (msg : Bytes) : St W × Slice × List Bytes :=
  ((alloc st (errRes msg).1).1, (alloc st (errRes msg).1).2, (errRes msg).2)

/-- The `Env` of `Model/Http.lean` for `getBodyData`, which does not execute anything. -/
def Env.getBodyData {W : Type} (env : Env W) (j : J) : Except Bytes Req :=
  Http.getBodyData (W := W) ⟨env.parse, env.render, fun w _ => (w, [], [])⟩ j

/-- The loop over a batch (implement_helpers.go:62-90); `response.Write(s.Result)` copies. -/
def batchLoop {W : Type} (env : Env W) : St W → Bytes → List Bytes → List J → St W × Bytes × List Bytes
  | st, response, errs, [] => (st, response, errs)
  | st, response, errs, item :: items =>
    let response := if response.length > 1 then response ++ [c%','] else response
    match env.getBodyData item with
    | .error e => batchLoop env st (response ++ (errRes e).1) (errs ++ [e]) items
    | .ok req =>
      let r := resolve env st req
      batchLoop env r.1 (response ++ r.1.heap.read r.1.result) (errs ++ r.2) items

/-- `return s.Result, errs` after one request (implement_helpers.go:98-104, 107-113) -/
def single {W : Type} (env : Env W) (st : St W) (req : Req) : St W × Slice × List Bytes :=
  ((resolve env st req).1, (resolve env st req).1.result, (resolve env st req).2)

/-- From the body bytes on (implement_helpers.go:51-105) -/
def handleBody {W : Type} (env : Env W) (st : St W) (body : Bytes) : St W × Slice × List Bytes :=
  if body.length == 0 then refuse st b%"empty body"
  else
    match env.parse body with
    | none => refuse st b%"invalid json body"
    | some (.arr items) =>
      let r := batchLoop env st b%"[" [] items
      ((alloc r.1 (r.2.1 ++ b%"]")).1, (alloc r.1 (r.2.1 ++ b%"]")).2, r.2.2)
    | some v =>
      match env.getBodyData v with
      | .error e => refuse st e
      | .ok req => single env st req

/-- `HandleRequest` (implement_helpers.go:23-114): the state, the returned slice, the returned errors. -/
def handleRequest {W : Type} (env : Env W) (st : St W) (r : Http) : St W × Slice × List Bytes :=
  let method := toUpper r.method
  if r.contentType == b%"application/json" ||
      ((r.contentType == b%"text/plain" || r.contentType == b%"multipart/form-data") && method != b%"GET") then
    if r.contentType == b%"multipart/form-data" then
      match r.formField with
      | .error e => refuse st e
      | .ok v => handleBody env st v
    else handleBody env st r.body
  else
    single env st ⟨r.urlQuery b%"query", r.urlQuery b%"variables", r.urlQuery b%"operationName"⟩

/-- The requests of a schema, one after the other. -/
def run {W : Type} (env : Env W) (st : St W) (rs : List Http) : St W := rs.foldl (fun st r => (handleRequest env st r).1) st

/-! ## Several schemas

A program has a schema and copies of it; each answers its own requests, and different ones may do so at the same time.
The steps are single appends. -/

/-- All byte arrays of the program, and the `Result` of each schema. -/
structure World where
  heap : Heap
  results : List Slice

inductive Event where
  /-- schema `i` begins a request: `s.Result = s.Result[:0]` (resolver.go:171) -/
  | begin (i : Nat)
  /-- schema `i` appends to its response (resolver.go:132-138) -/
  | append (i : Nat) (bs : Bytes) (extra : Nat)
  /-- schema `i` is copied: `Result: make([]byte, len(s.Result))` (copy_schema.go:50) -/
  | copy (i : Nat)
  /-- the program allocates bytes elsewhere, for example the response of a batch -/
  | other (b : Bytes)

def World.step (w : World) : Event → World
  | .begin i =>
    match w.results[i]? with
    | none => w
    | some s => { w with results := w.results.set i { s with len := 0 } }
  | .append i bs extra =>
    match w.results[i]? with
    | none => w
    | some s => ⟨(Buffer.step (w.heap, s) (.push bs extra)).1, w.results.set i (Buffer.step (w.heap, s) (.push bs extra)).2⟩
  | .copy i =>
    match w.results[i]? with
    | none => w
    | some s => ⟨w.heap ++ [List.replicate s.len 0], w.results ++ [⟨w.heap.length, s.len⟩]⟩
  | .other b => { w with heap := w.heap ++ [b] }

def World.run (w : World) (es : List Event) : World := es.foldl World.step w

/-- A program with one new schema (parse.go:226). -/
def World.new : World := ⟨[List.replicate 16384 0], [⟨0, 16384⟩]⟩

/-- The event is a step of schema `i`. -/
def Event.of (i : Nat) : Event → Bool
  | .begin j => i == j
  | .append j _ _ => i == j
  | _ => false

end Body
end Yarql
