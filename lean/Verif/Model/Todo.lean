import Verif.Model.Buffer

/-!
# Model of the example backend (`/repo/examples/relay/backend/schema.go`)

The functions of the example, on its two package variables and on the memory its strings live in (`Model/Buffer.lean`).
`todos` is a list here: the slices that `ResolveTodos` and `ResolveDeleteTodo` return share their array with `todos`,
but the response is written from them before the next of these functions is called.  Titles given as JSON variables
point into the buffer of the library `fastjson`, which is not modelled; titles here are literals of the query.
-/

namespace Yarql
namespace TodoApp
open Buffer

/-- A Go string: one with bytes of its own, or one that shares the bytecode buffer (`b2s`, /repo/resolver.go:1533). -/
inductive Title where
  | own (b : Bytes)
  | shared (s : Str)

/-- what a program that looks at the string sees now -/
def Title.read (h : Heap) : Title → Bytes
  | .own b => b
  | .shared s => h.readStr s

/-- `Todo` (schema.go:22-26) -/
structure Todo where
  id : UInt64
  title : Title
  done : Bool

/-- The memory of the schema, `todoIdx` (schema.go:35) and `todos` (schema.go:37-40). -/
structure App where
  mem : Heap × Slice
  idx : UInt64
  todos : List Todo

/-- The program after start-up (schema.go:35-40; main.go:17-21). -/
def start : App := ⟨new, 3, [⟨1, .own b%"Get groceries", false⟩, ⟨2, .own b%"Make TODO app", true⟩]⟩

/-- A call the resolver makes. A title is given as the place of its bytes in the bytecode of the request. -/
inductive Call where
  | todos
  | todo (id : UInt64)
  | create (off len : Nat)
  | update (id : UInt64) (title : Option (Nat × Nat)) (done : Option Bool)
  | delete (id : UInt64)

/-- What the function returns. -/
inductive Result where
  | list (l : List Todo)
  | one (t : Todo)
  /-- a nil pointer -/
  | nothing
  /-- `todo with id %d not found` -/
  | notFound (id : UInt64)

/-- the string argument the resolver passes (/repo/resolver.go:1531-1534) -/
def App.arg (a : App) (off len : Nat) : Str := ⟨a.mem.2.arr, off, len⟩

/-- the loop `for i, todo := range todos { if todo.ID == args.ID { idx = i; break } }` (schema.go:88-94, 113-119);
`none` is `idx == -1` -/
def findTodo (id : UInt64) : List Todo → Option Nat
  | [] => none
  | t :: ts => if t.id = id then some 0 else (findTodo id ts).map (· + 1)

/-- `if args.Title != nil { todo.Title = *args.Title }; if args.Done != nil { todo.Done = *args.Done }` (schema.go:100-105) -/
def Todo.assign (t : Todo) (title : Option Str) (done : Option Bool) : Todo :=
  let t := match title with | some s => { t with title := .shared s } | none => t
  match done with | some d => { t with done := d } | none => t

/-- The functions of the example. -/
def call (a : App) : Call → App × Result
  -- ResolveTodos (schema.go:43-45)
  | .todos => (a, .list a.todos)
  -- ResolveTodo (schema.go:53-60)
  | .todo id =>
    match findTodo id a.todos with
    | some i => (a, match a.todos[i]? with | some t => .one t | none => .nothing)
    | none => (a, .nothing)
  -- ResolveCreateTodo (schema.go:68-77); `fmt.Sprint` copies the title
  | .create off len =>
    let todo : Todo := ⟨a.idx, .own (a.mem.1.readStr (a.arg off len)), false⟩
    ({ a with todos := a.todos ++ [todo], idx := a.idx + 1 }, .one todo)
  -- ResolveUpdateTodo (schema.go:87-109); the title is not copied
  | .update id title done =>
    match findTodo id a.todos with
    | none => (a, .notFound id)
    | some i =>
      match a.todos[i]? with
      | none => (a, .notFound id)
      | some todo =>
        let todo := todo.assign (title.map (fun p => a.arg p.1 p.2)) done
        ({ a with todos := a.todos.set i todo }, .one todo)
  -- ResolveDeleteTodo (schema.go:112-126)
  | .delete id =>
    match findTodo id a.todos with
    | none => (a, .notFound id)
    | some i =>
      let todos := a.todos.take i ++ a.todos.drop (i + 1)
      ({ a with todos := todos }, .list todos)

/-- The calls of one request, one after the other (C28). -/
def calls (a : App) : List Call → App × List Result
  | [] => (a, [])
  | c :: cs => ((calls (call a c).1 cs).1, (call a c).2 :: (calls (call a c).1 cs).2)

/-- A request: it is compiled (`ws` are the writes to the buffer), then the functions are called. -/
structure Req where
  ws : List Write
  cs : List Call

def serve (a : App) (r : Req) : App × List Result := calls { a with mem := request a.mem r.ws } r.cs

/-- The requests the program answers, one after the other. -/
def run (a : App) (rs : List Req) : App := rs.foldl (fun a r => (serve a r).1) a

end TodoApp
end Yarql
