import Verif.Spec.Check

/-!
# A small concrete schema with data, for examples

```go
type User struct { Name string; Age uint8; Friend *User; Scores []int64; Pet Animal }
type Dog struct { Sound string }            // implements Animal
func (User) ResolveAdd(args struct{ X int64 }) int64          // x + 1
func (User) ResolveBoth() (string, error)                     // a value next to an error
```
The query root is a `User`. Calls are logged in the world (newest last).
-/

namespace Yarql
namespace Demo
open Doc Resolver Typed

/-- Go values -/
inductive D where
  | str (s : Bytes)
  | uint (n : Nat)
  | int (i : Int)
  | ptr (x : Option D)
  | seq (xs : Option (List D))
  | struct (fs : List D)
  | iface (x : Option (Bytes × Bytes × D))
  | fn (id : Nat)
  | modifier (skip : Bool)
  | error (msg : Option Bytes)

/-- calls made so far: function, path, arguments -/
abbrev World := List (Nat × Bytes × List (Arg Unit))

def view : World → D → View Unit D
  | _, .str s => .scalar (.string s)
  | _, .uint n => .scalar (.uint n)
  | _, .int i => .scalar (.int i)
  | _, .ptr x => .ptr x
  | _, .seq xs => .seq xs
  | _, .struct fs => .struct fs
  | _, .iface x => .iface x
  | _, .fn _ => .func false
  | _, .modifier _ => .struct []
  | _, .error _ => .iface none

/-- 0: `ResolveAdd`, 1: `ResolveBoth`, 2: the directive `skip`, anything else: `include` -/
def call (w : World) (f : D) (path : Bytes) (args : List (Arg Unit)) : Option (World × List D) :=
  match f with
  | .fn id =>
    match id, args with
    | 0, [.val (.struct [.scalar (.int i)])] => some (w ++ [(id, path, args)], [.int (i + 1)])
    | 0, _ => some (w ++ [(id, path, args)], [.int 0])
    | 1, _ => some (w ++ [(id, path, args)], [.str b%"value", .error (some b%"went wrong")])
    | 2, [.val (.struct [.scalar (.bool b)])] => some (w, [.modifier b])
    | _, [.val (.struct [.scalar (.bool b)])] => some (w, [.modifier (!b)])
    | _, _ => some (w, [.modifier false])
  | _ => none

def env : Env Unit D World where
  view := view
  method := fun _ i => .fn i
  call := call
  errOf := fun _ v => match v with | .error m => m | _ => none
  skip := fun _ v => match v with | .modifier b => b | _ => false
  ctxErr := fun _ => none
  formFile := none
  parseFloat := fun _ => some ()
  floatOfInt := fun _ => ()
  toF32 := fun _ => ()
  floatZero := ()
  jsonFloat := fun _ => ()
  floatText := fun _ _ => b%"0"
  numError := fun fn t => b%"strconv." ++ fn ++ b%": parsing " ++ t
  jsonIntError := fun t => b%"no integer: " ++ t
  typeString := fun _ => b%"<T Value>"

def addMethod : Method Unit := ⟨true, [.struct (.struct [.scalar (.int 0)])], [⟨b%"x", 0, 0, .scalar (.int .w64) none false⟩], 0, none⟩
def bothMethod : Method Unit := ⟨true, [], [], 0, some 1⟩
def ifMethod : Method Unit := ⟨false, [.struct (.struct [.scalar (.bool false)])], [⟨b%"if", 0, 0, .scalar .bool none false⟩], 0, none⟩

def field (name : Bytes) (i : Nat) (o : Obj Unit) : RField Unit D := ⟨fnv1 name, i, none, o⟩

def user : RType Unit D := ⟨b%"User", [
  field b%"name" 0 (.data false .string),
  field b%"age" 1 (.data false (.uint .w8)),
  field b%"friend" 2 (.ptr (.objRef b%"User")),
  field b%"scores" 3 (.array (.data false (.int .w64))),
  field b%"pet" 4 (.interfaceRef b%"Animal"),
  field b%"add" 0 (.method addMethod (.data false (.int .w64))),
  field b%"both" 1 (.method bothMethod (.data false .string))]⟩

def dog : RType Unit D := ⟨b%"Dog", [field b%"sound" 0 (.data false .string)]⟩

def mutation : RType Unit D := ⟨b%"M", [field b%"add" 0 (.method addMethod (.data false (.int .w64)))]⟩

def dogValue : D := .iface (some (b%"Dog", b%"main", .struct [.str b%"woof"]))

/-- Bob's friend is nobody -/
def bob : D := .struct [.str b%"Bob", .uint 30, .ptr none, .seq none, .iface none]
def ann : D := .struct [.str b%"A\"n", .uint 7, .ptr (some bob), .seq (some [.int 1, .int (-2)]), dogValue]

def directives : List (DirectiveDef Unit D) :=
  [⟨b%"skip", [0, 1, 2], ifMethod, .fn 2⟩, ⟨b%"include", [0, 1, 2], ifMethod, .fn 3⟩]

def schema : RSchema Unit D where
  types := [(b%"User", user), (b%"Dog", dog)]
  interfaces := [(b%"Animal", [⟨b%"Dog", b%"main", b%"Dog"⟩])]
  inTypes := []
  rootQuery := user
  rootMethod := mutation
  rootQueryValue := ann
  rootMethodValue := .struct []
  maxDepth := 60
  enums := []
  directives := [(0, directives), (1, directives), (2, directives)]

/-! ## The data is well typed -/

/-- a user: five fields of the right types -/
inductive IsUser : D → Prop where
  | mk {n a f s p} : (∀ x, f = some x → IsUser x) → (∀ xs, s = some xs → ∀ x ∈ xs, ∃ i, x = .int i) →
      (∀ g pk x, p = some (g, pk, x) → ∃ t, x = .struct [.str t]) →
      IsUser (.struct [.str n, .uint a, .ptr f, .seq s, .iface p])

/-- Go values of the schema's types -/
def HasType : Obj Unit → D → Prop
  | .data _ .string, v => ∃ s, v = .str s
  | .data _ (.uint _), v => ∃ n, v = .uint n
  | .data _ (.int _), v => ∃ i, v = .int i
  | .ptr (.objRef n), v => n = b%"User" ∧ ∃ x, v = .ptr x ∧ ∀ y, x = some y → IsUser y
  | .array (.data false (.int .w64)), v => ∃ xs, v = .seq xs ∧ ∀ l, xs = some l → ∀ x ∈ l, ∃ i, x = .int i
  | .objRef n, v => (n = b%"User" ∧ IsUser v) ∨ (n = b%"Dog" ∧ ∃ t, v = .struct [.str t])
  | .interfaceRef n, v => n = b%"Animal" ∧ ∃ x, v = .iface x ∧ ∀ g pk y, x = some (g, pk, y) → ∃ t, y = .struct [.str t]
  | .method m o, v => (m = addMethod ∧ o = .data false (.int .w64) ∧ v = .fn 0) ∨
      (m = bothMethod ∧ o = .data false .string ∧ v = .fn 1)
  | _, _ => False

theorem user_fields {v : D} (h : IsUser v) : HasFields env HasType user v := by
  cases h with
  | mk hf hs hp =>
    intro f hm
    simp only [user, List.mem_cons, List.not_mem_nil, or_false] at hm
    rcases hm with rfl | rfl | rfl | rfl | rfl | rfl | rfl
    · exact ⟨fun x h => (by cases h), fun _ => ⟨fun m o h => (by cases h), fun _ w => ⟨_, _, rfl, rfl, _, rfl⟩⟩⟩
    · exact ⟨fun x h => (by cases h), fun _ => ⟨fun m o h => (by cases h), fun _ w => ⟨_, _, rfl, rfl, _, rfl⟩⟩⟩
    · exact ⟨fun x h => (by cases h), fun _ => ⟨fun m o h => (by cases h), fun _ w => ⟨_, _, rfl, rfl, rfl, _, rfl, hf⟩⟩⟩
    · exact ⟨fun x h => (by cases h), fun _ => ⟨fun m o h => (by cases h), fun _ w => ⟨_, _, rfl, rfl, _, rfl, hs⟩⟩⟩
    · exact ⟨fun x h => (by cases h), fun _ => ⟨fun m o h => (by cases h), fun _ w => ⟨_, _, rfl, rfl, rfl, _, rfl, hp⟩⟩⟩
    · exact ⟨fun x h => (by cases h), fun _ => ⟨fun m o h _ => Or.inl ⟨rfl, rfl, rfl⟩, fun h => (by cases h _ _ rfl)⟩⟩
    · exact ⟨fun x h => (by cases h), fun _ => ⟨fun m o h _ => Or.inr ⟨rfl, rfl, rfl⟩, fun h => (by cases h _ _ rfl)⟩⟩

theorem bob_user : IsUser bob := .mk (by simp) (by simp) (by simp)
theorem ann_user : IsUser ann := by
  refine .mk ?_ ?_ ?_
  · intro x h; cases h; exact bob_user
  · intro xs h x hx; cases h; simp at hx; rcases hx with rfl | rfl <;> exact ⟨_, rfl⟩
  · intro g pk x h; cases h; exact ⟨_, rfl⟩

theorem ifMethod_ok : MethodOK schema env ifMethod := by
  refine ⟨?_, ⟨rfl, ?_⟩, ?_⟩
  · intro a ha; simp [ifMethod] at ha; subst ha; intro i h; cases h
  · intro a ha; simp [ifMethod] at ha; subst ha; exact ⟨_, _, rfl, rfl, .other (by simp)⟩
  · intro a ha b hb _ _; simp [ifMethod] at ha hb; subst ha; subst hb; rfl

theorem addMethod_ok : MethodOK schema env addMethod := by
  refine ⟨?_, ⟨rfl, ?_⟩, ?_⟩
  · intro a ha; simp [addMethod] at ha; subst ha; intro i h; cases h
  · intro a ha; simp [addMethod] at ha; subst ha; exact ⟨_, _, rfl, rfl, .other (by simp)⟩
  · intro a ha b hb _ _; simp [addMethod] at ha hb; subst ha; subst hb; rfl

theorem bothMethod_ok : MethodOK schema env bothMethod := by
  refine ⟨?_, ⟨rfl, ?_⟩, ?_⟩ <;> intro a ha <;> simp [bothMethod] at ha

theorem call0 (w : World) (p : Bytes) (args : List (Arg Unit)) : ∃ w' i, call w (.fn 0) p args = some (w', [.int i]) := by
  unfold call
  dsimp only
  split <;> first | exact ⟨_, _, rfl⟩ | contradiction | (exfalso; simp_all)

theorem callDirective (k : Nat) (hk : 2 ≤ k) (w : World) (p : Bytes) (args : List (Arg Unit)) :
    ∃ outs, call w (.fn k) p args = some (w, outs) ∧ outs ≠ [] := by
  unfold call
  dsimp only
  split
  · omega
  · omega
  · omega
  · exact ⟨_, rfl, by simp⟩
  · exact ⟨_, rfl, by simp⟩
  · exact ⟨_, rfl, by simp⟩

theorem lookup_types {n : Bytes} {t : RType Unit D} (h : lookup schema.types n = some t) :
    (n = b%"User" ∧ t = user) ∨ (n = b%"Dog" ∧ t = dog) := by
  unfold lookup schema at h
  dsimp only at h
  by_cases h1 : b%"User" = n
  · subst h1
    left
    exact ⟨rfl, by simpa using h.symm⟩
  · by_cases h2 : b%"Dog" = n
    · subst h2
      right
      refine ⟨rfl, ?_⟩
      have : lookup [(b%"User", user), (b%"Dog", dog)] b%"Dog" = some dog := by rfl
      rw [lookup] at this
      rw [this] at h
      exact (Option.some.inj h).symm
    · simp [List.find?, h1, h2] at h

theorem wellTyped : WellTyped schema env HasType where
  inTypes := by
    intro n d h
    cases h
  array := by
    intro o v h w
    unfold HasType at h
    split at h <;> try (first | contradiction | simp_all; done)
    rename_i heq
    cases heq
    obtain ⟨xs, rfl, h⟩ := h
    exact ⟨xs, rfl, h⟩
  ptr := by
    intro o v h w
    unfold HasType at h
    split at h <;> try (first | contradiction | simp_all; done)
    rename_i heq
    cases heq
    obtain ⟨rfl, x, rfl, h⟩ := h
    exact ⟨x, rfl, fun y hy => Or.inl ⟨rfl, h y hy⟩⟩
  object := by
    intro n v h t ht
    have h : (n = b%"User" ∧ IsUser v) ∨ (n = b%"Dog" ∧ ∃ t, v = .struct [.str t]) := h
    rcases lookup_types ht with ⟨rfl, rfl⟩ | ⟨rfl, rfl⟩
    · rcases h with ⟨_, h⟩ | ⟨h, _⟩
      · exact user_fields h
      · exact absurd h (by decide)
    · rcases h with ⟨h, _⟩ | ⟨_, t, rfl⟩
      · exact absurd h (by decide)
      · intro f hm
        simp only [dog, List.mem_cons, List.not_mem_nil, or_false] at hm
        subst hm
        exact ⟨fun x h => (by cases h), fun _ => ⟨fun m o h => (by cases h), fun _ w => ⟨_, _, rfl, rfl, _, rfl⟩⟩⟩
  data := by
    intro id k v h w
    unfold HasType at h
    split at h <;> try (first | contradiction | simp_all; done)
    all_goals
      rename_i heq
      cases heq
      obtain ⟨x, rfl⟩ := h
      exact ⟨_, rfl, _, rfl⟩
  enum := by
    intro i v h
    cases h
  method := by
    intro m out v h
    have h : (m = addMethod ∧ out = .data false (.int .w64) ∧ v = .fn 0) ∨ (m = bothMethod ∧ out = .data false .string ∧ v = .fn 1) := h
    rcases h with ⟨rfl, rfl, rfl⟩ | ⟨rfl, rfl, rfl⟩
    · refine ⟨addMethod_ok, Or.inl rfl, ?_⟩
      intro w p inputs _ _
      obtain ⟨w', i, h⟩ := call0 w p inputs
      exact ⟨w', _, _, h, rfl, ⟨_, rfl⟩, fun nr h => by cases h⟩
    · refine ⟨bothMethod_ok, Or.inl rfl, ?_⟩
      intro w p inputs _ _
      exact ⟨_, _, _, rfl, rfl, ⟨_, rfl⟩, fun nr h => by cases h; decide⟩
  interface := by
    intro n v h impls hi w
    have h : n = b%"Animal" ∧ ∃ x, v = .iface x ∧ ∀ g pk y, x = some (g, pk, y) → ∃ t, y = .struct [.str t] := h
    obtain ⟨rfl, x, rfl, hx0⟩ := h
    have e : impls = [⟨b%"Dog", b%"main", b%"Dog"⟩] := by
      have : lookup schema.interfaces b%"Animal" = some [⟨b%"Dog", b%"main", b%"Dog"⟩] := rfl
      rw [this] at hi
      exact (Option.some.inj hi).symm
    subst e
    refine ⟨x, rfl, ?_⟩
    intro g pk y hx i hm _ _
    rw [List.mem_singleton] at hm
    subst hm
    exact Or.inr ⟨rfl, hx0 g pk y hx⟩
  directive := by
    intro loc table h x hx
    have e : table = directives := by
      unfold lookup schema at h
      dsimp only at h
      by_cases h0 : (0 : UInt8) = loc
      · subst h0; exact (Option.some.inj h).symm
      · by_cases h1 : (1 : UInt8) = loc
        · subst h1; exact (Option.some.inj h).symm
        · by_cases h2 : (2 : UInt8) = loc
          · subst h2; exact (Option.some.inj h).symm
          · simp [List.find?, h0, h1, h2] at h
    subst e
    simp only [directives, List.mem_cons, List.not_mem_nil, or_false] at hx
    rcases hx with rfl | rfl
    · refine ⟨ifMethod_ok, fun w p inputs _ => ?_⟩
      obtain ⟨outs, h1, h2⟩ := callDirective 2 (by omega) w p inputs
      exact ⟨_, outs, h1, h2⟩
    · refine ⟨ifMethod_ok, fun w p inputs _ => ?_⟩
      obtain ⟨outs, h1, h2⟩ := callDirective 3 (by omega) w p inputs
      exact ⟨_, outs, h1, h2⟩
  query := user_fields ann_user
  mutation := by
    intro f hm
    have hm : f ∈ [field b%"add" 0 (.method addMethod (.data false (.int .w64)))] := hm
    rw [List.mem_singleton] at hm
    subst hm
    exact ⟨fun x h => (by cases h), fun _ => ⟨fun m o h _ => Or.inl ⟨rfl, rfl, rfl⟩, fun h => (by cases h _ _ rfl)⟩⟩

/-- at most one list or interface layer per field -/
theorem slots_le (f : RField Unit D) (h : IsField schema f) : slots f.obj ≤ 1 := by
  have hu : ∀ f ∈ user.fields, slots f.obj ≤ 1 := by decide
  have hd : ∀ f ∈ dog.fields, slots f.obj ≤ 1 := by decide
  have hm : ∀ f ∈ mutation.fields, slots f.obj ≤ 1 := by decide
  rcases h with h | h | ⟨n, t, hn, h⟩
  · exact hu f h
  · exact hm f h
  · simp only [schema, List.mem_cons, List.not_mem_nil, or_false] at hn
    rcases hn with h' | h' <;> cases h'
    · exact hu f h
    · exact hd f h

/-- a request without target and variables -/
def request (q : Bytes) : Request := ⟨q, [], false, .empty⟩

def noStack : UInt8 → D := fun _ => .struct []

/-- the outcome of a request, for comparison: response, number of errors, calls made -/
def ask (fuel : Nat) (req : Request) : Option (Bytes × Nat × Nat) :=
  match resolve fuel schema env noStack [] req with
  | .ok (b, es) w => some (b, es.length, w.length)
  | _ => none

/-- a response without errors, with metadata -/
def dataOnly (text : Bytes) : Bytes := b%"{\"data\":" ++ text ++ b%"}"

/-- short queries fit -/
theorem fits {frags : List Fragment} {o : Operation} (h : Check.nestB frags 40 100 o.sels = true) : Fits schema frags o :=
  ⟨1, slots_le, Or.inl ⟨100, Check.nestB_ok _ _ _ _ h, by decide⟩⟩

theorem shallow {frags : List Fragment} {o : Operation} (h : Check.nestB frags 40 20 o.sels = true) : Shallow schema frags o :=
  ⟨20, Check.nestB_ok _ _ _ _ h, Or.inl (by decide)⟩

/-- an anonymous query -/
def query (sels : List Sel) : Operation := ⟨.query, [], none, [], sels⟩

/-- field, without arguments -/
def f (name : Bytes) (sub : List Sel := []) : Sel := .field name none [] none sub

end Demo
end Yarql
