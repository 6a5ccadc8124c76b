import Verif.Spec.Demo

/-!
# A second concrete schema: functions with all kinds of parameters

```go
type Color int                       // enum: RED = 1, BLUE = 2
type Pair struct { A int64; B *int64 }
type R struct { Color Color }
func (R) ResolveU8(args struct{ X uint8 }) int64
func (R) ResolveSum(args struct{ Xs []int64; Y int64 }) int64
func (R) ResolveOpt(args struct{ P *Pair }) int64
func (R) ResolvePaint(args struct{ C Color }) int64
func (R) ResolveSay(args struct{ S string }) int64
func (R) ResolveSelf(args struct{ Xs []int64 }) R
```
All calls are logged; the functions return 0, `self` returns the root.
-/

namespace Yarql
namespace ArgsDemo
open Doc Resolver Typed Demo

def root : D := .struct [.int 2]

def call (w : World) (f : D) (path : Bytes) (args : List (Arg Unit)) : Option (World × List D) :=
  match f with
  | .fn 5 => some (w ++ [(5, path, args)], [root])
  | .fn id => some (w ++ [(id, path, args)], [.int 0])
  | _ => none

def env : Env Unit D World := { Demo.env with call := call }

def int64 : Input := .scalar (.int .w64) none false
def u8 : Method Unit := ⟨true, [.struct (.struct [.scalar (.uint 0)])], [⟨b%"x", 0, 0, .scalar (.uint .w8) none false⟩], 0, none⟩
def sum : Method Unit := ⟨true, [.struct (.struct [.slice none, .scalar (.int 0)])], [⟨b%"xs", 0, 0, .slice int64⟩, ⟨b%"y", 0, 1, int64⟩], 0, none⟩
def opt : Method Unit := ⟨true, [.struct (.struct [.ptr none])], [⟨b%"p", 0, 0, .ptr (.struct b%"Pair")⟩], 0, none⟩
def paint : Method Unit := ⟨true, [.struct (.struct [.scalar (.int 0)])], [⟨b%"c", 0, 0, .scalar (.int .w64) (some 0) false⟩], 0, none⟩
def say : Method Unit := ⟨true, [.struct (.struct [.scalar (.string [])])], [⟨b%"s", 0, 0, .scalar .string none false⟩], 0, none⟩
def self : Method Unit := ⟨true, [.struct (.struct [.slice none])], [⟨b%"xs", 0, 0, .slice int64⟩], 0, none⟩

def number : Obj Unit := .data false (.int .w64)

/-- the functions, with their result types -/
def methods : List (Method Unit × Obj Unit) := [(u8, number), (sum, number), (opt, number), (paint, number), (say, number), (self, .objRef b%"R")]

def type : RType Unit D := ⟨b%"R", [
  field b%"u8" 0 (.method u8 number), field b%"sum" 1 (.method sum number), field b%"opt" 2 (.method opt number),
  field b%"paint" 3 (.method paint number), field b%"say" 4 (.method say number), field b%"self" 5 (.method self (.objRef b%"R")),
  field b%"color" 0 (.enum 0)]⟩

def color : EnumDef Unit := { kind := .int .w64, typeName := b%"Color", entries := [(b%"RED", .int 1), (b%"BLUE", .int 2)] }

def pair : InStruct Unit := ⟨[⟨b%"a", 0, int64⟩, ⟨b%"b", 1, .ptr int64⟩], .struct [.scalar (.int 0), .ptr none]⟩

def schema : RSchema Unit D where
  types := [(b%"R", type)]
  interfaces := []
  inTypes := [(b%"Pair", pair)]
  rootQuery := type
  rootMethod := ⟨b%"M", []⟩
  rootQueryValue := root
  rootMethodValue := .struct []
  maxDepth := 60
  enums := [color]
  directives := []

def HasType : Obj Unit → D → Prop
  | .method m o, v => ∃ i, methods[i]? = some (m, o) ∧ v = .fn i
  | .objRef n, v => n = b%"R" ∧ v = root
  | .enum i, v => i = 0 ∧ ∃ i, v = .int i
  | .data false (.int .w64), v => ∃ i, v = .int i
  | _, _ => False

theorem root_fields : HasFields env HasType type root := by
  intro f hm
  simp only [type, List.mem_cons, List.not_mem_nil, or_false] at hm
  rcases hm with rfl | rfl | rfl | rfl | rfl | rfl | rfl
  · exact ⟨fun x h => (by cases h), fun _ => ⟨fun m o h _ => ⟨0, rfl, rfl⟩, fun h => (by cases h _ _ rfl)⟩⟩
  · exact ⟨fun x h => (by cases h), fun _ => ⟨fun m o h _ => ⟨1, rfl, rfl⟩, fun h => (by cases h _ _ rfl)⟩⟩
  · exact ⟨fun x h => (by cases h), fun _ => ⟨fun m o h _ => ⟨2, rfl, rfl⟩, fun h => (by cases h _ _ rfl)⟩⟩
  · exact ⟨fun x h => (by cases h), fun _ => ⟨fun m o h _ => ⟨3, rfl, rfl⟩, fun h => (by cases h _ _ rfl)⟩⟩
  · exact ⟨fun x h => (by cases h), fun _ => ⟨fun m o h _ => ⟨4, rfl, rfl⟩, fun h => (by cases h _ _ rfl)⟩⟩
  · exact ⟨fun x h => (by cases h), fun _ => ⟨fun m o h _ => ⟨5, rfl, rfl⟩, fun h => (by cases h _ _ rfl)⟩⟩
  · exact ⟨fun x h => (by cases h), fun _ => ⟨fun m o h => (by cases h), fun _ w => ⟨_, _, rfl, rfl, rfl, _, rfl⟩⟩⟩

theorem lookup_pair {n : Bytes} {d : InStruct Unit} (h : lookup schema.inTypes n = some d) : n = b%"Pair" ∧ d = pair := by
  unfold lookup schema at h
  dsimp only at h
  by_cases h1 : b%"Pair" = n
  · subst h1
    exact ⟨rfl, by simpa using h.symm⟩
  · simp [List.find?, h1] at h

theorem lookup_type {n : Bytes} {t : RType Unit D} (h : lookup schema.types n = some t) : n = b%"R" ∧ t = type := by
  unfold lookup schema at h
  dsimp only at h
  by_cases h1 : b%"R" = n
  · subst h1
    exact ⟨rfl, by simpa using h.symm⟩
  · simp [List.find?, h1] at h

theorem known_int64 : Known schema env int64 := by intro i h; cases h

theorem method_ok {i : Nat} {m : Method Unit} {o : Obj Unit} (h : methods[i]? = some (m, o)) : MethodOK schema env m := by
  have key : ∀ x ∈ methods, MethodOK schema env x.1 := by
    intro x hx
    simp only [methods, List.mem_cons, List.not_mem_nil, or_false] at hx
    rcases hx with rfl | rfl | rfl | rfl | rfl | rfl
    · refine ⟨?_, ⟨rfl, ?_⟩, ?_⟩
      · intro a ha; simp [u8] at ha; subst ha; intro i h; cases h
      · intro a ha; simp [u8] at ha; subst ha; exact ⟨_, _, rfl, rfl, .other (by simp)⟩
      · intro a ha b hb _ _; simp [u8] at ha hb; subst ha; subst hb; rfl
    · refine ⟨?_, ⟨rfl, ?_⟩, ?_⟩
      · intro a ha; simp [sum] at ha; rcases ha with rfl | rfl
        · exact known_int64
        · exact known_int64
      · intro a ha; simp [sum] at ha; rcases ha with rfl | rfl
        · exact ⟨_, _, rfl, rfl, .other (by simp)⟩
        · exact ⟨_, _, rfl, rfl, .other (by simp [int64])⟩
      · intro a ha b hb _ hg; simp [sum] at ha hb
        rcases ha with rfl | rfl <;> rcases hb with rfl | rfl <;> first | rfl | simp at hg
    · refine ⟨?_, ⟨rfl, ?_⟩, ?_⟩
      · intro a ha; simp [opt] at ha; subst ha; rfl
      · intro a ha; simp [opt] at ha; subst ha; exact ⟨_, _, rfl, rfl, .other (by simp)⟩
      · intro a ha b hb _ _; simp [opt] at ha hb; subst ha; subst hb; rfl
    · refine ⟨?_, ⟨rfl, ?_⟩, ?_⟩
      · intro a ha; simp [paint] at ha; subst ha; intro i h; cases h; decide
      · intro a ha; simp [paint] at ha; subst ha; exact ⟨_, _, rfl, rfl, .other (by simp)⟩
      · intro a ha b hb _ _; simp [paint] at ha hb; subst ha; subst hb; rfl
    · refine ⟨?_, ⟨rfl, ?_⟩, ?_⟩
      · intro a ha; simp [say] at ha; subst ha; intro i h; cases h
      · intro a ha; simp [say] at ha; subst ha; exact ⟨_, _, rfl, rfl, .other (by simp)⟩
      · intro a ha b hb _ _; simp [say] at ha hb; subst ha; subst hb; rfl
    · refine ⟨?_, ⟨rfl, ?_⟩, ?_⟩
      · intro a ha; simp [self] at ha; subst ha; exact known_int64
      · intro a ha; simp [self] at ha; subst ha; exact ⟨_, _, rfl, rfl, .other (by simp)⟩
      · intro a ha b hb _ _; simp [self] at ha hb; subst ha; subst hb; rfl
  exact key _ (List.mem_of_getElem? h)

theorem method_result {i : Nat} {m : Method Unit} {o : Obj Unit} (h : methods[i]? = some (m, o)) :
    m.isTypeMethod = true ∧ m.outNr = 0 ∧ m.errorOutNr = none ∧ ∀ w p inputs, ∃ w' x, call w (.fn i) p inputs = some (w', [x]) ∧ HasType o x := by
  match i with
  | 0 => cases h; exact ⟨rfl, rfl, rfl, fun w p inputs => ⟨_, _, rfl, 0, rfl⟩⟩
  | 1 => cases h; exact ⟨rfl, rfl, rfl, fun w p inputs => ⟨_, _, rfl, 0, rfl⟩⟩
  | 2 => cases h; exact ⟨rfl, rfl, rfl, fun w p inputs => ⟨_, _, rfl, 0, rfl⟩⟩
  | 3 => cases h; exact ⟨rfl, rfl, rfl, fun w p inputs => ⟨_, _, rfl, 0, rfl⟩⟩
  | 4 => cases h; exact ⟨rfl, rfl, rfl, fun w p inputs => ⟨_, _, rfl, 0, rfl⟩⟩
  | 5 => cases h; exact ⟨rfl, rfl, rfl, fun w p inputs => ⟨_, _, rfl, rfl, rfl⟩⟩
  | i + 6 => simp [methods] at h

theorem wellTyped : WellTyped schema env HasType where
  inTypes := by
    intro n d h
    obtain ⟨rfl, rfl⟩ := lookup_pair h
    refine ⟨?_, ?_, ?_⟩
    · intro f hf
      simp only [pair, List.mem_cons, List.not_mem_nil, or_false] at hf
      rcases hf with rfl | rfl
      · exact known_int64
      · exact known_int64
    · refine .struct (fun f => if f.goFieldIdx = 0 then .scalar (.int 0) else .ptr none) rfl ?_ ?_
      · intro f hf
        simp only [pair, List.mem_cons, List.not_mem_nil, or_false] at hf
        rcases hf with rfl | rfl <;> rfl
      · intro f hf
        simp only [pair, List.mem_cons, List.not_mem_nil, or_false] at hf
        rcases hf with rfl | rfl
        · exact .other (by simp [int64])
        · exact .other (by simp)
    · intro f hf g hg e
      simp only [pair, List.mem_cons, List.not_mem_nil, or_false] at hf hg
      rcases hf with rfl | rfl <;> rcases hg with rfl | rfl <;> first | rfl | simp at e
  array := by intro o v h w; cases h
  ptr := by intro o v h w; cases h
  object := by
    intro n v h t ht
    obtain ⟨rfl, rfl⟩ := lookup_type ht
    obtain ⟨-, rfl⟩ := h
    exact root_fields
  data := by
    intro id k v h w
    unfold HasType at h
    split at h <;> try (first | contradiction | simp_all; done)
    rename_i heq
    cases heq
    obtain ⟨x, rfl⟩ := h
    exact ⟨_, rfl, _, rfl⟩
  enum := by
    intro i v h
    obtain ⟨rfl, i, rfl⟩ := h
    exact ⟨color, rfl, fun w => ⟨_, rfl, _, rfl⟩⟩
  method := by
    intro m out v h
    obtain ⟨i, hi, rfl⟩ := h
    obtain ⟨h1, h2, h3, h4⟩ := method_result hi
    refine ⟨method_ok hi, Or.inl h1, ?_⟩
    intro w p inputs _ _
    obtain ⟨w', x, h5, h6⟩ := h4 w p inputs
    exact ⟨w', _, x, h5, by rw [h2]; rfl, h6, fun nr h => by rw [h3] at h; cases h⟩
  interface := by intro n v h; cases h
  directive := by intro loc table h; cases h
  query := root_fields
  mutation := by intro f hm; cases hm

theorem slots_le (f : RField Unit D) (h : IsField schema f) : slots f.obj ≤ 1 := by
  have hu : ∀ f ∈ type.fields, slots f.obj ≤ 1 := by decide
  rcases h with h | h | ⟨n, t, hn, h⟩
  · exact hu f h
  · cases h
  · simp only [schema, List.mem_cons, List.not_mem_nil, or_false] at hn
    cases hn
    exact hu f h

/-- short queries fit -/
theorem fits {frags : List Fragment} {o : Operation} (h : Check.nestB frags 40 100 o.sels = true) : Fits schema frags o :=
  ⟨1, slots_le, Or.inl ⟨100, Check.nestB_ok _ _ _ _ h, by decide⟩⟩

/-- a request with variables -/
def requestV (q : Bytes) (vars : List (Bytes × Http.J)) : Request := ⟨q, [], false, .json (.obj vars)⟩

/-- response, number of errors, log of calls -/
def ask (req : Request) : Option (Bytes × Nat × World) :=
  match resolve 300 schema env noStack [] req with
  | .ok (b, es) w => some (b, es.length, w)
  | _ => none

/-- a query with one function field -/
def opCall (name : Bytes) (args : List (Bytes × Value)) (sub : List Sel := []) : Operation := query [.field name none [] (some args) sub]

end ArgsDemo
end Yarql
