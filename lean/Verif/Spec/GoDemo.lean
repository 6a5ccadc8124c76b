import Verif.Spec.Demo
import Verif.Spec.Reflects
import Verif.Proofs.TypeWalkLink

/-!
# A small Go program, for examples

The Go types behind `Spec/Demo.lean`:
```go
package main
type User struct { Name string; Age uint8; Friend *User; Scores []int64; Pet Animal }
type Dog struct { Sound string }            // registered as implementing Animal
type Animal interface {}
type M struct {}
func (User) ResolveAdd(args struct{ X int64 }) int64
func (User) ResolveBoth() (string, error)
```
-/

namespace Yarql
namespace GoDemo
open TypeWalk GoTypes Demo

def basic (name : Bytes) (k : Kind) : GoType := ⟨name, [], .scalar k, []⟩
def anon (sh : Shape) : GoType := ⟨[], [], sh, []⟩
def fld (name : Bytes) (t : Ty) : GoField := ⟨name, false, none, t⟩

def tUser : GoType := ⟨b%"User", b%"main",
  .struct [fld b%"Name" 1, fld b%"Age" 2, fld b%"Friend" 3, fld b%"Scores" 4, fld b%"Pet" 6],
  [(b%"ResolveAdd", ⟨false, [0, 8], [5]⟩), (b%"ResolveBoth", ⟨false, [0], [1, 9]⟩)]⟩

def get : Ty → GoType
  | 0 => tUser
  | 1 => basic b%"string" .string
  | 2 => basic b%"uint8" (.uint .w8)
  | 3 => anon (.ptr 0)
  | 4 => anon (.slice 5)
  | 5 => basic b%"int64" (.int .w64)
  | 6 => ⟨b%"Animal", b%"main", .iface, []⟩
  | 7 => ⟨b%"Dog", b%"main", .struct [fld b%"Sound" 1], []⟩
  | 8 => anon (.struct [fld b%"X" 5])
  | 9 => ⟨b%"error", [], .iface, []⟩
  | 10 => ⟨b%"M", b%"main", .struct [], []⟩
  | _ => anon .other

def zero : Ty → InVal Unit
  | 0 => .struct [.scalar (.string []), .scalar (.uint 0), .ptr none, .slice none, .scalar (.bool false)]
  | 1 => .scalar (.string [])
  | 2 => .scalar (.uint 0)
  | 3 => .ptr none
  | 4 => .slice none
  | 5 => .scalar (.int 0)
  | 7 => .struct [.scalar (.string [])]
  | 8 => .struct [.scalar (.int 0)]
  | 10 => .struct []
  | _ => .scalar (.bool false)

def prog : Program Unit where
  get := get
  implements := fun t u => t = 7 ∧ u = 6
  isError := fun t => t = 9
  zero := zero
  renamed := fun _ => none
  implMap := fun n => if n = b%"Animal" then some [7] else none
  structImpl := fun n => if n = b%"Dog" then [6] else []
  enums := []

def decl : Decl D where
  queries := 0
  methods := 10
  queryValue := ann
  methodValue := .struct []
  inject := none
  noEqualCheck := false
  maxDepth := 60
  directives := []

/-- the outcome of a `Parse` that does not fail -/
def toOption {F V : Type} : TypeWalk.Parsed F V → Option (Schema F V)
  | .ok s => some s
  | _ => none

/-- `Parse` accepts the program. -/
theorem accepts : (toOption (parse prog 10 decl)).isSome = true := by decide +kernel

def goSchema : Schema Unit D := (toOption (parse prog 10 decl)).get accepts

theorem of_toOption {F V : Type} (r : TypeWalk.Parsed F V) (h : (toOption r).isSome = true) : r = .ok ((toOption r).get h) := by
  cases r with
  | ok s => rfl
  | _ => cases h

theorem parse_ok : parse prog 10 decl = .ok goSchema := of_toOption _ _

/-! ## Types and values -/

/-- the Go types of the values -/
inductive HasTy : D → Ty → Prop where
  | user {n a f s p} : (∀ x, f = some x → HasTy x 0) → (∀ xs, s = some xs → ∀ x ∈ xs, ∃ i, x = .int i) →
      (∀ g pk x, p = some (g, pk, x) → g = b%"Dog") → (∀ g pk x, p = some (g, pk, x) → pk = b%"main") →
      (∀ g pk x, p = some (g, pk, x) → HasTy x 7) →
      HasTy (.struct [.str n, .uint a, .ptr f, .seq s, .iface p]) 0
  | str {s} : HasTy (.str s) 1
  | uint {n} : HasTy (.uint n) 2
  | ptr {x} : (∀ y, x = some y → HasTy y 0) → HasTy (.ptr x) 3
  | slice {xs} : (∀ l, xs = some l → ∀ x ∈ l, ∃ i, x = .int i) → HasTy (.seq xs) 4
  | int {i} : HasTy (.int i) 5
  | animal {x} : (∀ g pk y, x = some (g, pk, y) → g = b%"Dog") → (∀ g pk y, x = some (g, pk, y) → pk = b%"main") →
      (∀ g pk y, x = some (g, pk, y) → HasTy y 7) → HasTy (.iface x) 6
  | dog {s} : HasTy (.struct [.str s]) 7
  | error {m} : HasTy (.error m) 9
  | mutation : HasTy (.struct []) 10

/-- the environment of `Spec/Demo.lean`, with a form file function -/
def env : Env Unit D World := { Demo.env with formFile := some (fun _ => .ok none) }

theorem get_big (n : Nat) : (prog.get (n + 11)) = anon .other := rfl

theorem named_cases {t : Ty} (h : Named prog t) : t = 0 ∨ t = 7 ∨ t = 10 := by
  obtain ⟨⟨fs, hs⟩, hn⟩ := h
  match t with
  | 0 => exact .inl rfl
  | 7 => exact .inr (.inl rfl)
  | 10 => exact .inr (.inr rfl)
  | 1 | 2 | 3 | 4 | 5 | 6 | 9 => cases hs
  | 8 => exact absurd rfl hn
  | n + 11 => cases hs

theorem iface_cases {t : Ty} (h : (prog.get t).shape = .iface) : t = 6 ∨ t = 9 := by
  match t with
  | 6 => exact .inl rfl
  | 9 => exact .inr rfl
  | 0 | 1 | 2 | 3 | 4 | 5 | 7 | 8 | 10 => cases h
  | n + 11 => cases h

theorem struct_cases {t : Ty} {fs : List GoField} (h : (prog.get t).shape = .struct fs) : t = 0 ∨ t = 7 ∨ t = 8 ∨ t = 10 := by
  match t with
  | 0 => exact .inl rfl
  | 7 => exact .inr (.inl rfl)
  | 8 => exact .inr (.inr (.inl rfl))
  | 10 => exact .inr (.inr (.inr rfl))
  | 1 | 2 | 3 | 4 | 5 | 6 | 9 => cases h
  | n + 11 => cases h

theorem distinct : Distinct prog where
  structs t u ht hu h := by
    rcases named_cases ht with rfl | rfl | rfl <;> rcases named_cases hu with rfl | rfl | rfl <;> first | rfl | exact absurd h (by decide)
  ifaces t u ht hu h _ := by
    rcases iface_cases ht with rfl | rfl <;> rcases iface_cases hu with rfl | rfl <;> first | rfl | exact absurd h (by decide)
  notUnknown t ht n := by
    rcases named_cases ht with rfl | rfl | rfl <;> constructor <;> intro h <;>
      exact absurd (congrArg List.head? h) (by change ¬ some _ = some _; decide)
  notInput t u ht hu h := by
    rcases named_cases ht with rfl | rfl | rfl <;> rcases named_cases hu with rfl | rfl | rfl <;> exact absurd h (by decide)

theorem identified : Identified prog := by
  intro t u hn h1 h2
  have key : ∀ t, (prog.get t).name ≠ [] → t < 11 := by
    intro t h
    match t with
    | n + 11 => exact absurd rfl h
    | 0 | 1 | 2 | 3 | 4 | 5 | 6 | 7 | 8 | 9 | 10 => decide
  have a := key t hn
  have b := key u (by rw [← h1]; exact hn)
  have := (show ∀ t < 11, ∀ u < 11, (prog.get t).name ≠ [] → (prog.get t).name = (prog.get u).name → t = u by decide) t a u b hn h1
  exact this

theorem enumKinds : EnumKinds prog := by
  intro t i k hs h
  unfold enumIndex at h
  rw [hs] at h
  dsimp only at h
  split at h
  · cases h
  · cases h

theorem hasTy_mutation_struct {v : D} {t : Ty} {fs : List GoField} (h : HasTy v t) (hs : IsStruct prog t fs) (w : World) :
    ∃ xs, env.view w v = .struct xs ∧ ∀ (i : Nat) (f : GoField), fs[i]? = some f → ∃ x, xs[i]? = some x ∧ HasTy x f.ty := by
  have hsh := hs.1
  cases h with
  | user a b c d e =>
    injection hsh with hsh; subst hsh
    refine ⟨_, rfl, ?_⟩
    intro i f hf
    match i with
    | 0 => injection hf with hf; subst hf; exact ⟨_, rfl, .str⟩
    | 1 => injection hf with hf; subst hf; exact ⟨_, rfl, .uint⟩
    | 2 => injection hf with hf; subst hf; exact ⟨_, rfl, .ptr a⟩
    | 3 => injection hf with hf; subst hf; exact ⟨_, rfl, .slice b⟩
    | 4 => injection hf with hf; subst hf; exact ⟨_, rfl, .animal c d e⟩
    | n + 5 => cases hf
  | dog =>
    injection hsh with hsh; subst hsh
    refine ⟨_, rfl, ?_⟩
    intro i f hf
    match i with
    | 0 => injection hf with hf; subst hf; exact ⟨_, rfl, .str⟩
    | n + 1 => cases hf
  | mutation =>
    injection hsh with hsh; subst hsh
    exact ⟨_, rfl, fun i f hf => (by cases hf)⟩
  | _ => cases hsh

/-- The values behave as Go's type system says. -/
theorem goLike : GoLike prog env HasTy where
  struct v t fs h hs w := hasTy_mutation_struct h hs w
  array v t n e h hs w := by cases h <;> cases hs
  slice v t e h hs w := by
    cases h with
    | slice a =>
      injection hs with hs; subst hs
      exact ⟨_, rfl, fun xs hx x hm => (by obtain ⟨i, rfl⟩ := a xs hx x hm; exact .int)⟩
    | _ => cases hs
  ptr v t e h hs w := by
    cases h with
    | ptr a => injection hs with hs; subst hs; exact ⟨_, rfl, a⟩
    | _ => cases hs
  scalar v t k h hs w := by
    cases h with
    | str => injection hs with hs; subst hs; exact ⟨_, rfl, _, rfl⟩
    | uint => injection hs with hs; subst hs; exact ⟨_, rfl, _, rfl⟩
    | int => injection hs with hs; subst hs; exact ⟨_, rfl, _, rfl⟩
    | _ => cases hs
  iface v t h hs w := by
    cases h with
    | animal a b c =>
      refine ⟨_, rfl, ?_⟩
      intro g pk y hx
      exact ⟨7, c g pk y hx, (a g pk y hx).symm, (b g pk y hx).symm⟩
    | error => exact ⟨none, rfl, fun _ _ _ h => (by cases h)⟩
    | _ => cases hs
  func v t sig h hs := by cases h <;> cases hs
  method v t fs i nm sig h hs hm w p inputs hl := by
    cases h with
    | user =>
      match i with
      | 0 =>
        injection hm with hm; injection hm with _ hm; subst hm
        obtain ⟨w', x, hx⟩ := call0 w p inputs
        refine ⟨w', [.int x], hx, rfl, ?_⟩
        intro j u hu
        match j with
        | 0 => injection hu with hu; subst hu; exact ⟨_, rfl, .int⟩
        | n + 1 => cases hu
      | 1 =>
        injection hm with hm; injection hm with _ hm; subst hm
        refine ⟨w ++ [(1, p, inputs)], [.str b%"value", .error (some b%"went wrong")], ?_, rfl, ?_⟩
        · change call w (.fn 1) p inputs = _
          unfold call
          dsimp only
          split <;> first | rfl | contradiction | (exfalso; simp_all)
        · intro j u hu
          match j with
          | 0 => injection hu with hu; subst hu; exact ⟨_, rfl, .str⟩
          | 1 => injection hu with hu; subst hu; exact ⟨_, rfl, .error⟩
          | n + 2 => cases hu
      | n + 2 => cases hm
    | dog => cases hm
    | mutation => cases hm
    | _ => cases hs.1
  zero t fs hs := by
    rcases struct_cases hs with rfl | rfl | rfl | rfl <;> (injection hs with hs; subst hs; rfl)

theorem ann_typed : HasTy ann 0 := by
  refine .user ?_ ?_ ?_ ?_ ?_
  · intro x hx
    injection hx with hx; subst hx
    exact .user (fun _ h => (by cases h)) (fun _ h => (by cases h)) (fun _ _ _ h => (by cases h)) (fun _ _ _ h => (by cases h))
      (fun _ _ _ h => (by cases h))
  · intro xs h x hx
    injection h with h; subst h
    rcases List.mem_cons.1 hx with rfl | hx
    · exact ⟨_, rfl⟩
    · rw [List.mem_singleton] at hx; exact ⟨_, hx⟩
  · intro g pk x h; injection h with h; injection h with h _; exact h.symm
  · intro g pk x h; injection h with h; injection h with _ h; injection h with h _; exact h.symm
  · intro g pk x h; injection h with h; injection h with _ h; injection h with _ h; subst h; exact .dog

theorem rootsTyped : RootsTyped env HasTy decl :=
  ⟨ann_typed, .mutation, fun _ h => (by cases h), fun _ h => (by cases h), fun _ h => (by cases h)⟩

/-- rank of the types: pointers and lists above their elements, `Dog` above `Animal` -/
def rank : Ty → Nat
  | 3 => 2 | 4 => 1 | 7 => 1 | 8 => 1 | 0 => 1
  | _ => 0

theorem grounded : Grounded prog [b%"User", b%"string", b%"uint8", b%"int64", b%"Animal", b%"Dog", b%"error", b%"M"] rank 2 where
  names t h := by
    match t with
    | n + 11 => exact absurd rfl h
    | 3 | 4 | 8 => exact absurd rfl h
    | 0 | 1 | 2 | 5 | 6 | 7 | 9 | 10 => decide
  bound t := by unfold rank; split <;> decide
  array t n e h := by
    match t with
    | n + 11 => cases h
    | 0 | 1 | 2 | 3 | 4 | 5 | 6 | 7 | 8 | 9 | 10 => cases h
  slice t e h := by
    match t with
    | n + 11 => cases h
    | 4 => injection h with h; subst h; decide
    | 0 | 1 | 2 | 3 | 5 | 6 | 7 | 8 | 9 | 10 => cases h
  ptr t e h := by
    match t with
    | n + 11 => cases h
    | 3 => injection h with h; subst h; decide
    | 0 | 1 | 2 | 4 | 5 | 6 | 7 | 8 | 9 | 10 => cases h
  unnamed t fs h hn := by
    rcases struct_cases h with rfl | rfl | rfl | rfl
    · cases hn
    · cases hn
    · injection h with h; subst h
      refine ⟨?_, ?_⟩
      · intro u hu
        cases hu with
        | field a b c d e =>
          injection a.1 with a; subst a
          rename_i i _ _ _
          match i with
          | 0 => injection b with b; subst b; decide
          | n + 1 => cases b
        | func a b c d e =>
          injection a.1 with a; subst a
          rename_i i _ _ _ _ _
          match i with
          | 0 => injection b with b; subst b; cases e
          | n + 1 => cases b
        | method a b => cases b
      · intro gf hgf
        rw [List.mem_singleton] at hgf; subst hgf; decide
    · cases hn
  implements t u hn hu := by
    match t with
    | n + 11 => exact absurd rfl hn
    | 3 | 4 | 8 => exact absurd rfl hn
    | 7 => change u ∈ [6] at hu; rw [List.mem_singleton] at hu; subst hu; decide
    | 0 | 1 | 2 | 5 | 6 | 9 | 10 => cases hu

end GoDemo
end Yarql
