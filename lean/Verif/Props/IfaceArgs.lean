import Verif.Props.TypeWalk
import Verif.Props.Introspect

/-!
# C78: the arguments introspection shows for the fields of an interface

A method of a Go struct type has its receiver as first parameter, a method of an interface type has none
(`reflect.Method.Type`).  `checkFunctionIns` leaves the first parameter out in both cases (parse.go:822-866).
-/

namespace Yarql
open TypeWalk GoTypes Reflects Naming Resolver Introspect

section
variable {F V : Type}

/-- The parameters `tys` of a Go function take an argument called `n`: a field of one of its parameter structs. -/
def Takes (prog : Program F) (tys : List Ty) (n : Bytes) : Prop :=
  ∃ t ∈ tys, ¬ IsCtxParam prog t ∧ ∃ fs, (prog.get t).shape = .struct fs ∧ ExposesIn fs n

/-- Introspection shows the field `f` with the argument `n`. -/
def ShowsArg (q : List QField) (f n : Bytes) : Prop := ∃ qf ∈ q, qf.name = f ∧ n ∈ qf.args.map (·.1)

theorem mapM_mem {A B : Type} {g : A → Option B} : ∀ {l : List A} {r : List B}, l.mapM g = some r →
    ∀ b, b ∈ r ↔ ∃ a ∈ l, g a = some b
  | [], r, h, b => by
    simp only [List.mapM_nil] at h
    cases h; simp
  | a :: l, r, h, b => by
    rw [List.mapM_cons] at h
    cases ha : g a with
    | none => rw [ha] at h; cases h
    | some y =>
      rw [ha] at h
      cases hl : l.mapM g with
      | none => simp [hl] at h
      | some ys =>
        simp [hl] at h
        subst h
        simp [mapM_mem hl, ha, eq_comm]

theorem args_iff {prog : Program F} {N : Names} {tys : List Ty} {m : Method F} (hp : Params prog N tys m.ins m.inFields)
    (n : Bytes) : n ∈ (getMethodArgs m.inFields).map (·.1) ↔ Takes prog tys n := by
  have h1 : n ∈ (getMethodArgs m.inFields).map (·.1) ↔ ∃ a ∈ m.inFields, a.key = n := by
    unfold getMethodArgs
    rw [List.Perm.mem_iff ((sortBy_perm _ _).map _), List.map_map, List.mem_map]
    rfl
  rw [h1]
  constructor
  · rintro ⟨a, ha, rfl⟩
    obtain ⟨t, fs, ht, hc, hs, gf, id, hg, he, hn, _⟩ := hp.sound a ha
    exact ⟨t, List.mem_of_getElem? ht, hc, fs, hs, _, gf, id, hg, he, hn⟩
  · rintro ⟨t, ht, hc, fs, hs, hx⟩
    obtain ⟨i, hi, rfl⟩ := List.getElem_of_mem ht
    exact hp.complete i _ fs n (List.getElem?_eq_getElem hi) hc hs hx

theorem mem_of_fieldsFrom {prog : Program F} {N : Names} {schema : Schema F V} {t : Ty} {fs : List (Field F V)}
    (hf : FieldsFrom prog N (fun tys m => Params prog N tys m.ins m.inFields) t (fun _ => False) fs)
    (hi : (prog.get t).shape = .iface) {q : List QField} (hq : computeIfaceFields schema fs = some q) (qf : QField) (hm : qf ∈ q) :
    ∃ nm sig, (nm, sig) ∈ (prog.get t).methods ∧ methodName nm = .exposed qf.name ∧
      ∀ a, a ∈ qf.args.map (·.1) ↔ Takes prog (sig.ins.drop 1) a := by
  unfold computeIfaceFields at hq
  cases hr : fs.mapM (describe schema) with
  | none => rw [hr] at hq; cases hq
  | some r =>
    rw [hr, Option.map_some] at hq
    injection hq with hq
    rw [← hq, List.Perm.mem_iff (sortBy_perm _ _), mapM_mem hr] at hm
    obtain ⟨f, hf1, hd⟩ := hm
    unfold describe at hd
    cases ho : objToQLType schema f.obj with
    | none => rw [ho] at hd; cases hd
    | some o =>
      rw [ho, Option.map_some] at hd
      injection hd with hd
      subst hd
      rcases hf.sound f hf1 with ⟨_, h⟩ | ⟨_, _, h⟩
      · exact h.elim
      · cases h with
        | plain hs _ _ _ _ _ => rw [hs.1] at hi; cases hi
        | func hs _ _ _ _ _ => rw [hs.1] at hi; cases hi
        | @method nm sig hm hn hfo =>
          obtain ⟨m, out, ty, id, e, _, _, hp, _⟩ := hfo
          refine ⟨nm, sig, List.mem_of_getElem? hm, hn, fun a => ?_⟩
          dsimp only
          rw [e]
          exact args_iff (N := N) hp a

/-- **C78** (what is shown). In a program whose types have different names, introspection of an interface shows for each field the
arguments its method takes *after the first parameter*, and no others. -/
theorem C78_shown_partial (prog : Program F) (fuel : Nat) (d : Decl V) (schema : Schema F V) (hd : Distinct prog)
    (h : parse prog fuel d = .ok schema) (t : Ty) (hr : Reach prog d t) (hi : (prog.get t).shape = .iface)
    (ht : isTime (prog.get t) = false) (q : List QField) (memo : Memo)
    (hq : fields schema emptyMemo (.iface (qlName prog (prog.get t).name)) = some (q, memo)) (qf : QField) (hm : qf ∈ q) :
    ∃ nm sig, (nm, sig) ∈ (prog.get t).methods ∧ methodName nm = .exposed qf.name ∧
      ∀ a, a ∈ qf.args.map (·.1) ↔ Takes prog (sig.ins.drop 1) a := by
  obtain ⟨N, hN, _⟩ := C48_inputs_partial prog fuel d schema hd h
  obtain ⟨n, hn⟩ := hN.ifacesAll t hr ht hi
  obtain ⟨_, e⟩ := hN.ifaceName n t hn
  rw [← e] at hq
  unfold fields at hq
  dsimp only at hq
  cases hl : lookup schema.interfaces n with
  | none => rw [hl] at hq; cases hq
  | some dd =>
    rw [hl] at hq
    dsimp only [Option.bind_some, emptyMemo] at hq
    cases hc : computeIfaceFields schema dd.fields with
    | none => rw [hc] at hq; cases hq
    | some r =>
      rw [hc, Option.map_some] at hq
      injection hq with hq
      injection hq with hq _
      subst hq
      exact mem_of_fieldsFrom (hN.ifaceDef n t dd hn hl).2.1 hi hc qf hm

/-- **C78.** If the methods of an interface take nothing, or the context first, introspection shows exactly the arguments they take.
Missing: methods whose first parameter is a struct, see `C78_refuted`. -/
theorem C78_iface_args_partial (prog : Program F) (fuel : Nat) (d : Decl V) (schema : Schema F V) (hd : Distinct prog)
    (h : parse prog fuel d = .ok schema) (t : Ty) (hr : Reach prog d t) (hi : (prog.get t).shape = .iface)
    (ht : isTime (prog.get t) = false)
    (hctx : ∀ nm sig u, (nm, sig) ∈ (prog.get t).methods → sig.ins[0]? = some u → IsCtxParam prog u)
    (q : List QField) (memo : Memo)
    (hq : fields schema emptyMemo (.iface (qlName prog (prog.get t).name)) = some (q, memo)) (qf : QField) (hm : qf ∈ q) :
    ∃ nm sig, (nm, sig) ∈ (prog.get t).methods ∧ methodName nm = .exposed qf.name ∧
      ∀ a, a ∈ qf.args.map (·.1) ↔ Takes prog sig.ins a := by
  obtain ⟨nm, sig, h1, h2, h3⟩ := C78_shown_partial prog fuel d schema hd h t hr hi ht q memo hq qf hm
  refine ⟨nm, sig, h1, h2, fun a => (h3 a).trans ?_⟩
  cases hs : sig.ins with
  | nil => rfl
  | cons u us =>
    have hu := hctx nm sig u h1 (by rw [hs]; rfl)
    constructor
    · rintro ⟨v, hv, hx⟩
      exact ⟨v, List.mem_cons_of_mem _ hv, hx⟩
    · rintro ⟨v, hv, hc, hx⟩
      rcases List.mem_cons.1 hv with rfl | hv
      · exact absurd hu hc
      · exact ⟨v, hv, hc, hx⟩

end

/-! ## The refutation, and a case that meets the hypotheses -/

open GoDemo (basic anon fld toOption of_toOption)

namespace IfaceArgs

/-- ```go
type Q struct { Pet Animal; Old Aged }
type M struct {}
type Animal interface {
  ResolveSound(args struct{ Lang string }) string
  ResolveAge(ctx *yarql.Ctx, args struct{ Unit string }) string
}
type Aged interface { ResolveAge(ctx *yarql.Ctx, args struct{ Unit string }) string }
type Dog struct {}   // implements Animal and Aged
``` -/
def get : Ty → GoType
  | 0 => ⟨b%"Q", b%"main", .struct [fld b%"Pet" 2, fld b%"Old" 9], []⟩
  | 1 => ⟨b%"M", b%"main", .struct [], []⟩
  | 2 => ⟨b%"Animal", b%"main", .iface, [(b%"ResolveSound", ⟨false, [4], [5]⟩), (b%"ResolveAge", ⟨false, [6, 8], [5]⟩)]⟩
  | 3 => ⟨b%"Dog", b%"main", .struct [], [(b%"ResolveSound", ⟨false, [3, 4], [5]⟩), (b%"ResolveAge", ⟨false, [3, 6, 8], [5]⟩)]⟩
  | 4 => anon (.struct [fld b%"Lang" 5])
  | 5 => basic b%"string" .string
  | 6 => anon (.ptr 7)
  | 7 => ⟨b%"Ctx", b%"github.com/mjarkk/yarql", .struct [], []⟩
  | 8 => anon (.struct [fld b%"Unit" 5])
  | 9 => ⟨b%"Aged", b%"main", .iface, [(b%"ResolveAge", ⟨false, [6, 8], [5]⟩)]⟩
  | _ => anon .other

def prog : Program Unit where
  get := get
  implements := fun t u => t = 3 ∧ (u = 2 ∨ u = 9)
  isError := fun _ => false
  zero := fun _ => .scalar (.bool false)
  renamed := fun _ => none
  implMap := fun n => if n = b%"Animal" ∨ n = b%"Aged" then some [3] else none
  structImpl := fun n => if n = b%"Dog" then [2, 9] else []
  enums := []

def decl : Decl Demo.D := ⟨0, 1, .struct [], .struct [], none, false, 60, []⟩

def schema : Schema Unit Demo.D := (toOption (parse prog 10 decl)).get (by decide +kernel)

/-- the fields introspection shows, each with the names of its arguments -/
def shown (a : Ask) : Option (List (Bytes × List Bytes)) :=
  (fields schema emptyMemo a).map (fun r => r.1.map (fun q => (q.name, q.args.map (·.1))))

theorem named_cases {t : Ty} (h : Named prog t) : t = 0 ∨ t = 1 ∨ t = 3 ∨ t = 7 := by
  obtain ⟨⟨fs, hs⟩, hn⟩ := h
  match t with
  | 0 => exact .inl rfl
  | 1 => exact .inr (.inl rfl)
  | 3 => exact .inr (.inr (.inl rfl))
  | 7 => exact .inr (.inr (.inr rfl))
  | 2 | 5 | 6 | 9 => cases hs
  | 4 | 8 => exact absurd rfl hn
  | n + 10 => cases hs

theorem iface_cases {t : Ty} (h : (prog.get t).shape = .iface) : t = 2 ∨ t = 9 := by
  match t with
  | 2 => exact .inl rfl
  | 9 => exact .inr rfl
  | 0 | 1 | 3 | 4 | 5 | 6 | 7 | 8 => cases h
  | n + 10 => cases h

theorem distinct : Distinct prog where
  structs t u ht hu h := by
    rcases named_cases ht with rfl | rfl | rfl | rfl <;> rcases named_cases hu with rfl | rfl | rfl | rfl <;> first | rfl | exact absurd h (by decide)
  ifaces t u ht hu h _ := by
    rcases iface_cases ht with rfl | rfl <;> rcases iface_cases hu with rfl | rfl <;> first | rfl | exact absurd h (by decide)
  notUnknown t ht n := by
    rcases named_cases ht with rfl | rfl | rfl | rfl <;> constructor <;> intro h <;>
      exact absurd (congrArg List.head? h) (by change ¬ some _ = some _; decide)
  notInput t u ht hu h := by
    rcases named_cases ht with rfl | rfl | rfl | rfl <;> rcases named_cases hu with rfl | rfl | rfl | rfl <;> exact absurd h (by decide)

end IfaceArgs

/-- **C78, refuted.** `sound(lang:)` of an interface is shown without its argument, on the implementing struct with it. -/
theorem C78_refuted : parse IfaceArgs.prog 10 IfaceArgs.decl = .ok IfaceArgs.schema ∧
    IfaceArgs.shown (.iface b%"Animal") = some [(b%"age", [b%"unit"]), (b%"sound", [])] ∧
    IfaceArgs.shown (.object b%"Dog") = some [(b%"age", [b%"unit"]), (b%"sound", [b%"lang"])] :=
  ⟨of_toOption _ _, by decide +kernel, by decide +kernel⟩

/-- the interface `Aged` meets the hypotheses of `C78_iface_args_partial`, and its field has an argument -/
example : IfaceArgs.shown (.iface b%"Aged") = some [(b%"age", [b%"unit"])] ∧
    ∀ q memo, fields IfaceArgs.schema emptyMemo (.iface b%"Aged") = some (q, memo) → ∀ qf ∈ q,
      ∃ nm sig, (nm, sig) ∈ (IfaceArgs.prog.get 9).methods ∧ methodName nm = .exposed qf.name ∧
        ∀ a, a ∈ qf.args.map (·.1) ↔ Takes IfaceArgs.prog sig.ins a := by
  refine ⟨by decide +kernel, fun q memo hq qf hm => C78_iface_args_partial IfaceArgs.prog 10 IfaceArgs.decl IfaceArgs.schema
    IfaceArgs.distinct (of_toOption _ _) 9 ?_ rfl (by decide) ?_ q memo hq qf hm⟩
  · intro R hR hr
    exact hR.child 0 9 (hr _ .query) (.field (fs := [fld b%"Pet" 2, fld b%"Old" 9]) (i := 1) ⟨rfl, by decide⟩ rfl rfl rfl (fun _ h => (by cases h)))
  · intro nm sig u hs hu
    cases List.mem_singleton.1 hs
    injection hu with hu
    subst hu
    exact ⟨7, rfl, by decide⟩

end Yarql
