import Verif.Proofs.GrowParse
import Verif.Props.Tracing
import Verif.Props.Respond
import Verif.Proofs.Grow
import Verif.Spec.Demo

/-!
# Schemas that grow: C93
-/

namespace Yarql
open Doc Resolver Eval Typed

section
variable {F V W : Type} [DecidableEq F]

/-- **C93.** Adding fields to object types, object types, interfaces, implementations of interfaces, enums, input types and directives to a schema changes neither
response nor errors nor effects of any request that does not use a field or directive of a new name (fields: of a name with the hash of a
new one). -/
theorem C93_additions_partial (schema schema' : RSchema F V) (env : Env F V W) (T : Obj F → V → Prop) (w : W) (req : Request) (d : List Def)
    (o : Operation) (hs : Serves req d o) (ht : WellTyped schema env T) (hf : Fits schema (fragmentsOf d) o) (hc : Grow.Closed schema env)
    (hx : Grow.Extends env (Grow.DocUses (fragmentsOf d) o) (Grow.DocUsesDirective (fragmentsOf d) o) schema schema')
    (r : R W (Bytes × List ReqErr)) : Answers schema env w req r ↔ Answers schema' env w req r := by
  obtain ⟨F0, h0⟩ := evalOperation_total (r := reqOf schema env req d o) ht o hf
  obtain ⟨⟨out, crit⟩, es, h1, -⟩ := h0 F0 (Nat.le_refl _) ⟨[], w, false⟩
  have e : evalOperation (reqOf schema' env req d o) F0 o = evalOperation (reqOf schema env req d o) F0 o :=
    Grow.operation_eq (reqOf schema env req d o) schema' _ _ hx hc
      (fun f hf => ⟨fun n h => Or.inr ⟨f, hf, h⟩, fun n h => Or.inr ⟨f, hf, h⟩⟩) F0 o ⟨fun n h => Or.inl h, fun n h => Or.inl h⟩
  have hr := resolve_eval F0 schema env (fun _ => schema.rootQueryValue) w req d o out crit es hs.parsed hs.wf hs.regular hs.len hs.chosen h1
  have hr' := resolve_eval F0 schema' env (fun _ => schema.rootQueryValue) w req d o out crit es hs.parsed hs.wf hs.regular hs.len hs.chosen
    (by rw [e]; exact h1)
  have a := Answers.of hr (by simp)
  have a' := Answers.of hr' (by simp)
  constructor
  · intro h; rw [C41_deterministic h a]; exact a'
  · intro h; rw [C41_deterministic h a']; exact a

/-- **C93** (schemas made by `Parse`). A schema that `Parse` returns mentions nothing that is not in it: neither as the type of a field
(introspection included), nor in the arguments of functions and directives, nor in input types. -/
theorem C93_parsed_closed_partial {F V W : Type} (prog : TypeWalk.Program F) (env : Env F V W) (fuel : Nat) (d : TypeWalk.Decl V) (schema : Schema F V)
    (hd : GoTypes.Distinct prog) (hff : env.formFile.isSome = true) (h : TypeWalk.parse prog fuel d = .ok schema) :
    Grow.Closed (viewSchema schema) env := by
  obtain ⟨fd⟩ := TypeWalk.parse_found hd h
  exact TypeWalk.found_closed hff fd

/-- **C93** (schemas made by `Parse`). So adding to the schema of a program that `Parse` accepts breaks no request. -/
theorem C93_parsed_partial (prog : TypeWalk.Program F) (env : Env F V W) (HasTy : V → TypeWalk.Ty → Prop) (fuel : Nat) (decl : TypeWalk.Decl V)
    (schema : Schema F V) (hd : GoTypes.Distinct prog) (hid : GoTypes.Identified prog) (hek : GoTypes.EnumKinds prog)
    (hgo : GoTypes.GoLike prog env HasTy) (hroots : TypeWalk.RootsTyped env HasTy decl) (hff : env.formFile.isSome = true)
    (h : TypeWalk.parse prog fuel decl = .ok schema) (schema' : RSchema F V) (w : W) (req : Request) (d : List Def) (o : Operation)
    (hs : Serves req d o) (hf : Fits (viewSchema schema) (fragmentsOf d) o)
    (hx : Grow.Extends env (Grow.DocUses (fragmentsOf d) o) (Grow.DocUsesDirective (fragmentsOf d) o) (viewSchema schema) schema')
    (r : R W (Bytes × List ReqErr)) : Answers (viewSchema schema) env w req r ↔ Answers schema' env w req r := by
  obtain ⟨T, hT⟩ := C57_accepted_welltyped_partial prog env HasTy fuel decl schema hd hid hek hgo hroots hff h
  exact C93_additions_partial (viewSchema schema) schema' env T w req d o hs hT hf (C93_parsed_closed_partial prog env fuel decl schema hd hff h) hx r

end

/-! ## Examples -/

namespace Demo

/-- `User` with two more fields: `nick` (the same Go field as `name`), and `cat` of a new type -/
def userPlus : RType Unit D := ⟨b%"User", [
  field b%"nick" 0 (.data false .string),
  field b%"name" 0 (.data false .string),
  field b%"age" 1 (.data false (.uint .w8)),
  field b%"friend" 2 (.ptr (.objRef b%"User")),
  field b%"scores" 3 (.array (.data false (.int .w64))),
  field b%"pet" 4 (.interfaceRef b%"Animal"),
  field b%"cat" 2 (.ptr (.objRef b%"Cat")),
  field b%"add" 0 (.method addMethod (.data false (.int .w64))),
  field b%"both" 1 (.method bothMethod (.data false .string))]⟩

def catPlus : RType Unit D := ⟨b%"Cat", [field b%"name" 0 (.data false .string)]⟩

/-- the schema of `Demo` with more in it -/
def schemaPlus : RSchema Unit D := { schema with
  types := [(b%"Cat", catPlus), (b%"User", userPlus), (b%"Dog", dog)]
  interfaces := [(b%"Animal", [⟨b%"Cat", b%"main", b%"Cat"⟩, ⟨b%"Dog", b%"main", b%"Dog"⟩]), (b%"Named", [⟨b%"Cat", b%"main", b%"Cat"⟩])]
  inTypes := [(b%"In", ⟨[⟨b%"x", 0, .scalar .bool none false⟩], .struct [.scalar (.bool false)]⟩)]
  rootQuery := userPlus
  enums := [⟨b%"Colour", .string, [(b%"RED", .string b%"red")]⟩]
  directives := [(0, directives ++ [⟨b%"upper", [0], ifMethod, .fn 4⟩]), (1, directives), (2, directives)] }

def opOld : Operation := query [f b%"friend" [f b%"name"], .field b%"age" none [⟨b%"skip", some [(b%"if", .bool false)]⟩] none [],
  f b%"pet" [.inline b%"Dog" [] [f b%"sound"]], f b%"nope"]
def reqOld : Request := request b%"{friend{name} age @skip(if:false) pet{...on Dog{sound}} nope}"

theorem servesOld : Serves reqOld [.op opOld] opOld := Check.serves (by decide +kernel) rfl

theorem usesOld {n : Bytes} (h : Grow.DocUses [] opOld n) :
    n = b%"friend" ∨ n = b%"name" ∨ n = b%"age" ∨ n = b%"pet" ∨ n = b%"sound" ∨ n = b%"nope" := by
  rcases h with h | ⟨_, h, _⟩
  · cases h with
    | here => simp
    | under h =>
      cases h with
      | here => simp
      | under h => cases h
      | later h => cases h
    | later h =>
      cases h with
      | here => simp
      | under h => cases h
      | later h =>
        cases h with
        | here => simp
        | under h =>
          cases h with
          | inline h =>
            cases h with
            | here => simp
            | under h => cases h
            | later h => cases h
          | later h => cases h
        | later h =>
          cases h with
          | here => simp
          | under h => cases h
          | later h => cases h
  · cases h

theorem usesDirOld {n : Bytes} (h : Grow.DocUsesDirective [] opOld n) : n = b%"skip" := by
  rcases h with h | ⟨_, h, _⟩
  · cases h with
    | field d h => cases h
    | under h =>
      cases h with
      | field d h => cases h
      | under h => cases h
      | later h => cases h
    | later h =>
      cases h with
      | field d h => rw [List.mem_singleton] at h; rw [h]
      | under h => cases h
      | later h =>
        cases h with
        | field d h => cases h
        | under h =>
          cases h with
          | onInline d h => cases h
          | inline h =>
            cases h with
            | field d h => cases h
            | under h => cases h
            | later h => cases h
          | later h => cases h
        | later h =>
          cases h with
          | field d h => cases h
          | under h => cases h
          | later h => cases h
  · cases h

theorem grownRefl {uses : Bytes → Prop} (t : RType Unit D) : Grow.Grown uses t t := by
  refine ⟨rfl, ?_⟩
  induction t.fields with
  | nil => exact .nil
  | cons x xs ih => exact .keep ih

theorem grownUser : Grow.Grown (Grow.DocUses [] opOld) user userPlus := by
  refine ⟨rfl, .add ?_ (.keep (.keep (.keep (.keep (.keep (.add ?_ (.keep (.keep .nil))))))))⟩
  all_goals
    intro n h
    rcases usesOld h with rfl | rfl | rfl | rfl | rfl | rfl <;> decide +kernel

theorem oldTypes {n : Bytes} {t : RType Unit D} (h : lookup schema.types n = some t) : (n = b%"User" ∧ t = user) ∨ (n = b%"Dog" ∧ t = dog) := by
  unfold lookup schema at h
  simp only [List.find?_cons, List.find?_nil] at h
  by_cases h1 : b%"User" = n
  · subst h1
    simp only [decide_true, Option.map_some] at h
    injection h with h
    exact Or.inl ⟨rfl, h.symm⟩
  · by_cases h2 : b%"Dog" = n
    · subst h2
      simp at h
      exact Or.inr ⟨rfl, h.symm⟩
    · simp [h1, h2] at h

theorem oldInterfaces {n : Bytes} {l : List Impl} (h : lookup schema.interfaces n = some l) :
    n = b%"Animal" ∧ l = [⟨b%"Dog", b%"main", b%"Dog"⟩] := by
  unfold lookup schema at h
  simp only [List.find?_cons, List.find?_nil] at h
  by_cases h1 : b%"Animal" = n
  · subst h1
    simp only [decide_true, Option.map_some] at h
    injection h with h
    exact ⟨rfl, h.symm⟩
  · simp [h1] at h

/-- an environment without values of the Go types in `hidden`: what holds one shows nil -/
def hide {F V W : Type} (env : Env F V W) (hidden : Bytes → Bool) : Env F V W := { env with
  view := fun w v => match env.view w v with
    | .iface (some (n, p, x)) => if hidden n then .iface none else .iface (some (n, p, x))
    | x => x }

theorem view_hide {F V W : Type} {env : Env F V W} {hidden : Bytes → Bool} {w : W} {v : V} {x : View F V} (h : env.view w v = x)
    (hx : ∀ y, x ≠ .iface y) : (hide env hidden).view w v = x := by
  subst h
  unfold hide
  dsimp only
  cases e : env.view w v with
  | iface y => exact absurd e (hx y)
  | _ => rfl

theorem known_hide {F V W : Type} {s : RSchema F V} {env : Env F V W} {hidden : Bytes → Bool} (x : Input) (h : Known s env x) :
    Known s (hide env hidden) x := by
  induction x with
  | ptr _ ih => exact ih h
  | slice _ ih => exact ih h
  | array _ _ ih => exact ih h
  | _ => exact h

theorem methodOK_hide {F V W : Type} {s : RSchema F V} {env : Env F V W} {hidden : Bytes → Bool} {m : Method F} (h : MethodOK s env m) :
    MethodOK s (hide env hidden) m := ⟨fun a ha => known_hide _ (h.known a ha), h.zero, h.slots⟩

theorem hasFields_hide {F V W : Type} {env : Env F V W} {hidden : Bytes → Bool} {T : Obj F → V → Prop} {t : RType F V} {v : V}
    (h : HasFields env T t v) : HasFields (hide env hidden) T t v := by
  intro f hf
  obtain ⟨h1, h2⟩ := h f hf
  refine ⟨h1, fun hn => ⟨(h2 hn).1, fun hm w => ?_⟩⟩
  obtain ⟨fs, x, e, hx⟩ := (h2 hn).2 hm w
  exact ⟨fs, x, view_hide e (fun _ h => by cases h), hx⟩

theorem wellTyped_hide {F V W : Type} {s : RSchema F V} {env : Env F V W} {hidden : Bytes → Bool} {T : Obj F → V → Prop}
    (h : WellTyped s env T) : WellTyped s (hide env hidden) T where
  inTypes n d hl := ⟨fun f hf => known_hide _ ((h.inTypes n d hl).1 f hf), (h.inTypes n d hl).2⟩
  array o v hv w := by
    obtain ⟨vs, e, r⟩ := h.array o v hv w
    exact ⟨vs, view_hide e (fun _ h => by cases h), r⟩
  ptr o v hv w := by
    obtain ⟨x, e, r⟩ := h.ptr o v hv w
    exact ⟨x, view_hide e (fun _ h => by cases h), r⟩
  object n v hv t ht := hasFields_hide (h.object n v hv t ht)
  data id k v hv w := by
    obtain ⟨x, e, r⟩ := h.data id k v hv w
    exact ⟨x, view_hide e (fun _ h => by cases h), r⟩
  enum i v hv := by
    obtain ⟨en, he, hw⟩ := h.enum i v hv
    refine ⟨en, he, fun w => ?_⟩
    obtain ⟨x, e, r⟩ := hw w
    exact ⟨x, view_hide e (fun _ h => by cases h), r⟩
  method m out v hv := by
    obtain ⟨h1, h2, h3⟩ := h.method m out v hv
    refine ⟨methodOK_hide h1, h2.imp_right fun h2 w => ?_, fun w p inputs hi hm => h3 w p inputs hi (hm.imp_right fun hm => ?_)⟩
    · obtain ⟨b, e⟩ := h2 w
      exact ⟨b, view_hide e (fun _ h => by cases h)⟩
    · cases e : env.view w v with
      | iface y =>
        unfold hide at hm
        dsimp only at hm
        rw [e] at hm
        rcases y with _ | ⟨n, p, x⟩
        · cases hm
        · dsimp only at hm
          split at hm <;> cases hm
      | _ => rw [view_hide e (fun _ h => by cases h)] at hm; exact hm
  interface n v hv impls hi w := by
    obtain ⟨x, e, r⟩ := h.interface n v hv impls hi w
    rcases x with _ | ⟨gn, gp, y⟩
    · exact ⟨none, by unfold hide; dsimp only; rw [e], fun _ _ _ h => by cases h⟩
    · cases hh : hidden gn with
      | true => exact ⟨none, by unfold hide; dsimp only; rw [e]; dsimp only; rw [if_pos hh], fun _ _ _ h => by cases h⟩
      | false => exact ⟨_, by unfold hide; dsimp only; rw [e]; dsimp only; rw [if_neg (by rw [hh]; decide)], r⟩
  directive loc table hl x hx := ⟨methodOK_hide (h.directive loc table hl x hx).1, (h.directive loc table hl x hx).2⟩
  query := hasFields_hide h.query
  mutation := hasFields_hide h.mutation

/-- the environment of `Demo` before there are cats -/
def envBefore : Env Unit D World := hide env (fun n => n == b%"Cat")

theorem noCats (p n : Bytes) : Grow.Absent envBefore ⟨b%"Cat", p, n⟩ := by
  intro w v x h
  unfold envBefore hide at h
  dsimp only at h
  cases e : env.view w v with
  | iface y =>
    rw [e] at h
    rcases y with _ | ⟨gn, gp, y⟩
    · cases h
    · dsimp only at h
      split at h
      · cases h
      · rename_i hn
        injection h with h
        injection h with h
        injection h with h _
        rw [h] at hn
        exact hn (by decide)
  | _ => rw [e] at h; cases h

theorem extendsPlus : Grow.Extends envBefore (Grow.DocUses [] opOld) (Grow.DocUsesDirective [] opOld) schema schemaPlus where
  query := grownUser
  mutation := grownRefl _
  queryValue := rfl
  mutationValue := rfl
  types := by
    intro n t h
    rcases oldTypes h with ⟨rfl, rfl⟩ | ⟨rfl, rfl⟩
    · exact ⟨userPlus, rfl, grownUser⟩
    · exact ⟨dog, rfl, grownRefl _⟩
  interfaces := by
    intro n l h
    obtain ⟨rfl, rfl⟩ := oldInterfaces h
    exact ⟨_, rfl, .add (noCats _ _) (.keep .nil)⟩
  inputs := fun n d h => by cases h
  enums := ⟨_, rfl⟩
  directives := by
    intro loc n h
    rw [usesDirOld h]
    unfold Grow.directive lookup schemaPlus schema
    simp only [List.find?_cons, List.find?_nil]
    by_cases h0 : (0 : UInt8) = loc
    · simp only [h0, decide_true, Option.map_some, Option.bind_some]
      rfl
    · simp only [h0, decide_false]
  maxDepth := rfl

theorem closedOld : Grow.Closed schema envBefore where
  fields := by
    have hu : ∀ f ∈ user.fields, Grow.Declared schema envBefore f.obj := by
      intro g hg
      simp only [user, List.mem_cons, List.not_mem_nil, or_false] at hg
      rcases hg with rfl | rfl | rfl | rfl | rfl | rfl | rfl
      · trivial
      · trivial
      · exact ⟨user, rfl⟩
      · trivial
      · refine ⟨_, rfl, ?_⟩
        intro i hi
        rw [List.mem_singleton] at hi
        subst hi
        exact ⟨dog, rfl⟩
      · refine ⟨?_, trivial⟩
        intro a ha
        change a ∈ [_] at ha
        rw [List.mem_singleton] at ha
        subst ha
        intro i hi
        cases hi
      · refine ⟨?_, trivial⟩
        intro a ha
        cases ha
    have hd : ∀ f ∈ dog.fields, Grow.Declared schema envBefore f.obj := by
      intro g hg
      change g ∈ [_] at hg
      rw [List.mem_singleton] at hg
      subst hg
      trivial
    rintro t (rfl | rfl | ⟨n, h⟩)
    · exact hu
    · intro g hg
      change g ∈ [_] at hg
      rw [List.mem_singleton] at hg
      subst hg
      refine ⟨?_, trivial⟩
      intro a ha
      change a ∈ [_] at ha
      rw [List.mem_singleton] at ha
      subst ha
      intro i hi
      cases hi
    · rcases oldTypes h with ⟨-, rfl⟩ | ⟨-, rfl⟩
      · exact hu
      · exact hd
  inputs := fun n d h => by cases h
  directives := by
    intro loc name x h
    unfold Grow.directive at h
    obtain ⟨ds, h1, h2⟩ := Option.bind_eq_some_iff.1 h
    have hds : ds = directives := by
      unfold lookup schema at h1
      simp only [List.find?_cons, List.find?_nil] at h1
      by_cases a0 : (0 : UInt8) = loc
      · simp [a0] at h1; exact h1.symm
      · by_cases a1 : (1 : UInt8) = loc
        · simp [a0, a1] at h1; exact h1.symm
        · by_cases a2 : (2 : UInt8) = loc
          · simp [a0, a1, a2] at h1; exact h1.symm
          · simp [a0, a1, a2] at h1
    subst hds
    have hm := List.mem_of_find?_eq_some h2
    have hx : x.method = ifMethod := by
      simp only [directives, List.mem_cons, List.not_mem_nil, or_false] at hm
      rcases hm with rfl | rfl <;> rfl
    intro a ha
    rw [hx] at ha
    change a ∈ [_] at ha
    rw [List.mem_singleton] at ha
    subst ha
    intro i hi
    cases hi

/-- C93 applies to this request (which selects a field that neither schema has) -/
example (w : World) (r : R World (Bytes × List ReqErr)) : Answers schema envBefore w reqOld r ↔ Answers schemaPlus envBefore w reqOld r :=
  C93_additions_partial schema schemaPlus envBefore HasType w reqOld [.op opOld] opOld servesOld (wellTyped_hide wellTyped) (fits (by decide +kernel)) closedOld extendsPlus r

/-- and it is answered with an error. -/
example : (ask 300 reqOld).map (·.2) = some (1, 0) := by decide +kernel

end Demo

/-- the schema of the Go program in `GoDemo` -/
example : Grow.Closed (viewSchema GoDemo.goSchema) GoDemo.env :=
  C93_parsed_closed_partial _ _ _ _ _ GoDemo.distinct rfl GoDemo.parse_ok

namespace GoDemo

/-- the same schema with a query field `cat` of a new type -/
def goPlus : RSchema Unit Demo.D := { viewSchema goSchema with
  types := (b%"Cat", Demo.catPlus) :: (viewSchema goSchema).types
  rootQuery := { (viewSchema goSchema).rootQuery with
    fields := Demo.field b%"cat" 2 (.ptr (.objRef b%"Cat")) :: (viewSchema goSchema).rootQuery.fields } }

theorem inserted_refl {A : Type} {P : A → Prop} : ∀ xs : List A, Grow.Inserted P xs xs
  | [] => .nil
  | _ :: xs => .keep (inserted_refl xs)

theorem usesName {n : Bytes} (h : Grow.DocUses [] (Demo.query [Demo.f b%"name"]) n) : n = b%"name" := by
  rcases h with h | ⟨_, h, _⟩
  · cases h with
    | here => rfl
    | under h => cases h
    | later h => cases h
  · cases h

theorem extendsGo : Grow.Extends env (Grow.DocUses [] (Demo.query [Demo.f b%"name"]))
    (Grow.DocUsesDirective [] (Demo.query [Demo.f b%"name"])) (viewSchema goSchema) goPlus where
  query := ⟨rfl, .add (fun n hn => by rw [usesName hn]; decide +kernel) (inserted_refl _)⟩
  mutation := ⟨rfl, inserted_refl _⟩
  queryValue := rfl
  mutationValue := rfl
  types n t h := by
    refine ⟨t, ?_, rfl, inserted_refl _⟩
    by_cases e : b%"Cat" = n
    · subst e
      have : lookup (viewSchema goSchema).types b%"Cat" = none := by
        have h : (lookup (viewSchema goSchema).types b%"Cat").isSome = false := by decide +kernel
        cases hl : lookup (viewSchema goSchema).types b%"Cat" with
        | none => rfl
        | some x => rw [hl] at h; cases h
      rw [this] at h; cases h
    · have : lookup goPlus.types n = lookup (viewSchema goSchema).types n := by
        simp only [lookup, goPlus]
        rw [List.find?_cons_of_neg (by simpa using e)]
      rw [this]; exact h
  interfaces _ l h := ⟨l, h, inserted_refl l⟩
  inputs _ _ h := h
  enums := ⟨[], (List.append_nil _).symm⟩
  directives _ _ _ := rfl
  maxDepth := rfl

/-- the request `{name}` does not notice -/
example (w : Demo.World) (r : R Demo.World (Bytes × List ReqErr)) : Answers (viewSchema goSchema) env w (Demo.request b%"{name}") r ↔
    Answers goPlus env w (Demo.request b%"{name}") r :=
  C93_parsed_partial prog env HasTy 10 decl goSchema distinct identified enumKinds goLike rootsTyped rfl parse_ok goPlus w _
    [.op (Demo.query [Demo.f b%"name"])] (o := Demo.query [Demo.f b%"name"]) (Check.serves (by decide +kernel) rfl) (TraceDemo.goFits (by decide +kernel)) extendsGo r

end GoDemo

end Yarql
