import Verif.Props.Functions
import Verif.Props.ErrorPaths
import Verif.Proofs.Depth
import Verif.Spec.ArgsDemo

/-!
# Field lookup (C20) and the depth limit (C21)
-/

namespace Yarql
open Doc Resolver Eval Typed Yarql.Bind

/-! ## C20 -/

section
variable {F V W : Type}

/-- The fields of an object type are found under the hash of their names, as `check` stores them (parse.go:421, 531). -/
def Hashed (t : TypeDef F V) : Prop := ∀ f ∈ t.fields, f.key = fnv1 f.qlFieldName

/-- `name` is not confused with any field of the type by the 32-bit hash -/
def NoCollision (t : TypeDef F V) (name : Bytes) : Prop := ∀ f ∈ t.fields, fnv1 f.qlFieldName = fnv1 name → f.qlFieldName = name

/-- `f` is the field of `t` registered under `name` -/
def RegisteredAs (t : TypeDef F V) (name : Bytes) (f : Field F V) : Prop := f ∈ t.fields ∧ f.qlFieldName = name

theorem find_viewed (t : TypeDef F V) (k : UInt32) (g : RField F V) (h : (viewType t).fields.find? (fun f => f.key = k) = some g) :
    ∃ f ∈ t.fields, f.key = k ∧ g = viewField f := by
  have h1 := List.mem_of_find?_eq_some h
  have h2 := List.find?_some h
  obtain ⟨f, hf, rfl⟩ := List.mem_map.1 h1
  exact ⟨f, hf, of_decide_eq_true h2, rfl⟩

/-- **C20** (lookup). Without a collision the field found for a name is one registered under exactly that name, and a field is found
exactly if one is registered under it. -/
theorem C20_lookup_partial (t : TypeDef F V) (name : Bytes) (hh : Hashed t) (hc : NoCollision t name) :
    (∀ g, (viewType t).fields.find? (fun f => f.key = fnv1 name) = some g → ∃ f, RegisteredAs t name f ∧ g = viewField f) ∧
    ((viewType t).fields.find? (fun f => f.key = fnv1 name) = none ↔ ∀ f, ¬ RegisteredAs t name f) := by
  refine ⟨?_, ?_⟩
  · intro g h
    obtain ⟨f, hf, hk, rfl⟩ := find_viewed t _ g h
    exact ⟨f, ⟨hf, hc f hf (by rw [← hh f hf]; exact hk)⟩, rfl⟩
  · rw [List.find?_eq_none]
    constructor
    · rintro h f ⟨hf, hn⟩
      exact h (viewField f) (List.mem_map_of_mem hf) (by simp [viewField, hh f hf, hn])
    · intro h g hg
      obtain ⟨f, hf, rfl⟩ := List.mem_map.1 hg
      intro hk
      exact h f ⟨hf, hc f hf (by rw [← hh f hf]; exact of_decide_eq_true hk)⟩

/-- **C20** (what is shown). In a response without errors (`Shows.Selects`, see C16) every field selected on an object of type `t` was
skipped by a directive, or is `__typename`, or shows the value of the field registered under exactly the selected name. -/
theorem C20_selected_partial (c : Shows.Ctx F V W) (t : TypeDef F V) {key : Bytes} {name : Option Bytes} (hh : Hashed t)
    (hc : NoCollision t (name.getD key)) {v : V} {p : List Seg} {w w' : W} {dirs : List Directive} {args : Option (List (Bytes × Value))}
    {sub rest : List Sel} {ms : List (Bytes × Out)}
    (h : Shows.Selects c (viewType t) v p w (.field key name dirs args sub :: rest) ms w') :
    (∃ w1, Shows.Directives c 0 (p ++ [.key key]) w dirs true w1 ∧ Shows.Selects c (viewType t) v p w1 rest ms w') ∨
    (name.getD key = b%"__typename" ∧ (∀ f, ¬ RegisteredAs t b%"__typename" f) ∧ ∃ ms', ms = (key, .leaf (Shows.quoted t.typeName)) :: ms') ∨
    (∃ f w1 x out w2 ms', RegisteredAs t (name.getD key) f ∧ Shows.FieldValue c w1 v (viewField f) x ∧
      Shows.Shows c w1 f.obj x (p ++ [.key key]) args sub out w2 ∧ ms = (key, out) :: ms') := by
  cases h with
  | field h1 h2 h3 h4 h5 =>
    obtain ⟨f, hf, rfl⟩ := (C20_lookup_partial t _ hh hc).1 _ h2
    exact Or.inr (Or.inr ⟨f, _, _, _, _, _, hf, h3, h4, rfl⟩)
  | typename h1 h2 h3 h4 =>
    rw [← h2] at h3
    have := (C20_lookup_partial t _ hh hc).2.1 h3
    rw [h2] at this
    exact Or.inr (Or.inl ⟨h2, this, _, rfl⟩)
  | skipField h1 h2 => exact Or.inl ⟨_, h1, h2⟩

variable [DecidableEq F]

/-- **C20** (unregistered names). A query for a field that is not registered is answered with null for it and the error
"name does not exists on Type". -/
theorem C20_unknown_partial (s : Schema F V) (env : Env F V W) (w : W) (req : Request) (d : List Def) (o : Operation)
    (hs : Serves req d o) (hk : o.kind = .query) (hd : o.dirs = []) {key : Bytes} {name : Option Bytes}
    {args : Option (List (Bytes × Value))} {sub : List Sel} (hsel : o.sels = [.field key name [] args sub])
    (hh : Hashed s.rootQuery) (hc : NoCollision s.rootQuery (name.getD key)) (hn : ∀ f, ¬ RegisteredAs s.rootQuery (name.getD key) f)
    (ht : name.getD key ≠ b%"__typename") :
    let es := execErrs [(name.getD key ++ b%" does not exists on " ++ s.rootQuery.typeName, [.key key])]
    Answers (viewSchema s) env w req (.ok (envelope req.noMeta (print (.obj [(key, .null)])) es, es) w) := by
  have hf : (viewSchema s).rootQuery.fields.find? (fun f => f.key = fnv1 (name.getD key)) = none := (C20_lookup_partial _ _ hh hc).2.2 hn
  have h : evalField (reqOf (viewSchema s) env req d o) 1 (viewSchema s).rootQuery (viewSchema s).rootQueryValue 0 [] 255 key (name.getD key) []
      args sub ⟨[], w, false⟩ = some ((some (key, .null), true),
        ⟨[(name.getD key ++ b%" does not exists on " ++ s.rootQuery.typeName, [.key key])], w, false⟩) := by
    simp only [evalField]
    refine E_bind.2 ⟨some false, _, rfl, ?_⟩
    dsimp only
    rw [hf]
    dsimp only
    rw [if_neg ht]
    rfl
  exact answer_of_field (viewSchema s) env w req d o hs hk hd hsel h

end

/-! ## C21 -/

section
variable {F V W : Type} [DecidableEq F]

/-- **C21**, for schemas without interfaces and `MaxDepth > 0`: in the answer to any served request objects nest at most `MaxDepth` deep,
the root object included: no object nested `MaxDepth` or more levels below the root is resolved. -/
theorem C21_depth_partial (schema : RSchema F V) (env : Env F V W) (T : Obj F → V → Prop) (w w' : W) (req : Request)
    (d : List Def) (o : Operation) (fuel : Nat) (vals : UInt8 → V) (body : Bytes) (es : List ReqErr)
    (hs : Serves req d o) (ht : WellTyped schema env T) (hf : Fits schema (fragmentsOf d) o)
    (hi : ∀ f, IsField schema f → noInterface f.obj = true) (hm : 0 < schema.maxDepth.toNat)
    (h : resolve fuel schema env vals w req = .ok (body, es) w') :
    ∃ out, body = envelope req.noMeta (print out) es ∧ Depth.Within schema.maxDepth.toNat out := by
  obtain ⟨F0, h0⟩ := evalOperation_total (r := reqOf schema env req d o) ht o hf
  obtain ⟨⟨out, crit⟩, es', h1, -⟩ := h0 F0 (Nat.le_refl _) ⟨[], w, false⟩
  have hr := resolve_eval F0 schema env (fun _ => schema.rootQueryValue) w req d o out crit es' hs.parsed hs.wf hs.regular hs.len hs.chosen h1
  have e := C41_deterministic (Answers.of hr (by simp)) (Answers.of h (by simp))
  injection e with e1 e2
  injection e1 with e3 e4
  exact ⟨out, by rw [← e3, ← e4], evalOperation_within (reqOf schema env req d o) hi hm F0 o _ _ _ h1⟩

/-- **C21**: a response that nests deeper than `MaxDepth` is not what is answered: if the selections show one (`Shows.Operation`), the
request reports an error. -/
theorem C21_error_partial (schema : RSchema F V) (env : Env F V W) (T : Obj F → V → Prop) (w w' : W) (req : Request)
    (d : List Def) (o : Operation) (fuel : Nat) (vals : UInt8 → V) (body : Bytes) (es : List ReqErr)
    (hs : Serves req d o) (ht : WellTyped schema env T) (hf : Fits schema (fragmentsOf d) o)
    (hi : ∀ f, IsField schema f → noInterface f.obj = true) (hm : 0 < schema.maxDepth.toNat)
    (hdeep : ∀ out w2, Shows.Operation (showCtx schema env req d o) w o out w2 → ¬ Depth.Within schema.maxDepth.toNat out)
    (h : resolve fuel schema env vals w req = .ok (body, es) w') : es ≠ [] := by
  rintro rfl
  obtain ⟨F0, h0⟩ := evalOperation_total (r := reqOf schema env req d o) ht o hf
  obtain ⟨⟨out, crit⟩, es', h1, -⟩ := h0 F0 (Nat.le_refl _) ⟨[], w, false⟩
  have hr := resolve_eval F0 schema env (fun _ => schema.rootQueryValue) w req d o out crit es' hs.parsed hs.wf hs.regular hs.len hs.chosen h1
  have e := C41_deterministic (Answers.of hr (by simp)) (Answers.of h (by simp))
  injection e with e1 e2
  injection e1 with e3 e4
  have hw := evalOperation_within (reqOf schema env req d o) hi hm F0 o _ _ _ h1
  obtain ⟨new, n1, n2, -⟩ := evalOperation_run (reqOf schema env req d o) F0 o w _ _ _ rfl h1
  have hnil : es'.errs = [] := execErrs_nil.1 e4
  rw [hnil, List.nil_append] at n1
  exact hdeep _ _ (n2 n1.symm).2 hw

end

/-! ## The hypotheses are met, and what is false -/

namespace ArgsDemo
open Demo (D World noStack request query f)

theorem no_interfaces (f : RField Unit D) (h : IsField schema f) : noInterface f.obj = true := by
  have hu : ∀ f ∈ type.fields, noInterface f.obj = true := by decide
  rcases h with h | h | ⟨n, t, hn, h⟩
  · exact hu f h
  · cases h
  · simp only [schema, List.mem_cons, List.not_mem_nil, or_false] at hn
    cases hn
    exact hu f h

def opSelf : Operation := query [f b%"self" [f b%"self" [f b%"color" []]]]
def reqSelf : Request := request b%"{self{self{color}}}"
theorem servesSelf : Serves reqSelf [.op opSelf] opSelf := Check.serves (by decide +kernel) rfl

/-- the hypotheses of `C21_depth_partial` are met -/
example (fuel : Nat) (vals : UInt8 → D) (body : Bytes) (es : List ReqErr) (w' : World)
    (h : resolve fuel schema env vals [] reqSelf = .ok (body, es) w') :
    ∃ out, body = envelope false (print out) es ∧ Depth.Within 60 out :=
  C21_depth_partial schema env HasType [] w' reqSelf [.op opSelf] opSelf fuel vals body es servesSelf wellTyped (fits (by decide +kernel))
    no_interfaces (by decide) h

/-- `ask` with another `MaxDepth` -/
def askDepth (m : UInt8) (req : Request) : Option (Bytes × Nat) :=
  match resolve 300 { schema with maxDepth := m } env noStack [] req with
  | .ok (b, es) _ => some (b, es.length)
  | _ => none

/-- with `MaxDepth` 3 all is shown, with 2 the second object is null -/
example : (askDepth 3 reqSelf).map (·.2) = some 0 ∧ (askDepth 2 reqSelf).map (·.2) = some 1 := by decide +kernel
example : askDepth 2 reqSelf = some (b%"{\"data\":{\"self\":{\"self\":null}},\"errors\":[{\"message\":\"reached max dept\",\"path\":[\"self\",\"self\"]}],\"extensions\":{}}", 1) := by
  decide +kernel

/-! C20 -/

def named (name : Bytes) (i : Nat) (o : Obj Unit) : Field Unit D := ⟨fnv1 name, name, false, i, none, o⟩
def twoFields : TypeDef Unit D := ⟨b%"R", b%"R", b%"main", [named b%"quists" 0 (.data false .string), named b%"name" 1 (.data false .string)], []⟩

example : Hashed twoFields ∧ NoCollision twoFields b%"name" ∧ RegisteredAs twoFields b%"name" (named b%"name" 1 (.data false .string)) := by
  refine ⟨?_, ?_, ?_⟩
  · intro f hf
    simp only [twoFields, List.mem_cons, List.not_mem_nil, or_false] at hf
    rcases hf with rfl | rfl <;> rfl
  · intro f hf h
    simp only [twoFields, List.mem_cons, List.not_mem_nil, or_false] at hf
    rcases hf with rfl | rfl
    · exact absurd h (by decide +kernel)
    · rfl
  · exact ⟨by simp [twoFields], rfl⟩

/-- **C20 is false in general**: "creamwove" and "quists" have the same 32-bit FNV-1 hash; a type with a field `quists` also answers to
`creamwove`, although nothing is registered under that name. -/
theorem C20_refuted : (∃ g, (viewType twoFields).fields.find? (fun f => f.key = fnv1 b%"creamwove") = some g) ∧
    ∀ f, ¬ RegisteredAs twoFields b%"creamwove" f := by
  refine ⟨⟨viewField (named b%"quists" 0 (.data false .string)), ?_⟩, ?_⟩
  · have h1 : fnv1 b%"quists" = fnv1 b%"creamwove" := by decide +kernel
    simp [viewType, twoFields, viewField, named, h1]
  · rintro f ⟨hf, hn⟩
    simp only [twoFields, List.mem_cons, List.not_mem_nil, or_false] at hf
    rcases hf with rfl | rfl <;> exact absurd hn (by decide)

/-- a whole request: `{creamwove}` is answered with the value of `quists`, without error -/
def collide : RSchema Unit D := { schema with rootQuery := viewType twoFields, rootQueryValue := .struct [.str b%"q", .str b%"n"] }
theorem C20_refuted_request : (match resolve 300 collide env noStack [] (request b%"{creamwove}") with
    | .ok (b, es) _ => some (b, es.length) | _ => none) = some (Demo.dataOnly b%"{\"creamwove\":\"q\"}", 0) := by decide +kernel

end ArgsDemo

namespace Demo

/-- `ask` with another `MaxDepth` -/
def askDepth (m : UInt8) (req : Request) : Option (Bytes × Nat) :=
  match resolve 300 { schema with maxDepth := m } env noStack [] req with
  | .ok (b, es) _ => some (b, es.length)
  | _ => none

/-- **C21 is false for interfaces**: with `MaxDepth` 1 an object one level below the root is resolved when it is reached through an
interface; with `MaxDepth` 2 it is not, although it is only one level deep. -/
theorem C21_refuted_interface : askDepth 1 (request b%"{pet{sound}}") = some (dataOnly b%"{\"pet\":{\"sound\":\"woof\"}}", 0) ∧
    (askDepth 2 (request b%"{pet{sound}}")).map (·.2) = some 1 ∧
    askDepth 2 (request b%"{friend{name}}") = some (dataOnly b%"{\"friend\":{\"name\":\"Bob\"}}", 0) := by decide +kernel

end Demo
end Yarql
