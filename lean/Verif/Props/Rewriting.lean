import Verif.Props.Respond
import Verif.Proofs.TwoRuns
import Verif.Spec.SkipInclude
import Verif.Spec.Demo

/-!
# Queries with the same meaning: C17, C18
-/

namespace Yarql
open Doc Resolver Eval Typed Yarql.Bind Directives

section
variable {F V W : Type}

/-! ## The standard directives -/

/-- same errors, same world; looking at the variables makes no difference -/
def SameSoFar (vars : VarsSrc) (a b : ES W) : Prop :=
  b.errs = a.errs ∧ b.world = a.world ∧ (b.varsParsed = a.varsParsed ∨ VarsOK vars)

theorem usable_of_ok {vars : VarsSrc} (h : VarsOK vars) : Binding.Usable vars := by
  unfold VarsOK at h
  unfold Binding.Usable
  exact h

theorem sameSoFar_frame (vars : VarsSrc) : Frame (W := W) vars (SameSoFar vars) where
  world h := h.2.1
  report h e := ⟨by rw [h.1], h.2.1, h.2.2⟩
  setVars h := ⟨h.1, h.2.1, Or.inl rfl⟩
  vars h := by
    obtain ⟨h1, h2, h3⟩ := h
    rcases h3 with h3 | h3
    · exact Or.inl h3
    · exact Or.inr ⟨usable_of_ok h3, ⟨h1, h2, Or.inr h3⟩, ⟨h1, h2, Or.inr h3⟩⟩

variable (r : Req F V W)

theorem truth_usable {v : Value} {b : Bool} (h : Truth r.vars r.decls v b) : VarsOK r.vars ∨ v = .bool b := by
  cases h with
  | literal => exact Or.inr rfl
  | supplied _ _ hs =>
    left
    unfold Binding.Supplied at hs
    unfold VarsOK
    split at hs
    · rename_i he; rw [he]; trivial
    · cases hs
  | default _ _ _ hv _ => exact Or.inl hv

theorem truth_lit {v : Value} {b : Bool} (h : Truth r.vars r.decls v b) :
    Binding.Lit r.env r.schema.enums r.schema.inTypes (Binding.Var r.env r.schema.enums r.schema.inTypes r.vars r.decls) v
      (.scalar .bool none false) (.scalar (.bool false)) (.scalar (.bool b)) true := by
  cases h with
  | literal => exact .scalar .bool
  | supplied hd ht hs =>
    refine .var (by simp) (.supplied hd ?_ hs .bool)
    rw [ht]
    exact .named trivial
  | default hd ht hs hv hdef =>
    refine .var (by simp) (.default hd ?_ hs hdef (.scalar .bool))
    rw [ht]
    exact .named trivial

theorem bind_if {m : Method F} (hi : m.ins = [.struct (.struct [.scalar (.bool false)])])
    (hf : m.inFields = [⟨b%"if", 0, 0, .scalar .bool none false⟩]) {v : Value} {b : Bool} (h : Truth r.vars r.decls v b)
    (path : List Seg) (es : ES W) :
    ∃ es', bindArgs r path m [(b%"if", v)] (freshInputs m) es = some (some [.val (.struct [.scalar (.bool b)])], es') ∧
      es'.errs = es.errs ∧ es'.world = es.world ∧ (es'.varsParsed = es.varsParsed ∨ VarsOK r.vars) := by
  have hfresh : freshInputs m = [.val (.struct [.scalar (.bool false)])] := by unfold freshInputs; rw [hi]; rfl
  rcases truth_usable r h with hu | rfl
  · have ha : Binding.Args r.env r.schema.enums r.schema.inTypes (Binding.Var r.env r.schema.enums r.schema.inTypes r.vars r.decls) m.inFields
        [(b%"if", v)] (freshInputs m) [.val (.struct [.scalar (.bool b)])] := by
      refine .cons (a := ⟨b%"if", 0, 0, .scalar .bool none false⟩) ?_ (truth_lit r h) ?_ .nil
      · rw [hf]; rfl
      · rw [hfresh]; exact ⟨_, _, rfl, ⟨_, rfl, rfl, rfl⟩, rfl⟩
    obtain ⟨es', h1⟩ := args_complete r (usable_of_ok hu) path m ha es
    have h2 := bindArgs_delivers r path m _ _ _ _ _ h1
    exact ⟨es', h1, h2.2.2, h2.1, Or.inr hu⟩
  · refine ⟨es, ?_, rfl, rfl, Or.inl rfl⟩
    rw [hfresh]
    unfold bindArgs
    rw [hf]
    rfl

theorem evalDirective_std (hstd : StandardDirectives r.schema r.env) {name : Bytes} {skips : Bool → Bool}
    (hn : BooleanDirective r.schema r.env name skips) {d : Directive} (hd : d.name = name) {v : Value} (ha : d.args = some [(b%"if", v)])
    {b : Bool} (h : Truth r.vars r.decls v b) {loc : UInt8} (hloc : loc ≤ 2) (path : List Seg) (es : ES W) :
    ∃ es', evalDirective r path loc d es = some (some (skips b), es') ∧
      es'.errs = es.errs ∧ es'.world = es.world ∧ (es'.varsParsed = es.varsParsed ∨ VarsOK r.vars) := by
  obtain ⟨x, hx, hi, hf, hc⟩ := hn loc hloc
  obtain ⟨es', h1, h2, h3, h4⟩ := bind_if r hi hf h path es
  obtain ⟨o, rest, hc1, hc2⟩ := hc es'.world (jsonPath (pathText path)) b
  refine ⟨es', ?_, h2, h3, h4⟩
  unfold evalDirective
  rw [hd, hx]
  dsimp only
  rw [ha]
  refine E_bind.2 ⟨some (o :: rest), es', ?_, ?_⟩
  · unfold callWith
    refine E_bind.2 ⟨_, es', h1, ?_⟩
    dsimp only
    refine E_bind.2 ⟨es'.world, es', rfl, ?_⟩
    rw [hc1]
    rfl
  · show some (some (r.env.skip es'.world o), es') = _
    rw [hc2]

theorem step_keeps (hstd : StandardDirectives r.schema r.env) {d : Directive} (h : Keeps r.vars r.decls d) {loc : UInt8} (hloc : loc ≤ 2)
    (path : List Seg) (es : ES W) :
    ∃ es', evalDirective r path loc d es = some (some false, es') ∧
      es'.errs = es.errs ∧ es'.world = es.world ∧ (es'.varsParsed = es.varsParsed ∨ VarsOK r.vars) := by
  obtain ⟨v, ha, ⟨hn, ht⟩ | ⟨hn, ht⟩⟩ := h
  · exact evalDirective_std r hstd hstd.skip_ hn ha ht hloc path es
  · exact evalDirective_std r hstd hstd.include_ hn ha ht hloc path es

theorem step_omits (hstd : StandardDirectives r.schema r.env) {d : Directive} (h : Omits r.vars r.decls d) {loc : UInt8} (hloc : loc ≤ 2)
    (path : List Seg) (es : ES W) :
    ∃ es', evalDirective r path loc d es = some (some true, es') ∧
      es'.errs = es.errs ∧ es'.world = es.world ∧ (es'.varsParsed = es.varsParsed ∨ VarsOK r.vars) := by
  obtain ⟨v, ha, ⟨hn, ht⟩ | ⟨hn, ht⟩⟩ := h
  · exact evalDirective_std r hstd hstd.skip_ hn ha ht hloc path es
  · exact evalDirective_std r hstd hstd.include_ hn ha ht hloc path es

theorem same_trans {vars : VarsSrc} {a b c : ES W} (h : a.errs = b.errs ∧ a.world = b.world ∧ (a.varsParsed = b.varsParsed ∨ VarsOK vars))
    (h' : SameSoFar vars b c) : SameSoFar vars a c := by
  obtain ⟨h1, h2, h3⟩ := h
  obtain ⟨k1, k2, k3⟩ := h'
  refine ⟨by rw [h1, k1], by rw [h2, k2], ?_⟩
  rcases h3 with h3 | h3
  · rcases k3 with k3 | k3
    · exact Or.inl (by rw [h3, k3])
    · exact Or.inr k3
  · exact Or.inr h3

theorem standard_dropped (hstd : StandardDirectives r.schema r.env) :
    Dropped (SameSoFar r.vars) r (fun _ dirs => Kept r.vars r.decls dirs) (fun _ dirs => Omitted r.vars r.decls dirs) := by
  refine ⟨?_, ?_⟩
  · intro loc dirs hloc hk path es es' a s he h
    induction dirs generalizing es with
    | nil =>
      unfold evalDirectives at h
      have e := E_pure.1 h
      cases e
      exact ⟨rfl, he⟩
    | cons d ds ih =>
      unfold evalDirectives at h
      obtain ⟨a1, s1, h1, h2⟩ := E_bind.1 h
      obtain ⟨s2, k1, k2⟩ := step_keeps r hstd (hk d (by simp)) hloc path es
      rw [k1] at h1
      cases h1
      exact ih (fun d hd => hk d (by simp [hd])) (same_trans k2 he) h2
  · rintro loc dirs hloc ⟨before, d, after, rfl, hb, hd⟩ path es es' a s he h
    induction before generalizing es with
    | nil =>
      rw [List.nil_append] at h
      unfold evalDirectives at h
      obtain ⟨a1, s1, h1, h2⟩ := E_bind.1 h
      obtain ⟨s2, k1, k2⟩ := step_omits r hstd hd hloc path es
      rw [k1] at h1
      cases h1
      have e := E_pure.1 h2
      cases e
      exact ⟨rfl, same_trans k2 he⟩
    | cons d' ds ih =>
      rw [List.cons_append] at h
      unfold evalDirectives at h
      obtain ⟨a1, s1, h1, h2⟩ := E_bind.1 h
      obtain ⟨s2, k1, k2⟩ := step_keeps r hstd (hb d' (by simp)) hloc path es
      rw [k1] at h1
      cases h1
      exact ih (fun d hd => hb d (by simp [hd])) (same_trans k2 he) h2

theorem alike_self : Alike (SameSoFar r.vars) r r.env.call r.env.errOf := by
  refine ⟨?_⟩
  intro es es' h fn p a w1 outs hc
  exact ⟨⟨h.1, rfl, h.2.2⟩, outs, hc, fun o ho => ⟨o, ho, rfl⟩, fun nr e he => ⟨e, he, Or.inl rfl⟩, fun _ => rfl⟩

theorem other_self (frags' : List Fragment) : other r r.env.call r.env.errOf frags' = ⟨r.schema, r.env, r.vars, frags', r.decls⟩ := rfl

variable [DecidableEq F]

/-- **C17.** Take a request and change its operation and fragments by removing `@skip(if: false)`/`@include(if: true)` directives and
whole fields, spreads and inline fragments that carry `@skip(if: true)`/`@include(if: false)` (the conditions may be variables;
`Rewrites` also allows to replace spreads by inline fragments). Both requests get the same response, the same errors and the
same effects on the world: what is omitted is not resolved, what is kept is resolved as if the directive were absent. -/
theorem C17_skip_include_partial (schema : RSchema F V) (env : Env F V W) (T : Obj F → V → Prop) (w : W) (req req' : Request) (d d' : List Def)
    (o o' : Operation) (hs : Serves req d o) (hs' : Serves req' d' o') (ht : WellTyped schema env T) (hf : Fits schema (fragmentsOf d) o)
    (hm : req.noMeta = req'.noMeta) (hv : req.vars = req'.vars) (hstd : StandardDirectives schema env)
    (hk : o'.kind = o.kind) (hd : o'.dirs = o.dirs) (hdecl : o'.vars = o.vars)
    (h : Rewrites (fun _ dirs => Kept req.vars (o.vars.getD []) dirs) (fun _ dirs => Omitted req.vars (o.vars.getD []) dirs)
      (fragmentsOf d) (fragmentsOf d') o.sels o'.sels)
    (r : R W (Bytes × List ReqErr)) : Answers schema env w req r ↔ Answers schema env w req' r := by
  refine same_answer schema env T w req req' d d' o o' hs hs' ht hf hm ?_ r
  intro fuel out crit es h1
  have hfw := operation_fwd (sameSoFar_frame req.vars) (reqOf schema env req d o) env.call env.errOf (fragmentsOf d')
    (alike_self (reqOf schema env req d o)) rfl (standard_dropped (reqOf schema env req d o) hstd) fuel fuel (Nat.le_refl _) o o' hk hd h
  obtain ⟨es', k1, k2⟩ := hfw ⟨[], w, false⟩ ⟨[], w, false⟩ ⟨rfl, rfl, Or.inl rfl⟩ _ _ h1
  refine ⟨fuel, crit, es', ?_, k2.1, k2.2.1⟩
  have e : reqOf schema env req' d' o' = other (reqOf schema env req d o) env.call env.errOf (fragmentsOf d') := by
    unfold reqOf other
    rw [hv, hdecl]
  rw [e]
  exact k1

/-- **C18.** A fragment spread means the inline fragment with the type and selections of the fragment of that name: replacing any
number of spreads (nested ones too) by inline fragments changes neither response nor errors nor effects. Fragments no longer used
may be dropped from the document. -/
theorem C18_spread_is_inline_partial (schema : RSchema F V) (env : Env F V W) (T : Obj F → V → Prop) (w : W) (req req' : Request) (d d' : List Def)
    (o o' : Operation) (hs : Serves req d o) (hs' : Serves req' d' o') (ht : WellTyped schema env T) (hf : Fits schema (fragmentsOf d) o)
    (hm : req.noMeta = req'.noMeta) (hv : req.vars = req'.vars)
    (hk : o'.kind = o.kind) (hd : o'.dirs = o.dirs) (hdecl : o'.vars = o.vars)
    (h : Rewrites (fun _ _ => False) (fun _ _ => False) (fragmentsOf d) (fragmentsOf d') o.sels o'.sels)
    (r : R W (Bytes × List ReqErr)) : Answers schema env w req r ↔ Answers schema env w req' r := by
  refine same_answer schema env T w req req' d d' o o' hs hs' ht hf hm ?_ r
  intro fuel out crit es h1
  have hfw := operation_fwd (sameSoFar_frame req.vars) (reqOf schema env req d o) env.call env.errOf (fragmentsOf d')
    (alike_self (reqOf schema env req d o)) rfl (pass := fun _ _ => False) (stop := fun _ _ => False) ⟨fun _ h => h.elim, fun _ h => h.elim⟩
    fuel fuel (Nat.le_refl _) o o' hk hd h
  obtain ⟨es', k1, k2⟩ := hfw ⟨[], w, false⟩ ⟨[], w, false⟩ ⟨rfl, rfl, Or.inl rfl⟩ _ _ h1
  refine ⟨fuel, crit, es', ?_, k2.1, k2.2.1⟩
  have e : reqOf schema env req' d' o' = other (reqOf schema env req d o) env.call env.errOf (fragmentsOf d') := by
    unfold reqOf other
    rw [hv, hdecl]
  rw [e]
  exact k1

end

/-! ## Examples -/

namespace Demo

theorem standard : StandardDirectives schema env where
  skip_ := by
    intro loc hl
    have hl : loc.toNat ≤ 2 := by simpa [UInt8.le_iff_toNat_le] using hl
    refine ⟨⟨b%"skip", [0, 1, 2], ifMethod, .fn 2⟩, ?_, rfl, rfl, fun w p b => ⟨.modifier b, [], rfl, rfl⟩⟩
    have : loc = 0 ∨ loc = 1 ∨ loc = 2 := by
      have h : loc.toNat = 0 ∨ loc.toNat = 1 ∨ loc.toNat = 2 := by omega
      rcases h with h | h | h
      · exact Or.inl (UInt8.toNat_inj.1 h)
      · exact Or.inr (Or.inl (UInt8.toNat_inj.1 h))
      · exact Or.inr (Or.inr (UInt8.toNat_inj.1 h))
    rcases this with rfl | rfl | rfl <;> rfl
  include_ := by
    intro loc hl
    have hl : loc.toNat ≤ 2 := by simpa [UInt8.le_iff_toNat_le] using hl
    refine ⟨⟨b%"include", [0, 1, 2], ifMethod, .fn 3⟩, ?_, rfl, rfl, fun w p b => ⟨.modifier (!b), [], rfl, rfl⟩⟩
    have : loc = 0 ∨ loc = 1 ∨ loc = 2 := by
      have h : loc.toNat = 0 ∨ loc.toNat = 1 ∨ loc.toNat = 2 := by omega
      rcases h with h | h | h
      · exact Or.inl (UInt8.toNat_inj.1 h)
      · exact Or.inr (Or.inl (UInt8.toNat_inj.1 h))
      · exact Or.inr (Or.inr (UInt8.toNat_inj.1 h))
    rcases this with rfl | rfl | rfl <;> rfl

/-- `@skip(if: v)` -/
def skipIf (v : Value) : Directive := ⟨b%"skip", some [(b%"if", v)]⟩
/-- `@include(if: v)` -/
def includeIf (v : Value) : Directive := ⟨b%"include", some [(b%"if", v)]⟩

def boolVar : VarDef := ⟨b%"v", .named b%"Boolean" true, none⟩

/-- directives on fields and spreads, one with a variable -/
def withDirectives : Operation :=
  ⟨.query, b%"q", some [boolVar], [], [.field b%"name" none [includeIf (.bool true)] none [], .field b%"age" none [skipIf (.var b%"v")] none [],
    .field b%"friend" none [] none [.spread b%"more" [includeIf (.var b%"v")]]]⟩
def withoutDirectives : Operation :=
  ⟨.query, b%"q", some [boolVar], [], [f b%"name", f b%"friend" [.spread b%"more" []]]⟩
def more : Fragment := ⟨b%"more", b%"User", [f b%"name", f b%"age"]⟩

def request1 : Request := ⟨b%"query q($v:Boolean!){name @include(if:true) age @skip(if:$v) friend{...more @include(if:$v)}} fragment more on User{name age}",
  [], false, .json (.obj [(b%"v", .bool true)])⟩
def request2 : Request := ⟨b%"query q($v:Boolean!){name friend{...more}} fragment more on User{name age}",
  [], false, .json (.obj [(b%"v", .bool true)])⟩

theorem serves1 : Serves request1 [.op withDirectives, .frag more] withDirectives := Check.serves (by decide +kernel) rfl
theorem serves2 : Serves request2 [.op withoutDirectives, .frag more] withoutDirectives := Check.serves (by decide +kernel) rfl

/-- C17 applies to these two requests, -/
example (w : World) (r : R World (Bytes × List ReqErr)) : Answers schema env w request1 r ↔ Answers schema env w request2 r := by
  refine C17_skip_include_partial schema env HasType w request1 request2 _ _ withDirectives withoutDirectives serves1 serves2 wellTyped
    (fits (by decide +kernel)) rfl rfl standard rfl rfl rfl ?_ r
  have hv : Truth request1.vars [boolVar] (.var b%"v") true := .supplied rfl rfl rfl
  have hkeep : Kept request1.vars (withDirectives.vars.getD []) [includeIf (.var b%"v")] := by
    intro d hd
    rw [List.mem_singleton] at hd
    subst hd
    exact ⟨_, rfl, Or.inr ⟨rfl, hv⟩⟩
  refine .field (Or.inr ⟨?_, rfl⟩) (by decide) .nil (.stopField ?_ (.field (Or.inl rfl) (by simp) ?_ .nil))
  · intro d hd
    rw [List.mem_singleton] at hd
    subst hd
    exact ⟨_, rfl, Or.inr ⟨rfl, .literal⟩⟩
  · exact ⟨[], skipIf (.var b%"v"), [], rfl, (fun d hd => by cases hd), _, rfl, Or.inl ⟨rfl, hv⟩⟩
  · refine .spread (f := more) (f' := more) (Or.inr ⟨hkeep, rfl⟩) rfl rfl rfl ?_ .nil
    exact .field (Or.inl rfl) (by simp) .nil (.field (Or.inl rfl) (by simp) .nil .nil)

/-- and they have an answer. -/
example : ask 300 request1 = some (dataOnly b%"{\"name\":\"A\\\"n\",\"friend\":{\"name\":\"Bob\",\"age\":30}}", 0, 0) := by decide +kernel

def op3 : Operation := query [f b%"friend" [.spread b%"more" [], .spread b%"more" []]]
def op4 : Operation := query [f b%"friend" [.inline b%"User" [] more.sels, .spread b%"more" []]]
def request3 : Request := request b%"{friend{...more ...more}} fragment more on User{name age}"
def request4 : Request := request b%"{friend{... on User{name age} ...more}} fragment more on User{name age}"

theorem serves3 : Serves request3 [.op op3, .frag more] op3 :=
  Check.serves (by decide +kernel) rfl
theorem serves4 : Serves request4 [.op op4, .frag more] op4 :=
  Check.serves (by decide +kernel) rfl

/-- C18 applies to these two. -/
example (w : World) (r : R World (Bytes × List ReqErr)) : Answers schema env w request3 r ↔ Answers schema env w request4 r := by
  refine C18_spread_is_inline_partial schema env HasType w request3 request4 _ _ _ _ serves3 serves4 wellTyped
    (fits (by decide +kernel)) rfl rfl rfl rfl rfl ?_ r
  have hm : Rewrites (fun _ _ => False) (fun _ _ => False) [more] [more] more.sels more.sels :=
    .field (Or.inl rfl) (by simp) .nil (.field (Or.inl rfl) (by simp) .nil .nil)
  refine .field (Or.inl rfl) (by simp) ?_ .nil
  exact .expand (f := more) (Or.inl rfl) rfl hm (.spread (f := more) (f' := more) (Or.inl rfl) rfl rfl rfl hm .nil)

def short : Fragment := ⟨b%"a", b%"User", [f b%"name"]⟩
def long : Fragment := ⟨b%"ab", b%"User", [f b%"age"]⟩

/-- A fragment whose name begins with the spread's is no obstacle when it comes later, -/
example : Serves (request b%"{...a} fragment a on User{name} fragment ab on User{age}")
    [.op (query [.spread b%"a" []]), .frag short, .frag long] (query [.spread b%"a" []]) :=
  Check.serves (by decide +kernel) rfl

/-- only when it comes earlier. -/
example : ¬ docRegular [.op (query [.spread b%"a" []]), .frag long, .frag short] := fun h =>
  (by decide : ¬ firstNamed b%"a" [b%"ab", b%"a"]) (h (.op (query [.spread b%"a" []])) (by simp)).1.1.2

/-- **C18 fails in general**: a spread takes the first fragment whose name *starts with* its name (and then misreads the type it
is on). Here `...a` silently selects nothing, because a fragment `ab` is defined before `a`. -/
theorem C18_refuted_by_prefix :
    ask 300 (request b%"{...a} fragment ab on User{age} fragment a on User{name}") = some (dataOnly b%"{}", 0, 0) ∧
    ask 300 (request b%"{...a} fragment a on User{name}") = some (dataOnly b%"{\"name\":\"A\\\"n\"}", 0, 0) := by
  decide +kernel

end Demo
end Yarql
