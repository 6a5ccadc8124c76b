import Verif.Props.Order
import Verif.Props.ErrorPaths
import Verif.Proofs.Fault
import Verif.Proofs.Ends

/-!
# C88: only a fault of the request ends an operation
-/

namespace Yarql
open Doc Resolver Eval Typed Yarql.Bind

section
variable {F V W : Type} [DecidableEq F]

/-- **C88.** Take an operation with the selections `a ++ b`. `b` is left out only if the last error reported for `a` is a fault of the
request itself (`Fault.OperationFault`): a selection of `a`, not below a list, that the schema does not allow: a field that does not
exist, a selection missing or not allowed, arguments or a directive the schema refuses, a fragment not defined, nesting that is too deep;
or an operation that is not supported. In every other case `b` is executed, after `a`, and the response has the members and the errors of
both. -/
theorem C88_only_faults_stop_partial (schema : RSchema F V) (env : Env F V W) (T : Obj F → V → Prop) (w : W) (req reqA reqB : Request)
    (d dA dB : List Def) (o : Operation) (a b : List Sel) (ho : o.sels = a ++ b)
    (hs : Serves req d o) (hsA : Serves reqA dA { o with sels := a }) (hsB : Serves reqB dB { o with sels := b })
    (hfA : fragmentsOf dA = fragmentsOf d) (hfB : fragmentsOf dB = fragmentsOf d)
    (hvA : reqA.vars = req.vars) (hvB : reqB.vars = req.vars) (hv : VarsOK req.vars)
    (ht : WellTyped schema env T) (hf : Fits schema (fragmentsOf d) o) :
    ∃ ma ea w1, AnswersWith schema env w reqA ma ea w1 ∧
      ((∃ before e, ea = before ++ [e] ∧ Fault.OperationFault (showCtx schema env req d o) { o with sels := a } e ∧
          AnswersWith schema env w req ma ea w1) ∨
        ∃ mb eb w2, AnswersWith schema env w1 reqB mb eb w2 ∧ AnswersWith schema env w req (ma ++ mb) (ea ++ eb) w2) := by
  obtain ⟨F0, h0⟩ := evalOperation_total (r := reqOf schema env req d o) ht o hf
  obtain ⟨⟨out, crit⟩, es, h1, -⟩ := h0 F0 (Nat.le_refl _) ⟨[], w, false⟩
  have hr := resolve_eval F0 schema env (fun _ => schema.rootQueryValue) w req d o out crit es hs.parsed hs.wf hs.regular hs.len hs.chosen h1
  have eA : reqOf schema env reqA dA { o with sels := a } = reqOf schema env req d o := by unfold reqOf; rw [hvA, hfA]
  have eB : reqOf schema env reqB dB { o with sels := b } = reqOf schema env req d o := by unfold reqOf; rw [hvB, hfB]
  have runA : ∀ out crit es, evalOperation (reqOf schema env req d o) F0 { o with sels := a } ⟨[], w, false⟩ = some ((out, crit), es) →
      Answers schema env w reqA (.ok (envelope reqA.noMeta (print out) (execErrs es.errs), execErrs es.errs) es.world) ∧
      (es.errs = [] → crit = false) := by
    intro out crit es h
    have h' := h
    rw [← eA] at h'
    refine ⟨Answers.of (resolve_eval F0 schema env (fun _ => schema.rootQueryValue) w reqA dA { o with sels := a } out crit es hsA.parsed
      hsA.wf hsA.regular hsA.len hsA.chosen h') (by simp), ?_⟩
    obtain ⟨new, k1, k2, -⟩ := evalOperation_run (reqOf schema env req d o) F0 _ w ⟨[], w, false⟩ _ es rfl h
    rw [List.nil_append] at k1
    intro he
    exact (k2 (by rw [← k1]; exact he)).1
  have runB : ∀ w1 out crit es, evalOperation (reqOf schema env req d o) F0 { o with sels := b } ⟨[], w1, false⟩ = some ((out, crit), es) →
      Answers schema env w1 reqB (.ok (envelope reqB.noMeta (print out) (execErrs es.errs), execErrs es.errs) es.world) := by
    intro w1 out crit es h
    rw [← eB] at h
    exact Answers.of (resolve_eval F0 schema env (fun _ => schema.rootQueryValue) w1 reqB dB { o with sels := b } out crit es hsB.parsed
      hsB.wf hsB.regular hsB.len hsB.chosen h) (by simp)
  have hreq : Answers schema env w req (.ok (envelope req.noMeta (print out) (execErrs es.errs), execErrs es.errs) es.world) := Answers.of hr (by simp)
  -- an operation that fails before its selections
  have early : ∀ msg, Fault.OperationFault (showCtx schema env req d o) { o with sels := a } (msg, []) → (∀ s : List Sel, evalOperation (reqOf schema env req d o) F0 { o with sels := s } = (do
      report [] msg
      return (.obj [], true))) → 
      ∃ ma ea w1, AnswersWith schema env w reqA ma ea w1 ∧
      ((∃ before e, ea = before ++ [e] ∧ Fault.OperationFault (showCtx schema env req d o) { o with sels := a } e ∧ AnswersWith schema env w req ma ea w1) ∨
        ∃ mb eb w2, AnswersWith schema env w1 reqB mb eb w2 ∧ AnswersWith schema env w req (ma ++ mb) (ea ++ eb) w2) := by
    intro msg hfault he
    have e1 := he o.sels
    have hA := (runA (.obj []) true ⟨[(msg, [])], w, false⟩ (by rw [he a]; rfl)).1
    have e2 : evalOperation (reqOf schema env req d o) F0 o ⟨[], w, false⟩ = some ((.obj [], true), ⟨[(msg, [])], w, false⟩) := by
      rw [show o = { o with sels := o.sels } from rfl, e1]; rfl
    rw [e2] at h1
    injection h1 with h1
    injection h1 with h1 h2
    injection h1 with h1 h3
    subst h2
    subst h1
    exact ⟨[], [(msg, [])], w, hA, Or.inl ⟨[], _, rfl, hfault, hreq⟩⟩
  -- an operation that runs its selections on a root object
  have main : ∀ (t : RType F V) (v : V), (∀ e, Fault.AtFault (showCtx schema env req d o) t a e → Fault.OperationFault (showCtx schema env req d o) { o with sels := a } e) → (∀ s : List Sel, evalOperation (reqOf schema env req d o) F0 { o with sels := s } = (do
      let (ms, crit) ← evalSels (reqOf schema env req d o) F0 t v 0 [] 255 s
      return (.obj ms, crit))) → 
      ∃ ma ea w1, AnswersWith schema env w reqA ma ea w1 ∧
      ((∃ before e, ea = before ++ [e] ∧ Fault.OperationFault (showCtx schema env req d o) { o with sels := a } e ∧ AnswersWith schema env w req ma ea w1) ∨
        ∃ mb eb w2, AnswersWith schema env w1 reqB mb eb w2 ∧ AnswersWith schema env w req (ma ++ mb) (ea ++ eb) w2) := by
    intro t v hfault he
    have e1 := he o.sels
    rw [show { o with sels := o.sels } = o from rfl] at e1
    rw [e1] at h1
    obtain ⟨⟨ms, c⟩, s, h2, h3⟩ := E_bind.1 h1
    have e := E_pure.1 h3
    injection e with e2 e3
    injection e2 with e4 e5
    subst e3
    subst e4
    subst e5
    rw [ho] at h2
    obtain ⟨ma, ca, s1, k1, k2⟩ := evalSels_append _ t v 0 [] 255 a b F0 _ _ _ h2
    obtain ⟨hA, hcrit⟩ := runA (.obj ma) ca s1 (by rw [he a]; exact E_bind.2 ⟨_, _, k1, rfl⟩)
    refine ⟨ma, s1.errs, s1.world, hA, ?_⟩
    rcases k2 with ⟨rfl, k3, rfl⟩ | ⟨rfl, fuel', mb, cb, k3, k4, k5⟩
    · injection k3 with k5 k6
      subst k5
      obtain ⟨new, l1, l2⟩ := evalSels_halts (reqOf schema env req d o) F0 t v a _ _ _ k1
      obtain ⟨before, e, l3, l4⟩ := l2 rfl
      rw [List.nil_append] at l1
      exact Or.inl ⟨before, e, l1.trans l3, hfault e l4, hreq⟩
    · injection k5 with k6 k7
      subst k6
      have hfw := (fwdAt (pass := fun _ _ => False) (stop := fun _ _ => False) (afterErrs_frame req.vars s1.errs) (reqOf schema env req d o) env.call env.errOf (fragmentsOf d)
        (alike_after (reqOf schema env req d o) s1.errs) rfl ⟨fun _ h => h.elim, fun _ h => h.elim⟩ fuel' F0 k3).sels
        (Rewrites.refl _ b) t v 0 [] 255
      obtain ⟨s2, l1, l2⟩ := hfw s1 ⟨[], s1.world, false⟩ ⟨by rw [List.append_nil], rfl, Or.inr hv⟩ _ _ k4
      refine Or.inr ⟨mb, s2.errs, s2.world, runB s1.world (.obj mb) cb s2 (by rw [he b]; exact E_bind.2 ⟨_, _, l1, rfl⟩), ?_⟩
      unfold AnswersWith
      rw [l2.2.1, ← l2.1]
      exact hreq
  have kinds : o.kind = .subscription ∨ o.kind = .query ∨ o.kind = .mutation := by cases o.kind <;> simp
  rcases kinds with hk | hk | hk
  · exact early b%"subscriptions are not supported" (.subscription hk) (fun s => by unfold evalOperation; dsimp only; rw [hk])
  · by_cases hd : o.dirs = []
    · exact main schema.rootQuery schema.rootQueryValue (fun e h => .query hk h) (fun s => by unfold evalOperation; dsimp only; rw [hk]; dsimp only; rw [if_neg (by simpa using hd)]; rfl)
    · exact early b%"operation directives unsupported" (.directives hd) (fun s => by unfold evalOperation; dsimp only; rw [hk]; dsimp only; rw [if_pos hd])
  · by_cases hd : o.dirs = []
    · exact main schema.rootMethod schema.rootMethodValue (fun e h => .mutation hk h) (fun s => by unfold evalOperation; dsimp only; rw [hk]; dsimp only; rw [if_neg (by simpa using hd)]; rfl)
    · exact early b%"operation directives unsupported" (.directives hd) (fun s => by unfold evalOperation; dsimp only; rw [hk]; dsimp only; rw [if_pos hd])

/-- **C88, for requests without faults.** If no selection of `a` is a fault of the request, `b` is executed whatever the functions of `a`
return: errors returned by functions, and a context that is done, end nothing but the field they occur in. -/
theorem C88_function_errors_stop_nothing_partial (schema : RSchema F V) (env : Env F V W) (T : Obj F → V → Prop) (w : W) (req reqA reqB : Request)
    (d dA dB : List Def) (o : Operation) (a b : List Sel) (ho : o.sels = a ++ b)
    (hs : Serves req d o) (hsA : Serves reqA dA { o with sels := a }) (hsB : Serves reqB dB { o with sels := b })
    (hfA : fragmentsOf dA = fragmentsOf d) (hfB : fragmentsOf dB = fragmentsOf d)
    (hvA : reqA.vars = req.vars) (hvB : reqB.vars = req.vars) (hv : VarsOK req.vars)
    (ht : WellTyped schema env T) (hf : Fits schema (fragmentsOf d) o)
    (hgood : ∀ e, ¬ Fault.OperationFault (showCtx schema env req d o) { o with sels := a } e) :
    ∃ ma ea w1, AnswersWith schema env w reqA ma ea w1 ∧
      ∃ mb eb w2, AnswersWith schema env w1 reqB mb eb w2 ∧ AnswersWith schema env w req (ma ++ mb) (ea ++ eb) w2 := by
  obtain ⟨ma, ea, w1, h1, h2⟩ := C88_only_faults_stop_partial schema env T w req reqA reqB d dA dB o a b ho hs hsA hsB hfA hfB hvA hvB hv ht hf
  rcases h2 with ⟨before, e, -, h, -⟩ | h2
  · exact absurd h (hgood e)
  · exact ⟨ma, ea, w1, h1, h2⟩

/-- **C88, the other way round.** A selection that the schema refuses whatever the data are (`Fault.Ends`: a field, fragment or directive that
does not exist, arguments for a field that takes none, a selection that is missing or not allowed, nesting that is too deep, or a selection set
around one of these) ends the operation: what is written behind it has no effect at all, the response is that without it. -/
theorem C88_faults_stop_partial (schema : RSchema F V) (env : Env F V W) (T : Obj F → V → Prop) (w : W) (req reqA : Request)
    (d dA : List Def) (o : Operation) (a b : List Sel) (sel : Sel) (ho : o.sels = a ++ sel :: b)
    (hs : Serves req d o) (hsA : Serves reqA dA { o with sels := a ++ [sel] }) (hfA : fragmentsOf dA = fragmentsOf d)
    (hvA : reqA.vars = req.vars) (hmA : reqA.noMeta = req.noMeta) (ht : WellTyped schema env T) (hf : Fits schema (fragmentsOf d) o)
    (hq : o.kind = .query → Fault.Ends schema (fragmentsOf d) schema.rootQuery 0 sel)
    (hm : o.kind = .mutation → Fault.Ends schema (fragmentsOf d) schema.rootMethod 0 sel) (r : R W (Bytes × List ReqErr)) :
    Answers schema env w req r ↔ Answers schema env w reqA r := by
  obtain ⟨F0, h0⟩ := evalOperation_total (r := reqOf schema env req d o) ht o hf
  obtain ⟨⟨out, crit⟩, es, h1, -⟩ := h0 F0 (Nat.le_refl _) ⟨[], w, false⟩
  have hr := resolve_eval F0 schema env (fun _ => schema.rootQueryValue) w req d o out crit es hs.parsed hs.wf hs.regular hs.len hs.chosen h1
  have eA : reqOf schema env reqA dA { o with sels := a ++ [sel] } = reqOf schema env req d o := by unfold reqOf; rw [hvA, hfA]
  have e : evalOperation (reqOf schema env req d o) F0 o = evalOperation (reqOf schema env req d o) F0 { o with sels := a ++ [sel] } := by
    have kinds : o.kind = .subscription ∨ o.kind = .query ∨ o.kind = .mutation := by cases o.kind <;> simp
    unfold evalOperation
    dsimp only
    rcases kinds with hk | hk | hk
    · rw [hk]
    · rw [hk, ho]
      dsimp only
      have := Fault.evalSels_cut (reqOf schema env req d o) (Fault.ends_stops (reqOf schema env req d o) (hq hk)) schema.rootQueryValue [] 255 b [] a F0
      change _ = evalSels (reqOf schema env req d o) F0 _ _ _ _ _ (a ++ [sel]) at this
      rw [show evalSels (reqOf schema env req d o) F0 (reqOf schema env req d o).schema.rootQuery (reqOf schema env req d o).schema.rootQueryValue
        0 [] 255 (a ++ sel :: b) = _ from this]
      rfl
    · rw [hk, ho]
      dsimp only
      have := Fault.evalSels_cut (reqOf schema env req d o) (Fault.ends_stops (reqOf schema env req d o) (hm hk)) schema.rootMethodValue [] 255 b [] a F0
      change _ = evalSels (reqOf schema env req d o) F0 _ _ _ _ _ (a ++ [sel]) at this
      rw [show evalSels (reqOf schema env req d o) F0 (reqOf schema env req d o).schema.rootMethod (reqOf schema env req d o).schema.rootMethodValue
        0 [] 255 (a ++ sel :: b) = _ from this]
      rfl
  have hrA := resolve_eval F0 schema env (fun _ => schema.rootQueryValue) w reqA dA { o with sels := a ++ [sel] } out crit es hsA.parsed hsA.wf
    hsA.regular hsA.len hsA.chosen (by rw [eA, ← e]; exact h1)
  rw [hmA] at hrA
  have x := Answers.of hr (by simp)
  have y := Answers.of hrA (by simp)
  constructor
  · intro h; rw [C41_deterministic h x]; exact y
  · intro h; rw [C41_deterministic h y]; exact x

end

/-! ## Examples -/

namespace Demo

def opBothAdd : Operation := ⟨.query, [], none, [], [f b%"both", addOf b%"2"]⟩
def reqBothAdd : Request := request b%"{both add(x:2)}"
def reqBoth1 : Request := request b%"{both}"
def reqAdd1 : Request := request b%"{add(x:2)}"
theorem servesBothAdd : Serves reqBothAdd [.op opBothAdd] opBothAdd := Check.serves (by decide +kernel) rfl
theorem servesBoth1 : Serves reqBoth1 [.op { opBothAdd with sels := [f b%"both"] }] { opBothAdd with sels := [f b%"both"] } := Check.serves (by decide +kernel) rfl
theorem servesAdd1 : Serves reqAdd1 [.op { opBothAdd with sels := [addOf b%"2"] }] { opBothAdd with sels := [addOf b%"2"] } := Check.serves (by decide +kernel) rfl

/-- the field `both`, whose function returns an error, is not a fault of the request, -/
theorem both_no_fault (e : Bytes × List Seg) :
    ¬ Fault.OperationFault (showCtx schema env reqBothAdd [.op opBothAdd] opBothAdd) { opBothAdd with sels := [f b%"both"] } e := by
  have names : ∀ g, Fault.Names schema.rootQuery b%"both" g → g.obj = .method bothMethod (.data false .string) := by
    intro g h
    have e : schema.rootQuery.fields.find? (fun f => decide (f.key = fnv1 b%"both")) = some g := h
    have e2 : (schema.rootQuery.fields.find? (fun f => decide (f.key = fnv1 b%"both"))).map (·.obj) = some (.method bothMethod (.data false .string)) := by
      rfl
    rw [e] at e2
    injection e2
  have noType : ∀ {g : RField Unit D} {k}, g.obj = .method bothMethod (.data false .string) →
      ¬ (Fault.Reaches g.obj (.objRef k) ∨ Fault.Reaches g.obj (.interfaceRef k)) := by
    intro g k hg h
    rw [hg] at h
    rcases h with h | h <;> (cases h with | method h => cases h)
  have noOpen : ∀ {g : RField Unit D} {t n}, g.obj = .method bothMethod (.data false .string) →
      ¬ Fault.Opens (showCtx schema env reqBothAdd [.op opBothAdd] opBothAdd) g.obj t n := by
    intro g t n hg h
    cases h with
    | object h _ => exact noType hg (Or.inl h)
    | interface h _ _ _ => exact noType hg (Or.inr h)
  intro h
  cases h with
  | subscription h => cases h
  | directives h => exact h rfl
  | mutation h _ => cases h
  | query _ h =>
    obtain ⟨t', l', sel, h1, h2⟩ := h
    generalize e.2 = p at h1
    generalize e.1 = msg at h2
    cases h1 with
    | field hm =>
      have hm := List.mem_singleton.1 hm
      injection hm with e1 e2 e3 e4 e5
      subst e1 e2 e3 e4 e5
      cases h2 with
      | unknownField h _ => exact absurd h (by decide +kernel)
      | noSelection h h' =>
        obtain ⟨k, h'⟩ := h'
        exact noType (names _ h) h'
      | selection _ _ h => simp at h
      | typename h _ => revert h; decide
      | depth h h' _ => exact noOpen (names _ h) h'
      | fieldDirective h => cases h with
        | unknown h _ => cases h
        | arguments h _ _ _ => cases h
    | spread hm => have hm := List.mem_singleton.1 hm; cases hm
    | inline hm => have hm := List.mem_singleton.1 hm; cases hm
    | underField hm h1 h2 _ =>
      have hm := List.mem_singleton.1 hm
      injection hm with e1 e2 e3 e4 e5
      subst e1 e2 e3 e4 e5
      exact noOpen (names _ h1) h2
    | underSpread hm => have hm := List.mem_singleton.1 hm; cases hm
    | underInline hm => have hm := List.mem_singleton.1 hm; cases hm

/-- so C88 says that `add` runs all the same. -/
example (w : World) : ∃ ma ea w1, AnswersWith schema env w reqBoth1 ma ea w1 ∧
      ∃ mb eb w2, AnswersWith schema env w1 reqAdd1 mb eb w2 ∧ AnswersWith schema env w reqBothAdd (ma ++ mb) (ea ++ eb) w2 :=
  C88_function_errors_stop_nothing_partial schema env HasType w reqBothAdd reqBoth1 reqAdd1 _ _ _ opBothAdd [f b%"both"] [addOf b%"2"]
    rfl servesBothAdd servesBoth1 servesAdd1 rfl rfl rfl rfl trivial wellTyped (fits (by decide +kernel)) both_no_fault

/-- It does: `both` is called and returns an error, `add` is called after it and its value is in the response. -/
example : (ask 300 reqBothAdd).map (·.2) = some (1, 2) := by decide +kernel

/-- A fault below a field ends the selections around it as well, at any depth; -/
example : askErrs 300 (request b%"{x:friend{y:zz}both}") = some [(b%"zz does not exists on User", some b%"\"x\",\"y\"")] := by decide +kernel

/-- In `{name nope both add(x:2)}` the field `nope` does not exist: the functions `both` and `add` are not called. -/
def opNope : Operation := query [f b%"name", f b%"nope", f b%"both", addOf b%"2"]

theorem servesNope : Serves (request b%"{name nope both add(x:2)}") [.op opNope] opNope := Check.serves (by decide +kernel) rfl
theorem servesNope1 : Serves (request b%"{name nope}") [.op { opNope with sels := [f b%"name"] ++ [f b%"nope"] }]
    { opNope with sels := [f b%"name"] ++ [f b%"nope"] } := Check.serves (by decide +kernel) rfl

example (w : World) (r : R World (Bytes × List ReqErr)) :
    Answers schema env w (request b%"{name nope both add(x:2)}") r ↔ Answers schema env w (request b%"{name nope}") r :=
  C88_faults_stop_partial schema env HasType w _ _ _ _ opNope [f b%"name"] [f b%"both", addOf b%"2"] (f b%"nope") rfl servesNope servesNope1
    rfl rfl rfl wellTyped (fits (by decide +kernel)) (fun _ => .unknownField (by decide +kernel) (by decide)) (fun h => by cases h) r

/-- one error, and no call is logged -/
example : (ask 300 (request b%"{name nope both add(x:2)}")).map (·.2) = some (1, 0) := by decide +kernel

end Demo
end Yarql
