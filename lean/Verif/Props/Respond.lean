import Verif.Props.Execute
import Verif.Props.Isolation
import Verif.Proofs.ShowsSound
import Verif.Proofs.Total
import Verif.Proofs.ShowsComplete
import Verif.Spec.Demo

/-!
# Responses: C16, C18, C19, C22, C28, C43, C44

For every request that is served (`Serves`) over well-typed data (`WellTyped`) and that fits on the value stack (`Fits`):
`Resolve` returns; without errors its data is what the specification `Shows` says; with errors, each error's path points
into the data.
-/

namespace Yarql
open Doc Resolver Eval Typed Yarql.Bind

section
variable {F V W : Type} [DecidableEq F]

/-- what the specification of responses is given for a request -/
def showCtx (schema : RSchema F V) (env : Env F V W) (req : Request) (d : List Def) (o : Operation) : Shows.Ctx F V W :=
  ⟨schema, env, req.vars, fragmentsOf d, o.vars.getD []⟩

/-- Everything at once: the outcome of a served request. -/
theorem respond (schema : RSchema F V) (env : Env F V W) (T : Obj F → V → Prop) (w : W) (req : Request) (d : List Def) (o : Operation)
    (hs : Serves req d o) (ht : WellTyped schema env T) (hf : Fits schema (fragmentsOf d) o) :
    ∃ out errs w', Answers schema env w req (.ok (envelope req.noMeta (print out) (execErrs errs), execErrs errs) w') ∧
      (errs = [] → Shows.Operation (showCtx schema env req d o) w o out w') ∧ ∀ e ∈ errs, Located out e.2 := by
  obtain ⟨F0, h0⟩ := evalOperation_total (r := reqOf schema env req d o) ht o hf
  obtain ⟨⟨out, crit⟩, es', h1, -⟩ := h0 F0 (Nat.le_refl _) ⟨[], w, false⟩
  have hr := resolve_eval F0 schema env (fun _ => schema.rootQueryValue) w req d o out crit es' hs.parsed hs.wf hs.regular hs.len hs.chosen h1
  obtain ⟨new, k1, k2, k3⟩ := evalOperation_run (reqOf schema env req d o) F0 o w ⟨[], w, false⟩ _ es' rfl h1
  rw [List.nil_append] at k1
  refine ⟨out, es'.errs, es'.world, Answers.of hr (by simp), ?_, ?_⟩
  · intro he
    rw [k1] at he
    exact (k2 he).2
  · intro e he
    rw [k1] at he
    obtain ⟨q, e1, e2⟩ := k3 e he
    rw [List.nil_append] at e1
    rw [e1]
    exact e2

theorem execErrs_nil {errs : List (Bytes × List Seg)} : execErrs errs = [] ↔ errs = [] := by
  unfold execErrs
  exact List.map_eq_nil_iff

/-- The outcome of a served request is never anything else than a response. -/
theorem respond_ok (schema : RSchema F V) (env : Env F V W) (T : Obj F → V → Prop) (w w' : W) (req : Request) (d : List Def) (o : Operation)
    (fuel : Nat) (vals : UInt8 → V) (body : Bytes) (es : List ReqErr)
    (hs : Serves req d o) (ht : WellTyped schema env T) (hf : Fits schema (fragmentsOf d) o)
    (h : resolve fuel schema env vals w req = .ok (body, es) w') :
    ∃ out errs, body = envelope req.noMeta (print out) (execErrs errs) ∧ es = execErrs errs ∧
      (errs = [] → Shows.Operation (showCtx schema env req d o) w o out w') ∧ ∀ e ∈ errs, Located out e.2 := by
  obtain ⟨out, errs, w1, h1, h2, h3⟩ := respond schema env T w req d o hs ht hf
  have e := C41_deterministic h1 (Answers.of h (by simp))
  injection e with e1 e2
  injection e1 with e3 e4
  subst e2
  exact ⟨out, errs, e3.symm, e4.symm, h2, h3⟩

/-- **C16.** If `Resolve` returns no error, the data is what `Shows.Operation` says: exactly the selected, not skipped keys, in
query order with fragments expanded in place, each with the value of its field; and the world is changed by exactly the
function calls this involves. -/
theorem C16_response_mirrors_selection_partial (schema : RSchema F V) (env : Env F V W) (T : Obj F → V → Prop) (w w' : W) (req : Request)
    (d : List Def) (o : Operation) (fuel : Nat) (vals : UInt8 → V) (body : Bytes)
    (hs : Serves req d o) (ht : WellTyped schema env T) (hf : Fits schema (fragmentsOf d) o)
    (h : resolve fuel schema env vals w req = .ok (body, []) w') :
    ∃ out, Shows.Operation (showCtx schema env req d o) w o out w' ∧ body = envelope req.noMeta (print out) [] := by
  obtain ⟨out, errs, e1, e2, h2, -⟩ := respond_ok schema env T w w' req d o fuel vals body [] hs ht hf h
  have e := execErrs_nil.1 e2.symm
  subst e
  exact ⟨out, h2 rfl, e1⟩

/-- **C16, converse.** Whatever `Shows.Operation` says is what is answered, without errors: the data is the same up to the
spelling of JSON strings, and the world the same. So for requests within the depth limit, `Shows.Operation` holds of
some response exactly if no error is reported. -/
theorem C16_shown_is_answered_partial (schema : RSchema F V) (env : Env F V W) (T : Obj F → V → Prop) (w w' : W) (req : Request)
    (d : List Def) (o : Operation) (out : Out)
    (hs : Serves req d o) (ht : WellTyped schema env T) (hf : Fits schema (fragmentsOf d) o)
    (hsh : Shallow schema (fragmentsOf d) o) (hv : VarsOK req.vars)
    (h : Shows.Operation (showCtx schema env req d o) w o out w') :
    ∃ out', Shows.Same out out' ∧ Answers schema env w req (.ok (envelope req.noMeta (print out') [], []) w') := by
  obtain ⟨F0, h0⟩ := evalOperation_total (r := reqOf schema env req d o) ht o hf
  obtain ⟨⟨out', crit⟩, es', h1, -⟩ := h0 F0 (Nat.le_refl _) ⟨[], w, false⟩
  have hr := resolve_eval F0 schema env (fun _ => schema.rootQueryValue) w req d o out' crit es' hs.parsed hs.wf hs.regular hs.len hs.chosen h1
  have hu : Binding.Usable (reqOf schema env req d o).vars := by
    show Binding.Usable req.vars
    unfold VarsOK at hv
    unfold Binding.Usable
    exact hv
  obtain ⟨m, hm, hdepth⟩ := hsh
  have hrun : Run w (evalOperation (reqOf schema env req d o) F0 o) (Shown out w') := by
    rcases hdepth with hd | ⟨hi, hd⟩
    · refine operation_complete (reqOf schema env req d o) hu (c := 2) ⟨by omega, fun f _ => ?_⟩ F0 h hm hd
      unfold levels; split <;> omega
    · refine operation_complete (reqOf schema env req d o) hu (c := 1) ⟨by omega, fun f hf => ?_⟩ F0 h hm (by rw [Nat.one_mul]; exact hd)
      unfold levels; rw [if_pos (hi f hf)]; exact Nat.le_refl _
  obtain ⟨new, e1, rfl, e2, e3, e4⟩ := hrun ⟨[], w, false⟩ _ es' rfl h1
  have e1 : es'.errs = [] := e1
  rw [e1, e2] at hr
  exact ⟨out', e4, Answers.of hr (by simp)⟩

/-! ## Requests with the same meaning -/

/-- Two requests whose operations evaluate alike are answered alike. -/
theorem same_answer (schema : RSchema F V) (env : Env F V W) (T : Obj F → V → Prop) (w : W) (req req' : Request) (d d' : List Def)
    (o o' : Operation) (hs : Serves req d o) (hs' : Serves req' d' o') (ht : WellTyped schema env T) (hf : Fits schema (fragmentsOf d) o)
    (hm : req.noMeta = req'.noMeta)
    (h : ∀ fuel out crit es, evalOperation (reqOf schema env req d o) fuel o ⟨[], w, false⟩ = some ((out, crit), es) →
      ∃ fuel' crit' es', evalOperation (reqOf schema env req' d' o') fuel' o' ⟨[], w, false⟩ = some ((out, crit'), es') ∧
        es'.errs = es.errs ∧ es'.world = es.world)
    (r : R W (Bytes × List ReqErr)) : Answers schema env w req r ↔ Answers schema env w req' r := by
  obtain ⟨F0, h0⟩ := evalOperation_total (r := reqOf schema env req d o) ht o hf
  obtain ⟨⟨out, crit⟩, es, h1, -⟩ := h0 F0 (Nat.le_refl _) ⟨[], w, false⟩
  obtain ⟨fuel', crit', es', h2, e1, e2⟩ := h F0 out crit es h1
  have hr := resolve_eval F0 schema env (fun _ => schema.rootQueryValue) w req d o out crit es hs.parsed hs.wf hs.regular hs.len hs.chosen h1
  have hr' := resolve_eval fuel' schema env (fun _ => schema.rootQueryValue) w req' d' o' out crit' es' hs'.parsed hs'.wf hs'.regular hs'.len
    hs'.chosen h2
  rw [e1, e2, ← hm, ← hr] at hr'
  have a := Answers.of hr (by simp)
  have a' := Answers.of (hr'.trans hr) (by simp)
  constructor
  · intro h; rw [C41_deterministic h a]; exact a'
  · intro h; rw [C41_deterministic h a']; exact a

/-- **C04** (execution). Only the chosen operation and the fragments matter: any two requests (whatever other operations their
documents contain, before or after, whatever the target name) that choose the same operation, with the same fragments and
variables, get the same answer. -/
theorem C04_only_chosen_operation_partial (schema : RSchema F V) (env : Env F V W) (T : Obj F → V → Prop) (w : W) (req req' : Request)
    (d d' : List Def) (o : Operation) (hs : Serves req d o) (hs' : Serves req' d' o) (ht : WellTyped schema env T)
    (hf : Fits schema (fragmentsOf d) o) (hm : req.noMeta = req'.noMeta) (hv : req.vars = req'.vars)
    (hfr : fragmentsOf d = fragmentsOf d') (r : R W (Bytes × List ReqErr)) :
    Answers schema env w req r ↔ Answers schema env w req' r := by
  refine same_answer schema env T w req req' d d' o o hs hs' ht hf hm ?_ r
  intro fuel out crit es h
  refine ⟨fuel, crit, es, ?_, rfl, rfl⟩
  unfold reqOf at h ⊢
  rw [← hv, ← hfr]
  exact h

end
end Yarql
