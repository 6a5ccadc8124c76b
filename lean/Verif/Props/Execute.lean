import Verif.Proofs.Execute
import Verif.Spec.Serving

/-!
# Execution of a request

`Resolve` on a query that parses to a document `d` answers exactly what the evaluator of `Spec/Eval.lean` — a
recursive function on the syntax tree — says: same data, same errors with their paths, same effects on the world.
-/

namespace Yarql
open Doc Resolver Eval Yarql.Bind

section
variable {F V W : Type} [DecidableEq F]

/-- What the evaluator works on for a request with document `d` whose chosen operation is `o`. -/
def reqOf (schema : RSchema F V) (env : Env F V W) (req : Request) (d : List Def) (o : Operation) : Req F V W :=
  ⟨schema, env, req.vars, fragmentsOf d, o.vars.getD []⟩

/-- errors of the evaluator as errors of the request -/
def execErrs (errs : List (Bytes × List Seg)) : List ReqErr := errs.map (fun e => ReqErr.exec ⟨e.1, pathJSON e.2⟩)

theorem fragsAt_doc (d : List Def) (pre : Bytes) : FragsAt (pre ++ encDoc d) (fragPositions pre.length d) (fragmentsOf d) := by
  induction d generalizing pre with
  | nil => exact .nil
  | cons x ds ih =>
    cases x with
    | op o =>
      have := ih (pre ++ encOperation o)
      simpa [fragPositions, fragmentsOf, encDoc, encDef] using this
    | frag f =>
      have := ih (pre ++ encFragment f)
      simp only [fragPositions, fragmentsOf, encDoc, encDef, List.filterMap_cons]
      refine .cons (post := encDoc ds) ?_ ?_
      · rw [List.drop_append, List.drop_eq_nil_of_le (by omega)]
        simp [encFragment]
      · simpa [fragmentsOf] using this

theorem fragNames_eq (d : List Def) : (fragmentsOf d).map (·.name) = fragNames d := by
  unfold fragmentsOf fragNames
  induction d with
  | nil => rfl
  | cons x ds ih => cases x <;> simpa using ih

theorem mem_fragmentsOf {d : List Def} {f : Fragment} : f ∈ fragmentsOf d ↔ Def.frag f ∈ d := by
  unfold fragmentsOf
  rw [List.mem_filterMap]
  constructor
  · rintro ⟨x, hx, h⟩
    cases x with
    | op o => simp at h
    | frag g => simp at h; subst h; exact hx
  · exact fun h => ⟨_, h, rfl⟩

theorem operationsOf_eq (d : List Def) (n : Nat) : operationsOf d = (opsAt n d).map (·.2) := by
  rw [opsAt_ops]
  rfl

/-- position of the chosen operation -/
theorem chosen_at (d : List Def) (target : Bytes) :
    match chosenOperation target d with
    | none => selectedOp (if target = [] then none else some target) (opPositions 0 d) = none
    | some o => ∃ p post, selectedOp (if target = [] then none else some target) (opPositions 0 d) = some p ∧
        (encDoc d).drop p = encOperation o ++ post ∧ Def.op o ∈ d := by
  have key : ∀ l : List (Nat × Operation), (∀ x ∈ l, x ∈ opsAt 0 d) →
      match (l.map (·.2)).getLast? with
      | none => (l.getLast?).map (·.1) = none
      | some o => ∃ p post, (l.getLast?).map (·.1) = some p ∧ (encDoc d).drop p = encOperation o ++ post ∧ Def.op o ∈ d := by
    intro l hl
    rw [List.getLast?_map]
    cases hx : l.getLast? with
    | none => rfl
    | some x =>
      obtain ⟨h1, post, h2⟩ := opsAt_spec d [] x.1 x.2 (hl _ (List.mem_of_getLast? hx))
      exact ⟨x.1, post, rfl, by simpa using h2, h1⟩
  have e : ∀ t : Bytes, (opPositions 0 d).filter (fun o => o.2 == t) =
      ((opsAt 0 d).filter (fun p => p.2.name == t)).map (fun p => (p.1, p.2.name)) := by
    intro t
    rw [opPositions_eq, List.filter_map]
    rfl
  have e2 : ∀ t : Bytes, (operationsOf d).filter (fun o => o.name == t) = ((opsAt 0 d).filter (fun p => p.2.name == t)).map (·.2) := by
    intro t
    rw [operationsOf_eq d 0, List.filter_map]
    rfl
  have k1 := key (opsAt 0 d) (fun _ h => h)
  have k2 := key ((opsAt 0 d).filter (fun p => p.2.name == target)) (fun x hx => (List.mem_filter.mp hx).1)
  unfold chosenOperation
  by_cases ht : target = []
  · subst ht
    rw [if_pos rfl, if_pos rfl, operationsOf_eq d 0]
    simp only [selectedOp, opPositions_eq, List.getLast?_map, Option.map_map] at k1 ⊢
    exact k1
  · rw [if_neg ht, if_neg ht, e2]
    obtain ⟨a, t, rfl⟩ := List.exists_cons_of_ne_nil ht
    simp only [selectedOp, e, List.getLast?_map, Option.map_map] at k2 ⊢
    exact k2

theorem mem_operation_wf {d : List Def} {o : Operation} (hwf : docWF d) (h : Def.op o ∈ d) : o.WF := hwf _ h

/-- **C04** (execution, no operation): if the document has no operation of the requested name (none at all without a
name) nothing is executed: the data is empty and the only error says so. -/
theorem C04_no_operation (fuel : Nat) (schema : RSchema F V) (env : Env F V W) (vals : UInt8 → V) (w : W) (req : Request)
    (d : List Def) (hp : Parsed req.query (reqTarget req) d) (hc : chosenOperation req.target d = none) :
    ∃ msg, (msg = b%"no operator found" ∨ msg = b%"no operator with name " ++ req.target ++ b%" found") ∧
      resolve fuel schema env vals w req = .ok (envelope req.noMeta b%"{}" [.exec ⟨msg, none⟩], [.exec ⟨msg, none⟩]) w := by
  obtain ⟨s, h1, h2, h3, h4, h5⟩ := hp
  have hk := chosen_at d req.target
  rw [hc] at hk
  unfold reqTarget at h1 h5
  refine ⟨if req.target = [] then b%"no operator found" else b%"no operator with name " ++ req.target ++ b%" found", ?_, ?_⟩
  · by_cases h : req.target = []
    · exact Or.inl (if_pos h)
    · exact Or.inr (if_neg h)
  · unfold resolve
    rw [h1]
    dsimp only at hk ⊢
    rw [h2, if_pos (by rfl), h5, hk]

theorem fragmentsOf_cut (d : List Def) : fragmentsOf (docCut d) = (fragmentsOf d).map Fragment.cut := by
  unfold fragmentsOf docCut
  induction d with
  | nil => rfl
  | cons x ds ih => cases x <;> simpa [Def.cut] using ih

/-- **Execution.** On a query that parses to a document `d` that the interpreter can track (see `Spec/Cut.lean`) with a
chosen operation, `Resolve` answers what the evaluator says about `docCut d`, the document without the selection sets
behind arguments that end in a list. -/
theorem resolve_eval_cut (fuel : Nat) (schema : RSchema F V) (env : Env F V W) (vals : UInt8 → V) (w : W) (req : Request)
    (d : List Def) (o : Operation) (out : Out) (crit : Bool) (es' : ES W)
    (hp : Parsed req.query (reqTarget req) d) (hwf : docWF d) (hreg : docTracked d) (hlen : (encDoc d).length < 2 ^ 32)
    (hc : chosenOperation req.target d = some o)
    (he : evalOperation (reqOf schema env req (docCut d) o.cut) fuel o.cut ⟨[], w, false⟩ = some ((out, crit), es')) :
    resolve fuel schema env vals w req =
      .ok (envelope req.noMeta (print out) (execErrs es'.errs), execErrs es'.errs) es'.world := by
  obtain ⟨s, h1, h2, h3, h4, h5⟩ := hp
  have hk := chosen_at d req.target
  rw [hc] at hk
  obtain ⟨p, post, hk1, hk2, hk3⟩ := hk
  unfold reqTarget at h1 h5
  have howf : o.WF := hwf _ hk3
  have horeg := hreg _ hk3
  have hg : Good (reqOf schema env req (docCut d) o.cut) (fragmentsOf d) (encDoc d) (fragPositions 0 d) := by
    refine ⟨⟨hlen, ?_, ?_⟩, by simpa [reqOf] using fragsAt_doc d [], fragmentsOf_cut d, ?_, ?_⟩
    · intro v hv
      have hv : v ∈ o.vars.getD [] := hv
      cases ho : o.vars with
      | none => simp [ho] at hv
      | some vs => exact howf.2.1 vs ho v (by simpa [ho] using hv)
    · intro v hv x hx
      have hv : v ∈ o.vars.getD [] := hv
      cases ho : o.vars with
      | none => simp [ho] at hv
      | some vs => exact horeg.2 vs ho v (by simpa [ho] using hv) x hx
    · exact fun f hf => hwf _ (mem_fragmentsOf.1 hf)
    · intro f hf
      have := hreg _ (mem_fragmentsOf.1 hf)
      rw [show (reqOf schema env req (docCut d) o.cut).frags = fragmentsOf (docCut d) from rfl, fragNames_eq, fragNames_cut]
      exact this
  have hsim := operation_sim (s := (⟨p, [], [c%'{'], [], vals, 0, false, false, 0, w⟩ : RS V W)) hg fuel o howf rfl
    (by unfold names; rw [show (reqOf schema env req (docCut d) o.cut).frags = fragmentsOf (docCut d) from rfl, fragNames_eq, fragNames_cut]; exact horeg.1)
    out crit post hk2 rfl rfl rfl rfl rfl he
  unfold resolve
  rw [h1]
  dsimp only
  rw [h2, if_pos (by rfl), h5, hk1, h3, h4]
  dsimp only
  unfold wp at hsim
  cases hr : resolveOperation fuel (cfgOf (reqOf schema env req (docCut d) o.cut) (encDoc d) (fragPositions 0 d))
      (⟨p, [], [c%'{'], [], vals, 0, false, false, 0, w⟩ : RS V W) with
  | panic => rw [hr] at hsim; exact hsim.elim
  | oof => rw [hr] at hsim; exact hsim.elim
  | ok x s' =>
    rw [hr] at hsim
    obtain ⟨-, ⟨ms, rfl, m2⟩, m3, m4⟩ := hsim
    have hr' : resolveOperation fuel (⟨encDoc d, fragPositions 0 d, schema, env, req.vars⟩ : Cfg F V W)
      (⟨p, [], [c%'{'], [], vals, 0, false, false, 0, w⟩ : RS V W) = .ok x s' := hr
    rw [hr']
    dsimp only
    rw [m2, m3, m4]
    simp [execErrs, print, rerr, Function.comp_def]

/-- **Execution.** On a query that parses to a regular document (see `Spec/Regular.lean`) with a chosen operation on which the
evaluator is defined, `Resolve` answers the printed response tree of the evaluator, with its errors and effects —
whatever the value stack holds from earlier requests. -/
theorem resolve_eval (fuel : Nat) (schema : RSchema F V) (env : Env F V W) (vals : UInt8 → V) (w : W) (req : Request)
    (d : List Def) (o : Operation) (out : Out) (crit : Bool) (es' : ES W)
    (hp : Parsed req.query (reqTarget req) d) (hwf : docWF d) (hreg : docRegular d) (hlen : (encDoc d).length < 2 ^ 32)
    (hc : chosenOperation req.target d = some o)
    (he : evalOperation (reqOf schema env req d o) fuel o ⟨[], w, false⟩ = some ((out, crit), es')) :
    resolve fuel schema env vals w req =
      .ok (envelope req.noMeta (print out) (execErrs es'.errs), execErrs es'.errs) es'.world := by
  have hk := chosen_at d req.target
  rw [hc] at hk
  obtain ⟨_, _, _, _, hk3⟩ := hk
  have ho : o.cut = o := by
    have h : Def.op o ∈ docCut d := by rw [hreg.cut]; exact hk3
    show ({ o with sels := selsCut o.sels } : Operation) = o
    rw [(hreg _ hk3).1.cut]
  exact resolve_eval_cut fuel schema env vals w req d o out crit es' hp hwf hreg.tracked hlen hc
    (by rw [hreg.cut, ho]; exact he)

end
end Yarql
