import Verif.Props.Terminates
import Verif.Props.WellFormed
import Verif.Proofs.CutText
import Verif.Spec.ArgsDemo

/-!
# C74: selections behind list arguments are not seen

`docCut d` (`Spec/Cut.lean`) is the document `d` without the selection sets of the fields whose arguments end in a list
(the last argument is a list, or an object whose last value is one, and so on).  A request that carries `d` is answered
exactly as one that carries `docCut d`: the written selections of such fields have no effect at all.
-/

namespace Yarql
open Doc Resolver Eval Typed Yarql.Bind Grammar Json

section
variable {F V W : Type} [DecidableEq F]

/-- As `Serves`, with selections allowed behind arguments that end in a list. -/
structure Holds (req : Request) (d : List Def) (o : Operation) : Prop where
  parsed : Parsed req.query (reqTarget req) d
  wf : docWF d
  tracked : docTracked d
  len : (encDoc d).length < 2 ^ 32
  chosen : chosenOperation req.target d = some o

omit [DecidableEq F] in
theorem Serves.holds {req : Request} {d : List Def} {o : Operation} (h : Serves req d o) : Holds req d o :=
  ⟨h.parsed, h.wf, h.regular.tracked, h.len, h.chosen⟩

theorem operationsOf_cut (d : List Def) : operationsOf (docCut d) = (operationsOf d).map Operation.cut := by
  unfold operationsOf docCut
  induction d with
  | nil => rfl
  | cons x ds ih => cases x <;> simpa [Def.cut] using ih

theorem chosen_cut (target : Bytes) (d : List Def) : chosenOperation target (docCut d) = (chosenOperation target d).map Operation.cut := by
  unfold chosenOperation
  rw [operationsOf_cut]
  by_cases h : target = []
  · rw [if_pos h, if_pos h, List.getLast?_map]
  · rw [if_neg h, if_neg h, List.filter_map, List.getLast?_map]
    rfl

/-- a text of the cut document, in place of the query, is served -/
theorem Holds.serves {req : Request} {d : List Def} {o : Operation} (h : Holds req d o) {text : Bytes}
    (ht : Parsed text (reqTarget req) (docCut d)) : Serves { req with query := text } (docCut d) o.cut :=
  ⟨ht, h.wf.cut, h.tracked.cut, Nat.lt_of_le_of_lt (encDoc_cut_le d) h.len, by
    show chosenOperation req.target _ = _
    rw [chosen_cut, h.chosen]; rfl⟩

/-- the outcome of a request, from the evaluator's answer on the cut document -/
theorem Holds.respond (schema : RSchema F V) (env : Env F V W) (T : Obj F → V → Prop) (w : W) (req : Request)
    (d : List Def) (o : Operation) (hs : Holds req d o) (ht : WellTyped schema env T)
    (hf : Fits schema (fragmentsOf (docCut d)) o.cut) :
    ∃ r, Answers schema env w req r ∧ ∀ text, Parsed text (reqTarget req) (docCut d) →
      Answers schema env w { req with query := text } r := by
  obtain ⟨F0, h0⟩ := evalOperation_total (r := reqOf schema env req (docCut d) o.cut) ht o.cut hf
  obtain ⟨⟨out, crit⟩, es', h1, -⟩ := h0 F0 (Nat.le_refl _) ⟨[], w, false⟩
  have hr := resolve_eval_cut F0 schema env (fun _ => schema.rootQueryValue) w req d o out crit es' hs.parsed hs.wf hs.tracked hs.len
    hs.chosen h1
  refine ⟨_, Answers.of hr (by simp), fun text htext => ?_⟩
  have hs' := hs.serves htext
  exact Answers.of (resolve_eval F0 schema env (fun _ => schema.rootQueryValue) w { req with query := text } (docCut d) o.cut out crit es'
    hs'.parsed hs'.wf hs'.regular hs'.len hs'.chosen h1) (by simp)

/-- **C74.** A request is answered exactly as the request in which the selection sets behind arguments that end in a list
are not written: same response, errors and effects. -/
theorem C74_as_if_not_written_partial (schema : RSchema F V) (env : Env F V W) (T : Obj F → V → Prop) (w : W) (req : Request)
    (d : List Def) (o : Operation) (hs : Holds req d o) (ht : WellTyped schema env T)
    (hf : Fits schema (fragmentsOf (docCut d)) o.cut) (text : Bytes) (hp : Parsed text (reqTarget req) (docCut d))
    (r : R W (Bytes × List ReqErr)) :
    Answers schema env w req r ↔ Answers schema env w { req with query := text } r := by
  obtain ⟨r0, h1, h2⟩ := hs.respond schema env T w req d o ht hf
  constructor
  · intro h
    rw [C41_deterministic h h1]
    exact h2 text hp
  · intro h
    rw [C41_deterministic h (h2 text hp)]
    exact h1

/-- **C74** (two requests). Requests that differ only in such selections have the same answer. -/
theorem C74_same_answer_partial (schema : RSchema F V) (env : Env F V W) (T : Obj F → V → Prop) (w : W) (req : Request) (text : Bytes)
    (d d' : List Def) (o o' : Operation) (hs : Holds req d o) (hs' : Holds { req with query := text } d' o')
    (he : docCut d = docCut d') (hc : ∃ t, Parsed t (reqTarget req) (docCut d)) (ht : WellTyped schema env T)
    (hf : Fits schema (fragmentsOf (docCut d)) o.cut) (r : R W (Bytes × List ReqErr)) :
    Answers schema env w req r ↔ Answers schema env w { req with query := text } r := by
  obtain ⟨t, hp⟩ := hc
  have ho : o'.cut = o.cut := by
    have h1 : chosenOperation req.target (docCut d) = some o.cut := by rw [chosen_cut, hs.chosen]; rfl
    have h2 : chosenOperation req.target (docCut d') = some o'.cut := by
      rw [chosen_cut, show chosenOperation req.target d' = some o' from hs'.chosen]; rfl
    rw [he, h2] at h1
    injection h1
  rw [C74_as_if_not_written_partial schema env T w req d o hs ht hf t hp r,
    C74_as_if_not_written_partial schema env T w { req with query := text } d' o' hs' ht (by rw [← he, ho]; exact hf) t (by rw [← he]; exact hp) r]

/-- **C74** (texts). Every query text has a counterpart in which those selections are not written. -/
theorem C74_has_counterpart (d : List Def) (text : Bytes) (target : Option Bytes) (h : Text d text) :
    ∃ text', Text (docCut d) text' ∧ Parsed text' target (docCut d) := by
  obtain ⟨t, ht⟩ := text_cut h
  exact ⟨t, ht, C02_document_compiles _ t target ht⟩

/-- **C19** (wide): a request with selections behind list arguments is answered as well. -/
theorem C19_answered_wide_partial (schema : RSchema F V) (env : Env F V W) (T : Obj F → V → Prop) (w : W) (req : Request)
    (d : List Def) (o : Operation) (hs : Holds req d o) (ht : WellTyped schema env T)
    (hf : Fits schema (fragmentsOf (docCut d)) o.cut) (hc : ∃ t, Parsed t (reqTarget req) (docCut d)) :
    ∃ body es w', Answers schema env w req (.ok (body, es) w') := by
  obtain ⟨t, hp⟩ := hc
  obtain ⟨body, es, w', h⟩ := C19_answered_partial schema env T w _ _ _ (hs.serves hp) ht hf
  exact ⟨body, es, w', (C74_as_if_not_written_partial schema env T w req d o hs ht hf t hp _).2 h⟩

/-- **C14** (wide): ... and the response is JSON, unless an error belongs to a field that leaves a hole. -/
theorem C14_well_formed_wide_partial (schema : RSchema F V) (env : Env F V W) (T : Obj F → V → Prop) (w w' : W) (req : Request)
    (d : List Def) (o : Operation) (fuel : Nat) (vals : UInt8 → V) (body : Bytes) (es : List ReqErr)
    (hs : Holds req d o) (ht : WellTyped schema env T) (hf : Fits schema (fragmentsOf (docCut d)) o.cut)
    (hc : ∃ t, Parsed t (reqTarget req) (docCut d))
    (hfl : ∀ b f, JNumber (env.floatText b f)) (hp : Blame.PlainSchema schema)
    (h : resolve fuel schema env vals w req = .ok (body, es) w') :
    JText body ∨ ∃ (e : Bytes × List Seg) (sel : Sel), ReqErr.exec ⟨e.1, pathJSON e.2⟩ ∈ es ∧
      Blame.Leads (fragmentsOf (docCut d)) o.cut.sels e.2 sel ∧ Blame.Hole (showCtx schema env req (docCut d) o.cut) sel := by
  obtain ⟨t, htext⟩ := hc
  obtain ⟨-, fuel', h'⟩ := (C74_as_if_not_written_partial schema env T w req d o hs ht hf t htext _).1 (Answers.of h (by simp))
  exact C14_well_formed_partial schema env T w w' { req with query := t } (docCut d) o.cut fuel' vals body es (hs.serves htext) ht hf hfl hp
    (h' vals)

end

/-! ## An example -/

namespace CutDemo
open Demo ArgsDemo

/-- `{self(xs:[1]){color}}` -/
def written : Operation := opCall b%"self" [(b%"xs", .list [.int b%"1"])] [.field b%"color" none [] none []]
/-- `{self(xs:[1])}` -/
def seen : Operation := opCall b%"self" [(b%"xs", .list [.int b%"1"])]

theorem written_cut : written.cut = seen := by
  simp [written, seen, opCall, query, Operation.cut, selsCut, Sel.cut, endsInList, shiftMembers, shift]

theorem parsed_seen : Serves (request b%"{self(xs:[1])}") [.op seen] seen := Check.serves (by decide +kernel) rfl

theorem holds : Holds (request b%"{self(xs:[1]){color}}") [.op written] written := by
  refine ⟨?_, ?_, ?_, by decide +kernel, rfl⟩
  · have h : (match Parser.parseQuery b%"{self(xs:[1]){color}}" none with
      | .ok () s => s.errs.isEmpty && s.res == encDoc [.op written] && s.frags == fragPositions 0 [.op written] &&
          s.targetIdx == selectedOp none (opPositions 0 [.op written])
      | _ => false) = true := by decide +kernel
    cases hp : Parser.parseQuery b%"{self(xs:[1]){color}}" none with
    | ok u s =>
      cases u
      rw [hp] at h
      simp only [Bool.and_eq_true, List.isEmpty_iff, beq_iff_eq] at h
      exact ⟨s, hp, h.1.1.1, h.1.1.2, h.1.2, h.2⟩
    | panic => rw [hp] at h; cases h
    | oof => rw [hp] at h; cases h
  · intro x hx
    exact Check.defB_ok x (List.all_eq_true.1 (show [Def.op written].all Check.defB = true by decide +kernel) x hx)
  · intro x hx
    rw [List.mem_singleton] at hx
    subst hx
    refine ⟨⟨⟨by simp, ?_, ?_⟩, trivial⟩, by simp [written, opCall, query]⟩
    · exact (Check.defRegB_ok [] (.op seen) (by decide +kernel)).1.1.2.1.1
    · exact ⟨⟨by simp, trivial, trivial⟩, trivial⟩

/-- The function is called with `[1]`, the selection `color` is not seen: the field is `null` and an error says that a
selection is missing. -/
theorem C74_refuted : (ArgsDemo.ask (request b%"{self(xs:[1]){color}}")).map (fun x => (x.1, x.2.1)) =
    some (b%"{\"data\":{\"self\":null},\"errors\":[{\"message\":\"must have a selection\",\"path\":[\"self\"]}],\"extensions\":{}}", 1) := by
  decide +kernel

example (r : R World (Bytes × List ReqErr)) : Answers ArgsDemo.schema ArgsDemo.env [] (request b%"{self(xs:[1]){color}}") r ↔
    Answers ArgsDemo.schema ArgsDemo.env [] (request b%"{self(xs:[1])}") r :=
  C74_as_if_not_written_partial ArgsDemo.schema ArgsDemo.env ArgsDemo.HasType [] _ _ _ holds ArgsDemo.wellTyped
    (by rw [written_cut, show docCut [Def.op written] = [Def.op written.cut] from rfl, written_cut]; exact ArgsDemo.fits (by decide +kernel))
    b%"{self(xs:[1])}" (by rw [show docCut [Def.op written] = [Def.op written.cut] from rfl, written_cut]; exact parsed_seen.parsed) r

end CutDemo
end Yarql
