import Verif.Props.Respell
import Verif.Props.Order
import Verif.Proofs.Alias

/-!
# C84: aliases only rename keys, in the data and in the paths of errors
-/

namespace Yarql
open Doc Resolver Eval Typed Yarql.Bind

section
variable {F V W : Type} [DecidableEq F]

/-- an answer with the data `out` and the errors `errs` that leaves the world `w'` -/
def AnswersOut (schema : RSchema F V) (env : Env F V W) (w : W) (req : Request) (out : Out) (errs : List (Bytes × List Seg)) (w' : W) : Prop :=
  Answers schema env w req (.ok (envelope req.noMeta (print out) (execErrs errs), execErrs errs) w')

/-- **C84.** Aliases only rename keys. Take two requests that differ only in the aliases of their fields, and functions that do not ask for
the path they are called at. Both are answered, with the same effects; the data of the second is that of the first with each key replaced
by that of the field in the same place (`Alias.Relabelled`); and the same errors are reported, in the same order, with the same messages,
each at the path of the same place (`Alias.SameErrors`). -/
theorem C84_aliases_partial (schema : RSchema F V) (env : Env F V W) (T : Obj F → V → Prop) (w : W) (req req' : Request)
    (d d' : List Def) (o o' : Operation)
    (hs : Serves req d o) (hs' : Serves req' d' o') (ht : WellTyped schema env T) (hf : Fits schema (fragmentsOf d) o) (hv : req'.vars = req.vars)
    (hk : o'.kind = o.kind) (hd : o'.dirs = o.dirs) (hdecl : o'.vars = o.vars)
    (hsels : Respelled True False o.sels o'.sels) (hfr : RespelledFrags True False (fragmentsOf d) (fragmentsOf d'))
    (hpath : Shows.PathBlind env) :
    ∃ out out' errs errs' w', AnswersOut schema env w req out errs w' ∧ AnswersOut schema env w req' out' errs' w' ∧
      Alias.Relabelled (fragmentsOf d) (fragmentsOf d') o.sels o'.sels out out' ∧
      Alias.SameErrors (fragmentsOf d) (fragmentsOf d') o.sels o'.sels errs errs' := by
  obtain ⟨F0, h0⟩ := evalOperation_total (r := reqOf schema env req d o) ht o hf
  obtain ⟨⟨out, crit⟩, es, h1, -⟩ := h0 F0 (Nat.le_refl _) ⟨[], w, false⟩
  have hr := resolve_eval F0 schema env (fun _ => schema.rootQueryValue) w req d o out crit es hs.parsed hs.wf hs.regular hs.len hs.chosen h1
  obtain ⟨⟨out', crit'⟩, es', k1, k2, k3, -, new, new', k4, k5, k6⟩ :=
    Alias.operation_sim (reqOf schema env req d o) (fragmentsOf d') hfr hpath F0 hk hd hsels ⟨[], w, false⟩ ⟨[], w, false⟩ rfl rfl _ _ h1
  have e : Alias.refrag (reqOf schema env req d o) (fragmentsOf d') = reqOf schema env req' d' o' := by
    unfold Alias.refrag reqOf
    rw [hv, hdecl]
  rw [e] at k1
  have hr' := resolve_eval F0 schema env (fun _ => schema.rootQueryValue) w req' d' o' out' crit' es' hs'.parsed hs'.wf hs'.regular hs'.len hs'.chosen k1
  rw [List.nil_append] at k4 k5
  refine ⟨out, out', es.errs, es'.errs, es.world, Answers.of hr (by simp), ?_, k2.1, ?_⟩
  · have := Answers.of hr' (by simp)
    rw [k3] at this
    exact this
  · rw [k4, k5]
    exact Alias.errs_same _ _ k6

end

/-! ## Examples -/

namespace Demo

/-- the second `add` is refused, at a path that has the key of the first field -/
def opPlain : Operation := query [f b%"friend" [f b%"name", .field b%"add" none [] (some [(b%"x", .str b%"a")]) []], f b%"age"]
def opNamed : Operation := query [.field b%"x" (some b%"friend") [] none [f b%"name", .field b%"y" (some b%"add") [] (some [(b%"x", .str b%"a")]) []],
  .field b%"z" (some b%"age") [] none []]
def reqPlain : Request := request b%"{friend{name add(x:\"a\")} age}"
def reqNamed : Request := request b%"{x:friend{name y:add(x:\"a\")} z:age}"
theorem servesPlain : Serves reqPlain [.op opPlain] opPlain := Check.serves (by decide +kernel) rfl
theorem servesNamed : Serves reqNamed [.op opNamed] opNamed := Check.serves (by decide +kernel) rfl

theorem plainNamed : Respelled True False opPlain.sels opNamed.sels :=
  .field (Or.inr trivial) rfl .nil .same (.field (Or.inr trivial) rfl .nil .same .nil (.field (Or.inr trivial) rfl .nil .same .nil .nil))
    (.field (Or.inr trivial) rfl .nil .same .nil .nil)

/-- C84 applies to these two requests, -/
example (w : World) : ∃ out out' errs errs' w', AnswersOut schema blindEnv w reqPlain out errs w' ∧ AnswersOut schema blindEnv w reqNamed out' errs' w' ∧
      Alias.Relabelled [] [] opPlain.sels opNamed.sels out out' ∧ Alias.SameErrors [] [] opPlain.sels opNamed.sels errs errs' :=
  C84_aliases_partial schema blindEnv HasType w reqPlain reqNamed [.op opPlain] [.op opNamed] opPlain opNamed servesPlain servesNamed
    blind_wellTyped (fits (by decide +kernel)) rfl rfl rfl rfl plainNamed .nil blind

/-- which are answered with an error each. -/
example : (ask 300 reqPlain).map (·.2) = some (1, 0) ∧ (ask 300 reqNamed).map (·.2) = some (1, 0) := by decide +kernel

/-- The place of the error: `friend`, `add` in the first response, `x`, `y` in the second. -/
example : Alias.SamePlace [] [] opPlain.sels opNamed.sels [.key b%"friend", .key b%"add"] [.key b%"x", .key b%"y"] :=
  .member .here (.member (.later .here) .here)

/-- Places that are not the same: -/
example : ¬ Alias.SamePlace [] [] opPlain.sels opNamed.sels [.key b%"friend", .key b%"add"] [.key b%"x", .key b%"name"] := by
  intro h
  cases h with
  | member h1 h2 =>
    cases h1 with
    | here =>
      cases h2 with
      | member h1 h2 =>
        cases h1 with
        | later h =>
          cases h with
          | later h => cases h
    | later h =>
      cases h with
      | later h => cases h

end Demo
end Yarql
