import Verif.Props.Values
import Verif.Proofs.Blame

/-!
# Error paths and parents: C28, C22
-/

namespace Yarql
open Doc Resolver Eval Typed Yarql.Bind

section
variable {F V W : Type} [DecidableEq F]

/-- **C28.** Whatever a served request is answered with, every error in the answer comes with a path (aliases and list indices from the
root) that leads, through the response, to a value or to the key of a field left out, and, through the query, to the very selection the
error is about (`Blame.Cause`): the unknown field, the field whose arguments are refused, the field whose function returned this error
when called with this path, the fragment that is not defined, ... -/
theorem C28_error_paths (schema : RSchema F V) (env : Env F V W) (T : Obj F → V → Prop) (w w' : W) (req : Request)
    (d : List Def) (o : Operation) (fuel : Nat) (vals : UInt8 → V) (body : Bytes) (es : List ReqErr)
    (hs : Serves req d o) (ht : WellTyped schema env T) (hf : Fits schema (fragmentsOf d) o)
    (h : resolve fuel schema env vals w req = .ok (body, es) w') :
    ∃ (out : Out) (errs : List (Bytes × List Seg)), body = envelope req.noMeta (print out) es ∧ es = errs.map (fun e => ReqErr.exec ⟨e.1, pathJSON e.2⟩) ∧
      ∀ e ∈ errs, Located out e.2 ∧ Blame.Operation (showCtx schema env req d o) o e := by
  obtain ⟨F0, h0⟩ := evalOperation_total (r := reqOf schema env req d o) ht o hf
  obtain ⟨⟨out, crit⟩, es', h1, -⟩ := h0 F0 (Nat.le_refl _) ⟨[], w, false⟩
  have hr := resolve_eval F0 schema env (fun _ => schema.rootQueryValue) w req d o out crit es' hs.parsed hs.wf hs.regular hs.len hs.chosen h1
  have e := C41_deterministic (Answers.of hr (by simp)) (Answers.of h (by simp))
  injection e with e1 e2
  injection e1 with e3 e4
  obtain ⟨new, k1, k2, k3⟩ := evalOperation_run (reqOf schema env req d o) F0 o w ⟨[], w, false⟩ _ es' rfl h1
  obtain ⟨new', l1, l2⟩ := evalOperation_blamed (reqOf schema env req d o) F0 o ⟨[], w, false⟩ _ es' h1
  rw [List.nil_append] at k1 l1
  refine ⟨out, es'.errs, by rw [← e4]; exact e3.symm, e4.symm, ?_⟩
  intro e he
  constructor
  · rw [k1] at he
    obtain ⟨q, q1, q2⟩ := k3 e he
    rw [List.nil_append] at q1
    rw [q1]
    exact q2
  · exact l2 e (l1 ▸ he)

/-! ## C22 -/

/-- the member `k : x` of an object at `p`: `__typename`, or the value of a field of the Go value `v` (of object type `t`) -/
def OwnMember (c : Shows.Ctx F V W) (t : RType F V) (v : V) (p : List Seg) (k : Bytes) (x : Out) : Prop :=
  x = .leaf (Shows.quoted t.typeName) ∨ ∃ f w1 gv args sub w2, f ∈ t.fields ∧ Shows.FieldValue c w1 v f gv ∧
    Shows.Shows c w1 f.obj gv (p ++ [.key k]) args sub x w2

omit [DecidableEq F] in
theorem selects_own {c : Shows.Ctx F V W} {t v p w sels ms w'} (h : Shows.Selects c t v p w sels ms w') :
    ∀ k x, (k, x) ∈ ms → OwnMember c t v p k x := by
  match h with
  | .nil => intro k x hm; cases hm
  | .field _ hf hv hs hr =>
    intro k x hm
    rcases List.mem_cons.1 hm with e | hm
    · cases e
      exact Or.inr ⟨_, _, _, _, _, _, List.mem_of_find?_eq_some hf, hv, hs⟩
    · exact selects_own hr k x hm
  | .typename _ _ _ hr =>
    intro k x hm
    rcases List.mem_cons.1 hm with e | hm
    · cases e; exact Or.inl rfl
    · exact selects_own hr k x hm
  | .skipField _ hr => exact selects_own hr
  | .spread _ _ _ h1 h2 =>
    intro k x hm
    rcases List.mem_append.1 hm with hm | hm
    · exact selects_own h1 k x hm
    · exact selects_own h2 k x hm
  | .spreadOther _ _ _ hr => exact selects_own hr
  | .skipSpread _ hr => exact selects_own hr
  | .inline _ _ h1 h2 =>
    intro k x hm
    rcases List.mem_append.1 hm with hm | hm
    · exact selects_own h1 k x hm
    · exact selects_own h2 k x hm
  | .inlineOther _ _ hr => exact selects_own hr
  | .skipInline _ hr => exact selects_own hr

omit [DecidableEq F] in
/-- an object shown is a Go value of an object type -/
theorem object_of {c : Shows.Ctx F V W} {w o v p args sels x w'} (h : Shows.Shows c w o v p args sels x w') : ∀ ms, x = .obj ms →
    ∃ n t v1 w1 sels1 w2, lookup c.schema.types n = some t ∧ sels1 ≠ [] ∧
      Shows.Shows c w1 (.objRef n) v1 p none sels1 (.obj ms) w2 ∧ Shows.Selects c t v1 p w1 sels1 ms w2 := by
  match h with
  | .ptr _ hs => exact object_of hs
  | .interface _ _ _ hs => exact object_of hs
  | .call _ _ _ _ _ _ hs => exact object_of hs
  | .object hn ht hm => intro ms hx; cases hx; exact ⟨_, _, _, _, _, _, ht, hn, .object hn ht hm, hm⟩
  | .list _ _ => intro ms hx; cases hx
  | .scalar _ _ => intro ms hx; cases hx
  | .enum _ _ _ _ _ => intro ms hx; cases hx
  | .time _ _ => intro ms hx; cases hx
  | .undefined => intro ms hx; cases hx
  | .nilList hv => intro ms hx; cases hx
  | .nilPtr hv _ => intro ms hx; cases hx
  | .noObject _ hl => intro ms hx; cases hx
  | .noEnum h1 h2 h3 => intro ms hx; cases hx
  | .noTime h1 => intro ms hx; cases hx
  | .noInterface _ hl => intro ms hx; cases hx
  | .nilInterface _ h2 h3 => intro ms hx; cases hx
  | .unregistered _ h2 h3 h4 => intro ms hx; cases hx
  | .nilFunc h1 h2 => intro ms hx; cases hx

/-- **C22.** In a response without errors, all members of the root object are fields of the root value, and all members of any object
in the response, before and after whatever nested selections, are fields of one and the same Go value: the value shown at that place. -/
theorem C22_own_parent_partial (schema : RSchema F V) (env : Env F V W) (T : Obj F → V → Prop) (w w' : W) (req : Request)
    (d : List Def) (o : Operation) (fuel : Nat) (vals : UInt8 → V) (body : Bytes)
    (hs : Serves req d o) (ht : WellTyped schema env T) (hf : Fits schema (fragmentsOf d) o)
    (h : resolve fuel schema env vals w req = .ok (body, []) w') :
    ∃ ms, body = envelope req.noMeta (print (.obj ms)) [] ∧
      (∀ k x, (k, x) ∈ ms → if o.kind = .mutation
        then OwnMember (showCtx schema env req d o) schema.rootMethod schema.rootMethodValue [] k x
        else OwnMember (showCtx schema env req d o) schema.rootQuery schema.rootQueryValue [] k x) ∧
      ∀ p ms', p ≠ [] → At (.obj ms) p (.obj ms') → ∃ n t v w1 sels w2, lookup schema.types n = some t ∧ sels ≠ [] ∧
        Shows.Shows (showCtx schema env req d o) w1 (.objRef n) v p none sels (.obj ms') w2 ∧
        ∀ k x, (k, x) ∈ ms' → OwnMember (showCtx schema env req d o) t v p k x := by
  obtain ⟨out, h1, h2⟩ := C16_response_mirrors_selection_partial schema env T w w' req d o fuel vals body hs ht hf h
  have below : ∀ t v ms, Shows.Selects (showCtx schema env req d o) t v [] w o.sels ms w' →
      ∀ p ms', p ≠ [] → At (.obj ms) p (.obj ms') → ∃ n t v w1 sels w2, lookup schema.types n = some t ∧ sels ≠ [] ∧
        Shows.Shows (showCtx schema env req d o) w1 (.objRef n) v p none sels (.obj ms') w2 ∧
        ∀ k x, (k, x) ∈ ms' → OwnMember (showCtx schema env req d o) t v p k x := by
    intro t v ms hsel p ms' hp ha
    have ho : Origin (showCtx schema env req d o) p (.obj ms') := by
      cases ha with
      | here => exact absurd rfl hp
      | key hk ha => exact selects_origin hsel hk ha
    cases ho with
    | typename t e => cases e
    | value w1 o1 v1 args sels w2 hs =>
      obtain ⟨n, t, v, w1, sels1, w2, e1, e2, e3, e4⟩ := object_of hs _ rfl
      exact ⟨n, t, v, w1, sels1, w2, e1, e2, e3, selects_own e4⟩
  cases h1 with
  | query hk _ hsel =>
    refine ⟨_, h2, ?_, below _ _ _ hsel⟩
    intro k x hm
    rw [if_neg (by rw [hk]; simp)]
    exact selects_own hsel k x hm
  | mutation hk _ hsel =>
    refine ⟨_, h2, ?_, below _ _ _ hsel⟩
    intro k x hm
    rw [if_pos hk]
    exact selects_own hsel k x hm

end

namespace Demo

/-- the errors of a request: messages and paths -/
def askErrs (fuel : Nat) (req : Request) : Option (List (Bytes × Option Bytes)) :=
  match resolve fuel schema env noStack [] req with
  | .ok (_, es) _ => some (es.filterMap (fun e => match e with | .exec e => some (e.msg, e.path) | _ => none))
  | _ => none

def opDeep : Operation := query [.field b%"x" (some b%"friend") [] none [.field b%"y" (some b%"zz") [] none []], f b%"both"]
theorem servesDeep : Serves (request b%"{x:friend{y:zz}both}") [.op opDeep] opDeep := Check.serves (by decide +kernel) rfl

/-- an error deep inside, under aliases: it stops the siblings, and the path is that of the field -/
example : askErrs 300 (request b%"{x:friend{y:zz}both}") = some [(b%"zz does not exists on User", some b%"\"x\",\"y\"")] := by
  decide +kernel

/-- the hypotheses of C28 hold here -/
example {body es w'} (h : resolve 300 schema env noStack [] (request b%"{x:friend{y:zz}both}") = .ok (body, es) w') :
    ∃ (out : Out) (errs : List (Bytes × List Seg)), body = envelope false (print out) es ∧
      es = errs.map (fun e => ReqErr.exec ⟨e.1, pathJSON e.2⟩) ∧
      ∀ e ∈ errs, Located out e.2 ∧ Blame.Operation (showCtx schema env (request b%"{x:friend{y:zz}both}") [.op opDeep] opDeep) opDeep e :=
  C28_error_paths schema env HasType [] w' _ _ opDeep 300 noStack body es servesDeep wellTyped (fits (by decide +kernel)) h

/-- the error of a function, under an alias -/
example : askErrs 300 (request b%"{a:name b:both}") = some [(b%"went wrong", some b%"\"b\"")] := by decide +kernel

def opBack : Operation := query [f b%"friend" [f b%"name"], f b%"name"]
theorem servesBack : Serves (request b%"{friend{name}name}") [.op opBack] opBack := Check.serves (by decide +kernel) rfl

/-- the name after the nested selection is the root's again -/
theorem askBack : ask 300 (request b%"{friend{name}name}") = some (dataOnly b%"{\"friend\":{\"name\":\"Bob\"},\"name\":\"A\\\"n\"}", 0, 0) := by
  decide +kernel

/-- the hypotheses of C22 hold here -/
example : ∃ body w', resolve 300 schema env noStack [] (request b%"{friend{name}name}") = .ok (body, []) w' ∧
    ∃ ms, body = envelope false (print (.obj ms)) [] ∧ ∀ k x, (k, x) ∈ ms →
      OwnMember (showCtx schema env (request b%"{friend{name}name}") [.op opBack] opBack) user ann [] k x := by
  have h := askBack
  unfold ask at h
  split at h
  · rename_i b es w' heq
    cases es with
    | nil =>
      refine ⟨b, w', heq, ?_⟩
      obtain ⟨ms, h1, h2, -⟩ := C22_own_parent_partial schema env HasType [] w' _ _ opBack 300 noStack b servesBack wellTyped (fits (by decide +kernel)) heq
      exact ⟨ms, h1, fun k x hm => by have := h2 k x hm; rw [if_neg (by simp [opBack, query])] at this; exact this⟩
    | cons e es => simp at h
  · cases h

end Demo
end Yarql
