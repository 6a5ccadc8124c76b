import Verif.Proofs.EventsRun
import Verif.Proofs.ResultSim
import Verif.Props.Functions

/-!
# Every request: errors of functions (C46), cancelled contexts (C30), error paths (C28)

No hypotheses about the request, the schema or the stack: whatever `Resolve` answers.
-/

namespace Yarql
open Resolver Eval Yarql.Bind Events EventsRun

section
variable {F V W : Type}

mutual
theorem Ev.errors_perm (errOf : W → V → Option Bytes) (p : List Seg) : ∀ ev : Ev F V W, (ev.errors errOf p).Perm
    (ev.errors (fun _ _ => none) p ++ (ev.called p).filterMap (fun c => (ownError errOf c.2.1 c.2.2.1 c.2.2.2).map (fun msg => ⟨msg, pathJSON c.1⟩)))
  | .wrote b => by simp [Ev.errors, Ev.called]
  | .error msg => by simp [Ev.errors, Ev.called]
  | .call none fn inputs w1 outs => by simp [Ev.errors, Ev.called]
  | .call (some m) fn inputs w1 outs => by
    have : ownError (F := F) (V := V) (W := W) (fun _ _ => none) m w1 outs = none := by
      unfold ownError
      split
      · rfl
      · split <;> rfl
    simp only [Ev.errors, Ev.called, this, Option.toList, List.map_nil, List.nil_append]
    cases h : ownError errOf m w1 outs <;> simp [h]
  | .inside s body => by
    simp only [Ev.errors, Ev.called]
    exact errorsAt_perm errOf (p ++ [s]) body
theorem errorsAt_perm (errOf : W → V → Option Bytes) (p : List Seg) : ∀ evs : List (Ev F V W), (errorsAt errOf p evs).Perm
    (errorsAt (fun _ _ => none) p evs ++ (calledAt p evs).filterMap (fun c => (ownError errOf c.2.1 c.2.2.1 c.2.2.2).map (fun msg => ⟨msg, pathJSON c.1⟩)))
  | [] => by simp [errorsAt, calledAt]
  | ev :: evs => by
    simp only [errorsAt, calledAt, List.filterMap_append]
    refine ((Ev.errors_perm errOf p ev).append (errorsAt_perm errOf p evs)).trans ?_
    simp only [List.append_assoc]
    refine List.Perm.append_left _ ?_
    simp only [← List.append_assoc]
    exact List.Perm.append_right _ List.perm_append_comm
end

variable [DecidableEq F]

/-! ## The events of a request -/

/-- **C28.** Every answer is an account of events (`Spec/Events.lean`): the calls are the calls of the environment, each given the path of
the field it is made for; the data are the texts written, in order, each field's under its own key; and the errors are exactly the
errors that happened, in order, each with the path (keys and list indices from the root) of the fields and elements being resolved when it
happened. Or the request is refused before anything happens. -/
theorem C28_every_error {fuel : Nat} {schema : RSchema F V} {env : Env F V W} {vals : UInt8 → V} {w w' : W} {req : Request} {body : Bytes}
    {es : List ReqErr} (h : resolve fuel schema env vals w req = .ok (body, es) w') :
    (∃ evs : List (Ev F V W), Plays env [] w evs w' ∧ body = envelope req.noMeta (b%"{" ++ textOf evs ++ b%"}") es ∧
      es = (errorsAt env.errOf [] evs).map ReqErr.exec) ∨
    (w' = w ∧ es ≠ [] ∧ body = envelope req.noMeta b%"{}" es) := by
  rcases resolve_events h with ⟨evs, h1, -, h2⟩ | ⟨h1, h2, h3, -⟩
  · have := h2 env.errOf
    rw [show ({ env with errOf := env.errOf } : Env F V W) = env from rfl, h] at this
    injection this with e1 _
    injection e1 with e1 e2
    exact Or.inl ⟨evs, h1, by rw [e1, ← e2], e2⟩
  · exact Or.inr ⟨h1, h2, h3⟩

omit [DecidableEq F] in
/-- the errors of the account, one by one: each happened at the level of its path, as such or as the error a function returned -/
theorem error_level {errOf : W → V → Option Bytes} {e : RErr} : ∀ (evs : List (Ev F V W)) (p : List Seg), e ∈ errorsAt errOf p evs →
    ∃ q l, Level evs q l ∧ e.path = pathJSON (p ++ q) ∧
      (.error e.msg ∈ l ∨ ∃ m fn inputs w1 outs, .call (some m) fn inputs w1 outs ∈ l ∧ ownError errOf m w1 outs = some e.msg)
  | [], p, h => by simp [errorsAt] at h
  | ev :: evs, p, h => by
    rw [errorsAt, List.mem_append] at h
    rcases h with h | h
    · cases ev with
      | wrote b => simp [Ev.errors] at h
      | error msg =>
        simp only [Ev.errors, List.mem_singleton] at h
        subst h
        exact ⟨[], _, .here, by rw [List.append_nil], Or.inl (List.mem_cons_self ..)⟩
      | call m fn inputs w1 outs =>
        cases m with
        | none => simp [Ev.errors] at h
        | some m =>
          simp only [Ev.errors, List.mem_map, Option.mem_toList] at h
          obtain ⟨msg, h1, rfl⟩ := h
          exact ⟨[], _, .here, by rw [List.append_nil], Or.inr ⟨m, fn, inputs, w1, outs, List.mem_cons_self .., h1⟩⟩
      | inside s body =>
        simp only [Ev.errors] at h
        obtain ⟨q, l, h1, h2, h3⟩ := error_level body (p ++ [s]) h
        exact ⟨s :: q, l, .inside (List.mem_cons_self ..) h1, by rw [h2, List.append_assoc]; rfl, h3⟩
    · obtain ⟨q, l, h1, h2, h3⟩ := error_level evs p h
      cases h1 with
      | here =>
        refine ⟨[], _, .here, h2, ?_⟩
        rcases h3 with h3 | ⟨m, fn, inputs, w1, outs, h3, h4⟩
        · exact Or.inl (List.mem_cons_of_mem _ h3)
        · exact Or.inr ⟨m, fn, inputs, w1, outs, List.mem_cons_of_mem _ h3, h4⟩
      | inside hm hl => exact ⟨_, l, .inside (List.mem_cons_of_mem _ hm) hl, h2, h3⟩

omit [DecidableEq F] in
/-- a level of an account is an account, at that path, and what is written there is written under the field's key -/
theorem level_plays {env : Env F V W} {q : List Seg} {evs l : List (Ev F V W)} (hl : Level evs q l) : ∀ {p w w'}, Plays env p w evs w' →
    (∃ w1 w2, Plays env (p ++ q) w1 l w2) ∧ (∀ q' s, q = q' ++ [s] → Written env s l) := by
  induction hl with
  | here =>
    intro p w w' h
    exact ⟨⟨w, w', by rw [List.append_nil]; exact h⟩, fun q' s e => by simp at e⟩
  | @inside l s body q k hm hl ih =>
    intro p w w' h
    have key : ∃ w1 w2, Plays env (p ++ [s]) w1 body w2 ∧ Written env s body := by
      clear ih hl
      revert hm
      induction l generalizing w with
      | nil => intro hm; cases hm
      | cons e es ihl =>
        intro hm
        rcases List.mem_cons.1 hm with hm2 | hm2
        · subst hm2
          cases h with
          | inside h1 h2 h3 => exact ⟨_, _, h1, h2⟩
        · cases h with
          | wrote h => exact ihl h hm2
          | error h => exact ihl h hm2
          | directive _ h => exact ihl h hm2
          | field _ _ h => exact ihl h hm2
          | inside _ _ h => exact ihl h hm2
    obtain ⟨w1, w2, h1, h2⟩ := key
    obtain ⟨⟨w3, w4, h3⟩, h4⟩ := ih h1
    refine ⟨⟨w3, w4, by rw [List.append_assoc] at h3; exact h3⟩, ?_⟩
    intro q' x e
    cases q' with
    | nil =>
      cases q with
      | nil =>
        simp only [List.nil_append, List.cons.injEq, and_true] at e
        cases hl
        rw [← e]
        exact h2
      | cons y q => simp at e
    | cons y q' =>
      simp only [List.cons_append, List.cons.injEq] at e
      exact h4 q' x e.2

omit [DecidableEq F] in
/-- the calls of an account are calls of the environment -/
theorem mem_call {env : Env F V W} {p : List Seg} {m : Method F} {fn : V} {inputs : List (Arg F)} {w1 : W} {outs : List V} {l : List (Ev F V W)}
    {w w' : W} (h : Plays env p w l w') (hm : .call (some m) fn inputs w1 outs ∈ l) :
    ∃ w0 pre post, l = pre ++ .call (some m) fn inputs w1 outs :: (cancelled env w1 ++ post) ∧
      env.call w0 fn (Shows.pathArg p) inputs = some (w1, outs) := by
  revert hm
  induction l generalizing w with
  | nil => intro hm; cases hm
  | cons e es ih =>
    intro hm
    rcases List.mem_cons.1 hm with hm | hm
    · subst hm
      cases h with
      | field hc hp h =>
        obtain ⟨post, hp⟩ := hp
        exact ⟨_, [], post, by rw [hp]; rfl, hc⟩
    · have next : ∀ {w1'}, Plays env p w1' es w' → ∃ w0 pre post, e :: es = pre ++ .call (some m) fn inputs w1 outs :: (cancelled env w1 ++ post) ∧
          env.call w0 fn (Shows.pathArg p) inputs = some (w1, outs) := by
        intro w1' h
        obtain ⟨w0, pre, post, h1, h2⟩ := ih h hm
        exact ⟨w0, e :: pre, post, by rw [h1]; rfl, h2⟩
      cases h with
      | wrote h => exact next h
      | error h => exact next h
      | directive _ h => exact next h
      | field _ _ h => exact next h
      | inside _ _ h => exact next h

/-- **C28** (each error). Whatever a request is answered with, if it is not refused before anything happens: each error happened while the
field or list element of its path was resolved. It is an error met there, or the error the function of that field returned when it was called
with this very path; and what was written there was written behind the field's key. -/
theorem C28_each_error {fuel : Nat} {schema : RSchema F V} {env : Env F V W} {vals : UInt8 → V} {w w' : W} {req : Request} {body : Bytes}
    {es : List ReqErr} (h : resolve fuel schema env vals w req = .ok (body, es) w') :
    (∃ evs : List (Ev F V W), Plays env [] w evs w' ∧ body = envelope req.noMeta (b%"{" ++ textOf evs ++ b%"}") es ∧
      ∀ e ∈ es, ∃ msg p l, e = .exec ⟨msg, pathJSON p⟩ ∧ Level evs p l ∧
        (.error msg ∈ l ∨ ∃ m fn inputs w0 w1 outs, .call (some m) fn inputs w1 outs ∈ l ∧
          env.call w0 fn (Shows.pathArg p) inputs = some (w1, outs) ∧ ownError env.errOf m w1 outs = some msg) ∧
        ∀ p' s, p = p' ++ [s] → Written env s l) ∨
    (w' = w ∧ es ≠ [] ∧ body = envelope req.noMeta b%"{}" es) := by
  rcases C28_every_error h with ⟨evs, h1, h2, h3⟩ | h1
  · refine Or.inl ⟨evs, h1, h2, ?_⟩
    intro e he
    rw [h3, List.mem_map] at he
    obtain ⟨⟨msg, path⟩, he, rfl⟩ := he
    obtain ⟨p, l, k1, k2, k3⟩ := error_level evs [] he
    obtain ⟨⟨w1, w2, k4⟩, k5⟩ := level_plays k1 h1
    refine ⟨msg, p, l, ?_, k1, ?_, k5⟩
    · dsimp only at k2
      rw [k2]
      rfl
    · rcases k3 with k3 | ⟨m, fn, inputs, w1, outs, k3, k6⟩
      · exact Or.inl k3
      · obtain ⟨w0, -, -, -, k7⟩ := mem_call k4 k3
        exact Or.inr ⟨m, fn, inputs, w0, w1, outs, k3, k7, k6⟩
  · exact Or.inr h1

/-! ## C46 -/

/-- **C46** (data). Errors returned by functions do not hide data: whatever request is answered, the data of the answer and the effects on
the world are the same whatever errors the functions return next to their values. -/
theorem C46_data_whatever_errors {fuel : Nat} {schema : RSchema F V} {env : Env F V W} {vals : UInt8 → V} {w w' : W} {req : Request} {body : Bytes}
    {es : List ReqErr} (h : resolve fuel schema env vals w req = .ok (body, es) w') :
    ∃ data, body = envelope req.noMeta data es ∧
      ∀ errOf : W → V → Option Bytes, ∃ es', resolve fuel schema { env with errOf := errOf } vals w req = .ok (envelope req.noMeta data es', es') w' := by
  rcases resolve_events h with ⟨evs, h1, -, h2⟩ | ⟨h1, h2, h3, h4⟩
  · refine ⟨b%"{" ++ textOf evs ++ b%"}", ?_, fun e => ⟨_, h2 e⟩⟩
    have := h2 env.errOf
    rw [show ({ env with errOf := env.errOf } : Env F V W) = env from rfl, h] at this
    injection this with e1 _
    injection e1 with e1 e2
    rw [e1, ← e2]
  · exact ⟨b%"{}", h3, fun e => ⟨es, by rw [h4 e, h3]⟩⟩

/-- **C46** (the error). Whatever request is answered: the errors of the answer are, up to order, those it would have if the functions
returned no errors, and exactly one for each function called for a field that returned an error, with the path of the
field. The data and the world are the same in both. -/
theorem C46_one_error_per_call {fuel : Nat} {schema : RSchema F V} {env : Env F V W} {vals : UInt8 → V} {w w' : W} {req : Request} {body : Bytes}
    {es : List ReqErr} (h : resolve fuel schema env vals w req = .ok (body, es) w') :
    ∃ (evs : List (Ev F V W)) (data : Bytes) (es0 : List ReqErr), Plays env [] w evs w' ∧ body = envelope req.noMeta data es ∧
      resolve fuel schema (noErrors env) vals w req = .ok (envelope req.noMeta data es0, es0) w' ∧
      es.Perm (es0 ++ (calledAt [] evs).filterMap (fun c => (ownError env.errOf c.2.1 c.2.2.1 c.2.2.2).map (fun msg => .exec ⟨msg, pathJSON c.1⟩))) := by
  rcases resolve_events h with ⟨evs, h1, -, h2⟩ | ⟨h1, h2, h3, h4⟩
  · have := h2 env.errOf
    rw [show ({ env with errOf := env.errOf } : Env F V W) = env from rfl, h] at this
    injection this with e1 _
    injection e1 with e1 e2
    refine ⟨evs, _, _, h1, by rw [e1, ← e2], h2 (fun _ _ => none), ?_⟩
    rw [e2]
    refine ((errorsAt_perm env.errOf [] evs).map ReqErr.exec).trans ?_
    rw [List.map_append, List.map_filterMap]
    simp only [Option.map_map]
    exact List.Perm.refl _
  · subst h1
    exact ⟨[], b%"{}", es, .nil, h3, by rw [← h3]; exact h4 _, by simp [calledAt]⟩

/-! ## C30 -/

/-- `call'` does what `call` does, but may return other values where the context is cancelled when it returns. As errors and as directive
modifiers they look the same. -/
def OtherResults (env : Env F V W) (call' : W → V → Bytes → List (Arg F) → Option (W × List V)) : Prop :=
  ∀ w fn p a, (env.call w fn p a = none → call' w fn p a = none) ∧ ∀ w1 outs, env.call w fn p a = some (w1, outs) → ∃ outs',
    call' w fn p a = some (w1, outs') ∧ (env.ctxErr w1 = none → outs' = outs) ∧ outs'.length = outs.length ∧
    ∀ (i : Nat) x x', outs[i]? = some x → outs'[i]? = some x' → env.errOf w1 x' = env.errOf w1 x ∧ env.skip w1 x' = env.skip w1 x

/-- **C30** (values). No value returned by a function after the context was cancelled reaches the response: whatever such values are,
`Resolve` does the very same, for every request. -/
theorem C30_values_do_not_matter (fuel : Nat) (schema : RSchema F V) (env : Env F V W) (vals : UInt8 → V) (w : W) (req : Request)
    (call' : W → V → Bytes → List (Arg F) → Option (W × List V)) (h : OtherResults env call') :
    resolve fuel schema (withCall env call') vals w req = resolve fuel schema env vals w req := by
  have key := ResultSim.resolve_echo fuel schema env vals w req call' env.errOf (fun a b => b = a) rfl (fun res frags =>
    { same := fun es es' e h => by rw [h]
      none := fun w f p a hc => (h w f p a).1 hc
      some := fun w f p a w1 outs hc => by
        obtain ⟨outs', h1, h2, h3, h4⟩ := (h w f p a).2 w1 outs hc
        exact ⟨outs', h1, h2, h3, fun i x x' hx hx' => (h4 i x x' hx hx').2, fun i x x' hx hx' => Or.inl (h4 i x x' hx hx').1⟩ })
  show resolve fuel schema { env with call := call', errOf := env.errOf } vals w req = _
  generalize resolve fuel schema env vals w req = r, resolve fuel schema { env with call := call', errOf := env.errOf } vals w req = r' at key ⊢
  cases key with
  | executed e => rw [e]
  | same => rfl

/-- **C30** (null and an error). Whatever request is answered: when the function of a field (or of a list element) returns and the
context is cancelled then, the cancellation is reported with the path of the field, behind the error of the function if it returned one, and all that
is written for this field is its key and `null`. -/
theorem C30_null_everywhere {fuel : Nat} {schema : RSchema F V} {env : Env F V W} {vals : UInt8 → V} {w w' : W} {req : Request} {body : Bytes}
    {es : List ReqErr} (h : resolve fuel schema env vals w req = .ok (body, es) w') :
    (∃ evs : List (Ev F V W), Plays env [] w evs w' ∧ body = envelope req.noMeta (b%"{" ++ textOf evs ++ b%"}") es ∧
      es = (errorsAt env.errOf [] evs).map ReqErr.exec ∧
      ∀ p l m fn inputs w1 outs msg, Level evs p l → .call (some m) fn inputs w1 outs ∈ l → env.ctxErr w1 = some msg →
        (∃ pre post, l = pre ++ .call (some m) fn inputs w1 outs :: .error msg :: .wrote b%"null" :: post) ∧
        ((∃ p' i, p = p' ++ [.idx i] ∧ textOf l = b%"null") ∨
         ∃ p' k comma, p = p' ++ [.key k] ∧ (comma = [] ∨ comma = b%",") ∧ textOf l = comma ++ ([c%'"'] ++ k ++ b%"\":") ++ b%"null")) ∨
    (w' = w ∧ es ≠ [] ∧ body = envelope req.noMeta b%"{}" es) := by
  rcases resolve_events h with ⟨evs, h1, hpl, h2⟩ | ⟨h1, h2, h3, -⟩
  · have := h2 env.errOf
    rw [show ({ env with errOf := env.errOf } : Env F V W) = env from rfl, h] at this
    injection this with e1 _
    injection e1 with e1 e2
    refine Or.inl ⟨evs, h1, by rw [e1, ← e2], e2, ?_⟩
    intro p l m fn inputs w1 outs msg hl hm hc
    obtain ⟨⟨w2, w3, k1⟩, k2⟩ := level_plays hl h1
    have hcan : Cancelled env l := ⟨m, fn, inputs, w1, outs, hm, by rw [hc]; simp⟩
    refine ⟨?_, ?_⟩
    · obtain ⟨w0, pre, post, k3, -⟩ := mem_call k1 hm
      refine ⟨pre, post, ?_⟩
      rw [k3]
      unfold cancelled
      rw [hc]
      rfl
    · rcases List.eq_nil_or_concat p with rfl | ⟨p', s, rfl⟩
      · cases hl
        exact absurd hm (hpl _ _ _ _ _)
      · rw [List.concat_eq_append] at k2 ⊢
        have hw := k2 p' s rfl
        cases s with
        | idx i => exact Or.inl ⟨p', i, rfl, hw hcan⟩
        | key k =>
          rcases hw with ⟨-, hw⟩ | ⟨comma, value, hc1, hc2, hc3⟩
          · exact absurd hcan hw
          · exact Or.inr ⟨p', k, comma, rfl, hc1, by rw [hc2, hc3 hcan]⟩
  · exact Or.inr ⟨h1, h2, h3⟩

end

/-! ## Examples -/

namespace Demo
open Events

/-- the response and the errors with their paths -/
def told (env : Env Unit D World) (q : Bytes) : Option (Bytes × List (Bytes × Option Bytes)) :=
  match resolve 300 schema env noStack [] (request q) with
  | .ok (body, es) _ => some (body, es.map (fun e => match e with | .exec e => (e.msg, e.path) | .located m _ _ => (m, none)))
  | _ => none

/-- the function `both` returns a value and an error: the answer contains both -/
example : told env b%"{both friend{both}}" = some (
    b%"{\"data\":{\"both\":\"value\",\"friend\":{\"both\":\"value\"}},\"errors\":[{\"message\":\"went wrong\",\"path\":[\"both\"]},{\"message\":\"went wrong\",\"path\":[\"friend\",\"both\"]}],\"extensions\":{}}",
    [(b%"went wrong", some b%"\"both\""), (b%"went wrong", some b%"\"friend\",\"both\"")]) := by decide +kernel
/-- without the error the data are the same -/
example : told (noErrors env) b%"{both friend{both}}" = some (b%"{\"data\":{\"both\":\"value\",\"friend\":{\"both\":\"value\"}}}", []) := by
  decide +kernel
/-- cancelled: null and both errors -/
example : told cancelledEnv b%"{x:both}" = some (
    b%"{\"data\":{\"x\":null},\"errors\":[{\"message\":\"went wrong\",\"path\":[\"x\"]},{\"message\":\"context canceled\",\"path\":[\"x\"]}],\"extensions\":{}}",
    [(b%"went wrong", some b%"\"x\""), (b%"context canceled", some b%"\"x\"")]) := by decide +kernel

/-- the events of the last answer -/
def cancelledEvents : List (Ev Unit D World) :=
  [.inside (.key b%"x") [.wrote b%"\"x\":",
    .call (some bothMethod) (.fn 1) [] [(1, b%"[\"x\"]", [])] [.str b%"value", .error (some b%"went wrong")],
    .error b%"context canceled", .wrote b%"null"]]

example : Plays cancelledEnv [] [] cancelledEvents [(1, b%"[\"x\"]", [])] := by
  refine .inside (.wrote (.field (by rfl) ?_ (.error (.wrote .nil)))) (Or.inr ⟨[], b%"null", Or.inl rfl, rfl, fun _ => rfl⟩) .nil
  exact ⟨[], rfl⟩
example : b%"{" ++ textOf cancelledEvents ++ b%"}" = b%"{\"x\":null}" := by decide +kernel
example : (errorsAt cancelledEnv.errOf [] cancelledEvents).map (fun e => (e.msg, e.path)) =
    [(b%"went wrong", some b%"\"x\""), (b%"context canceled", some b%"\"x\"")] := by decide +kernel
example : (calledAt [] cancelledEvents).length = 1 := by decide +kernel
/-- other functions, the same answer -/
example : OtherResults cancelledEnv call' := by
  intro w fn p a
  have e : cancelledEnv.call = call := rfl
  rw [e]
  unfold call'
  constructor
  · intro h
    rw [h]
  · intro w1 outs h
    rw [h]
    split
    · rename_i heq
      cases heq
      refine ⟨_, rfl, fun h => (by cases h), rfl, ?_⟩
      intro i x x' hx hx'
      cases i with
      | zero => cases hx; cases hx'; exact ⟨rfl, rfl⟩
      | succ i => simp at hx
    · exact ⟨_, rfl, fun _ => rfl, rfl, fun i x x' hx hx' => by rw [hx] at hx'; cases hx'; exact ⟨rfl, rfl⟩⟩

end Demo
end Yarql
