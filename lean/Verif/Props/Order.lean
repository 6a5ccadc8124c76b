import Verif.Props.Rewriting

/-!
# Order: C81 (selections run one after the other), C82 (the order of definitions does not matter)
-/

namespace Yarql
open Doc Resolver Eval Typed Yarql.Bind

section
variable {F V W : Type} [DecidableEq F]

/-! ## C82 -/

theorem find_of_perm {d d' : List Fragment} (hp : d.Perm d') (hn : (d.map (·.name)).Nodup) (name : Bytes) :
    d.find? (fun f => decide (f.name = name)) = d'.find? (fun f => decide (f.name = name)) := by
  induction hp with
  | nil => rfl
  | cons x _ ih =>
    rw [List.map_cons, List.nodup_cons] at hn
    rw [List.find?_cons, List.find?_cons, ih hn.2]
  | swap x y l =>
    simp only [List.find?_cons]
    by_cases hx : x.name = name <;> by_cases hy : y.name = name <;> simp [hx, hy]
    simp [hx, hy] at hn
  | trans h1 _ ih1 ih2 => rw [ih1 hn, ih2 ((h1.map _).nodup_iff.1 hn)]

theorem rewrites_same_fragments {frags frags' : List Fragment}
    (h : ∀ name, frags.find? (fun f => decide (f.name = name)) = frags'.find? (fun f => decide (f.name = name))) (sels : List Sel) :
    Rewrites (fun _ _ => False) (fun _ _ => False) frags frags' sels sels := by
  refine ⟨Eq, ?_, rfl⟩
  rintro s _ rfl
  cases s with
  | nil => exact .nil
  | cons x rest =>
    cases x with
    | field key name dirs args sub => exact .field (Or.inl rfl) Iff.rfl rfl rfl
    | spread name dirs =>
      cases hf : frags.find? (fun f => decide (f.name = name)) with
      | none => exact .undefined hf ((h name).symm.trans hf) rfl
      | some f => exact .spread (Or.inl rfl) hf ((h name).symm.trans hf) rfl rfl rfl
    | inline ty dirs sub => exact .inline (Or.inl rfl) rfl rfl

/-- **C82.** The definitions of a document may be written in any order: two requests whose documents are permutations of each other (with
distinct fragment names), that select the same operation and have the same variables, get the same response, the same errors and have
the same effects. -/
theorem C82_definition_order_partial (schema : RSchema F V) (env : Env F V W) (T : Obj F → V → Prop) (w : W) (req req' : Request)
    (d d' : List Def) (o : Operation) (hs : Serves req d o) (hs' : Serves req' d' o) (ht : WellTyped schema env T)
    (hf : Fits schema (fragmentsOf d) o) (hm : req.noMeta = req'.noMeta) (hv : req.vars = req'.vars)
    (hp : d.Perm d') (hn : ((fragmentsOf d).map (·.name)).Nodup) (r : R W (Bytes × List ReqErr)) :
    Answers schema env w req r ↔ Answers schema env w req' r :=
  C18_spread_is_inline_partial schema env T w req req' d d' o o hs hs' ht hf hm hv rfl rfl rfl
    (rewrites_same_fragments (fun name => find_of_perm (hp.filterMap _) hn name) o.sels) r

/-! ## C81 -/

/-- Selections behind others: evaluated in the state the first ones leave, unless those end critically. -/
theorem evalSels_append (r : Req F V W) (t : RType F V) (v : V) (dept : UInt8) (path : List Seg) (room : Nat) (a b : List Sel) :
    ∀ (fuel : Nat) (es s : ES W) (x : List (Bytes × Out) × Bool), evalSels r fuel t v dept path room (a ++ b) es = some (x, s) →
      ∃ ms c s1, evalSels r fuel t v dept path room a es = some ((ms, c), s1) ∧
        ((c = true ∧ x = (ms, true) ∧ s = s1) ∨
          (c = false ∧ ∃ fuel' ms' c', fuel' ≤ fuel ∧ evalSels r fuel' t v dept path room b s1 = some ((ms', c'), s) ∧ x = (ms ++ ms', c'))) := by
  induction a with
  | nil =>
    intro fuel es s x h
    rw [List.nil_append] at h
    cases fuel with
    | zero => unfold evalSels at h; cases h
    | succ fuel =>
      refine ⟨[], false, es, ?_, Or.inr ⟨rfl, fuel + 1, x.1, x.2, Nat.le_refl _, h, rfl⟩⟩
      unfold evalSels
      rfl
  | cons y ys ih =>
    intro fuel es s x h
    cases fuel with
    | zero => unfold evalSels at h; cases h
    | succ fuel =>
      rw [List.cons_append] at h
      have step : ∀ (m : E W (List (Bytes × Out) × Bool)), evalSels r (fuel + 1) t v dept path room (y :: ys) = (do
            let (ms, crit) ← m
            if crit then return (ms, true)
            let (ms', crit) ← evalSels r fuel t v dept path room ys
            return (ms ++ ms', crit)) →
          evalSels r (fuel + 1) t v dept path room (y :: (ys ++ b)) = (do
            let (ms, crit) ← m
            if crit then return (ms, true)
            let (ms', crit) ← evalSels r fuel t v dept path room (ys ++ b)
            return (ms ++ ms', crit)) → 
          ∃ ms c s1, evalSels r (fuel + 1) t v dept path room (y :: ys) es = some ((ms, c), s1) ∧
            ((c = true ∧ x = (ms, true) ∧ s = s1) ∨
              (c = false ∧ ∃ fuel' ms' c', fuel' ≤ fuel + 1 ∧ evalSels r fuel' t v dept path room b s1 = some ((ms', c'), s) ∧
                x = (ms ++ ms', c'))) := by
        intro m e1 e2
        rw [e2] at h
        rw [e1]
        obtain ⟨⟨ms0, c0⟩, s0, h1, h2⟩ := E_bind.1 h
        cases c0 with
        | true =>
          have e := E_pure.1 h2
          injection e with e3 e4
          exact ⟨ms0, true, s0, E_bind.2 ⟨_, _, h1, rfl⟩, Or.inl ⟨rfl, e3, e4⟩⟩
        | false =>
          obtain ⟨⟨ms1, c1⟩, s1, h3, h4⟩ := E_bind.1 h2
          have e := E_pure.1 h4
          injection e with e3 e4
          obtain ⟨ms, c, s2, k1, k2⟩ := ih fuel s0 s1 _ h3
          refine ⟨ms0 ++ ms, c, s2, E_bind.2 ⟨_, _, h1, E_bind.2 ⟨_, _, k1, rfl⟩⟩, ?_⟩
          rcases k2 with ⟨rfl, k3, k4⟩ | ⟨rfl, fuel', ms', c', k3, k4, k5⟩
          · injection k3 with k5 k6
            refine Or.inl ⟨rfl, ?_, by rw [e4, k4]⟩
            rw [e3, k5, k6]
          · injection k5 with k6 k7
            refine Or.inr ⟨rfl, fuel', ms', c', by omega, by rw [e4]; exact k4, ?_⟩
            rw [e3, k6, k7, List.append_assoc]
      cases y with
      | field key name dirs args sels =>
        refine step (do
          let (m, crit) ← evalField r fuel t v dept path room key (name.getD key) dirs args sels
          return (m.toList, crit)) ?_ ?_
        · funext es
          rw [evalSels]
          show E.bind _ _ es = E.bind (E.bind _ _) _ es
          unfold E.bind
          cases evalField r fuel t v dept path room key (name.getD key) dirs args sels es with
          | none => rfl
          | some q => obtain ⟨⟨m, c⟩, s⟩ := q; rfl
        · funext es
          rw [evalSels]
          show E.bind _ _ es = E.bind (E.bind _ _) _ es
          unfold E.bind
          cases evalField r fuel t v dept path room key (name.getD key) dirs args sels es with
          | none => rfl
          | some q => obtain ⟨⟨m, c⟩, s⟩ := q; rfl
      | spread name dirs => exact step (evalSpread r fuel t v dept path room name dirs) (by rw [evalSels]) (by rw [evalSels])
      | inline ty dirs sels => exact step (evalInline r fuel t v dept path room ty dirs sels) (by rw [evalSels]) (by rw [evalSels])

/-- the same state but for errors reported before -/
def AfterErrs (vars : VarsSrc) (pre : List (Bytes × List Seg)) (a b : ES W) : Prop :=
  a.errs = pre ++ b.errs ∧ b.world = a.world ∧ (b.varsParsed = a.varsParsed ∨ VarsOK vars)

omit [DecidableEq F] in
theorem afterErrs_frame (vars : VarsSrc) (pre : List (Bytes × List Seg)) : Frame (W := W) vars (AfterErrs vars pre) where
  world h := h.2.1
  report h e := ⟨by dsimp only; rw [h.1, List.append_assoc], h.2.1, h.2.2⟩
  setVars h := ⟨h.1, h.2.1, Or.inl rfl⟩
  vars h := by
    obtain ⟨h1, h2, h3⟩ := h
    rcases h3 with h3 | h3
    · exact Or.inl h3
    · exact Or.inr ⟨usable_of_ok h3, ⟨h1, h2, Or.inr h3⟩, ⟨h1, h2, Or.inr h3⟩⟩

omit [DecidableEq F] in
theorem alike_after (r : Req F V W) (pre : List (Bytes × List Seg)) : Alike (AfterErrs r.vars pre) r r.env.call r.env.errOf := by
  refine ⟨?_⟩
  intro es es' h fn p a w1 outs hc
  exact ⟨⟨h.1, rfl, h.2.2⟩, outs, hc, fun o ho => ⟨o, ho, rfl⟩, fun nr e he => ⟨e, he, Or.inl rfl⟩, fun _ => rfl⟩

/-- an answer with the members `ms` and the errors `errs` -/
def AnswersWith (schema : RSchema F V) (env : Env F V W) (w : W) (req : Request) (ms : List (Bytes × Out))
    (errs : List (Bytes × List Seg)) (w' : W) : Prop :=
  Answers schema env w req (.ok (envelope req.noMeta (print (.obj ms)) (execErrs errs), execErrs errs) w')

/-- **C81.** The selections of an operation run one after the other: take an operation with the selections `a ++ b`, a request that has only
`a` and one that has only `b`. The response to the whole operation is that to `a` followed by that to `b` executed in the world `a` left
behind: the members, the errors and the effects of both, in this order. Only if `a` reports an error `b` may be left out, and then nothing
of it is executed: the whole operation is answered exactly as `a` alone. -/
theorem C81_selections_run_in_order_partial (schema : RSchema F V) (env : Env F V W) (T : Obj F → V → Prop) (w : W) (req reqA reqB : Request)
    (d dA dB : List Def) (o : Operation) (a b : List Sel) (ho : o.sels = a ++ b)
    (hs : Serves req d o) (hsA : Serves reqA dA { o with sels := a }) (hsB : Serves reqB dB { o with sels := b })
    (hfA : fragmentsOf dA = fragmentsOf d) (hfB : fragmentsOf dB = fragmentsOf d)
    (hvA : reqA.vars = req.vars) (hvB : reqB.vars = req.vars) (hv : VarsOK req.vars)
    (ht : WellTyped schema env T) (hf : Fits schema (fragmentsOf d) o) :
    ∃ ma ea w1, AnswersWith schema env w reqA ma ea w1 ∧
      ((ea ≠ [] ∧ AnswersWith schema env w req ma ea w1) ∨
        ∃ mb eb w2, AnswersWith schema env w1 reqB mb eb w2 ∧ AnswersWith schema env w req (ma ++ mb) (ea ++ eb) w2) := by
  obtain ⟨F0, h0⟩ := evalOperation_total (r := reqOf schema env req d o) ht o hf
  obtain ⟨⟨out, crit⟩, es, h1, -⟩ := h0 F0 (Nat.le_refl _) ⟨[], w, false⟩
  have hr := resolve_eval F0 schema env (fun _ => schema.rootQueryValue) w req d o out crit es hs.parsed hs.wf hs.regular hs.len hs.chosen h1
  have eA : reqOf schema env reqA dA { o with sels := a } = reqOf schema env req d o := by unfold reqOf; rw [hvA, hfA]
  have eB : reqOf schema env reqB dB { o with sels := b } = reqOf schema env req d o := by unfold reqOf; rw [hvB, hfB]
  have runA : ∀ out crit es, evalOperation (reqOf schema env req d o) F0 { o with sels := a } ⟨[], w, false⟩ = some ((out, crit), es) →
      Answers schema env w reqA (.ok (envelope reqA.noMeta (print out) (execErrs es.errs), execErrs es.errs) es.world) ∧
      (es.errs = [] → crit = false) := by
    intro out crit es h
    have h' := h
    rw [← eA] at h'
    refine ⟨Answers.of (resolve_eval F0 schema env (fun _ => schema.rootQueryValue) w reqA dA { o with sels := a } out crit es hsA.parsed
      hsA.wf hsA.regular hsA.len hsA.chosen h') (by simp), ?_⟩
    obtain ⟨new, k1, k2, -⟩ := evalOperation_run (reqOf schema env req d o) F0 _ w ⟨[], w, false⟩ _ es rfl h
    rw [List.nil_append] at k1
    intro he
    exact (k2 (by rw [← k1]; exact he)).1
  have runB : ∀ w1 out crit es, evalOperation (reqOf schema env req d o) F0 { o with sels := b } ⟨[], w1, false⟩ = some ((out, crit), es) →
      Answers schema env w1 reqB (.ok (envelope reqB.noMeta (print out) (execErrs es.errs), execErrs es.errs) es.world) := by
    intro w1 out crit es h
    rw [← eB] at h
    exact Answers.of (resolve_eval F0 schema env (fun _ => schema.rootQueryValue) w1 reqB dB { o with sels := b } out crit es hsB.parsed
      hsB.wf hsB.regular hsB.len hsB.chosen h) (by simp)
  have hreq : Answers schema env w req (.ok (envelope req.noMeta (print out) (execErrs es.errs), execErrs es.errs) es.world) := Answers.of hr (by simp)
  -- an operation that fails before its selections
  have early : ∀ msg, (∀ s : List Sel, evalOperation (reqOf schema env req d o) F0 { o with sels := s } = (do
      report [] msg
      return (.obj [], true))) → 
      ∃ ma ea w1, AnswersWith schema env w reqA ma ea w1 ∧
      ((ea ≠ [] ∧ AnswersWith schema env w req ma ea w1) ∨
        ∃ mb eb w2, AnswersWith schema env w1 reqB mb eb w2 ∧ AnswersWith schema env w req (ma ++ mb) (ea ++ eb) w2) := by
    intro msg he
    have e1 := he o.sels
    have hA := (runA (.obj []) true ⟨[(msg, [])], w, false⟩ (by rw [he a]; rfl)).1
    have e2 : evalOperation (reqOf schema env req d o) F0 o ⟨[], w, false⟩ = some ((.obj [], true), ⟨[(msg, [])], w, false⟩) := by
      rw [show o = { o with sels := o.sels } from rfl, e1]; rfl
    rw [e2] at h1
    injection h1 with h1
    injection h1 with h1 h2
    injection h1 with h1 h3
    subst h2
    subst h1
    exact ⟨[], [(msg, [])], w, hA, Or.inl ⟨by simp, hreq⟩⟩
  -- an operation that runs its selections on a root object
  have main : ∀ (t : RType F V) (v : V), (∀ s : List Sel, evalOperation (reqOf schema env req d o) F0 { o with sels := s } = (do
      let (ms, crit) ← evalSels (reqOf schema env req d o) F0 t v 0 [] 255 s
      return (.obj ms, crit))) → 
      ∃ ma ea w1, AnswersWith schema env w reqA ma ea w1 ∧
      ((ea ≠ [] ∧ AnswersWith schema env w req ma ea w1) ∨
        ∃ mb eb w2, AnswersWith schema env w1 reqB mb eb w2 ∧ AnswersWith schema env w req (ma ++ mb) (ea ++ eb) w2) := by
    intro t v he
    have e1 := he o.sels
    rw [show { o with sels := o.sels } = o from rfl] at e1
    rw [e1] at h1
    obtain ⟨⟨ms, c⟩, s, h2, h3⟩ := E_bind.1 h1
    have e := E_pure.1 h3
    injection e with e2 e3
    injection e2 with e4 e5
    subst e3
    subst e4
    subst e5
    rw [ho] at h2
    obtain ⟨ma, ca, s1, k1, k2⟩ := evalSels_append _ t v 0 [] 255 a b F0 _ _ _ h2
    obtain ⟨hA, hcrit⟩ := runA (.obj ma) ca s1 (by rw [he a]; exact E_bind.2 ⟨_, _, k1, rfl⟩)
    refine ⟨ma, s1.errs, s1.world, hA, ?_⟩
    rcases k2 with ⟨rfl, k3, rfl⟩ | ⟨rfl, fuel', mb, cb, k3, k4, k5⟩
    · injection k3 with k5 k6
      subst k5
      refine Or.inl ⟨fun h => ?_, hreq⟩
      have := hcrit h
      cases this
    · injection k5 with k6 k7
      subst k6
      have hfw := (fwdAt (pass := fun _ _ => False) (stop := fun _ _ => False) (afterErrs_frame req.vars s1.errs) (reqOf schema env req d o) env.call env.errOf (fragmentsOf d)
        (alike_after (reqOf schema env req d o) s1.errs) rfl ⟨fun _ h => h.elim, fun _ h => h.elim⟩ fuel' F0 k3).sels
        (Rewrites.refl _ b) t v 0 [] 255
      obtain ⟨s2, l1, l2⟩ := hfw s1 ⟨[], s1.world, false⟩ ⟨by rw [List.append_nil], rfl, Or.inr hv⟩ _ _ k4
      refine Or.inr ⟨mb, s2.errs, s2.world, runB s1.world (.obj mb) cb s2 (by rw [he b]; exact E_bind.2 ⟨_, _, l1, rfl⟩), ?_⟩
      unfold AnswersWith
      rw [l2.2.1, ← l2.1]
      exact hreq
  cases hk : o.kind with
  | subscription => exact early b%"subscriptions are not supported" (fun s => by unfold evalOperation; dsimp only; rw [hk])
  | query =>
    by_cases hd : o.dirs = []
    · exact main _ _ (fun s => by unfold evalOperation; dsimp only; rw [hk]; dsimp only; rw [if_neg (by simpa using hd)])
    · exact early b%"operation directives unsupported" (fun s => by unfold evalOperation; dsimp only; rw [hk]; dsimp only; rw [if_pos hd])
  | mutation =>
    by_cases hd : o.dirs = []
    · exact main _ _ (fun s => by unfold evalOperation; dsimp only; rw [hk]; dsimp only; rw [if_neg (by simpa using hd)])
    · exact early b%"operation directives unsupported" (fun s => by unfold evalOperation; dsimp only; rw [hk]; dsimp only; rw [if_pos hd])

end

/-! ## Examples -/

namespace Demo

def userPart : Fragment := ⟨b%"u", b%"User", [f b%"name"]⟩
def otherPart : Fragment := ⟨b%"v", b%"User", [f b%"age", .spread b%"u" []]⟩
def opParts : Operation := query [f b%"friend" [.spread b%"v" []]]
def reqParts : Request := request b%"{friend{...v}} fragment u on User{name} fragment v on User{age ...u}"
def reqParts' : Request := request b%"fragment v on User{age ...u} {friend{...v}} fragment u on User{name}"
theorem servesParts : Serves reqParts [.op opParts, .frag userPart, .frag otherPart] opParts := Check.serves (by decide +kernel) rfl
theorem servesParts' : Serves reqParts' [.frag otherPart, .op opParts, .frag userPart] opParts := Check.serves (by decide +kernel) rfl

/-- C82 applies to these two requests, -/
example (w : World) (r : R World (Bytes × List ReqErr)) : Answers schema env w reqParts r ↔ Answers schema env w reqParts' r :=
  C82_definition_order_partial schema env HasType w reqParts reqParts' _ _ opParts servesParts servesParts' wellTyped (fits (by decide +kernel))
    rfl rfl (List.Perm.trans (List.Perm.cons _ (List.Perm.swap _ _ _)) (List.Perm.swap _ _ _)) (by decide) r

/-- and they have an answer. -/
example : ask 300 reqParts = some (dataOnly b%"{\"friend\":{\"age\":30,\"name\":\"Bob\"}}", 0, 0) := by decide +kernel

/-- **C82 needs distinct names** (and complete names): of two fragments of one name the first is used. -/
theorem C82_refuted_same_name :
    ask 300 (request b%"{...a} fragment a on User{age} fragment a on User{name}") = some (dataOnly b%"{\"age\":7}", 0, 0) ∧
    ask 300 (request b%"{...a} fragment a on User{name} fragment a on User{age}") = some (dataOnly b%"{\"name\":\"A\\\"n\"}", 0, 0) := by
  decide +kernel

def addOf (n : Bytes) : Sel := .field b%"add" none [] (some [(b%"x", .int n)]) []
def mutate (sels : List Sel) : Operation := ⟨.mutation, b%"m", none, [], sels⟩
def reqTwo : Request := request b%"mutation m{add(x:1) add(x:2)}"
def reqFirst : Request := request b%"mutation m{add(x:1)}"
def reqSecond : Request := request b%"mutation m{add(x:2)}"
theorem servesTwo : Serves reqTwo [.op (mutate [addOf b%"1", addOf b%"2"])] (mutate [addOf b%"1", addOf b%"2"]) := Check.serves (by decide +kernel) rfl
theorem servesFirst : Serves reqFirst [.op (mutate [addOf b%"1"])] (mutate [addOf b%"1"]) := Check.serves (by decide +kernel) rfl
theorem servesSecond : Serves reqSecond [.op (mutate [addOf b%"2"])] (mutate [addOf b%"2"]) := Check.serves (by decide +kernel) rfl

/-- C81 applies to a mutation with two fields, -/
example (w : World) : ∃ ma ea w1, AnswersWith schema env w reqFirst ma ea w1 ∧
      ((ea ≠ [] ∧ AnswersWith schema env w reqTwo ma ea w1) ∨
        ∃ mb eb w2, AnswersWith schema env w1 reqSecond mb eb w2 ∧ AnswersWith schema env w reqTwo (ma ++ mb) (ea ++ eb) w2) :=
  C81_selections_run_in_order_partial schema env HasType w reqTwo reqFirst reqSecond _ _ _ (mutate [addOf b%"1", addOf b%"2"]) [addOf b%"1"] [addOf b%"2"]
    rfl servesTwo servesFirst servesSecond rfl rfl rfl rfl trivial wellTyped (fits (by decide +kernel))

/-- the two functions being called in this order; -/
example : ask 300 reqTwo = some (dataOnly b%"{\"add\":2,\"add\":3}", 0, 2) := by decide +kernel

/-- a refused argument ends the selections: the second function is not called. -/
example : (ask 300 (request b%"mutation m{add(x:\"a\") add(x:2)}")).map (·.2) = some (1, 0) := by decide +kernel

/-- an error a function returns does not. -/
example : (ask 300 (request b%"{both add(x:2)}")).map (·.2) = some (1, 2) := by decide +kernel

end Demo
end Yarql
