import Verif.Props.Rewriting

/-!
# Resolver functions: C26, C30, C46
-/

namespace Yarql
open Doc Resolver Eval Typed Yarql.Bind

section
variable {F V W : Type} [DecidableEq F]

/-- Requests with environments that make evaluation go alike are answered alike. -/
theorem same_answer_env (schema : RSchema F V) (env env' : Env F V W) (T : Obj F → V → Prop) (w : W) (req : Request) (d : List Def)
    (o : Operation) (hs : Serves req d o) (ht : WellTyped schema env T) (hf : Fits schema (fragmentsOf d) o)
    {P : List (Bytes × List Seg) → List (Bytes × List Seg) → Prop}
    (h : ∀ fuel out crit es, evalOperation (reqOf schema env req d o) fuel o ⟨[], w, false⟩ = some ((out, crit), es) →
      ∃ fuel' crit' es', evalOperation (reqOf schema env' req d o) fuel' o ⟨[], w, false⟩ = some ((out, crit'), es') ∧
        P es.errs es'.errs ∧ es'.world = es.world) :
    ∃ out errs errs' w', Answers schema env w req (.ok (envelope req.noMeta (print out) (execErrs errs), execErrs errs) w') ∧
      Answers schema env' w req (.ok (envelope req.noMeta (print out) (execErrs errs'), execErrs errs') w') ∧ P errs errs' := by
  obtain ⟨F0, h0⟩ := evalOperation_total (r := reqOf schema env req d o) ht o hf
  obtain ⟨⟨out, crit⟩, es, h1, -⟩ := h0 F0 (Nat.le_refl _) ⟨[], w, false⟩
  obtain ⟨fuel', crit', es', h2, e1, e2⟩ := h F0 out crit es h1
  have hr := resolve_eval F0 schema env (fun _ => schema.rootQueryValue) w req d o out crit es hs.parsed hs.wf hs.regular hs.len hs.chosen h1
  have hr' := resolve_eval fuel' schema env' (fun _ => schema.rootQueryValue) w req d o out crit' es' hs.parsed hs.wf hs.regular hs.len
    hs.chosen h2
  rw [e2] at hr'
  exact ⟨out, es.errs, es'.errs, es.world, Answers.of hr (by simp), Answers.of hr' (by simp), e1⟩

/-! ## C46 -/

/-- The same program whose functions never return an error next to their value. -/
def noErrors (env : Env F V W) : Env F V W := { env with errOf := fun _ _ => none }

/-- everything alike, but fewer errors -/
def FewerErrors (vars : VarsSrc) (a b : ES W) : Prop := b.errs.Sublist a.errs ∧ b.world = a.world ∧ b.varsParsed = a.varsParsed

omit [DecidableEq F] in
theorem fewer_frame (vars : VarsSrc) : Frame (W := W) vars (FewerErrors vars) where
  world h := h.2.1
  report h e := ⟨List.Sublist.append h.1 (List.Sublist.refl _), h.2.1, h.2.2⟩
  setVars h := ⟨h.1, h.2.1, rfl⟩
  vars h := Or.inl h.2.2

omit [DecidableEq F] in
theorem fewer_alike (r : Req F V W) : Alike (FewerErrors r.vars) r r.env.call (fun _ _ => none) := by
  refine ⟨?_⟩
  intro es es' h fn p a w1 outs hc
  refine ⟨⟨h.1, rfl, h.2.2⟩, outs, hc, fun o ho => ⟨o, ho, rfl⟩, fun nr e he => ⟨e, he, Or.inr ⟨rfl, ?_⟩⟩, fun _ => rfl⟩
  intro a b hab x
  exact ⟨hab.1.trans (List.sublist_append_left _ _), hab.2.1, hab.2.2⟩

omit [DecidableEq F] in
theorem rewrites_refl_false {r : Req F V W} {R : ES W → ES W → Prop} : Dropped R r (fun _ _ => False) (fun _ _ => False) :=
  ⟨fun _ h => h.elim, fun _ h => h.elim⟩

/-- **C46.** Errors returned by resolver functions do not hide data: with and without them, the data of the response and the effects on
the world are the same, and the errors without them are among the errors with them, in the same order. -/
theorem C46_errors_do_not_hide_data (schema : RSchema F V) (env : Env F V W) (T : Obj F → V → Prop) (w : W) (req : Request)
    (d : List Def) (o : Operation) (hs : Serves req d o) (ht : WellTyped schema env T) (hf : Fits schema (fragmentsOf d) o) :
    ∃ out errs errs' w', Answers schema env w req (.ok (envelope req.noMeta (print out) (execErrs errs), execErrs errs) w') ∧
      Answers schema (noErrors env) w req (.ok (envelope req.noMeta (print out) (execErrs errs'), execErrs errs') w') ∧ errs'.Sublist errs := by
  refine same_answer_env schema env (noErrors env) T w req d o hs ht hf (P := fun errs errs' => errs'.Sublist errs) ?_
  intro fuel out crit es h1
  have hfw := operation_fwd (fewer_frame req.vars) (reqOf schema env req d o) env.call (fun _ _ => none) (fragmentsOf d)
    (fewer_alike (reqOf schema env req d o)) rfl rewrites_refl_false fuel fuel (Nat.le_refl _) o o rfl rfl (Rewrites.refl _ _)
  obtain ⟨es', k1, k2⟩ := hfw ⟨[], w, false⟩ ⟨[], w, false⟩ ⟨List.Sublist.refl _, rfl, rfl⟩ _ _ h1
  exact ⟨fuel, crit, es', k1, k2.1, k2.2.1⟩

/-! ## Queries with one field -/

/-- the answer to a query of a single field -/
theorem answer_of_field (schema : RSchema F V) (env : Env F V W) (w : W) (req : Request) (d : List Def) (o : Operation)
    (hs : Serves req d o) (hk : o.kind = .query) (hd : o.dirs = []) {key : Bytes} {name : Option Bytes} {dirs : List Directive}
    {args : Option (List (Bytes × Value))} {sub : List Sel} (hsel : o.sels = [.field key name dirs args sub]) {fuel : Nat}
    {m : Option (Bytes × Out)} {crit : Bool} {es : ES W}
    (h : evalField (reqOf schema env req d o) fuel schema.rootQuery schema.rootQueryValue 0 [] 255 key (name.getD key) dirs args sub
      ⟨[], w, false⟩ = some ((m, crit), es)) :
    Answers schema env w req (.ok (envelope req.noMeta (print (.obj m.toList)) (execErrs es.errs), execErrs es.errs) es.world) := by
  have hf : 0 < fuel := by
    cases fuel with
    | zero => simp only [evalField] at h; cases h
    | succ n => omega
  have h1 : ∃ crit', evalOperation (reqOf schema env req d o) (fuel + 1) o ⟨[], w, false⟩ = some ((.obj m.toList, crit'), es) := by
    unfold evalOperation
    rw [hk, hd, hsel]
    dsimp only
    rw [if_neg (by simp)]
    cases crit with
    | true =>
      refine ⟨true, E_bind.2 ⟨(m.toList, true), es, ?_, rfl⟩⟩
      simp only [evalSels]
      exact E_bind.2 ⟨(m, true), es, h, rfl⟩
    | false =>
      refine ⟨false, E_bind.2 ⟨(m.toList, false), es, ?_, rfl⟩⟩
      simp only [evalSels]
      refine E_bind.2 ⟨(m, false), es, h, ?_⟩
      obtain ⟨f, rfl⟩ : ∃ f, fuel = f + 1 := ⟨fuel - 1, by omega⟩
      refine E_bind.2 ⟨([], false), es, ?_, ?_⟩
      · simp only [evalSels]; rfl
      · show some _ = _
        rw [List.append_nil]
  obtain ⟨crit', h1⟩ := h1
  exact Answers.of (resolve_eval (fuel + 1) schema env (fun _ => schema.rootQueryValue) w req d o _ _ es hs.parsed hs.wf hs.regular hs.len hs.chosen h1)
    (by simp)

/-- Field `f` is a resolver method with inputs and results described by `m`. -/
def IsMethod (f : RField F V) (m : Method F) (out : Obj F) : Prop := f.customObjValue = none ∧ f.obj = .method m out ∧ m.isTypeMethod = true

omit [DecidableEq F] in
theorem callWith_eq (r : Req F V W) (hu : VarsOK r.vars) (path : List Seg) (m : Method F) (fn : V) {args : List (Bytes × Value)} {inputs : List (Arg F)}
    {es : ES W} {w1 : W} {outs : List V}
    (h : Binding.Args r.env r.schema.enums r.schema.inTypes (Binding.Var r.env r.schema.enums r.schema.inTypes r.vars r.decls) m.inFields args
      (freshInputs m) inputs)
    (hc : r.env.call es.world fn (Shows.pathArg path) inputs = some (w1, outs)) :
    ∃ b, callWith r path m fn args es = some (some outs, ⟨es.errs, w1, b⟩) := by
  obtain ⟨es1, h1⟩ := args_complete r (usable_of_ok hu) path m h es
  have h2 := bindArgs_delivers r path m _ _ _ _ _ h1
  refine ⟨es1.varsParsed, ?_⟩
  unfold callWith
  refine E_bind.2 ⟨some inputs, es1, h1, ?_⟩
  dsimp only
  refine E_bind.2 ⟨es1.world, es1, rfl, ?_⟩
  rw [h2.1, pathArg_eq, hc]
  show some (some outs, ({ es1 with world := w1 } : ES W)) = _
  rw [← h2.2.2]

/-- evaluation of a field that is a resolver method -/
theorem evalField_method (r : Req F V W) {t : RType F V} {v : V} {dept : UInt8} {path : List Seg} {room : Nat} {key name : Bytes}
    {args : Option (List (Bytes × Value))} {sub : List Sel} {f : RField F V} {m : Method F} {out : Obj F} {fuel : Nat} {es es' : ES W} {res : Out × Bool}
    (hfind : t.fields.find? (fun f => f.key = fnv1 name) = some f) (hm : IsMethod f m out)
    (h : evalCall r (path ++ [.key key]) m (r.env.method v f.structFieldIdx) (args.getD [])
      (fun x => evalData r fuel out x dept (path ++ [.key key]) room none sub) es = some (res, es')) :
    evalField r (fuel + 2) t v dept path (room + 1) key name [] args sub es = some ((some (key, res.1), res.2), es') := by
  obtain ⟨h1, h2, h3⟩ := hm
  simp only [evalField]
  refine E_bind.2 ⟨some false, es, rfl, ?_⟩
  dsimp only
  rw [hfind]
  dsimp only
  refine E_bind.2 ⟨r.env.method v f.structFieldIdx, es, ?_, ?_⟩
  · unfold valueOfField
    rw [h1, h2]
    dsimp only
    rw [if_pos h3]
    rfl
  · refine E_bind.2 ⟨res, es', ?_, rfl⟩
    unfold evalData
    rw [h2]
    dsimp only
    rw [if_neg (by simp [takesArgs])]
    rw [if_neg (by simp [h3])]
    exact h

/-- **C46** (the error). A query of one resolver field with a scalar result: if the function returns an error next to its value, the
response contains the value, and the errors are exactly this one, with the field's path. -/
theorem C46_error_reported_once (schema : RSchema F V) (env : Env F V W) (w w1 : W) (req : Request) (d : List Def) (o : Operation)
    (hs : Serves req d o) (hv : VarsOK req.vars) (hk : o.kind = .query) (hd : o.dirs = []) {key : Bytes} {name : Option Bytes}
    {args : Option (List (Bytes × Value))} (hsel : o.sels = [.field key name [] args []])
    {f : RField F V} (hfind : schema.rootQuery.fields.find? (fun f => f.key = fnv1 (name.getD key)) = some f)
    {m : Method F} {isID : Bool} {kind : Kind} (hm : IsMethod f m (.data isID kind))
    {inputs : List (Arg F)} (hb : Shows.Inputs (showCtx schema env req d o) m (args.getD []) inputs) {outs : List V}
    (hc : env.call w (env.method schema.rootQueryValue f.structFieldIdx) (Shows.pathArg [.key key]) inputs = some (w1, outs))
    (hctx : env.ctxErr w1 = none) {x e : V} {y : Scalar F} {text : Bytes} {nr : Nat} {msg : Bytes}
    (hx : outs[m.outNr]? = some x) (hview : env.view w1 x = .scalar y) (htext : dataText env isID kind y = some text)
    (hnr : m.errorOutNr = some nr) (he : outs[nr]? = some e) (hmsg : env.errOf w1 e = some msg) :
    Answers schema env w req (.ok (envelope req.noMeta (print (.obj [(key, .leaf text)])) (execErrs [(msg, [.key key])]),
      execErrs [(msg, [.key key])]) w1) := by
  obtain ⟨b, h1⟩ := callWith_eq (reqOf schema env req d o) hv [.key key] m (env.method schema.rootQueryValue f.structFieldIdx) (es := ⟨[], w, false⟩) hb hc
  refine answer_of_field schema env w req d o hs hk hd hsel (fuel := 3) (m := some (key, .leaf text)) (crit := false)
    (es := ⟨[(msg, [.key key])], w1, b⟩) ?_
  refine evalField_method (reqOf schema env req d o) (fuel := 1) (res := (.leaf text, false)) hfind hm ?_
  unfold evalCall
  refine E_bind.2 ⟨_, _, h1, ?_⟩
  dsimp only
  rw [hnr]
  dsimp only
  rw [he]
  dsimp only
  refine E_bind.2 ⟨w1, _, rfl, ?_⟩
  have hmsg : (reqOf schema env req d o).env.errOf w1 e = some msg := hmsg
  rw [hmsg]
  dsimp only
  refine E_bind.2 ⟨(), ⟨[(msg, [.key key])], w1, b⟩, rfl, ?_⟩
  unfold evalResult
  refine E_bind.2 ⟨w1, _, rfl, ?_⟩
  have hctx : (reqOf schema env req d o).env.ctxErr w1 = none := hctx
  rw [hctx]
  dsimp only
  rw [hx]
  dsimp only
  unfold evalData
  rw [if_neg (by simp)]
  dsimp only
  rw [if_neg (by simp)]
  refine E_bind.2 ⟨w1, _, rfl, ?_⟩
  have hview : (reqOf schema env req d o).env.view w1 x = .scalar y := hview
  have htext : dataText (reqOf schema env req d o).env isID kind y = some text := htext
  rw [hview]
  dsimp only
  rw [htext]
  rfl

/-! ## C26 -/

/-- **C26** (any field of any object, in any state). If the arguments of a resolver field do not bind (an argument the function does not
declare, or a value that does not fit), the function is not called: the world stays as it is, exactly one error with
the field's path is added, and selection stops. -/
theorem C26_not_called_partial (schema : RSchema F V) (env : Env F V W) (req : Request) (d : List Def) (o : Operation)
    {t : RType F V} {v : V} {dept : UInt8} {path : List Seg} {room fuel : Nat} {key name : Bytes}
    {args : Option (List (Bytes × Value))} {sub : List Sel} {f : RField F V} {m : Method F} {out : Obj F} {es es' : ES W} {res : Option (Bytes × Out) × Bool}
    (hfind : t.fields.find? (fun f => f.key = fnv1 name) = some f) (hm : IsMethod f m out)
    (hb : ∀ inputs, ¬ Shows.Inputs (showCtx schema env req d o) m (args.getD []) inputs)
    (h : evalField (reqOf schema env req d o) fuel t v dept path room key name [] args sub es = some (res, es')) :
    res = (some (key, .missing), true) ∧ es'.world = es.world ∧ ∃ msg, es'.errs = es.errs ++ [(msg, path ++ [.key key])] := by
  obtain ⟨h1, h2, h3⟩ := hm
  cases fuel with
  | zero => simp only [evalField] at h; cases h
  | succ fuel =>
    simp only [evalField] at h
    obtain ⟨a, s1, k1, k2⟩ := E_bind.1 h
    have e := E_pure.1 (show (Pure.pure (some false) : E W (Option Bool)) es = _ from k1)
    cases e
    dsimp only at k2
    rw [hfind] at k2
    dsimp only at k2
    cases room with
    | zero => cases k2
    | succ room =>
      dsimp only at k2
      obtain ⟨x, s2, k3, k4⟩ := E_bind.1 k2
      unfold valueOfField at k3
      rw [h1, h2] at k3
      dsimp only at k3
      rw [if_pos h3] at k3
      have e := E_pure.1 k3
      cases e
      obtain ⟨⟨o1, c1⟩, s3, k5, k6⟩ := E_bind.1 k4
      have e := E_pure.1 k6
      cases e
      cases fuel with
      | zero => unfold evalData at k5; cases k5
      | succ fuel =>
        unfold evalData at k5
        rw [h2] at k5
        dsimp only at k5
        rw [if_neg (by simp [takesArgs]), if_neg (by simp [h3])] at k5
        unfold evalCall at k5
        obtain ⟨c, s4, k7, k8⟩ := E_bind.1 k5
        unfold callWith at k7
        obtain ⟨i, s5, k9, k10⟩ := E_bind.1 k7
        have hd := bindArgs_delivers (reqOf schema env req d o) _ m _ _ _ _ _ k9
        cases i with
        | some i => exact absurd hd.2.1 (hb i)
        | none =>
          have e := E_pure.1 k10
          cases e
          have e := E_pure.1 k8
          cases e
          exact ⟨rfl, hd.1, hd.2⟩

/-- **C26** (a query of one resolver field). If the arguments do not bind, the answer is one error with the field's path, and
nothing has happened to the world. -/
theorem C26_unbound_query_partial (schema : RSchema F V) (env : Env F V W) (T : Obj F → V → Prop) (w : W) (req : Request) (d : List Def) (o : Operation)
    (hs : Serves req d o) (ht : WellTyped schema env T) (hf : Fits schema (fragmentsOf d) o) (hk : o.kind = .query) (hd : o.dirs = [])
    {key : Bytes} {name : Option Bytes} {args : Option (List (Bytes × Value))} {sub : List Sel} (hsel : o.sels = [.field key name [] args sub])
    {f : RField F V} (hfind : schema.rootQuery.fields.find? (fun f => f.key = fnv1 (name.getD key)) = some f)
    {m : Method F} {out : Obj F} (hm : IsMethod f m out) (hb : ∀ inputs, ¬ Shows.Inputs (showCtx schema env req d o) m (args.getD []) inputs) :
    ∃ msg, Answers schema env w req (.ok (envelope req.noMeta (print (.obj [(key, .missing)])) (execErrs [(msg, [.key key])]),
      execErrs [(msg, [.key key])]) w) := by
  obtain ⟨F0, h0⟩ := evalOperation_total (r := reqOf schema env req d o) ht o hf
  obtain ⟨⟨out', crit⟩, es, h1, -⟩ := h0 F0 (Nat.le_refl _) ⟨[], w, false⟩
  unfold evalOperation at h1
  rw [hk, hd, hsel] at h1
  dsimp only at h1
  rw [if_neg (by simp)] at h1
  obtain ⟨⟨ms, c⟩, s1, k1, k2⟩ := E_bind.1 h1
  cases F0 with
  | zero => simp only [evalSels] at k1; cases k1
  | succ F0 =>
    simp only [evalSels] at k1
    obtain ⟨⟨m1, c1⟩, s2, k3, k4⟩ := E_bind.1 k1
    obtain ⟨e1, e2, msg, e3⟩ := C26_not_called_partial schema env req d o hfind hm hb k3
    cases e1
    have a := answer_of_field schema env w req d o hs hk hd hsel k3
    rw [e2, e3] at a
    exact ⟨msg, a⟩

/-! ## C30 -/

/-- **C30** (a query of one resolver field). If the context is cancelled when the function returns, the field is null, its
value is not looked at, and the cancellation is reported (after an error of the function, if any). -/
theorem C30_null_and_error (schema : RSchema F V) (env : Env F V W) (w w1 : W) (req : Request) (d : List Def) (o : Operation)
    (hs : Serves req d o) (hv : VarsOK req.vars) (hk : o.kind = .query) (hd : o.dirs = []) {key : Bytes} {name : Option Bytes}
    {args : Option (List (Bytes × Value))} {sub : List Sel} (hsel : o.sels = [.field key name [] args sub])
    {f : RField F V} (hfind : schema.rootQuery.fields.find? (fun f => f.key = fnv1 (name.getD key)) = some f)
    {m : Method F} {out : Obj F} (hm : IsMethod f m out)
    {inputs : List (Arg F)} (hb : Shows.Inputs (showCtx schema env req d o) m (args.getD []) inputs) {outs : List V}
    (hc : env.call w (env.method schema.rootQueryValue f.structFieldIdx) (Shows.pathArg [.key key]) inputs = some (w1, outs))
    {cancelled : Bytes} (hctx : env.ctxErr w1 = some cancelled) {own : List Bytes}
    (hown : (m.errorOutNr = none ∧ own = []) ∨ ∃ nr e, m.errorOutNr = some nr ∧ outs[nr]? = some e ∧ own = (env.errOf w1 e).toList) :
    Answers schema env w req (.ok (envelope req.noMeta (print (.obj [(key, .null)])) (execErrs ((own ++ [cancelled]).map (fun msg => (msg, [.key key])))),
      execErrs ((own ++ [cancelled]).map (fun msg => (msg, [.key key])))) w1) := by
  obtain ⟨b, h1⟩ := callWith_eq (reqOf schema env req d o) hv [.key key] m (env.method schema.rootQueryValue f.structFieldIdx) (es := ⟨[], w, false⟩) hb hc
  refine answer_of_field schema env w req d o hs hk hd hsel (fuel := 3) (m := some (key, .null)) (crit := false)
    (es := ⟨(own ++ [cancelled]).map (fun msg => (msg, [.key key])), w1, b⟩) ?_
  refine evalField_method (reqOf schema env req d o) (fuel := 1) (res := (.null, false)) hfind hm ?_
  have hctx : (reqOf schema env req d o).env.ctxErr w1 = some cancelled := hctx
  have hres : ∀ (errs : List (Bytes × List Seg)) (next : V → E W (Out × Bool)), evalResult (reqOf schema env req d o) [.key key] m outs next ⟨errs, w1, b⟩ =
      some ((.null, false), ⟨errs ++ [(cancelled, [.key key])], w1, b⟩) := by
    intro errs next
    unfold evalResult
    refine E_bind.2 ⟨w1, _, rfl, ?_⟩
    rw [hctx]
    rfl
  unfold evalCall
  refine E_bind.2 ⟨_, _, h1, ?_⟩
  dsimp only
  rcases hown with ⟨hnr, rfl⟩ | ⟨nr, e, hnr, he, rfl⟩
  · rw [hnr]
    exact hres [] _
  · rw [hnr]
    dsimp only
    rw [he]
    dsimp only
    refine E_bind.2 ⟨w1, _, rfl, ?_⟩
    have hre : (reqOf schema env req d o).env.errOf w1 e = env.errOf w1 e := rfl
    rw [hre]
    cases env.errOf w1 e with
    | none => exact hres [] _
    | some msg =>
      dsimp only
      refine E_bind.2 ⟨(), ⟨[(msg, [.key key])], w1, b⟩, rfl, ?_⟩
      exact hres _ _

/-- The same program with other functions. -/
def withCall (env : Env F V W) (call' : W → V → Bytes → List (Arg F) → Option (W × List V)) : Env F V W := { env with call := call' }

/-- `call'` does what `call` does to a world in which the context is cancelled, and its results look the same as errors and as
directive modifiers; otherwise its results may be anything. The context stays cancelled. -/
def SameButResults (env : Env F V W) (call' : W → V → Bytes → List (Arg F) → Option (W × List V)) : Prop :=
  ∀ w fn p a w1 outs, env.ctxErr w ≠ none → env.call w fn p a = some (w1, outs) → env.ctxErr w1 ≠ none ∧
    ∃ outs', call' w fn p a = some (w1, outs') ∧
      ∀ (i : Nat) x, outs[i]? = some x → ∃ x', outs'[i]? = some x' ∧ env.errOf w1 x' = env.errOf w1 x ∧ env.skip w1 x' = env.skip w1 x

/-- everything alike, and the context is cancelled -/
def BothCancelled (env : Env F V W) (a b : ES W) : Prop := b = a ∧ env.ctxErr a.world ≠ none

omit [DecidableEq F] in
theorem cancelled_frame (env : Env F V W) (vars : VarsSrc) : Frame vars (BothCancelled env) where
  world h := by rw [h.1]
  report h e := ⟨by rw [h.1], h.2⟩
  setVars h := ⟨by rw [h.1], h.2⟩
  vars h := Or.inl (by rw [h.1])

/-- **C30.** Once the context is cancelled, no value returned by a resolver function reaches the response: whatever else the functions
return, the answer is the same (for queries of any shape). -/
theorem C30_results_do_not_matter (schema : RSchema F V) (env : Env F V W) (T : Obj F → V → Prop) (w : W) (req : Request)
    (d : List Def) (o : Operation) (hs : Serves req d o) (ht : WellTyped schema env T) (hf : Fits schema (fragmentsOf d) o)
    (hctx : env.ctxErr w ≠ none) {call' : W → V → Bytes → List (Arg F) → Option (W × List V)} (hcall : SameButResults env call')
    (r : R W (Bytes × List ReqErr)) : Answers schema env w req r ↔ Answers schema (withCall env call') w req r := by
  have key := same_answer_env schema env (withCall env call') T w req d o hs ht hf (P := fun errs errs' => errs' = errs) (by
    intro fuel out crit es h1
    have al : Alike (BothCancelled env) (reqOf schema env req d o) call' env.errOf := by
      refine ⟨?_⟩
      intro es es' h fn p a w1 outs hc
      obtain ⟨c1, outs', c2, c3⟩ := hcall es.world fn p a w1 outs h.2 hc
      refine ⟨⟨by rw [h.1], c1⟩, outs', c2, ?_, ?_, ?_⟩
      · intro x hx
        obtain ⟨x', k1, k2, k3⟩ := c3 0 x hx
        exact ⟨x', k1, k3⟩
      · intro nr e he
        obtain ⟨x', k1, k2, k3⟩ := c3 nr e he
        exact ⟨x', k1, Or.inl k2⟩
      · intro h0
        exact absurd h0 c1
    have hfw := operation_fwd (cancelled_frame env req.vars) (reqOf schema env req d o) call' env.errOf (fragmentsOf d) al rfl
      rewrites_refl_false fuel fuel (Nat.le_refl _) o o rfl rfl (Rewrites.refl _ _)
    obtain ⟨es', k1, k2⟩ := hfw ⟨[], w, false⟩ ⟨[], w, false⟩ ⟨rfl, hctx⟩ _ _ h1
    exact ⟨fuel, crit, es', k1, by rw [k2.1], by rw [k2.1]⟩)
  obtain ⟨out, errs, errs', w', a, a', e⟩ := key
  subst e
  constructor
  · intro h; rw [C41_deterministic h a]; exact a'
  · intro h; rw [C41_deterministic h a']; exact a

end

/-! ## Examples -/

namespace Demo

def opBoth : Operation := query [f b%"both"]
theorem servesBoth : Serves (request b%"{both}") [.op opBoth] opBoth := Check.serves (by decide +kernel) rfl

/-- the function `both` returns a value and an error -/
example : Answers schema env [] (request b%"{both}")
    (.ok (envelope false (print (.obj [(b%"both", .leaf b%"\"value\"")])) (execErrs [(b%"went wrong", [.key b%"both"])]),
      execErrs [(b%"went wrong", [.key b%"both"])]) [(1, b%"[\"both\"]", [])]) := by
  refine C46_error_reported_once schema env [] _ _ _ opBoth servesBoth trivial rfl rfl (args := none) (name := none) rfl
    (f := field b%"both" 1 (.method bothMethod (.data false .string))) (by rfl) ⟨rfl, rfl, rfl⟩ (inputs := []) .nil
    (outs := [.str b%"value", .error (some b%"went wrong")]) (by rfl) rfl
    rfl rfl (by decide +kernel) rfl rfl rfl

example : ∃ out errs errs' w', Answers schema env [] (request b%"{both}")
      (.ok (envelope false (print out) (execErrs errs), execErrs errs) w') ∧
    Answers schema (noErrors env) [] (request b%"{both}") (.ok (envelope false (print out) (execErrs errs'), execErrs errs') w') ∧
      errs'.Sublist errs :=
  C46_errors_do_not_hide_data schema env HasType [] _ _ opBoth servesBoth wellTyped (fits (by decide +kernel))

def opAdd (key : Bytes) : Operation := query [.field b%"add" none [] (some [(key, .int b%"1")]) []]
theorem servesBad : Serves (request b%"{add(y:1)}") [.op (opAdd b%"y")] (opAdd b%"y") := Check.serves (by decide +kernel) rfl
theorem servesGood : Serves (request b%"{add(x:1)}") [.op (opAdd b%"x")] (opAdd b%"x") := Check.serves (by decide +kernel) rfl

/-- `add` has no argument `y` -/
example : ∃ msg, Answers schema env [] (request b%"{add(y:1)}")
    (.ok (envelope false (print (.obj [(b%"add", .missing)])) (execErrs [(msg, [.key b%"add"])]), execErrs [(msg, [.key b%"add"])]) []) := by
  refine C26_unbound_query_partial schema env HasType [] _ _ (opAdd b%"y") servesBad wellTyped (fits (by decide +kernel)) rfl rfl rfl
    (f := field b%"add" 0 (.method addMethod (.data false (.int .w64)))) (by rfl) ⟨rfl, rfl, rfl⟩ ?_
  intro inputs h
  cases h with
  | cons hf _ _ _ => exact absurd hf (by simp [addMethod])

/-- the same program, cancelled from the start -/
def cancelledEnv : Env Unit D World := { env with ctxErr := fun _ => some b%"context canceled" }

theorem known_cancelled (i : Input) : Known schema env i → Known schema cancelledEnv i := by
  induction i with
  | ptr e ih => exact ih
  | slice e ih => exact ih
  | array n e ih => exact ih
  | _ => exact id

theorem method_cancelled (m : Method Unit) (h : MethodOK schema env m) : MethodOK schema cancelledEnv m :=
  ⟨fun a ha => known_cancelled _ (h.known a ha), h.zero, h.slots⟩

theorem cancelledTyped : WellTyped schema cancelledEnv HasType :=
  { wellTyped with
    inTypes := fun n d h => by cases h
    method := fun m out v h => ⟨method_cancelled m (wellTyped.method m out v h).1, (wellTyped.method m out v h).2⟩
    directive := fun loc table h x hx => ⟨method_cancelled _ (wellTyped.directive loc table h x hx).1, (wellTyped.directive loc table h x hx).2⟩ }

/-- functions that return something else -/
def call' (w : World) (f : D) (path : Bytes) (args : List (Arg Unit)) : Option (World × List D) :=
  match call w f path args with
  | some (w', [.int i]) => some (w', [.int (i + 100)])
  | x => x

example (r : R World (Bytes × List ReqErr)) : Answers schema cancelledEnv [] (request b%"{add(x:1)}") r ↔
    Answers schema (withCall cancelledEnv call') [] (request b%"{add(x:1)}") r := by
  refine C30_results_do_not_matter schema cancelledEnv HasType [] _ _ (opAdd b%"x") servesGood cancelledTyped (fits (by decide +kernel))
    (by simp [cancelledEnv]) ?_ r
  intro w fn p a w1 outs _ h
  refine ⟨by simp [cancelledEnv], ?_⟩
  have h : call w fn p a = some (w1, outs) := h
  unfold call'
  rw [h]
  split
  · rename_i w' i heq
    cases heq
    refine ⟨_, rfl, ?_⟩
    intro i x hx
    cases i with
    | zero => cases hx; exact ⟨_, rfl, rfl, rfl⟩
    | succ i => simp at hx
  · exact ⟨_, rfl, fun i x hx => ⟨x, hx, rfl, rfl⟩⟩

/-- the cancelled query: null and the error -/
example : Answers schema cancelledEnv [] (request b%"{add(x:1)}")
    (.ok (envelope false (print (.obj [(b%"add", .null)])) (execErrs [(b%"context canceled", [.key b%"add"])]),
      execErrs [(b%"context canceled", [.key b%"add"])]) [(0, b%"[\"add\"]", [.val (.struct [.scalar (.int 1)])])]) := by
  refine C30_null_and_error schema cancelledEnv [] _ _ _ (opAdd b%"x") servesGood trivial rfl rfl rfl
    (f := field b%"add" 0 (.method addMethod (.data false (.int .w64)))) (by rfl) ⟨rfl, rfl, rfl⟩
    (inputs := [.val (.struct [.scalar (.int 1)])]) ?_ (outs := [.int 2]) rfl rfl (own := []) (Or.inl ⟨rfl, rfl⟩)
  refine .cons (a := ⟨b%"x", 0, 0, .scalar (.int .w64) none false⟩) (old := .scalar (.int 0)) (x := .scalar (.int 1)) (set := true)
    (inputs' := [.val (.struct [.scalar (.int 1)])]) rfl ?_ ⟨_, _, rfl, ⟨_, rfl, rfl, rfl⟩, rfl⟩ .nil
  refine .scalar (.int (i := 1) ⟨b%"1", 1, ⟨by decide, by unfold Digits; decide, by decide⟩, Or.inl ⟨rfl, rfl⟩⟩ ?_)
  unfold Binding.InRange
  decide

end Demo
end Yarql
