import Verif.Proofs.ShowsComplete
import Verif.Spec.Rewrite

/-!
# Two evaluations side by side

A request `r` and another one with rewritten selections, other fragments and other user functions.  `Fwd R m m'`: from states related by
`R`, whenever the first step is defined, so is the second, with the same result and related states.
-/

namespace Yarql
namespace Eval
open Doc Resolver Yarql.Bind Binding Typed
open Http (J)

section
variable {F V W α β : Type}

/-- The same request with other functions and fragments. -/
def other (r : Req F V W) (call' : W → V → Bytes → List (Arg F) → Option (W × List V)) (errOf' : W → V → Option Bytes)
    (frags' : List Fragment) : Req F V W :=
  ⟨r.schema, { r.env with call := call', errOf := errOf' }, r.vars, frags', r.decls⟩

/-! ## Binding does not call functions -/

section
variable (env : Env F V W) (call' : W → V → Bytes → List (Arg F) → Option (W × List V)) (errOf' : W → V → Option Bytes)

theorem zeroOf_other (inTypes : List (Bytes × InStruct F)) (e : Input) :
    zeroOf { env with call := call', errOf := errOf' } inTypes e = zeroOf env inTypes e := by
  induction e <;> simp_all [zeroOf] <;> rfl

theorem ptrWrap_other (inTypes : List (Bytes × InStruct F)) (base : Input → InVal F → B (InVal F × Bool)) (e : Input) (cur : InVal F) :
    ptrWrap { env with call := call', errOf := errOf' } inTypes base e cur = ptrWrap env inTypes base e cur := by
  induction e generalizing cur with
  | ptr e ih => unfold ptrWrap; rw [ih, zeroOf_other]
  | _ => rfl

mutual
theorem jsonBase_other (enums : List (EnumDef F)) (inTypes : List (Bytes × InStruct F)) (j : J) (inp : Input) (cur : InVal F) :
    bindJSONBase { env with call := call', errOf := errOf' } enums inTypes j inp cur = bindJSONBase env enums inTypes j inp cur := by
  cases j with
  | null => unfold bindJSONBase; rfl
  | bool b => unfold bindJSONBase; rfl
  | num r => unfold bindJSONBase; rfl
  | str s => unfold bindJSONBase; rfl
  | arr items =>
    unfold bindJSONBase
    cases inp with
    | slice e => dsimp only; rw [jsonItems_other enums inTypes items e]; rfl
    | _ => rfl
  | obj ms =>
    unfold bindJSONBase
    cases inp with
    | struct n =>
      dsimp only
      cases lookup inTypes n with
      | none => rfl
      | some d => dsimp only; rw [jsonMembers_other enums inTypes ms d.fields cur]; rfl
    | _ => rfl
theorem jsonItems_other (enums : List (EnumDef F)) (inTypes : List (Bytes × InStruct F)) (js : List J) (e : Input) :
    bindJSONItems { env with call := call', errOf := errOf' } enums inTypes js e = bindJSONItems env enums inTypes js e := by
  cases js with
  | nil => unfold bindJSONItems; rfl
  | cons j js =>
    unfold bindJSONItems
    rw [jsonItems_other enums inTypes js e, ptrWrap_other, zeroOf_other]
    have e : (fun i c => bindJSONBase { env with call := call', errOf := errOf' } enums inTypes j i c) = (fun i c => bindJSONBase env enums inTypes j i c) :=
      funext fun i => funext fun c => jsonBase_other enums inTypes j i c
    rw [e]
theorem jsonMembers_other (enums : List (EnumDef F)) (inTypes : List (Bytes × InStruct F)) (ms : List (Bytes × J)) (fs : List InField) (cur : InVal F) :
    bindJSONMembers { env with call := call', errOf := errOf' } enums inTypes ms fs cur = bindJSONMembers env enums inTypes ms fs cur := by
  match ms with
  | [] => unfold bindJSONMembers; rfl
  | (k, j) :: ms =>
    unfold bindJSONMembers
    cases fs.find? (fun f => decide (f.key = k)) with
    | none => rfl
    | some f =>
      dsimp only
      cases getField cur f.goFieldIdx with
      | none => rfl
      | some c =>
        dsimp only
        have e : (fun i c => bindJSONBase { env with call := call', errOf := errOf' } enums inTypes j i c) = (fun i c => bindJSONBase env enums inTypes j i c) :=
          funext fun i => funext fun c => jsonBase_other enums inTypes j i c
        rw [ptrWrap_other, e]
        congr 1
        funext r
        exact jsonMembers_other enums inTypes ms fs _
end

theorem bindJSON_other (enums : List (EnumDef F)) (inTypes : List (Bytes × InStruct F)) (j : J) (inp : Input) (cur : InVal F) :
    bindJSON { env with call := call', errOf := errOf' } enums inTypes j inp cur = bindJSON env enums inTypes j inp cur := by
  unfold bindJSON
  rw [ptrWrap_other]
  congr 1
  funext i c
  exact jsonBase_other env call' errOf' enums inTypes j i c

end

/-! ## Steps -/

/-- whenever the first step is defined, the second does the same -/
def Fwd (R : ES W → ES W → Prop) (m m' : E W α) : Prop :=
  ∀ es es', R es es' → ∀ a s, m es = some (a, s) → ∃ s', m' es' = some (a, s') ∧ R s s'

/-- relations between states that steps preserve -/
structure Frame (vars : VarsSrc) (R : ES W → ES W → Prop) : Prop where
  world : ∀ {a b}, R a b → b.world = a.world
  report : ∀ {a b}, R a b → ∀ e, R { a with errs := a.errs ++ [e] } { b with errs := b.errs ++ [e] }
  setVars : ∀ {a b}, R a b → R { a with varsParsed := true } { b with varsParsed := true }
  vars : ∀ {a b}, R a b → b.varsParsed = a.varsParsed ∨ (Usable vars ∧ R { a with varsParsed := true } b ∧ R a { b with varsParsed := true })

variable {R : ES W → ES W → Prop}

theorem Fwd.pure {a : α} : Fwd R (Pure.pure a) (Pure.pure a) := by
  intro es es' h b s hm
  have e := E_pure.1 hm
  cases e
  exact ⟨_, rfl, h⟩

theorem Fwd.bind {m m' : E W α} {f f' : α → E W β} (hm : Fwd R m m') (hf : ∀ a, Fwd R (f a) (f' a)) : Fwd R (m >>= f) (m' >>= f') := by
  intro es es' h b s hb
  obtain ⟨a, s1, h1, h2⟩ := E_bind.1 hb
  obtain ⟨s1', k1, k2⟩ := hm es es' h a s1 h1
  obtain ⟨s', l1, l2⟩ := hf a s1 s1' k2 b s h2
  exact ⟨s', E_bind.2 ⟨a, s1', k1, l1⟩, l2⟩

theorem Fwd.undefined {m' : E W α} : Fwd R undefinedE m' := by
  intro es es' h b s hm
  cases hm

variable {vars : VarsSrc} (fr : Frame vars R)
include fr

theorem Fwd.report {path : List Seg} {msg : Bytes} : Fwd R (Eval.report path msg) (Eval.report path msg) := by
  intro es es' h b s hm
  have e1 : Option.some ((), ({ es with errs := es.errs ++ [(msg, path)] } : ES W)) = Option.some (b, s) := hm
  cases e1
  exact ⟨_, rfl, fr.report h _⟩

theorem Fwd.getWorld {f f' : W → E W β} (hf : ∀ w, Fwd R (f w) (f' w)) : Fwd R (Eval.getWorld >>= f) (Eval.getWorld >>= f') := by
  refine Fwd.bind ?_ hf
  intro es es' h b s hm
  have e1 : Option.some (es.world, es) = Option.some (b, s) := hm
  cases e1
  exact ⟨es', by rw [← fr.world h]; rfl, h⟩

theorem Fwd.setVars : Fwd R Eval.setVarsParsed Eval.setVarsParsed := by
  intro es es' h b s hm
  have e1 : Option.some ((), ({ es with varsParsed := true } : ES W)) = Option.some (b, s) := hm
  cases e1
  exact ⟨_, rfl, fr.setVars h⟩

theorem Fwd.fail {path : List Seg} {msg : Bytes} : Fwd R (Eval.fail (α := α) path msg) (Eval.fail path msg) :=
  Fwd.bind (Fwd.report fr) (fun _ => Fwd.pure)

theorem Fwd.convert {path : List Seg} {b : B α} : Fwd R (Eval.convert path b) (Eval.convert path b) := by
  cases b with
  | ok a => exact Fwd.pure
  | err m => exact Fwd.fail fr
  | panic => exact Fwd.undefined

theorem Fwd.setE {path : List Seg} {b : B (InVal F)} : Fwd R (Eval.setE path b) (Eval.setE path b) := by
  unfold Eval.setE
  refine Fwd.bind (Fwd.convert fr) ?_
  intro a
  cases a <;> exact Fwd.pure

/-! ## Binding -/

variable (r : Req F V W) (call' : W → V → Bytes → List (Arg F) → Option (W × List V)) (errOf' : W → V → Option Bytes) (frags' : List Fragment)

local notation "r'" => other r call' errOf' frags'

theorem ptrBind_fwd (isNull : Bool) {base base' : InVal F → Input → E W (Bound F)} (hb : ∀ c i, Fwd R (base c i) (base' c i))
    (inp : Input) (cur : InVal F) : Fwd R (ptrBind r isNull base cur inp) (ptrBind r' isNull base' cur inp) := by
  induction inp generalizing cur with
  | ptr e ih =>
    unfold ptrBind
    split
    · exact Fwd.pure
    · have hz : zeroOf (r').env (r').schema.inTypes e = zeroOf r.env r.schema.inTypes e := zeroOf_other r.env call' errOf' _ e
      rw [hz]
      refine Fwd.bind (ih _) ?_
      rintro (_ | ⟨v, _ | _⟩) <;> exact Fwd.pure
  | _ => exact hb _ _

mutual
theorem litBase_fwd (path : List Seg) {onVar onVar' : Bytes → InVal F → Input → E W (Bound F)} (hv : ∀ n c i, Fwd R (onVar n c i) (onVar' n c i))
    (v : Value) (cur : InVal F) (inp : Input) : Fwd R (bindLitBase r path onVar v cur inp) (bindLitBase r' path onVar' v cur inp) := by
  cases v with
  | var n => simp only [bindLitBase]; exact hv n cur inp
  | int d => simp only [bindLitBase]; exact Fwd.setE fr
  | float d => simp only [bindLitBase]; exact Fwd.setE fr
  | str s => simp only [bindLitBase]; exact Fwd.setE fr
  | bool b => simp only [bindLitBase]; exact Fwd.setE fr
  | null => simp only [bindLitBase]; exact Fwd.pure
  | enum n => simp only [bindLitBase]; exact Fwd.setE fr
  | list vs =>
    cases inp with
    | slice e =>
      simp only [bindLitBase]
      refine Fwd.bind (items_fwd path hv vs e) ?_
      rintro (_ | xs) <;> exact Fwd.pure
    | _ => simp only [bindLitBase]; exact Fwd.fail fr
  | obj fs =>
    cases inp with
    | struct n =>
      simp only [bindLitBase]
      have e : lookup (r').schema.inTypes n = lookup r.schema.inTypes n := rfl
      rw [e]
      cases lookup r.schema.inTypes n with
      | none => exact Fwd.undefined
      | some d => exact members_fwd path hv fs d.fields (cur, true)
    | time => simp only [bindLitBase]; exact members_fwd path hv fs [] (cur, true)
    | _ => simp only [bindLitBase]; exact Fwd.fail fr
theorem items_fwd (path : List Seg) {onVar onVar' : Bytes → InVal F → Input → E W (Bound F)} (hv : ∀ n c i, Fwd R (onVar n c i) (onVar' n c i))
    (vs : List Value) (e : Input) : Fwd R (bindItems r path onVar vs e) (bindItems r' path onVar' vs e) := by
  match vs with
  | [] => simp only [bindItems]; exact Fwd.pure
  | v :: vs =>
    simp only [bindItems]
    have hz : zeroOf (r').env (r').schema.inTypes e = zeroOf r.env r.schema.inTypes e := zeroOf_other r.env call' errOf' _ e
    rw [hz]
    refine Fwd.bind (ptrBind_fwd fr r call' errOf' frags' _ (fun c i => litBase_fwd path hv v c i) _ _) ?_
    rintro (_ | x)
    · exact Fwd.pure
    · refine Fwd.bind (items_fwd path hv vs e) ?_
      rintro (_ | xs) <;> exact Fwd.pure
theorem members_fwd (path : List Seg) {onVar onVar' : Bytes → InVal F → Input → E W (Bound F)} (hv : ∀ n c i, Fwd R (onVar n c i) (onVar' n c i))
    (ms : List (Bytes × Value)) (fs : List InField) (acc : InVal F × Bool) :
    Fwd R (bindMembers r path onVar ms fs acc) (bindMembers r' path onVar' ms fs acc) := by
  match ms with
  | [] => simp only [bindMembers]; exact Fwd.pure
  | (k, v) :: ms =>
    simp only [bindMembers]
    cases fs.find? (fun f => decide (f.key = k)) with
    | none => exact Fwd.fail fr
    | some f =>
      dsimp only
      cases getField acc.1 f.goFieldIdx with
      | none => exact Fwd.undefined
      | some c =>
        dsimp only
        refine Fwd.bind (ptrBind_fwd fr r call' errOf' frags' _ (fun c i => litBase_fwd path hv v c i) _ _) ?_
        rintro (_ | ⟨x, set⟩)
        · exact Fwd.pure
        · exact members_fwd path hv ms fs _
end

theorem lit_fwd (path : List Seg) {onVar onVar' : Bytes → InVal F → Input → E W (Bound F)} (hv : ∀ n c i, Fwd R (onVar n c i) (onVar' n c i))
    (v : Value) (cur : InVal F) (inp : Input) : Fwd R (bindLit r path onVar v cur inp) (bindLit r' path onVar' v cur inp) := by
  unfold bindLit
  exact ptrBind_fwd fr r call' errOf' frags' _ (fun c i => litBase_fwd fr r call' errOf' frags' path hv v c i) _ _

theorem checkDeclared_fwd (path : List Seg) (name : Bytes) (t : Ty) (inp : Input) :
    Fwd R (checkDeclared r path name t inp) (checkDeclared r' path name t inp) := by
  induction t generalizing inp with
  | named n nn => unfold checkDeclared; exact Fwd.convert fr
  | list t nn ih =>
    cases inp with
    | slice e => unfold checkDeclared; exact ih e
    | _ => unfold checkDeclared; exact Fwd.fail fr

theorem supplied_fwd (hvars : r.vars = vars) (path : List Seg) (name : Bytes) :
    Fwd R (suppliedValue r path name) (suppliedValue r' path name) := by
  intro es es' h b s hm
  unfold suppliedValue at hm ⊢
  have hr : (r').vars = r.vars := rfl
  rw [hr]
  have step : ∀ (es es' : ES W), R es es' → es'.varsParsed = es.varsParsed → ∀ (m : E W (Option (Option J))) , Fwd R m m → 
      ∀ b s, (getVarsParsed >>= fun p => if p then return some (r.vars.get name) else m) es = some (b, s) →
        ∃ s', (getVarsParsed >>= fun p => if p then return some (r.vars.get name) else m) es' = some (b, s') ∧ R s s' := by
    intro es es' h he m hm b s hs
    obtain ⟨p, s1, k1, k2⟩ := E_bind.1 hs
    have e1 : Option.some (es.varsParsed, es) = Option.some (p, s1) := k1
    cases e1
    cases hp : es.varsParsed with
    | true =>
      rw [hp] at k2
      have e := E_pure.1 k2
      cases e
      refine ⟨es', E_bind.2 ⟨true, es', ?_, rfl⟩, h⟩
      show Option.some (es'.varsParsed, es') = _
      rw [he, hp]
    | false =>
      rw [hp] at k2
      obtain ⟨s', l1, l2⟩ := hm es es' h b s k2
      refine ⟨s', E_bind.2 ⟨false, es', ?_, l1⟩, l2⟩
      show Option.some (es'.varsParsed, es') = _
      rw [he, hp]
  rcases fr.vars h with he | ⟨hu, hl, hr'⟩
  · refine step es es' h he _ ?_ b s hm
    cases r.vars with
    | empty => exact Fwd.pure
    | invalid msg => exact Fwd.bind (Fwd.setVars fr) (fun _ => Fwd.fail fr)
    | json j =>
      cases j with
      | obj ms => exact Fwd.bind (Fwd.setVars fr) (fun _ => Fwd.pure)
      | _ => exact Fwd.bind (Fwd.setVars fr) (fun _ => Fwd.fail fr)
  · rw [← hvars] at hu
    have both : ∀ es : ES W, ∃ s1, (getVarsParsed >>= fun p => if p then return some (r.vars.get name) else
        match r.vars with
        | .empty => return some none
        | .invalid msg => do
          setVarsParsed
          fail path msg
        | .json (.obj ms) => do
          setVarsParsed
          return some (Http.get ms name)
        | .json _ => do
          setVarsParsed
          fail path b%"variables provided must be of type object") es = some (some (r.vars.get name), s1) ∧
          (s1 = es ∨ s1 = { es with varsParsed := true }) := by
      intro es
      cases hp : es.varsParsed with
      | true =>
        refine ⟨es, E_bind.2 ⟨true, es, ?_, rfl⟩, Or.inl rfl⟩
        show Option.some (es.varsParsed, es) = _
        rw [hp]
      | false =>
        cases hv : r.vars with
        | empty =>
          refine ⟨es, E_bind.2 ⟨false, es, ?_, rfl⟩, Or.inl rfl⟩
          show Option.some (es.varsParsed, es) = _
          rw [hp]
        | invalid msg => rw [hv] at hu; exact hu.elim
        | json j =>
          cases j with
          | obj ms =>
            refine ⟨{ es with varsParsed := true }, E_bind.2 ⟨false, es, ?_, rfl⟩, Or.inr rfl⟩
            show Option.some (es.varsParsed, es) = _
            rw [hp]
          | _ => rw [hv] at hu; exact hu.elim
    obtain ⟨s1, k1, k2⟩ := both es
    obtain ⟨s2, l1, l2⟩ := both es'
    have hm := hm.symm.trans k1
    cases hm
    refine ⟨s2, l1, ?_⟩
    rcases k2 with rfl | rfl <;> rcases l2 with rfl | rfl
    · exact h
    · exact hr'
    · exact hl
    · exact fr.setVars h

theorem bindVar_fwd (hvars : r.vars = vars) (path : List Seg) (name : Bytes) (cur : InVal F) (inp : Input) :
    Fwd R (bindVar r path name cur inp) (bindVar r' path name cur inp) := by
  unfold bindVar
  have e : (r').decls = r.decls := rfl
  rw [e]
  cases r.decls.find? (fun d => decide (d.name = name)) with
  | none => exact Fwd.fail fr
  | some d =>
    dsimp only
    refine Fwd.bind (checkDeclared_fwd fr r call' errOf' frags' path name d.ty inp) ?_
    rintro (_ | _)
    · exact Fwd.pure
    · refine Fwd.bind (supplied_fwd fr r call' errOf' frags' hvars path name) ?_
      rintro (_ | _ | j)
      · exact Fwd.pure
      · dsimp only
        cases d.default with
        | none => exact Fwd.fail fr
        | some v => exact lit_fwd fr r call' errOf' frags' path (fun _ _ _ => Fwd.fail fr) v cur inp
      · dsimp only
        have e : bindJSON (r').env (r').schema.enums (r').schema.inTypes j inp cur = bindJSON r.env r.schema.enums r.schema.inTypes j inp cur :=
          bindJSON_other r.env call' errOf' _ _ j inp cur
        rw [e]
        exact Fwd.convert fr

theorem bindArgs_fwd (hvars : r.vars = vars) (path : List Seg) (m : Method F) (args : List (Bytes × Value)) (inputs : List (Arg F)) :
    Fwd R (bindArgs r path m args inputs) (bindArgs r' path m args inputs) := by
  induction args generalizing inputs with
  | nil => unfold bindArgs; exact Fwd.pure
  | cons a rest ih =>
    obtain ⟨k, v⟩ := a
    unfold bindArgs
    cases m.inFields.find? (fun a => decide (a.key = k)) with
    | none => exact Fwd.fail fr
    | some a =>
      dsimp only
      cases argField inputs a with
      | none => exact Fwd.undefined
      | some cur =>
        dsimp only
        refine Fwd.bind (lit_fwd fr r call' errOf' frags' path (fun n c i => bindVar_fwd fr r call' errOf' frags' hvars path n c i) v cur a.input) ?_
        rintro (_ | ⟨x, set⟩)
        · exact Fwd.pure
        · exact ih _

/-! ## Calls -/

/-- How the two requests' functions may differ: results only if the context is cancelled, errors only as `R` permits. -/
structure Alike (R : ES W → ES W → Prop) (r : Req F V W) (call' : W → V → Bytes → List (Arg F) → Option (W × List V))
    (errOf' : W → V → Option Bytes) : Prop where
  call : ∀ {es es'}, R es es' → ∀ {fn p a w1 outs}, r.env.call es.world fn p a = some (w1, outs) →
    R { es with world := w1 } { es' with world := w1 } ∧ ∃ outs', call' es.world fn p a = some (w1, outs') ∧
    (∀ o, outs[0]? = some o → ∃ o', outs'[0]? = some o' ∧ r.env.skip w1 o' = r.env.skip w1 o) ∧
    (∀ (nr : Nat) e, outs[nr]? = some e → ∃ e', outs'[nr]? = some e' ∧ (errOf' w1 e' = r.env.errOf w1 e ∨
      (errOf' w1 e' = none ∧ ∀ a b, R a b → ∀ x, R { a with errs := a.errs ++ [x] } b))) ∧
    (r.env.ctxErr w1 = none → outs' = outs)

variable (al : Alike R r call' errOf') (hvars : r.vars = vars)
include al hvars

/-- both calls bind alike; then the world changes in the same way -/
theorem callWith_fwd (path : List Seg) (m : Method F) (fn : V) (args : List (Bytes × Value)) {f f' : Option (List V) → E W β}
    (hnone : Fwd R (f none) (f' none))
    (hsome : ∀ outs outs' es es', R es es' →
      (∀ o, outs[0]? = some o → ∃ o', outs'[0]? = some o' ∧ r.env.skip es.world o' = r.env.skip es.world o) →
      (∀ (nr : Nat) e, outs[nr]? = some e → ∃ e', outs'[nr]? = some e' ∧ (errOf' es.world e' = r.env.errOf es.world e ∨
        (errOf' es.world e' = none ∧ ∀ a b, R a b → ∀ x, R { a with errs := a.errs ++ [x] } b))) →
      (r.env.ctxErr es.world = none → outs' = outs) →
      ∀ a s, f (some outs) es = some (a, s) → ∃ s', f' (some outs') es' = some (a, s') ∧ R s s') :
    Fwd R (callWith r path m fn args >>= f) (callWith r' path m fn args >>= f') := by
  intro es es' h b s hs
  obtain ⟨c, s1, k1, k2⟩ := E_bind.1 hs
  unfold callWith at k1
  obtain ⟨inputs, s2, k3, k4⟩ := E_bind.1 k1
  obtain ⟨s2', l1, l2⟩ := bindArgs_fwd fr r call' errOf' frags' hvars path m args (freshInputs m) es es' h inputs s2 k3
  cases inputs with
  | none =>
    have e := E_pure.1 k4
    cases e
    obtain ⟨s', m1, m2⟩ := hnone _ s2' l2 b s k2
    refine ⟨s', E_bind.2 ⟨none, s2', ?_, m1⟩, m2⟩
    unfold callWith
    exact E_bind.2 ⟨none, s2', l1, rfl⟩
  | some inputs =>
    dsimp only at k4
    obtain ⟨w, s3, k5, k6⟩ := E_bind.1 k4
    have e1 : Option.some (s2.world, s2) = Option.some (w, s3) := k5
    cases e1
    cases hc : r.env.call s2.world fn (jsonPath (pathText path)) inputs with
    | none => rw [hc] at k6; cases k6
    | some p =>
      obtain ⟨w1, outs⟩ := p
      rw [hc] at k6
      dsimp only at k6
      obtain ⟨_, s4, k7, k8⟩ := E_bind.1 k6
      have e2 : Option.some ((), ({ s2 with world := w1 } : ES W)) = Option.some (_, s4) := k7
      cases e2
      have e := E_pure.1 k8
      cases e
      obtain ⟨c0, outs', c1, c2, c3, c4⟩ := al.call l2 hc
      obtain ⟨s', m1, m2⟩ := hsome outs outs' { s2 with world := w1 } { s2' with world := w1 } c0 c2 c3 c4 b s k2
      refine ⟨s', E_bind.2 ⟨some outs', { s2' with world := w1 }, ?_, m1⟩, m2⟩
      unfold callWith
      refine E_bind.2 ⟨some inputs, s2', l1, E_bind.2 ⟨s2'.world, s2', rfl, ?_⟩⟩
      have hw := fr.world l2
      have c1 : (r').env.call s2'.world fn (jsonPath (pathText path)) inputs = some (w1, outs') := by rw [hw]; exact c1
      rw [c1]
      rfl

theorem evalDirectives_fwd (path : List Seg) (loc : UInt8) (dirs : List Directive) :
    Fwd R (evalDirectives r path loc dirs) (evalDirectives r' path loc dirs) := by
  induction dirs with
  | nil => unfold evalDirectives; exact Fwd.pure
  | cons d ds ih =>
    unfold evalDirectives
    refine Fwd.bind ?_ (fun a => ?_)
    · unfold evalDirective
      have e : lookup (r').schema.directives loc = lookup r.schema.directives loc := rfl
      rw [e]
      cases (lookup r.schema.directives loc).bind (fun ds => ds.find? (fun x => decide (x.name = d.name))) with
      | none => exact Fwd.fail fr
      | some x =>
        dsimp only
        refine callWith_fwd fr r call' errOf' frags' al hvars path x.method x.func _ Fwd.pure ?_
        intro outs outs' es es' h h0 _ _ a s hs
        dsimp only at hs ⊢
        cases ho : outs[0]? with
        | none => rw [ho] at hs; cases hs
        | some o =>
          rw [ho] at hs
          obtain ⟨o', ho', hsk⟩ := h0 o ho
          rw [ho']
          dsimp only at hs ⊢
          obtain ⟨w, s1, k1, k2⟩ := E_bind.1 hs
          have e1 : Option.some (es.world, es) = Option.some (w, s1) := k1
          cases e1
          have e := E_pure.1 k2
          cases e
          refine ⟨es', E_bind.2 ⟨es'.world, es', rfl, E_pure.2 ?_⟩, h⟩
          have hw := fr.world h
          show _ = (some (r.env.skip es'.world o'), es')
          rw [hw, hsk]
    · cases a with
      | none => exact Fwd.pure
      | some b => cases b with
        | true => exact Fwd.pure
        | false => exact ih

theorem evalResult_fwd (path : List Seg) (m : Method F) (outs outs' : List V) {next next' : V → E W (Out × Bool)} (hn : ∀ x, Fwd R (next x) (next' x))
    {es es' : ES W} (h : R es es') (hc : r.env.ctxErr es.world = none → outs' = outs) {a s} (hs : evalResult r path m outs next es = some (a, s)) :
    ∃ s', evalResult r' path m outs' next' es' = some (a, s') ∧ R s s' := by
  unfold evalResult at hs ⊢
  obtain ⟨w, s1, k1, k2⟩ := E_bind.1 hs
  have e1 : Option.some (es.world, es) = Option.some (w, s1) := k1
  cases e1
  have hw := fr.world h
  have hcx : (r').env.ctxErr es'.world = r.env.ctxErr es.world := by rw [hw]; rfl
  suffices hh : ∃ s', (match r.env.ctxErr es.world with
      | some msg => do
        report path msg
        return (Out.null, false)
      | none =>
        match outs'[m.outNr]? with
        | none => undefinedE
        | some x => next' x) es' = some (a, s') ∧ R s s' by
    obtain ⟨s', m1, m2⟩ := hh
    rw [← hcx] at m1
    exact ⟨s', E_bind.2 ⟨es'.world, es', rfl, m1⟩, m2⟩
  cases hx : r.env.ctxErr es.world with
  | some msg =>
    rw [hx] at k2
    exact Fwd.bind (Fwd.report fr) (fun _ => Fwd.pure) es es' h a s k2
  | none =>
    rw [hx] at k2
    rw [hc hx]
    dsimp only at k2 ⊢
    cases ho : outs[m.outNr]? with
    | none => rw [ho] at k2; cases k2
    | some x =>
      rw [ho] at k2
      exact hn x es es' h a s k2

theorem evalCall_fwd (path : List Seg) (m : Method F) (fn : V) (args : List (Bytes × Value)) {next next' : V → E W (Out × Bool)}
    (hn : ∀ x, Fwd R (next x) (next' x)) : Fwd R (evalCall r path m fn args next) (evalCall r' path m fn args next') := by
  unfold evalCall
  refine callWith_fwd fr r call' errOf' frags' al hvars path m fn args Fwd.pure ?_
  intro outs outs' es es' h _ h1 h2 a s hs
  dsimp only at hs ⊢
  generalize m.errorOutNr = en at hs ⊢
  cases en with
  | none => exact evalResult_fwd fr r call' errOf' frags' al hvars path m outs outs' hn h h2 hs
  | some nr =>
    dsimp only at hs ⊢
    cases ho : outs[nr]? with
    | none => rw [ho] at hs; cases hs
    | some e =>
      rw [ho] at hs
      obtain ⟨e', ho', hor⟩ := h1 nr e ho
      rw [ho']
      dsimp only at hs ⊢
      obtain ⟨w, s1, k1, k2⟩ := E_bind.1 hs
      have e1 : Option.some (es.world, es) = Option.some (w, s1) := k1
      cases e1
      have hw := fr.world h
      suffices hh : ∃ s', (match errOf' es.world e' with
          | none => evalResult r' path m outs' next'
          | some msg => do
            report path msg
            evalResult r' path m outs' next') es' = some (a, s') ∧ R s s' by
        obtain ⟨s', m1, m2⟩ := hh
        refine ⟨s', E_bind.2 ⟨es'.world, es', rfl, ?_⟩, m2⟩
        rw [hw]
        exact m1
      rcases hor with hor | ⟨hor, hdrop⟩
      · rw [hor]
        cases hm : r.env.errOf es.world e with
        | none =>
          rw [hm] at k2
          exact evalResult_fwd fr r call' errOf' frags' al hvars path m outs outs' hn h h2 k2
        | some msg =>
          rw [hm] at k2
          dsimp only at k2 ⊢
          obtain ⟨_, s2, k3, k4⟩ := E_bind.1 k2
          have e2 : Option.some ((), ({ es with errs := es.errs ++ [(msg, path)] } : ES W)) = Option.some (_, s2) := k3
          cases e2
          obtain ⟨s', m1, m2⟩ := evalResult_fwd fr r call' errOf' frags' al hvars path m outs outs' hn (fr.report h (msg, path)) h2 k4
          exact ⟨s', E_bind.2 ⟨(), _, rfl, m1⟩, m2⟩
      · rw [hor]
        cases hm : r.env.errOf es.world e with
        | none =>
          rw [hm] at k2
          exact evalResult_fwd fr r call' errOf' frags' al hvars path m outs outs' hn h h2 k2
        | some msg =>
          rw [hm] at k2
          dsimp only at k2 ⊢
          obtain ⟨_, s2, k3, k4⟩ := E_bind.1 k2
          have e2 : Option.some ((), ({ es with errs := es.errs ++ [(msg, path)] } : ES W)) = Option.some (_, s2) := k3
          cases e2
          exact evalResult_fwd fr r call' errOf' frags' al hvars path m outs outs' hn (hdrop es es' h (msg, path)) h2 k4

omit al hvars fr in
theorem evalElems_fwd {elem elem' : Nat → V → E W (Out × Bool)} (he : ∀ i x, Fwd R (elem i x) (elem' i x)) (vs : List V) (i : Nat) :
    Fwd R (evalElems elem i vs) (evalElems elem' i vs) := by
  induction vs generalizing i with
  | nil => unfold evalElems; exact Fwd.pure
  | cons v vs ih =>
    unfold evalElems
    exact Fwd.bind (he i v) (fun _ => Fwd.bind (ih _) (fun _ => Fwd.pure))

omit al hvars in
theorem structField_fwd (v : V) (i : Nat) : Fwd R (structField r v i) (structField r' v i) := by
  unfold structField
  refine Fwd.getWorld fr (fun w => ?_)
  have e : (r').env.view w v = r.env.view w v := rfl
  rw [e]
  cases r.env.view w v with
  | struct fs =>
    dsimp only
    cases fs[i]? with
    | none => exact Fwd.undefined
    | some x => exact Fwd.pure
  | _ => exact Fwd.undefined

omit al hvars in
theorem valueOfField_fwd (v : V) (f : RField F V) : Fwd R (valueOfField r v f) (valueOfField r' v f) := by
  unfold valueOfField
  cases f.customObjValue with
  | some x => exact Fwd.pure
  | none =>
    dsimp only
    split
    · split
      · exact Fwd.pure
      · exact structField_fwd fr r call' errOf' frags' _ _
    · exact structField_fwd fr r call' errOf' frags' _ _

/-! ## Selections -/

/-- what it takes for directives to be dropped: they pass (or stop) without any effect -/
structure Dropped (R : ES W → ES W → Prop) (r : Req F V W) (pass stop : UInt8 → List Directive → Prop) : Prop where
  pass : ∀ {loc dirs}, loc ≤ 2 → pass loc dirs → ∀ {path es es' a s}, R es es' → evalDirectives r path loc dirs es = some (a, s) → a = some false ∧ R s es'
  stop : ∀ {loc dirs}, loc ≤ 2 → stop loc dirs → ∀ {path es es' a s}, R es es' → evalDirectives r path loc dirs es = some (a, s) → a = some true ∧ R s es'

variable {pass stop : UInt8 → List Directive → Prop} (dr : Dropped R r pass stop)
include dr

theorem lighter_fwd {loc : UInt8} {dirs dirs' : List Directive} (hloc : loc ≤ 2) (hl : Lighter pass loc dirs dirs') (path : List Seg) :
    Fwd R (evalDirectives r path loc dirs) (evalDirectives r' path loc dirs') := by
  rcases hl with rfl | ⟨hp, rfl⟩
  · exact evalDirectives_fwd fr r call' errOf' frags' al hvars path loc dirs'
  · intro es es' h a s hs
    obtain ⟨e, h2⟩ := dr.pass hloc hp h hs
    subst e
    exact ⟨es', rfl, h2⟩

variable [DecidableEq F]

structure FwdAt (fuel fuel' : Nat) : Prop where
  sels : ∀ {sels sels'}, Rewrites pass stop r.frags frags' sels sels' → ∀ t v dept path room,
    Fwd R (evalSels r fuel t v dept path room sels) (evalSels r' fuel' t v dept path room sels')
  data : ∀ {sels sels'}, Rewrites pass stop r.frags frags' sels sels' → (sels = [] ↔ sels' = []) → ∀ o v dept path room args,
    Fwd R (evalData r fuel o v dept path room args sels) (evalData r' fuel' o v dept path room args sels')

/-- what is left after a selection -/
theorem rest_fwd {sels sels' : List Sel} {fuel fuel' : Nat} (h : FwdAt (R := R) r call' errOf' frags' (pass := pass) (stop := stop) fuel fuel')
    (hr : Rewrites pass stop r.frags frags' sels sels') (t : RType F V) (v : V) (dept : UInt8) (path : List Seg) (room : Nat)
    (ms : List (Bytes × Out)) (crit : Bool) :
    Fwd R (if crit = true then return (ms, true) else do
        let x ← evalSels r fuel t v dept path room sels
        return (ms ++ x.1, x.2))
      (if crit = true then return (ms, true) else do
        let x ← evalSels r' fuel' t v dept path room sels'
        return (ms ++ x.1, x.2)) := by
  cases crit with
  | true => exact Fwd.pure
  | false => exact Fwd.bind (h.sels hr _ _ _ _ _) (fun _ => Fwd.pure)

theorem stopField_eq {fuel : Nat} {t : RType F V} {v : V} {dept : UInt8} {path : List Seg} {room : Nat} {key name : Bytes}
    {dirs : List Directive} {args : Option (List (Bytes × Value))} {sub : List Sel} (hd : stop 0 dirs) {es es' : ES W} (he : R es es')
    {x s} (h : evalField r fuel t v dept path room key name dirs args sub es = some (x, s)) : x = (none, false) ∧ R s es' := by
  cases fuel with
  | zero => simp only [evalField] at h; cases h
  | succ f =>
    simp only [evalField] at h
    obtain ⟨a, s1, k1, k2⟩ := E_bind.1 h
    obtain ⟨e, h1⟩ := dr.stop (by decide) hd he k1
    subst e
    have e := E_pure.1 k2
    cases e
    exact ⟨rfl, h1⟩

theorem stopSpread_eq {fuel : Nat} {t : RType F V} {v : V} {dept : UInt8} {path : List Seg} {room : Nat} {name : Bytes}
    {dirs : List Directive} (hd : stop 1 dirs) {es es' : ES W} (he : R es es')
    {x s} (h : evalSpread r fuel t v dept path room name dirs es = some (x, s)) : x = ([], false) ∧ R s es' := by
  cases fuel with
  | zero => simp only [evalSpread] at h; cases h
  | succ f =>
    simp only [evalSpread] at h
    obtain ⟨a, s1, k1, k2⟩ := E_bind.1 h
    obtain ⟨e, h1⟩ := dr.stop (by decide) hd he k1
    subst e
    have e := E_pure.1 k2
    cases e
    exact ⟨rfl, h1⟩

theorem stopInline_eq {fuel : Nat} {t : RType F V} {v : V} {dept : UInt8} {path : List Seg} {room : Nat} {ty : Bytes}
    {dirs : List Directive} {sub : List Sel} (hd : stop 2 dirs) {es es' : ES W} (he : R es es')
    {x s} (h : evalInline r fuel t v dept path room ty dirs sub es = some (x, s)) : x = ([], false) ∧ R s es' := by
  cases fuel with
  | zero => simp only [evalInline] at h; cases h
  | succ f =>
    simp only [evalInline] at h
    obtain ⟨a, s1, k1, k2⟩ := E_bind.1 h
    obtain ⟨e, h1⟩ := dr.stop (by decide) hd he k1
    subst e
    have e := E_pure.1 k2
    cases e
    exact ⟨rfl, h1⟩

theorem fwdAt (fuel : Nat) : ∀ fuel', fuel ≤ fuel' → FwdAt (R := R) r call' errOf' frags' (pass := pass) (stop := stop) fuel fuel' := by
  induction fuel using Nat.strongRecOn with
  | ind fuel ih =>
    intro fuel' hle
    match fuel, ih, hle with
    | 0, ih, _ =>
      refine ⟨?_, ?_⟩
      · intro sels sels' h t v dept path room
        simp only [evalSels]
        exact Fwd.undefined
      · intro sels sels' h he o v dept path room args
        unfold evalData
        exact Fwd.undefined
    | fuel + 1, ih, hle =>
      obtain ⟨g, rfl⟩ : ∃ g, fuel' = g + 1 := ⟨fuel' - 1, by omega⟩
      have hg : fuel ≤ g := by omega
      refine ⟨?_, ?_⟩
      · intro sels sels' h t v dept path room
        cases h.step with
        | nil => simp only [evalSels]; exact Fwd.pure
        | @field key name dirs dirs' args sub sub' rest rest' hd he hsub hrest =>
          simp only [evalSels]
          refine Fwd.bind ?_ (fun a => ?_)
          · match fuel, ih, hg with
            | 0, _, _ => simp only [evalField]; exact Fwd.undefined
            | f + 1, ih, hg =>
              obtain ⟨g', rfl⟩ : ∃ g', g = g' + 1 := ⟨g - 1, by omega⟩
              simp only [evalField]
              refine Fwd.bind (lighter_fwd fr r call' errOf' frags' al hvars dr (by decide) hd _) (fun a => ?_)
              match a with
              | none => exact Fwd.pure
              | some true => exact Fwd.pure
              | some false =>
                dsimp only
                split
                · split
                  · have e : (List.isEmpty sub) = (List.isEmpty sub') := by
                      cases sub <;> cases sub' <;> simp_all
                    rw [e]
                    split
                    · exact Fwd.bind (Fwd.report fr) (fun _ => Fwd.pure)
                    · exact Fwd.pure
                  · exact Fwd.bind (Fwd.report fr) (fun _ => Fwd.pure)
                · split
                  · exact Fwd.undefined
                  · refine Fwd.bind ?_ (fun x => Fwd.bind ((ih f (by omega) g' (by omega)).data hsub he _ _ _ _ _ _) (fun _ => Fwd.pure))
                    exact valueOfField_fwd fr r call' errOf' frags' _ _
          · obtain ⟨m, crit⟩ := a
            exact rest_fwd fr r call' errOf' frags' al hvars dr (ih fuel (by omega) g hg) hrest t v dept path room m.toList crit
        | stopField hd hrest =>
          simp only [evalSels]
          intro es es' he a s hs
          obtain ⟨x, s1, k1, k2⟩ := E_bind.1 hs
          obtain ⟨e, he1⟩ := stopField_eq fr r call' errOf' al hvars dr hd he k1
          subst e
          obtain ⟨y, s2, k3, k4⟩ := E_bind.1 (show (evalSels r fuel t v dept path room _ >>= fun y => _) s1 = _ from k2)
          have e := E_pure.1 k4
          cases e
          exact (ih fuel (by omega) (g + 1) (by omega)).sels hrest _ _ _ _ _ _ _ he1 _ _ k3
        | spread hd hf hf' ht hsub hrest =>
          simp only [evalSels]
          refine Fwd.bind ?_ (fun a => ?_)
          · match fuel, ih, hg with
            | 0, _, _ => simp only [evalSpread]; exact Fwd.undefined
            | f + 1, ih, hg =>
              obtain ⟨g', rfl⟩ : ∃ g', g = g' + 1 := ⟨g - 1, by omega⟩
              simp only [evalSpread]
              refine Fwd.bind (lighter_fwd fr r call' errOf' frags' al hvars dr (by decide) hd _) (fun a => ?_)
              match a with
              | none => exact Fwd.pure
              | some true => exact Fwd.pure
              | some false =>
                dsimp only
                have hf' : (r').frags.find? (fun f => decide (f.name = _)) = some _ := hf'
                rw [hf, hf']
                dsimp only
                rw [ht]
                split
                · exact (ih f (by omega) g' (by omega)).sels hsub _ _ _ _ _
                · exact Fwd.pure
          · obtain ⟨m, crit⟩ := a
            exact rest_fwd fr r call' errOf' frags' al hvars dr (ih fuel (by omega) g hg) hrest t v dept path room m crit
        | undefined hf hf' hrest =>
          simp only [evalSels]
          refine Fwd.bind ?_ (fun a => ?_)
          · match fuel, ih, hg with
            | 0, _, _ => simp only [evalSpread]; exact Fwd.undefined
            | f + 1, ih, hg =>
              obtain ⟨g', rfl⟩ : ∃ g', g = g' + 1 := ⟨g - 1, by omega⟩
              simp only [evalSpread]
              refine Fwd.bind (evalDirectives_fwd fr r call' errOf' frags' al hvars _ _ _) (fun a => ?_)
              match a with
              | none => exact Fwd.pure
              | some true => exact Fwd.pure
              | some false =>
                dsimp only
                have hf' : (r').frags.find? (fun f => decide (f.name = _)) = none := hf'
                rw [hf, hf']
                exact Fwd.bind (Fwd.report fr) (fun _ => Fwd.pure)
          · obtain ⟨m, crit⟩ := a
            exact rest_fwd fr r call' errOf' frags' al hvars dr (ih fuel (by omega) g hg) hrest t v dept path room m crit
        | expand hd hf hsub hrest =>
          simp only [evalSels]
          refine Fwd.bind ?_ (fun a => ?_)
          · match fuel, ih, hg with
            | 0, _, _ => simp only [evalSpread]; exact Fwd.undefined
            | f + 1, ih, hg =>
              obtain ⟨g', rfl⟩ : ∃ g', g = g' + 1 := ⟨g - 1, by omega⟩
              simp only [evalSpread, evalInline]
              refine Fwd.bind ?_ (fun a => ?_)
              · rcases hd with rfl | hd
                · exact evalDirectives_fwd fr r call' errOf' frags' al hvars _ _ []
                · exact lighter_fwd fr r call' errOf' frags' al hvars dr (by decide) (Or.inr ⟨hd, rfl⟩) _
              · match a with
                | none => exact Fwd.pure
                | some true => exact Fwd.pure
                | some false =>
                  dsimp only
                  rw [hf]
                  dsimp only
                  split
                  · exact (ih f (by omega) g' (by omega)).sels hsub _ _ _ _ _
                  · exact Fwd.pure
          · obtain ⟨m, crit⟩ := a
            exact rest_fwd fr r call' errOf' frags' al hvars dr (ih fuel (by omega) g hg) hrest t v dept path room m crit
        | stopSpread hd hrest =>
          simp only [evalSels]
          intro es es' he a s hs
          obtain ⟨x, s1, k1, k2⟩ := E_bind.1 hs
          obtain ⟨e, he1⟩ := stopSpread_eq fr r call' errOf' al hvars dr hd he k1
          subst e
          obtain ⟨y, s2, k3, k4⟩ := E_bind.1 (show (evalSels r fuel t v dept path room _ >>= fun y => _) s1 = _ from k2)
          have e := E_pure.1 k4
          cases e
          exact (ih fuel (by omega) (g + 1) (by omega)).sels hrest _ _ _ _ _ _ _ he1 _ _ k3
        | inline hd hsub hrest =>
          simp only [evalSels]
          refine Fwd.bind ?_ (fun a => ?_)
          · match fuel, ih, hg with
            | 0, _, _ => simp only [evalInline]; exact Fwd.undefined
            | f + 1, ih, hg =>
              obtain ⟨g', rfl⟩ : ∃ g', g = g' + 1 := ⟨g - 1, by omega⟩
              simp only [evalInline]
              refine Fwd.bind (lighter_fwd fr r call' errOf' frags' al hvars dr (by decide) hd _) (fun a => ?_)
              match a with
              | none => exact Fwd.pure
              | some true => exact Fwd.pure
              | some false =>
                dsimp only
                split
                · exact (ih f (by omega) g' (by omega)).sels hsub _ _ _ _ _
                · exact Fwd.pure
          · obtain ⟨m, crit⟩ := a
            exact rest_fwd fr r call' errOf' frags' al hvars dr (ih fuel (by omega) g hg) hrest t v dept path room m crit
        | stopInline hd hrest =>
          simp only [evalSels]
          intro es es' he a s hs
          obtain ⟨x, s1, k1, k2⟩ := E_bind.1 hs
          obtain ⟨e, he1⟩ := stopInline_eq fr r call' errOf' al hvars dr hd he k1
          subst e
          obtain ⟨y, s2, k3, k4⟩ := E_bind.1 (show (evalSels r fuel t v dept path room _ >>= fun y => _) s1 = _ from k2)
          have e := E_pure.1 k4
          cases e
          exact (ih fuel (by omega) (g + 1) (by omega)).sels hrest _ _ _ _ _ _ _ he1 _ _ k3
      · intro sels sels' h he o v dept path room args
        have e : (List.isEmpty sels) = (List.isEmpty sels') := by
          cases sels <;> cases sels' <;> simp_all
        have next := ih fuel (by omega) g hg
        unfold evalData
        rw [← e]
        dsimp only
        split
        · exact Fwd.bind (Fwd.report fr) (fun _ => Fwd.pure)
        · cases o with
          | undefined => exact Fwd.pure
          | array inner =>
            refine Fwd.getWorld fr (fun w => ?_)
            have e : (r').env.view w v = r.env.view w v := rfl
            rw [e]
            cases r.env.view w v with
            | seq vs =>
              cases vs with
              | none => exact Fwd.pure
              | some vs =>
                cases room with
                | zero => exact Fwd.undefined
                | succ room =>
                  refine Fwd.bind (evalElems_fwd (fun i x => ?_) _ _) (fun _ => Fwd.pure)
                  exact next.data h he _ _ _ _ _ _
            | _ => exact Fwd.undefined
          | objRef typeName =>
            dsimp only
            split
            · exact Fwd.bind (Fwd.report fr) (fun _ => Fwd.pure)
            · have e : lookup (r').schema.types typeName = lookup r.schema.types typeName := rfl
              rw [e]
              cases lookup r.schema.types typeName with
              | none => exact Fwd.pure
              | some t =>
                dsimp only
                have e : (r').schema.maxDepth = r.schema.maxDepth := rfl
                rw [e]
                split
                · exact Fwd.bind (Fwd.report fr) (fun _ => Fwd.pure)
                · exact Fwd.bind (next.sels h _ _ _ _ _) (fun _ => Fwd.pure)
          | data isID kind =>
            dsimp only
            split
            · exact Fwd.bind (Fwd.report fr) (fun _ => Fwd.pure)
            · refine Fwd.getWorld fr (fun w => ?_)
              have e : (r').env.view w v = r.env.view w v := rfl
              rw [e]
              cases r.env.view w v with
              | scalar x =>
                dsimp only
                have e : dataText (r').env isID kind x = dataText r.env isID kind x := by cases x <;> rfl
                rw [e]
                cases dataText r.env isID kind x with
                | none => exact Fwd.undefined
                | some t => exact Fwd.pure
              | _ => exact Fwd.undefined
          | ptr inner =>
            refine Fwd.getWorld fr (fun w => ?_)
            have e : (r').env.view w v = r.env.view w v := rfl
            rw [e]
            cases r.env.view w v with
            | ptr x =>
              cases x with
              | none => exact Fwd.pure
              | some x => exact next.data h he _ _ _ _ _ _
            | _ => exact Fwd.undefined
          | method m out =>
            dsimp only
            have hcall : Fwd R (evalCall r path m v (args.getD []) (fun x => evalData r fuel out x dept path room none sels))
                (evalCall r' path m v (args.getD []) (fun x => evalData r' g out x dept path room none sels')) :=
              evalCall_fwd fr r call' errOf' frags' al hvars _ _ _ _ (fun x => next.data h he _ _ _ _ _ _)
            split
            · refine Fwd.getWorld fr (fun w => ?_)
              have e : (r').env.view w v = r.env.view w v := rfl
              rw [e]
              cases r.env.view w v with
              | func b =>
                cases b with
                | true => exact Fwd.pure
                | false => exact hcall
              | _ => exact Fwd.undefined
            · exact hcall
          | enum idx =>
            dsimp only
            have e : (r').schema.enums[idx]? = r.schema.enums[idx]? := rfl
            rw [e]
            cases r.schema.enums[idx]? with
            | none => exact Fwd.undefined
            | some en =>
              refine Fwd.getWorld fr (fun w => ?_)
              have e : (r').env.view w v = r.env.view w v := rfl
              rw [e]
              cases r.env.view w v with
              | scalar x =>
                dsimp only
                cases enumKey en x with
                | none => exact Fwd.undefined
                | some k => cases k <;> exact Fwd.pure
              | _ => exact Fwd.undefined
          | time =>
            refine Fwd.getWorld fr (fun w => ?_)
            have e : (r').env.view w v = r.env.view w v := rfl
            rw [e]
            cases r.env.view w v <;> exact Fwd.pure
          | interfaceRef typeName =>
            dsimp only
            split
            · exact Fwd.bind (Fwd.report fr) (fun _ => Fwd.pure)
            · have e : lookup (r').schema.interfaces typeName = lookup r.schema.interfaces typeName := rfl
              rw [e]
              cases lookup r.schema.interfaces typeName with
              | none => exact Fwd.pure
              | some impls =>
                refine Fwd.getWorld fr (fun w => ?_)
                have e : (r').env.view w v = r.env.view w v := rfl
                rw [e]
                cases r.env.view w v with
                | iface x =>
                  match x with
                  | none => exact Fwd.pure
                  | some (goName, goPkg, x) =>
                    cases room with
                    | zero => exact Fwd.undefined
                    | succ room =>
                      dsimp only
                      cases impls.find? (fun i => decide (i.goTypeName = goName ∧ i.goPkgPath = goPkg)) with
                      | none => exact Fwd.pure
                      | some i => exact next.data h he _ _ _ _ _ _
                | _ => exact Fwd.undefined

/-- The whole operation. -/
theorem operation_fwd (fuel fuel' : Nat) (hle : fuel ≤ fuel') (o o' : Operation) (hk : o'.kind = o.kind) (hd : o'.dirs = o.dirs)
    (h : Rewrites pass stop r.frags frags' o.sels o'.sels) : Fwd R (evalOperation r fuel o) (evalOperation r' fuel' o') := by
  have hf := fwdAt fr r call' errOf' frags' al hvars dr fuel fuel' hle
  unfold evalOperation
  rw [hk, hd]
  cases o.kind with
  | subscription => exact Fwd.bind (Fwd.report fr) (fun _ => Fwd.pure)
  | query =>
    dsimp only
    split
    · exact Fwd.bind (Fwd.report fr) (fun _ => Fwd.pure)
    · exact Fwd.bind (hf.sels h _ _ _ _ _) (fun _ => Fwd.pure)
  | mutation =>
    dsimp only
    split
    · exact Fwd.bind (Fwd.report fr) (fun _ => Fwd.pure)
    · exact Fwd.bind (hf.sels h _ _ _ _ _) (fun _ => Fwd.pure)

end
end Eval
end Yarql
