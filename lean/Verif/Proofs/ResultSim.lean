import Verif.Proofs.WorldSim

/-!
# Two runs whose functions return different values

Two runs of the same request in the same world.  The functions do the same to the world, but may return other values if the context is
cancelled, and their errors may differ.  `Echo`: both runs do the same, but for the errors, which stay in the relation `E`.
-/

namespace Yarql
namespace Resolver
namespace ResultSim
open Http (J)
open Yarql.Bind
open WorldSim (Worldly reworld zeroOf_re bindJSON_re)

section
variable {F V W α β : Type}

/-- the request, and what the functions of the second run return and show as errors -/
structure Two (F V W : Type) where
  res : Bytes
  frags : List Nat
  schema : RSchema F V
  env : Env F V W
  vars : VarsSrc
  call' : W → V → Bytes → List (Arg F) → Option (W × List V)
  errOf' : W → V → Option Bytes
  E : List RErr → List RErr → Prop

namespace Two
variable (P : Two F V W)
def other : Worldly F V W := ⟨P.env.view, P.call', P.errOf', P.env.skip, P.env.ctxErr⟩
def fst : Cfg F V W := ⟨P.res, P.frags, P.schema, P.env, P.vars⟩
def snd : Cfg F V W := ⟨P.res, P.frags, P.schema, reworld P.env P.other, P.vars⟩
end Two

/-- what two calls return, alike: the same number of values, the same as directive modifiers, the same altogether unless the context
is cancelled; as errors either the same, or there is none in the second run and `E` allows that -/
structure Like (P : Two F V W) (w1 : W) (outs outs' : List V) : Prop where
  values : P.env.ctxErr w1 = none → outs' = outs
  length : outs'.length = outs.length
  skip : ∀ (i : Nat) x x', outs[i]? = some x → outs'[i]? = some x' → P.env.skip w1 x' = P.env.skip w1 x
  error : ∀ (i : Nat) x x', outs[i]? = some x → outs'[i]? = some x' → P.errOf' w1 x' = P.env.errOf w1 x ∨
    (P.errOf' w1 x' = none ∧ ∀ es es' e, P.E es es' → P.E (es ++ [e]) es')

/-- the calls of the two runs are alike -/
structure Alike (P : Two F V W) : Prop where
  same : ∀ es es' e, P.E es es' → P.E (es ++ [e]) (es' ++ [e])
  none : ∀ w f p a, P.env.call w f p a = none → P.call' w f p a = none
  some : ∀ w f p a w1 outs, P.env.call w f p a = some (w1, outs) → ∃ outs', P.call' w f p a = some (w1, outs') ∧ Like P w1 outs outs'

/-- the outcomes of two runs correspond -/
inductive Out (P : Two F V W) (Q : α → β → W → Prop) : R (RS V W) α → R (RS V W) β → Prop where
  | ok {a b s es'} : Q a b s.world → P.E s.errs es' → Out P Q (.ok a s) (.ok b { s with errs := es' })
  | panic : Out P Q .panic .panic
  | oof : Out P Q .oof .oof

/-- both runs do the same -/
def Echo (P : Two F V W) (Q : α → β → W → Prop) (m : M F V W α) (m' : M F V W β) : Prop :=
  ∀ s es', P.E s.errs es' → Out P Q (m P.fst s) (m' P.snd { s with errs := es' })

/-- ... with the same result -/
abbrev Sim (P : Two F V W) (m m' : M F V W α) : Prop := Echo P (fun a b _ => b = a) m m'

variable {P : Two F V W}

theorem Out.bind {γ δ : Type} {Q : α → β → W → Prop} {Q' : γ → δ → W → Prop} {m : M F V W α} {m' : M F V W β} {f : α → M F V W γ} {f' : β → M F V W δ}
    {s s' : RS V W} (h : Out P Q (m P.fst s) (m' P.snd s'))
    (hf : ∀ a b s es', Q a b s.world → P.E s.errs es' → Out P Q' (f a P.fst s) (f' b P.snd { s with errs := es' })) :
    Out P Q' ((m >>= f) P.fst s) ((m' >>= f') P.snd s') := by
  show Out P Q' (match m P.fst s with | .ok a s' => f a P.fst s' | .panic => R.panic | .oof => R.oof)
    (match m' P.snd s' with | .ok a s' => f' a P.snd s' | .panic => R.panic | .oof => R.oof)
  generalize m P.fst s = r, m' P.snd s' = r' at h ⊢
  cases h with
  | ok q e => exact hf _ _ _ _ q e
  | panic => exact .panic
  | oof => exact .oof

theorem Echo.bindQ {γ δ : Type} {Q : α → β → W → Prop} {Q' : γ → δ → W → Prop} {m : M F V W α} {m' : M F V W β} {f : α → M F V W γ} {f' : β → M F V W δ}
    (h : Echo P Q m m') (hf : ∀ a b s es', Q a b s.world → P.E s.errs es' → Out P Q' (f a P.fst s) (f' b P.snd { s with errs := es' })) :
    Echo P Q' (m >>= f) (m' >>= f') := fun s es' he => Out.bind (h s es' he) hf

theorem Sim.bind {m m' : M F V W α} {f f' : α → M F V W β} (h : Sim P m m') (hf : ∀ a, Sim P (f a) (f' a)) : Sim P (m >>= f) (m' >>= f') :=
  Echo.bindQ h (fun a b s es' q e => by subst q; exact hf _ s es' e)

theorem Sim.pure {a : α} : Sim P (Pure.pure a) (Pure.pure a) := fun _ _ he => .ok rfl he
theorem Sim.panicM : Sim (α := α) P panicM panicM := fun _ _ _ => .panic
theorem Sim.oofM : Sim (α := α) P oofM oofM := fun _ _ _ => .oof

theorem sim_write {b : Bytes} : Sim P (write b) (write b) := fun _ _ he => .ok rfl he
theorem sim_writeNull : Sim P writeNull writeNull := sim_write
theorem sim_writeQuoted {b : Bytes} : Sim P (writeQuoted b) (writeQuoted b) := sim_write
theorem sim_skipInst {n : Nat} : Sim P (skipInst n) (skipInst n) := fun _ _ he => .ok rfl he
theorem sim_getPos : Sim P getPos getPos := fun _ _ he => .ok rfl he
theorem sim_setPos {n : Nat} : Sim P (setPos n) (setPos n) := fun _ _ he => .ok rfl he
theorem sim_setPath {p : Bytes} : Sim P (setPath p) (setPath p) := fun _ _ he => .ok rfl he
theorem sim_setVarsParsed : Sim P setVarsParsed setVarsParsed := fun _ _ he => .ok rfl he
theorem sim_setArgs {n : Nat} {b : Bool} : Sim P (setArgs b n) (setArgs b n) := fun _ _ he => .ok rfl he
theorem sim_getGoValue : Sim P getGoValue getGoValue := fun _ _ he => .ok rfl he
theorem sim_setGoValue {v : V} : Sim P (setGoValue v) (setGoValue v) := fun _ _ he => .ok rfl he
theorem sim_incIdx : Sim P incIdx incIdx := fun _ _ he => .ok rfl he
theorem sim_decIdx : Sim P decIdx decIdx := fun _ _ he => .ok rfl he
theorem sim_setNextGoValue {v : V} : Sim P (setNextGoValue v) (setNextGoValue v) := fun _ _ he => .ok rfl he

theorem sim_readInst : Sim P readInst readInst := fun s es' he => by
  show Out P _ (match P.res[s.charNr]? with | some b => R.ok b { s with charNr := s.charNr + 1 } | none => R.panic)
    (match P.res[s.charNr]? with | some b => R.ok b { s with charNr := s.charNr + 1, errs := es' } | none => R.panic)
  cases P.res[s.charNr]? with
  | none => exact .panic
  | some b => exact .ok (s := { s with charNr := s.charNr + 1 }) rfl he
theorem sim_seekInst : Sim P seekInst seekInst := fun s es' he => by
  show Out P _ (match P.res[s.charNr]? with | some b => R.ok b s | none => R.panic)
    (match P.res[s.charNr]? with | some b => R.ok b { s with errs := es' } | none => R.panic)
  cases P.res[s.charNr]? with
  | none => exact .panic
  | some b => exact .ok rfl he
theorem sim_lastInst : Sim P lastInst lastInst := fun s es' he => by
  show Out P _ (match P.res[s.charNr - 1]? with | some b => R.ok b s | none => R.panic)
    (match P.res[s.charNr - 1]? with | some b => R.ok b { s with errs := es' } | none => R.panic)
  cases P.res[s.charNr - 1]? with
  | none => exact .panic
  | some b => exact .ok rfl he
theorem sim_getRes {i : Nat} : Sim P (getRes i) (getRes i) := fun s es' he => by
  show Out P _ (match P.res[i]? with | some b => R.ok b s | none => R.panic)
    (match P.res[i]? with | some b => R.ok b { s with errs := es' } | none => R.panic)
  cases P.res[i]? with
  | none => exact .panic
  | some b => exact .ok rfl he
theorem sim_sliceRes {i j : Nat} : Sim P (sliceRes i j) (sliceRes i j) := fun s es' he => by
  show Out P _ (if i ≤ j ∧ j ≤ P.res.length then R.ok ((P.res.take j).drop i) s else R.panic)
    (if i ≤ j ∧ j ≤ P.res.length then R.ok ((P.res.take j).drop i) { s with errs := es' } else R.panic)
  split
  · exact .ok rfl he
  · exact .panic
theorem sim_readUint32M : Sim P readUint32M readUint32M := fun s es' he => by
  show Out P _ (match readUint32 P.res s.charNr with | some b => R.ok b.toNat s | none => R.panic)
    (match readUint32 P.res s.charNr with | some b => R.ok b.toNat { s with errs := es' } | none => R.panic)
  cases readUint32 P.res s.charNr with
  | none => exact .panic
  | some b => exact .ok rfl he
theorem sim_readToNul : Sim P readToNul readToNul := fun s es' he => by
  have key : ∀ (word : Bytes) (n : Nat) (s2 : RS V W), P.E s2.errs es' → Out P (fun a b _ => b = a)
      (if word.length < n then R.ok word s2 else R.panic) (if word.length < n then R.ok word { s2 with errs := es' } else R.panic) := by
    intro word n s2 h2
    split
    · exact .ok rfl h2
    · exact .panic
  exact key ((P.res.drop s.charNr).takeWhile (fun b => b != 0)) (P.res.drop s.charNr).length
    { s with charNr := s.charNr + ((P.res.drop s.charNr).takeWhile (fun b => b != 0)).length + 1 } he

theorem sim_getCfg {f f' : Cfg F V W → M F V W β} (h : Sim P (f P.fst) (f' P.snd)) :
    Sim P (getCfg >>= f) (getCfg >>= f') := fun s es' he => h s es' he

/-- reading the state: everything but the errors is the same -/
theorem sim_getState {f f' : RS V W → M F V W β} (h : ∀ s es', Sim P (f s) (f' { s with errs := es' })) :
    Sim P (getState >>= f) (getState >>= f') := fun s es' he => h s es' s es' he

theorem sim_viewOf {v : V} : Sim P (viewOf v) (viewOf v) := fun _ _ he => .ok rfl he

variable (H : Alike P)
include H

theorem sim_err {m : Bytes} : Sim P (err m) (err m) := fun s es' he => by
  show Out P _ (R.ok () { s with errs := s.errs ++ [(match s.path with | [] => ⟨m, none⟩ | _ :: p => ⟨m, some p⟩ : RErr)] })
    (R.ok () { s with errs := es' ++ [(match s.path with | [] => ⟨m, none⟩ | _ :: p => ⟨m, some p⟩ : RErr)] })
  exact .ok (s := { s with errs := _ }) rfl (H.same _ _ _ he)

theorem sim_liftB {b b' : B α} (e : b = b') : Sim P (liftB b) (liftB b') := by
  subst e
  cases b with
  | ok a => exact fun _ _ he => .ok rfl he
  | err m => exact Sim.bind (sim_err H) (fun _ => Sim.pure)
  | panic => exact fun _ _ _ => .panic

/-- calls give results that are alike -/
theorem echo_callFn (fn : V) (inputs : List (Arg F)) : Echo P (fun a b w => Like P w a b) (callFn fn inputs) (callFn fn inputs) := by
  intro s es' he
  show Out P _ ((match P.env.call s.world fn (jsonPath s.path) inputs with | none => panicM | some (w, outs) => do setWorld w; return outs : M F V W (List V)) P.fst s)
    ((match P.call' s.world fn (jsonPath s.path) inputs with | none => panicM | some (w, outs) => do setWorld w; return outs : M F V W (List V)) P.snd { s with errs := es' })
  cases hc : P.env.call s.world fn (jsonPath s.path) inputs with
  | none =>
    rw [H.none _ _ _ _ hc]
    exact .panic
  | some p =>
    obtain ⟨w1, outs⟩ := p
    obtain ⟨outs', h1, h2⟩ := H.some _ _ _ _ _ _ hc
    rw [h1]
    exact .ok (s := { s with world := w1 }) h2 he

/-- one step of a simulation proof -/
macro "rs_one" : tactic => `(tactic| first
  | with_reducible exact Sim.pure
  | with_reducible exact Sim.panicM
  | with_reducible exact Sim.oofM
  | with_reducible exact sim_write
  | with_reducible exact sim_skipInst
  | with_reducible exact sim_getPos
  | with_reducible exact sim_setPos
  | with_reducible exact sim_setPath
  | with_reducible exact sim_setVarsParsed
  | with_reducible exact sim_setArgs
  | with_reducible exact sim_viewOf
  | with_reducible exact sim_err ‹_›
  | with_reducible exact sim_readInst
  | with_reducible exact sim_seekInst
  | with_reducible exact sim_lastInst
  | with_reducible exact sim_getRes
  | with_reducible exact sim_sliceRes
  | with_reducible exact sim_readUint32M
  | with_reducible exact sim_readToNul
  | with_reducible exact sim_writeNull
  | with_reducible exact sim_writeQuoted
  | with_reducible exact sim_getGoValue
  | with_reducible exact sim_setGoValue
  | with_reducible exact sim_setNextGoValue
  | with_reducible exact sim_incIdx
  | with_reducible exact sim_decIdx
  | exact sim_liftB ‹_› rfl
  | (with_reducible refine sim_getCfg ?_; dsimp only [Two.fst, Two.snd])
  | (with_reducible refine sim_getState (fun s es => ?_); dsimp only)
  | (with_reducible refine Sim.bind ?_ (fun _ => ?_))
  | split
  | dsimp only)

theorem sim_findArgLoop (fuel : Nat) (n : Bytes) : Sim P (findArgLoop fuel n) (findArgLoop fuel n) := by
  induction fuel with
  | zero => exact Sim.oofM
  | succ fuel ih =>
    unfold findArgLoop
    repeat (first | exact ih | rs_one)

theorem sim_findOperatorArgument (n : Bytes) : Sim P (findOperatorArgument n) (findOperatorArgument n) := by
  unfold findOperatorArgument
  repeat (first | exact sim_findArgLoop H _ _ | rs_one)

theorem sim_varTypeLoop (n : Bytes) (inp : Input) : Sim P (varTypeLoop n inp) (varTypeLoop n inp) := by
  induction inp with
  | slice i ih =>
    unfold varTypeLoop
    repeat (first | exact ih | rs_one)
  | _ =>
    unfold varTypeLoop
    repeat rs_one

theorem sim_bindExternal (cur : InVal F) (inp : Input) (n : Bytes) :
    Sim P (bindExternalVariableValue cur inp n) (bindExternalVariableValue cur inp n) := by
  unfold bindExternalVariableValue
  repeat (first | exact sim_liftB H (bindJSON_re _ _ _ _ _ _ _).symm | rs_one)

theorem sim_bindOperatorArgumentTo {m : M F V W (Option (InVal F × Bool))} {m' : M F V W (Option (InVal F × Bool))} (hm : Sim P m m')
    (cur : InVal F) (inp : Input) (n : Bytes) : Sim P (bindOperatorArgumentTo m cur inp n) (bindOperatorArgumentTo m' cur inp n) := by
  unfold bindOperatorArgumentTo
  repeat (first | exact hm | exact sim_varTypeLoop H _ _ | exact sim_bindExternal H _ _ _ | rs_one)

theorem sim_walkLoop {σ : Type} {f : Bytes → σ → M F V W (Option σ)} {f' : Bytes → σ → M F V W (Option σ)} (hf : ∀ k a, Sim P (f k a) (f' k a))
    (fuel : Nat) (a : σ) : Sim P (walkLoop f fuel a) (walkLoop f' fuel a) := by
  induction fuel generalizing a with
  | zero => exact Sim.oofM
  | succ fuel ih =>
    unfold walkLoop
    repeat (first | exact ih _ | exact hf _ _ | rs_one)

theorem sim_walkInputObject {σ : Type} {f : Bytes → σ → M F V W (Option σ)} {f' : Bytes → σ → M F V W (Option σ)}
    (hf : ∀ k a, Sim P (f k a) (f' k a)) (a : σ) : Sim P (walkInputObject f a) (walkInputObject f' a) := by
  unfold walkInputObject
  repeat (first | exact sim_walkLoop H hf _ _ | rs_one)

theorem sim_listLoop {m : M F V W (Option (InVal F × Bool))} {m' : M F V W (Option (InVal F × Bool))} (hm : Sim P m m') (fuel : Nat)
    (acc : List (InVal F)) : Sim P (listLoop m fuel acc) (listLoop m' fuel acc) := by
  induction fuel generalizing acc with
  | zero => exact Sim.oofM
  | succ fuel ih =>
    unfold listLoop
    repeat (first | exact ih _ | exact hm | rs_one)

theorem sim_bindPtr {base : InVal F → Input → M F V W (Option (InVal F × Bool))} {base' : InVal F → Input → M F V W (Option (InVal F × Bool))}
    (hb : ∀ c i, Sim P (base c i) (base' c i)) (cur : InVal F) (inp : Input) : Sim P (bindPtr base cur inp) (bindPtr base' cur inp) := by
  induction inp generalizing cur with
  | ptr i ih =>
    unfold bindPtr
    refine sim_getCfg ?_
    rw [show zeroOf P.fst.env P.fst.schema.inTypes i = zeroOf P.snd.env P.snd.schema.inTypes i from (zeroOf_re _ _ _ _).symm]
    repeat (first | exact ih _ | rs_one)
  | _ => exact hb _ _

theorem sim_setTo {b b' : B (InVal F)} (e : b = b') : Sim P (setTo b) (setTo b') := by
  unfold setTo
  repeat (first | exact sim_liftB H e | rs_one)

theorem sim_bindVariable {m : M F V W (Option (InVal F × Bool))} {m' : M F V W (Option (InVal F × Bool))} (hm : Sim P m m') (b : Bool)
    (cur : InVal F) (inp : Input) : Sim P (bindVariable m b cur inp) (bindVariable m' b cur inp) := by
  unfold bindVariable
  repeat (first | exact sim_bindOperatorArgumentTo H hm _ _ _ | exact sim_findOperatorArgument H _ | rs_one)

theorem sim_bindList {f : InVal F → Input → M F V W (Option (InVal F × Bool))} {f' : InVal F → Input → M F V W (Option (InVal F × Bool))}
    (hf : ∀ c i, Sim P (f c i) (f' c i)) (cur : InVal F) (inp : Input) : Sim P (bindList f cur inp) (bindList f' cur inp) := by
  unfold bindList
  refine sim_getCfg ?_
  have hz : ∀ e, zeroOf P.fst.env P.fst.schema.inTypes e = zeroOf P.snd.env P.snd.schema.inTypes e := fun e => (zeroOf_re _ _ _ _).symm
  simp only [hz]
  repeat (first | exact sim_listLoop H (hf _ _) _ _ | exact sim_err ‹_› | rs_one)

theorem sim_bindMember {f : InVal F → Input → M F V W (Option (InVal F × Bool))} {f' : InVal F → Input → M F V W (Option (InVal F × Bool))}
    (hf : ∀ c i, Sim P (f c i) (f' c i)) (fs : List InField) (k : Bytes) (acc : InVal F × Bool) :
    Sim P (bindMember f fs k acc) (bindMember f' fs k acc) := by
  unfold bindMember
  repeat (first | exact hf _ _ | rs_one)

theorem sim_bindObject {f : InVal F → Input → M F V W (Option (InVal F × Bool))} {f' : InVal F → Input → M F V W (Option (InVal F × Bool))}
    (hf : ∀ c i, Sim P (f c i) (f' c i)) (cur : InVal F) (inp : Input) : Sim P (bindObject f cur inp) (bindObject f' cur inp) := by
  unfold bindObject
  repeat (first | exact sim_walkInputObject H (fun _ _ => sim_bindMember H hf _ _ _) _ | exact sim_err ‹_› | rs_one)

theorem sim_bindBase {f : Bool → InVal F → Input → M F V W (Option (InVal F × Bool))}
    {f' : Bool → InVal F → Input → M F V W (Option (InVal F × Bool))} (hf : ∀ b c i, Sim P (f b c i) (f' b c i)) (b : Bool)
    (cur : InVal F) (inp : Input) : Sim P (bindBase f b cur inp) (bindBase f' b cur inp) := by
  unfold bindBase bindFloat bindBoolean bindEnum
  repeat (first | exact sim_bindVariable H (hf _ _ _) _ _ _ | exact sim_bindList H (hf _) _ _ | exact sim_bindObject H (hf _) _ _ | exact sim_setTo H rfl | rs_one)

theorem sim_bindInput (fuel : Nat) (b : Bool) (cur : InVal F) (inp : Input) : Sim P (bindInput fuel b cur inp) (bindInput fuel b cur inp) := by
  induction fuel generalizing b cur inp with
  | zero => exact Sim.oofM
  | succ fuel ih => unfold bindInput; exact sim_bindPtr H (fun _ _ => sim_bindBase H ih _ _ _) _ _

theorem sim_bindArgument (m : Method F) (fuel : Nat) (k : Bytes) (inputs : List (Arg F)) :
    Sim P (bindArgument m fuel k inputs) (bindArgument m fuel k inputs) := by
  unfold bindArgument
  repeat (first | exact sim_bindInput H _ _ _ _ | rs_one)


/-- nothing, or results that are alike -/
def LikeOpt (P : Two F V W) : Option (List V) → Option (List V) → W → Prop
  | none, none, _ => True
  | some a, some b, w => Like P w a b
  | _, _, _ => False

theorem echo_callQlMethod (m : Method F) (fn : V) (b : Bool) : Echo P (LikeOpt P) (callQlMethod m fn b) (callQlMethod m fn b) := by
  have call : ∀ inputs, Echo P (LikeOpt P) (do return some (← callFn fn inputs)) (do return some (← callFn fn inputs)) := fun inputs =>
    Echo.bindQ (echo_callFn H fn inputs) (fun a b s es' q e => .ok q e)
  unfold callQlMethod
  intro s es' he
  cases b with
  | false => exact call _ s es' he
  | true =>
    refine Echo.bindQ (Q := fun a b _ => b = a) (sim_walkInputObject H (fun _ _ => sim_bindArgument H _ _ _ _) _) ?_ s es' he
    intro a b s es' q e
    have q := q.symm
    subst q
    cases a with
    | none => exact .ok trivial e
    | some inputs => exact call _ s es' e

theorem sim_resolveDirective (l : UInt8) : Sim P (resolveDirective l) (resolveDirective l) := by
  have rest : ∀ (outs outs' : List V) (s : RS V W) (es' : List RErr), Like P s.world outs outs' → P.E s.errs es' → Out P (fun a b _ => b = a)
      ((match outs[0]? with
        | none => panicM
        | some o => do
          let s ← getState
          return some (P.env.skip s.world o) : M F V W (Option Bool)) P.fst s)
      ((match outs'[0]? with
        | none => panicM
        | some o => do
          let s ← getState
          return some (P.env.skip s.world o) : M F V W (Option Bool)) P.snd { s with errs := es' }) := by
    intro outs outs' s es' q e
    have hl := q.length
    cases h0 : outs[0]? with
    | none =>
      have : outs'[0]? = none := by
        rw [List.getElem?_eq_none_iff] at h0 ⊢
        omega
      rw [this]
      exact .panic
    | some x =>
      have hlt : 0 < outs'.length := by
        have := (List.getElem?_eq_some_iff.1 h0).1
        omega
      have h1 : outs'[0]? = some outs'[0] := List.getElem?_eq_getElem hlt
      rw [h1]
      have := q.skip 0 x _ h0 h1
      exact .ok (by rw [this]) e
  unfold resolveDirective
  refine Sim.bind sim_skipInst (fun _ => Sim.bind sim_readInst (fun _ => Sim.bind sim_readToNul (fun name => sim_getCfg ?_)))
  dsimp only [Two.fst, Two.snd]
  cases lookup P.schema.directives l with
  | none => exact Sim.bind (sim_err H) (fun _ => Sim.pure)
  | some ds =>
    dsimp only
    cases ds.find? (fun d => decide (d.name = name)) with
    | none => exact Sim.bind (sim_err H) (fun _ => Sim.pure)
    | some d =>
      refine Echo.bindQ (echo_callQlMethod H _ _ _) ?_
      intro a b s es' q e
      cases a with
      | none =>
        cases b with
        | none => exact .ok rfl e
        | some _ => exact q.elim
      | some outs =>
        cases b with
        | none => exact q.elim
        | some outs' => exact rest outs outs' s es' q e

theorem sim_resolveDirectives (l : UInt8) (n : Nat) : Sim P (resolveDirectives l n) (resolveDirectives l n) := by
  induction n with
  | zero => exact Sim.pure
  | succ n ih =>
    unfold resolveDirectives
    repeat (first | exact sim_resolveDirective H _ | exact ih | rs_one)

theorem sim_fieldOf (v : V) (i : Nat) : Sim P (fieldOf v i) (fieldOf v i) := by
  unfold fieldOf
  repeat rs_one

theorem sim_fieldValue (v : V) (f : RField F V) : Sim P (fieldValue v f) (fieldValue v f) := by
  unfold fieldValue
  repeat (first | exact sim_fieldOf H _ _ | exact Sim.pure | rs_one)

theorem sim_isNilFunc (m : Method F) (v : V) : Sim P (isNilFunc m v) (isNilFunc m v) := by
  unfold isNilFunc
  repeat rs_one

theorem out_reportMethodErr (m : Method F) (outs outs' : List V) (s : RS V W) (es' : List RErr) (q : Like P s.world outs outs') (e : P.E s.errs es') :
    Out P (fun _ _ w => w = s.world) (reportMethodErr m outs P.fst s) (reportMethodErr m outs' P.snd { s with errs := es' }) := by
  unfold reportMethodErr
  cases hm : m.errorOutNr with
  | none => exact .ok rfl e
  | some nr =>
    show Out P _ ((match outs[nr]? with | none => panicM | some x => _ : M F V W Unit) P.fst s)
      ((match outs'[nr]? with | none => panicM | some x => _ : M F V W Unit) P.snd { s with errs := es' })
    have hl := q.length
    cases h0 : outs[nr]? with
    | none =>
      have : outs'[nr]? = none := by
        rw [List.getElem?_eq_none_iff] at h0 ⊢
        omega
      rw [this]
      exact .panic
    | some x =>
      have hlt : nr < outs'.length := by
        have := (List.getElem?_eq_some_iff.1 h0).1
        omega
      have h1 : outs'[nr]? = some outs'[nr] := List.getElem?_eq_getElem hlt
      rw [h1]
      have hx := q.error nr x _ h0 h1
      generalize outs'[nr] = x' at hx
      show Out P _ ((match P.env.errOf s.world x with | none => pure () | some msg => err msg : M F V W Unit) P.fst s)
        ((match P.errOf' s.world x' with | none => pure () | some msg => err msg : M F V W Unit) P.snd { s with errs := es' })
      have herr : ∀ msg, Out P (fun _ _ w => w = s.world) (err msg P.fst s) (err msg P.snd { s with errs := es' }) := fun msg =>
        .ok (s := { s with errs := _ }) rfl (H.same _ _ _ e)
      rcases hx with hx | ⟨hx, hE⟩
      · rw [hx]
        cases P.env.errOf s.world x with
        | none => exact .ok rfl e
        | some msg => exact herr msg
      · rw [hx]
        cases P.env.errOf s.world x with
        | none => exact .ok rfl e
        | some msg => exact .ok (s := { s with errs := _ }) rfl (hE _ _ _ e)

theorem out_afterCall {m : Method F} {outs outs' : List V} {f f' : V → M F V W Bool} (hf : ∀ v, Sim P (f v) (f' v)) (s : RS V W) (es' : List RErr)
    (q : Like P s.world outs outs') (e : P.E s.errs es') :
    Out P (fun a b _ => b = a) (afterCall m outs f P.fst s) (afterCall m outs' f' P.snd { s with errs := es' }) := by
  unfold afterCall
  show Out P _ ((match P.env.ctxErr s.world with
      | some msg => do err msg; writeNull; return false
      | none => match outs[m.outNr]? with | none => panicM | some v => f v : M F V W Bool) P.fst s)
    ((match P.env.ctxErr s.world with
      | some msg => do err msg; writeNull; return false
      | none => match outs'[m.outNr]? with | none => panicM | some v => f' v : M F V W Bool) P.snd { s with errs := es' })
  cases hc : P.env.ctxErr s.world with
  | some msg => exact Sim.bind (sim_err H) (fun _ => Sim.bind sim_writeNull (fun _ => Sim.pure)) s es' e
  | none =>
    rw [q.values hc]
    dsimp only
    cases outs[m.outNr]? with
    | none => exact .panic
    | some v => exact hf v s es' e

theorem sim_callAndResolve {m : Method F} {v : V} {f f' : V → Bool → M F V W Bool}
    (hf : ∀ v b, Sim P (f v b) (f' v b)) : Sim P (callAndResolve m v f) (callAndResolve m v f') := by
  unfold callAndResolve
  refine Sim.bind sim_seekInst (fun inst => Echo.bindQ (echo_callQlMethod H _ _ _) ?_)
  intro a b s es' q e
  cases a with
  | none =>
    cases b with
    | none => exact .ok rfl e
    | some _ => exact q.elim
  | some outs =>
    cases b with
    | none => exact q.elim
    | some outs' =>
      dsimp only
      refine Out.bind (Q := fun a b w => b = a ∧ w = s.world) ?_ ?_
      · show Out P _ (match P.res[s.charNr]? with | some b => R.ok b s | none => R.panic)
          (match P.res[s.charNr]? with | some b => R.ok b { s with errs := es' } | none => R.panic)
        cases P.res[s.charNr]? with
        | none => exact .panic
        | some b => exact .ok ⟨rfl, rfl⟩ e
      · rintro inst _ s1 es1 ⟨rfl, hw⟩ e1
        refine Out.bind (out_reportMethodErr H m outs outs' s1 es1 (by rw [hw]; exact q) e1) ?_
        intro _ _ s2 es2 hw2 e2
        exact out_afterCall H (fun v => hf v _) s2 es2 (by rw [hw2, hw]; exact q) e2

theorem sim_elemsLoop {body body' : M F V W Bool} (hb : Sim P body body') (start : Nat) (vs : List V) (i : Nat) :
    Sim P (elemsLoop body start i vs) (elemsLoop body' start i vs) := by
  induction vs generalizing i with
  | nil => exact Sim.pure
  | cons v vs ih =>
    unfold elemsLoop
    repeat (first | exact hb | exact ih _ | rs_one)

variable [DecidableEq F]

omit H in
structure AllSim (P : Two F V W) (n : Nat) : Prop where
  sels : ∀ t dept first, Sim P (resolveSelectionSet n t dept first) (resolveSelectionSet n t dept first)
  spread : ∀ t dept first, Sim P (resolveSpread n t dept first) (resolveSpread n t dept first)
  field : ∀ t dept comma, Sim P (resolveField n t dept comma) (resolveField n t dept comma)
  data : ∀ o dept sub, Sim P (resolveFieldDataValue n o dept sub) (resolveFieldDataValue n o dept sub)

set_option maxHeartbeats 1000000 in
theorem allSim (n : Nat) : AllSim P n := by
  induction n with
  | zero =>
    constructor
    · intro t dept first; unfold resolveSelectionSet; exact Sim.oofM
    · intro t dept first; unfold resolveSpread; exact Sim.oofM
    · intro t dept first; unfold resolveField; exact Sim.oofM
    · intro o dept first; unfold resolveFieldDataValue; exact Sim.oofM
  | succ n ih =>
    constructor
    · intro t dept first
      unfold resolveSelectionSet
      repeat (first | exact ih.field _ _ _ | exact ih.spread _ _ _ | exact ih.sels _ _ _ | rs_one)
    · intro t dept first
      unfold resolveSpread
      repeat (first | exact ih.sels _ _ _ | exact sim_resolveDirectives H _ _ | rs_one)
    · intro t dept first
      unfold resolveField
      repeat (first | exact sim_fieldValue H _ _ | exact sim_resolveDirectives H _ _ | exact ih.data _ _ _ | rs_one)
    · intro o dept sub
      unfold resolveFieldDataValue
      cases o with
      | method mt out =>
        repeat (first | exact sim_isNilFunc H _ _ | (with_reducible refine sim_callAndResolve H (fun v b => ?_)) | exact ih.data _ _ _ | rs_one)
      | array inner =>
        repeat (first | exact sim_elemsLoop H (ih.data _ _ _) _ _ _ | rs_one)
      | data isID k =>
        repeat (first | (rw [show ∀ a b c, dataText (reworld P.env P.other) a b c = dataText P.env a b c from fun _ _ _ => by unfold dataText scalarText; rfl]) | rs_one)
      | _ =>
        repeat (first | exact ih.sels _ _ _ | exact ih.data _ _ _ | rs_one)

theorem sim_resolveOperation (n : Nat) : Sim P (resolveOperation n) (resolveOperation n) := by
  unfold resolveOperation
  repeat (first | exact (allSim H n).sels _ _ _ | refine Sim.bind (fun _ _ he => .ok rfl he) (fun _ => ?_) | rs_one)

end

/-- the outcomes of two requests correspond: the same data and world, errors related by `E` -/
inductive SameBut {W : Type} (noMeta : Bool) (E : List RErr → List RErr → Prop) : R W (Bytes × List ReqErr) → R W (Bytes × List ReqErr) → Prop where
  | executed {data es es' w} : E es es' → SameBut noMeta E (.ok (envelope noMeta data (es.map .exec), es.map .exec) w)
      (.ok (envelope noMeta data (es'.map .exec), es'.map .exec) w)
  | same {r} : SameBut noMeta E r r

/-- requests whose calls are alike have outcomes that correspond -/
theorem resolve_echo {F V W : Type} [DecidableEq F] (fuel : Nat) (schema : RSchema F V) (env : Env F V W) (vals : UInt8 → V) (w : W) (req : Request)
    (call' : W → V → Bytes → List (Arg F) → Option (W × List V)) (errOf' : W → V → Option Bytes) (E : List RErr → List RErr → Prop)
    (h0 : E [] []) (H : ∀ res frags, Alike ⟨res, frags, schema, env, req.vars, call', errOf', E⟩) :
    SameBut req.noMeta E (resolve fuel schema env vals w req) (resolve fuel schema { env with call := call', errOf := errOf' } vals w req) := by
  unfold resolve
  cases Parser.parseQuery req.query (if req.target = [] then none else some req.target) with
  | panic => exact .same
  | oof => exact .same
  | ok u p =>
    dsimp only
    by_cases he : p.errs.isEmpty
    · rw [if_pos he, if_pos he]
      cases p.targetIdx with
      | none => exact .same
      | some at_ =>
        dsimp only
        have hs := sim_resolveOperation (H p.res p.frags) fuel ⟨at_, [], [c%'{'], [], vals, 0, false, false, 0, w⟩ [] h0
        have e2 : (⟨p.res, p.frags, schema, { env with call := call', errOf := errOf' }, req.vars⟩ : Cfg F V W) =
          Two.snd ⟨p.res, p.frags, schema, env, req.vars, call', errOf', E⟩ := rfl
        rw [e2]
        change Out _ _ (resolveOperation fuel ⟨p.res, p.frags, schema, env, req.vars⟩ _) (resolveOperation fuel _ ⟨at_, [], [c%'{'], [], vals, 0, false, false, 0, w⟩) at hs
        generalize resolveOperation fuel ⟨p.res, p.frags, schema, env, req.vars⟩ ⟨at_, [], [c%'{'], [], vals, 0, false, false, 0, w⟩ = r1,
          resolveOperation fuel (Two.snd ⟨p.res, p.frags, schema, env, req.vars, call', errOf', E⟩) ⟨at_, [], [c%'{'], [], vals, 0, false, false, 0, w⟩ = r2 at hs ⊢
        cases hs with
        | ok q e => exact .executed e
        | panic => exact .same
        | oof => exact .same
    · rw [if_neg he, if_neg he]
      exact .same

end ResultSim
end Resolver
end Yarql
