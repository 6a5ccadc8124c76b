import Verif.Model.Resolver

/-!
# The resolver depends on the world only through what reads and calls show

Two runs of the same request whose environments use different worlds, related by `Rel`: if related worlds show the same values and calls
from related worlds give the same results and related worlds again, then whenever the first run returns, the second returns the same.
-/

namespace Yarql
namespace Resolver
namespace WorldSim
open Http (J)
open Yarql.Bind

/-- what an environment does with the world -/
structure Worldly (F V W : Type) where
  view : W → V → View F V
  call : W → V → (path : Bytes) → List (Arg F) → Option (W × List V)
  errOf : W → V → Option Bytes
  skip : W → V → Bool
  ctxErr : W → Option Bytes

/-- the same environment over another world -/
def reworld {F V W W' : Type} (env : Env F V W) (o : Worldly F V W') : Env F V W' :=
  { view := o.view, method := env.method, call := o.call, errOf := o.errOf, skip := o.skip, ctxErr := o.ctxErr
    formFile := env.formFile, parseFloat := env.parseFloat, floatOfInt := env.floatOfInt, toF32 := env.toF32, floatZero := env.floatZero
    jsonFloat := env.jsonFloat, floatText := env.floatText, numError := env.numError, jsonIntError := env.jsonIntError
    typeString := env.typeString }

/-- related worlds show the same, and calls keep them related. `Guard` restricts the claim to runs that end in certain worlds; it holds
before a call if it holds after. -/
structure Shows {F V W W' : Type} (env : Env F V W) (o : Worldly F V W') (Guard : W' → Prop) (Rel : W' → W → Prop) : Prop where
  view : ∀ {k w}, Guard k → Rel k w → ∀ v, o.view k v = env.view w v
  errOf : ∀ {k w}, Guard k → Rel k w → ∀ v, o.errOf k v = env.errOf w v
  skip : ∀ {k w}, Guard k → Rel k w → ∀ v, o.skip k v = env.skip w v
  ctxErr : ∀ {k w}, Guard k → Rel k w → o.ctxErr k = env.ctxErr w
  guard : ∀ {k f p a k1 outs}, o.call k f p a = some (k1, outs) → Guard k1 → Guard k
  call : ∀ {k w}, Rel k w → ∀ f p a k1 outs, o.call k f p a = some (k1, outs) → Guard k1 → ∃ w1, env.call w f p a = some (w1, outs) ∧ Rel k1 w1

section
variable {F V W W' : Type} (env : Env F V W) (o : Worldly F V W')

theorem zeroOf_re (inTypes : List (Bytes × InStruct F)) (e : Input) : zeroOf (reworld env o) inTypes e = zeroOf env inTypes e := by
  induction e with
  | array n e ih => unfold zeroOf; rw [ih]
  | scalar k _ _ => cases k <;> rfl
  | _ => rfl

theorem ptrWrap_re (inTypes : List (Bytes × InStruct F)) (base : Input → InVal F → B (InVal F × Bool)) (e : Input) (cur : InVal F) :
    ptrWrap (reworld env o) inTypes base e cur = ptrWrap env inTypes base e cur := by
  induction e generalizing cur with
  | ptr e ih => unfold ptrWrap; rw [ih, zeroOf_re]
  | _ => rfl

mutual
theorem jsonBase_re (enums : List (EnumDef F)) (inTypes : List (Bytes × InStruct F)) (j : J) (inp : Input) (cur : InVal F) :
    bindJSONBase (reworld env o) enums inTypes j inp cur = bindJSONBase env enums inTypes j inp cur := by
  cases j with
  | null => unfold bindJSONBase; rfl
  | bool b => unfold bindJSONBase; rfl
  | num r => unfold bindJSONBase; rfl
  | str s => unfold bindJSONBase; rfl
  | arr items =>
    unfold bindJSONBase
    cases inp with
    | slice e => dsimp only; rw [jsonItems_re enums inTypes items e]; rfl
    | _ => rfl
  | obj ms =>
    unfold bindJSONBase
    cases inp with
    | struct n =>
      dsimp only
      cases lookup inTypes n with
      | none => rfl
      | some d => dsimp only; rw [jsonMembers_re enums inTypes ms d.fields cur]; rfl
    | _ => rfl
theorem jsonItems_re (enums : List (EnumDef F)) (inTypes : List (Bytes × InStruct F)) (js : List J) (e : Input) :
    bindJSONItems (reworld env o) enums inTypes js e = bindJSONItems env enums inTypes js e := by
  cases js with
  | nil => unfold bindJSONItems; rfl
  | cons j js =>
    unfold bindJSONItems
    rw [jsonItems_re enums inTypes js e, ptrWrap_re, zeroOf_re]
    have e : (fun i c => bindJSONBase (reworld env o) enums inTypes j i c) = (fun i c => bindJSONBase env enums inTypes j i c) :=
      funext fun i => funext fun c => jsonBase_re enums inTypes j i c
    rw [e]
theorem jsonMembers_re (enums : List (EnumDef F)) (inTypes : List (Bytes × InStruct F)) (ms : List (Bytes × J)) (fs : List InField) (cur : InVal F) :
    bindJSONMembers (reworld env o) enums inTypes ms fs cur = bindJSONMembers env enums inTypes ms fs cur := by
  match ms with
  | [] => unfold bindJSONMembers; rfl
  | (k, j) :: ms =>
    unfold bindJSONMembers
    cases fs.find? (fun f => decide (f.key = k)) with
    | none => rfl
    | some f =>
      dsimp only
      cases getField cur f.goFieldIdx with
      | none => rfl
      | some c =>
        dsimp only
        have e : (fun i c => bindJSONBase (reworld env o) enums inTypes j i c) = (fun i c => bindJSONBase env enums inTypes j i c) :=
          funext fun i => funext fun c => jsonBase_re enums inTypes j i c
        rw [ptrWrap_re, e]
        congr 1
        funext r
        exact jsonMembers_re enums inTypes ms fs _
end

theorem bindJSON_re (enums : List (EnumDef F)) (inTypes : List (Bytes × InStruct F)) (j : J) (inp : Input) (cur : InVal F) :
    bindJSON (reworld env o) enums inTypes j inp cur = bindJSON env enums inTypes j inp cur := by
  unfold bindJSON
  rw [ptrWrap_re]
  congr 1
  funext i c
  exact jsonBase_re env o enums inTypes j i c

end

section
variable {F V W W' α β : Type}

/-- the same state with another world -/
def put (s : RS V W') (w : W) : RS V W := ⟨s.charNr, s.path, s.out, s.errs, s.vals, s.idx, s.varsParsed, s.hasArgs, s.argsStart, w⟩

/-- the request, over the two worlds -/
structure Pair (F V W W' : Type) where
  res : Bytes
  frags : List Nat
  schema : RSchema F V
  env : Env F V W
  vars : VarsSrc
  o : Worldly F V W'
  Guard : W' → Prop
  Rel : W' → W → Prop
  /-- some world -/
  w0 : W

namespace Pair
variable (P : Pair F V W W')
def fst : Cfg F V W' := ⟨P.res, P.frags, P.schema, reworld P.env P.o, P.vars⟩
def snd : Cfg F V W := ⟨P.res, P.frags, P.schema, P.env, P.vars⟩
end Pair

/-- whenever `m` returns to a guarded world, `m'` does the same from a related state -/
def Sim (P : Pair F V W W') (m : M F V W' α) (m' : M F V W α) : Prop :=
  ∀ s a s1, m P.fst s = .ok a s1 → P.Guard s1.world → P.Guard s.world ∧
    ∀ w, P.Rel s.world w → ∃ w1, m' P.snd (put s w) = .ok a (put s1 w1) ∧ P.Rel s1.world w1

variable {P : Pair F V W W'}

theorem Sim.bind {m : M F V W' α} {m' : M F V W α} {f : α → M F V W' β} {f' : α → M F V W β} (h : Sim P m m')
    (hf : ∀ a, Sim P (f a) (f' a)) : Sim P (m >>= f) (m' >>= f') := by
  intro s b s2 hb hg
  have hb : (match m P.fst s with | .ok a s' => f a P.fst s' | .panic => R.panic | .oof => R.oof) = .ok b s2 := hb
  cases hm : m P.fst s with
  | oof => rw [hm] at hb; cases hb
  | panic => rw [hm] at hb; cases hb
  | ok a s1 =>
    rw [hm] at hb
    obtain ⟨g1, hf1⟩ := hf a s1 b s2 hb hg
    obtain ⟨g0, h0⟩ := h s a s1 hm g1
    refine ⟨g0, fun w hr => ?_⟩
    obtain ⟨w1, k1, k2⟩ := h0 w hr
    obtain ⟨w2, l1, l2⟩ := hf1 w1 k2
    refine ⟨w2, ?_, l2⟩
    show (match m' P.snd (put s w) with | .ok a s' => f' a P.snd s' | .panic => R.panic | .oof => R.oof) = _
    rw [k1]
    exact l1

theorem Sim.pure {a : α} : Sim P (Pure.pure a) (Pure.pure a) := fun s b s1 h hg => by
  have h : R.ok a s = R.ok b s1 := h
  cases h; exact ⟨hg, fun w hr => ⟨w, rfl, hr⟩⟩

theorem Sim.panicM {m' : M F V W α} : Sim P panicM m' := fun s b s1 h => by
  have h : R.panic = R.ok b s1 := h
  cases h

theorem Sim.oofM {m' : M F V W α} : Sim P oofM m' := fun s b s1 h => by
  have h : R.oof = R.ok b s1 := h
  cases h

/-- steps that do not consult the world -/
theorem Sim.prim {m : M F V W' α} {m' : M F V W α}
    (h : ∀ s a s1, m P.fst s = .ok a s1 → s1.world = s.world ∧ ∀ w, m' P.snd (put s w) = .ok a (put s1 w)) : Sim P m m' := by
  intro s a s1 hm hg
  obtain ⟨hw, h1⟩ := h s a s1 hm
  exact ⟨hw ▸ hg, fun w hr => ⟨w, h1 w, hw ▸ hr⟩⟩

theorem sim_write {b : Bytes} : Sim P (write b) (write b) := .prim (fun s a s1 h => by cases h; exact ⟨rfl, fun _ => rfl⟩)
theorem sim_writeNull : Sim P writeNull writeNull := sim_write
theorem sim_writeQuoted {b : Bytes} : Sim P (writeQuoted b) (writeQuoted b) := sim_write
theorem sim_skipInst {n : Nat} : Sim P (skipInst n) (skipInst n) := .prim (fun s a s1 h => by cases h; exact ⟨rfl, fun _ => rfl⟩)
theorem sim_getPos : Sim P getPos getPos := .prim (fun s a s1 h => by cases h; exact ⟨rfl, fun _ => rfl⟩)
theorem sim_setPos {n : Nat} : Sim P (setPos n) (setPos n) := .prim (fun s a s1 h => by cases h; exact ⟨rfl, fun _ => rfl⟩)
theorem sim_setPath {p : Bytes} : Sim P (setPath p) (setPath p) := .prim (fun s a s1 h => by cases h; exact ⟨rfl, fun _ => rfl⟩)
theorem sim_setVarsParsed : Sim P setVarsParsed setVarsParsed := .prim (fun s a s1 h => by cases h; exact ⟨rfl, fun _ => rfl⟩)
theorem sim_setArgs {n : Nat} {b : Bool} : Sim P (setArgs b n) (setArgs b n) := .prim (fun s a s1 h => by cases h; exact ⟨rfl, fun _ => rfl⟩)
theorem sim_err {m : Bytes} : Sim P (err m) (err m) := .prim (fun s a s1 h => by cases h; exact ⟨rfl, fun _ => rfl⟩)
theorem sim_getGoValue : Sim P getGoValue getGoValue := .prim (fun s a s1 h => by cases h; exact ⟨rfl, fun _ => rfl⟩)
theorem sim_setGoValue {v : V} : Sim P (setGoValue v) (setGoValue v) := .prim (fun s a s1 h => by cases h; exact ⟨rfl, fun _ => rfl⟩)
theorem sim_incIdx : Sim P incIdx incIdx := .prim (fun s a s1 h => by cases h; exact ⟨rfl, fun _ => rfl⟩)
theorem sim_decIdx : Sim P decIdx decIdx := .prim (fun s a s1 h => by cases h; exact ⟨rfl, fun _ => rfl⟩)
theorem sim_setNextGoValue {v : V} : Sim P (setNextGoValue v) (setNextGoValue v) := .prim (fun s a s1 h => by cases h; exact ⟨rfl, fun _ => rfl⟩)

theorem sim_readInst : Sim P readInst readInst := .prim (fun s a s1 h => by
  unfold readInst at h ⊢
  replace h : (match P.res[s.charNr]? with | some b => R.ok b _ | none => R.panic) = R.ok a s1 := h
  cases h1 : P.res[s.charNr]? <;> rw [h1] at h <;> cases h
  exact ⟨rfl, fun w => by
    show (match P.res[s.charNr]? with | some b => R.ok b _ | none => R.panic) = _
    rw [h1]; rfl⟩)
theorem sim_seekInst : Sim P seekInst seekInst := .prim (fun s a s1 h => by
  unfold seekInst at h ⊢
  replace h : (match P.res[s.charNr]? with | some b => R.ok b _ | none => R.panic) = R.ok a s1 := h
  cases h1 : P.res[s.charNr]? <;> rw [h1] at h <;> cases h
  exact ⟨rfl, fun w => by
    show (match P.res[s.charNr]? with | some b => R.ok b _ | none => R.panic) = _
    rw [h1]⟩)
theorem sim_lastInst : Sim P lastInst lastInst := .prim (fun s a s1 h => by
  unfold lastInst at h ⊢
  replace h : (match P.res[s.charNr - 1]? with | some b => R.ok b _ | none => R.panic) = R.ok a s1 := h
  cases h1 : P.res[s.charNr - 1]? <;> rw [h1] at h <;> cases h
  exact ⟨rfl, fun w => by
    show (match P.res[s.charNr - 1]? with | some b => R.ok b _ | none => R.panic) = _
    rw [h1]⟩)
theorem sim_getRes {i : Nat} : Sim P (getRes i) (getRes i) := .prim (fun s a s1 h => by
  unfold getRes at h ⊢
  replace h : (match P.res[i]? with | some b => R.ok b _ | none => R.panic) = R.ok a s1 := h
  cases h1 : P.res[i]? <;> rw [h1] at h <;> cases h
  exact ⟨rfl, fun w => by
    show (match P.res[i]? with | some b => R.ok b _ | none => R.panic) = _
    rw [h1]⟩)
theorem sim_sliceRes {i j : Nat} : Sim P (sliceRes i j) (sliceRes i j) := .prim (fun s a s1 h => by
  unfold sliceRes at h ⊢
  replace h : (if i ≤ j ∧ j ≤ P.res.length then R.ok ((P.res.take j).drop i) _ else R.panic) = R.ok a s1 := h
  split at h <;> cases h
  rename_i h1
  exact ⟨rfl, fun w => if_pos h1⟩)
theorem sim_readUint32M : Sim P readUint32M readUint32M := .prim (fun s a s1 h => by
  unfold readUint32M at h ⊢
  replace h : (match readUint32 P.res s.charNr with | some b => R.ok b.toNat _ | none => R.panic) = R.ok a s1 := h
  cases h1 : readUint32 P.res s.charNr <;> rw [h1] at h <;> cases h
  exact ⟨rfl, fun w => by
    show (match readUint32 P.res s.charNr with | some b => R.ok b.toNat _ | none => R.panic) = _
    rw [h1]⟩)
theorem sim_readToNul : Sim P readToNul readToNul := .prim (fun s a s1 h => by
  unfold readToNul at h ⊢
  dsimp only at h ⊢
  split at h <;> cases h
  rename_i h1
  exact ⟨rfl, fun w => if_pos h1⟩)
theorem sim_liftB {b b' : B α} (e : b = b') : Sim P (liftB b) (liftB b') := by
  subst e
  cases b with
  | ok a => exact .prim (fun s a s1 h => by cases h; exact ⟨rfl, fun _ => rfl⟩)
  | err m => exact .prim (fun s a s1 h => by cases h; exact ⟨rfl, fun _ => rfl⟩)
  | panic => exact .prim (fun s a s1 h => by cases h)

theorem sim_getCfg {f : Cfg F V W' → M F V W' β} {f' : Cfg F V W → M F V W β} (h : Sim P (f P.fst) (f' P.snd)) :
    Sim P (getCfg >>= f) (getCfg >>= f') := fun s a s1 hm => h s a s1 hm

/-- reading the state: everything but the world is the same -/
theorem sim_getState {f : RS V W' → M F V W' β} {f' : RS V W → M F V W β}
    (h : ∀ s w, Sim P (f s) (f' (put s w))) : Sim P (getState >>= f) (getState >>= f') :=
  fun s a s1 hm hg => ⟨(h s P.w0 s a s1 hm hg).1, fun w hr => (h s w s a s1 hm hg).2 w hr⟩

/-- consulting the world -/
theorem sim_look {f : α → M F V W' β} {f' : α → M F V W β} (r : W' → α) (r' : W → α) (hr : ∀ {k w}, P.Guard k → P.Rel k w → r k = r' w)
    (h : ∀ x, Sim P (f x) (f' x)) : Sim P (getState >>= fun s => f (r s.world)) (getState >>= fun s => f' (r' s.world)) := by
  intro s a s1 hm hg
  obtain ⟨g, h1⟩ := h (r s.world) s a s1 hm hg
  refine ⟨g, fun w hw => ?_⟩
  obtain ⟨w1, k1, k2⟩ := h1 w hw
  refine ⟨w1, ?_, k2⟩
  show f' (r' w) P.snd (put s w) = _
  rw [← hr g hw]
  exact k1

variable (H : Shows P.env P.o P.Guard P.Rel)
include H

theorem sim_viewOf {v : V} : Sim P (viewOf v) (viewOf v) := fun s a s1 hm hg => by
  have hm : R.ok (P.o.view s.world v) s = R.ok a s1 := hm
  cases hm
  refine ⟨hg, fun w hr => ⟨w, ?_, hr⟩⟩
  show R.ok (P.env.view w v) (put s w) = _
  rw [H.view hg hr]

theorem sim_callFn (fn : V) (inputs : List (Arg F)) : Sim P (callFn fn inputs) (callFn fn inputs) := by
  intro s a s1 hm hg
  have hm : (match P.o.call s.world fn (jsonPath s.path) inputs with | none => panicM | some (w, outs) => do setWorld w; return outs : M F V W' (List V))
    P.fst s = .ok a s1 := hm
  cases hc : P.o.call s.world fn (jsonPath s.path) inputs with
  | none => rw [hc] at hm; cases hm
  | some p =>
    obtain ⟨k1, outs⟩ := p
    rw [hc] at hm
    have hm : R.ok outs { s with world := k1 } = R.ok a s1 := hm
    cases hm
    refine ⟨H.guard hc hg, fun w hr => ?_⟩
    obtain ⟨w1, h1, h2⟩ := H.call hr _ _ _ _ _ hc hg
    refine ⟨w1, ?_, h2⟩
    show (match P.env.call w fn (jsonPath s.path) inputs with | none => panicM | some (w, outs) => do setWorld w; return outs : M F V W (List V))
      P.snd (put s w) = _
    rw [h1]
    rfl

/-- one step of a simulation proof -/
macro "ws_one" : tactic => `(tactic| first
  | with_reducible exact Sim.pure
  | with_reducible exact Sim.panicM
  | with_reducible exact Sim.oofM
  | with_reducible exact sim_write
  | with_reducible exact sim_skipInst
  | with_reducible exact sim_getPos
  | with_reducible exact sim_setPos
  | with_reducible exact sim_setPath
  | with_reducible exact sim_setVarsParsed
  | with_reducible exact sim_setArgs
  | with_reducible exact sim_viewOf ‹_›
  | with_reducible exact sim_err
  | with_reducible exact sim_readInst
  | with_reducible exact sim_seekInst
  | with_reducible exact sim_lastInst
  | with_reducible exact sim_getRes
  | with_reducible exact sim_sliceRes
  | with_reducible exact sim_readUint32M
  | with_reducible exact sim_readToNul
  | with_reducible exact sim_writeNull
  | with_reducible exact sim_writeQuoted
  | with_reducible exact sim_getGoValue
  | with_reducible exact sim_setGoValue
  | with_reducible exact sim_setNextGoValue
  | with_reducible exact sim_incIdx
  | with_reducible exact sim_decIdx
  | exact sim_liftB rfl
  | (with_reducible refine sim_getCfg ?_; dsimp only [Pair.fst, Pair.snd])
  | (with_reducible refine sim_getState (fun s w => ?_); dsimp only [put])
  | (with_reducible refine Sim.bind ?_ (fun _ => ?_))
  | split
  | dsimp only)

omit H in
theorem sim_findArgLoop (fuel : Nat) (n : Bytes) : Sim P (findArgLoop fuel n) (findArgLoop fuel n) := by
  induction fuel with
  | zero => exact Sim.oofM
  | succ fuel ih =>
    unfold findArgLoop
    repeat (first | exact ih | ws_one)

omit H in
theorem sim_findOperatorArgument (n : Bytes) : Sim P (findOperatorArgument n) (findOperatorArgument n) := by
  unfold findOperatorArgument
  repeat (first | exact sim_findArgLoop _ _ | ws_one)

omit H in
theorem sim_varTypeLoop (n : Bytes) (inp : Input) : Sim P (varTypeLoop n inp) (varTypeLoop n inp) := by
  induction inp with
  | slice i ih =>
    unfold varTypeLoop
    repeat (first | exact ih | ws_one)
  | _ =>
    unfold varTypeLoop
    repeat ws_one

omit H in
theorem sim_bindExternal (cur : InVal F) (inp : Input) (n : Bytes) :
    Sim P (bindExternalVariableValue cur inp n) (bindExternalVariableValue cur inp n) := by
  unfold bindExternalVariableValue
  repeat (first | exact sim_liftB (bindJSON_re _ _ _ _ _ _ _) | ws_one)

omit H in
theorem sim_bindOperatorArgumentTo {m : M F V W' (Option (InVal F × Bool))} {m' : M F V W (Option (InVal F × Bool))} (hm : Sim P m m')
    (cur : InVal F) (inp : Input) (n : Bytes) : Sim P (bindOperatorArgumentTo m cur inp n) (bindOperatorArgumentTo m' cur inp n) := by
  unfold bindOperatorArgumentTo
  repeat (first | exact hm | exact sim_varTypeLoop _ _ | exact sim_bindExternal _ _ _ | ws_one)

omit H in
theorem sim_walkLoop {σ : Type} {f : Bytes → σ → M F V W' (Option σ)} {f' : Bytes → σ → M F V W (Option σ)} (hf : ∀ k a, Sim P (f k a) (f' k a))
    (fuel : Nat) (a : σ) : Sim P (walkLoop f fuel a) (walkLoop f' fuel a) := by
  induction fuel generalizing a with
  | zero => exact Sim.oofM
  | succ fuel ih =>
    unfold walkLoop
    repeat (first | exact ih _ | exact hf _ _ | ws_one)

omit H in
theorem sim_walkInputObject {σ : Type} {f : Bytes → σ → M F V W' (Option σ)} {f' : Bytes → σ → M F V W (Option σ)}
    (hf : ∀ k a, Sim P (f k a) (f' k a)) (a : σ) : Sim P (walkInputObject f a) (walkInputObject f' a) := by
  unfold walkInputObject
  repeat (first | exact sim_walkLoop hf _ _ | ws_one)

omit H in
theorem sim_listLoop {m : M F V W' (Option (InVal F × Bool))} {m' : M F V W (Option (InVal F × Bool))} (hm : Sim P m m') (fuel : Nat)
    (acc : List (InVal F)) : Sim P (listLoop m fuel acc) (listLoop m' fuel acc) := by
  induction fuel generalizing acc with
  | zero => exact Sim.oofM
  | succ fuel ih =>
    unfold listLoop
    repeat (first | exact ih _ | exact hm | ws_one)

omit H in
theorem sim_bindPtr {base : InVal F → Input → M F V W' (Option (InVal F × Bool))} {base' : InVal F → Input → M F V W (Option (InVal F × Bool))}
    (hb : ∀ c i, Sim P (base c i) (base' c i)) (cur : InVal F) (inp : Input) : Sim P (bindPtr base cur inp) (bindPtr base' cur inp) := by
  induction inp generalizing cur with
  | ptr i ih =>
    unfold bindPtr
    refine sim_getCfg ?_
    rw [show zeroOf P.fst.env P.fst.schema.inTypes i = zeroOf P.snd.env P.snd.schema.inTypes i from zeroOf_re _ _ _ _]
    repeat (first | exact ih _ | ws_one)
  | _ => exact hb _ _

omit H in
theorem sim_setTo {b b' : B (InVal F)} (e : b = b') : Sim P (setTo b) (setTo b') := by
  unfold setTo
  repeat (first | exact sim_liftB e | ws_one)

omit H in
theorem sim_bindVariable {m : M F V W' (Option (InVal F × Bool))} {m' : M F V W (Option (InVal F × Bool))} (hm : Sim P m m') (b : Bool)
    (cur : InVal F) (inp : Input) : Sim P (bindVariable m b cur inp) (bindVariable m' b cur inp) := by
  unfold bindVariable
  repeat (first | exact sim_bindOperatorArgumentTo hm _ _ _ | exact sim_findOperatorArgument _ | ws_one)

omit H in
theorem sim_bindList {f : InVal F → Input → M F V W' (Option (InVal F × Bool))} {f' : InVal F → Input → M F V W (Option (InVal F × Bool))}
    (hf : ∀ c i, Sim P (f c i) (f' c i)) (cur : InVal F) (inp : Input) : Sim P (bindList f cur inp) (bindList f' cur inp) := by
  unfold bindList
  refine sim_getCfg ?_
  have hz : ∀ e, zeroOf P.fst.env P.fst.schema.inTypes e = zeroOf P.snd.env P.snd.schema.inTypes e := fun e => zeroOf_re _ _ _ _
  simp only [hz]
  repeat (first | exact sim_listLoop (hf _ _) _ _ | exact sim_err | ws_one)

omit H in
theorem sim_bindMember {f : InVal F → Input → M F V W' (Option (InVal F × Bool))} {f' : InVal F → Input → M F V W (Option (InVal F × Bool))}
    (hf : ∀ c i, Sim P (f c i) (f' c i)) (fs : List InField) (k : Bytes) (acc : InVal F × Bool) :
    Sim P (bindMember f fs k acc) (bindMember f' fs k acc) := by
  unfold bindMember
  repeat (first | exact hf _ _ | ws_one)

omit H in
theorem sim_bindObject {f : InVal F → Input → M F V W' (Option (InVal F × Bool))} {f' : InVal F → Input → M F V W (Option (InVal F × Bool))}
    (hf : ∀ c i, Sim P (f c i) (f' c i)) (cur : InVal F) (inp : Input) : Sim P (bindObject f cur inp) (bindObject f' cur inp) := by
  unfold bindObject
  repeat (first | exact sim_walkInputObject (fun _ _ => sim_bindMember hf _ _ _) _ | exact sim_err | ws_one)

omit H in
theorem sim_bindBase {f : Bool → InVal F → Input → M F V W' (Option (InVal F × Bool))}
    {f' : Bool → InVal F → Input → M F V W (Option (InVal F × Bool))} (hf : ∀ b c i, Sim P (f b c i) (f' b c i)) (b : Bool)
    (cur : InVal F) (inp : Input) : Sim P (bindBase f b cur inp) (bindBase f' b cur inp) := by
  unfold bindBase bindFloat bindBoolean bindEnum
  repeat (first | exact sim_bindVariable (hf _ _ _) _ _ _ | exact sim_bindList (hf _) _ _ | exact sim_bindObject (hf _) _ _ | exact sim_setTo rfl | ws_one)

omit H in
theorem sim_bindInput (fuel : Nat) (b : Bool) (cur : InVal F) (inp : Input) : Sim P (bindInput fuel b cur inp) (bindInput fuel b cur inp) := by
  induction fuel generalizing b cur inp with
  | zero => exact Sim.oofM
  | succ fuel ih => unfold bindInput; exact sim_bindPtr (fun _ _ => sim_bindBase ih _ _ _) _ _

omit H in
theorem sim_bindArgument (m : Method F) (fuel : Nat) (k : Bytes) (inputs : List (Arg F)) :
    Sim P (bindArgument m fuel k inputs) (bindArgument m fuel k inputs) := by
  unfold bindArgument
  repeat (first | exact sim_bindInput _ _ _ _ | ws_one)

theorem sim_callQlMethod (m : Method F) (fn : V) (b : Bool) : Sim P (callQlMethod m fn b) (callQlMethod m fn b) := by
  unfold callQlMethod
  repeat (first | exact sim_callFn H _ _ | exact sim_walkInputObject (fun _ _ => sim_bindArgument _ _ _ _) _ | ws_one)

theorem sim_resolveDirective (l : UInt8) : Sim P (resolveDirective l) (resolveDirective l) := by
  unfold resolveDirective
  repeat (first
    | exact sim_callQlMethod H _ _ _
    | exact sim_look (f := fun x => pure (some x)) (f' := fun x => pure (some x)) (fun k => P.o.skip k _) (fun w => P.env.skip w _) (fun hg hr => H.skip hg hr _) (fun _ => Sim.pure)
    | ws_one)

theorem sim_resolveDirectives (l : UInt8) (n : Nat) : Sim P (resolveDirectives l n) (resolveDirectives l n) := by
  induction n with
  | zero => exact Sim.pure
  | succ n ih =>
    unfold resolveDirectives
    repeat (first | exact sim_resolveDirective H _ | exact ih | ws_one)

theorem sim_fieldOf (v : V) (i : Nat) : Sim P (fieldOf v i) (fieldOf v i) := by
  unfold fieldOf
  repeat ws_one

theorem sim_fieldValue (v : V) (f : RField F V) : Sim P (fieldValue v f) (fieldValue v f) := by
  unfold fieldValue
  repeat (first | exact sim_fieldOf H _ _ | exact Sim.pure | ws_one)

theorem sim_isNilFunc (m : Method F) (v : V) : Sim P (isNilFunc m v) (isNilFunc m v) := by
  unfold isNilFunc
  repeat ws_one

theorem sim_reportMethodErr (m : Method F) (outs : List V) : Sim P (reportMethodErr m outs) (reportMethodErr m outs) := by
  unfold reportMethodErr
  repeat (first
    | exact sim_look (f := fun x => match x with | none => pure () | some msg => err msg) (f' := fun x => match x with | none => pure () | some msg => err msg)
        (fun k => P.o.errOf k _) (fun w => P.env.errOf w _) (fun hg hr => H.errOf hg hr _) (fun x => by cases x <;> repeat ws_one)
    | ws_one)

theorem sim_afterCall {m : Method F} {outs : List V} {f : V → M F V W' Bool} {f' : V → M F V W Bool} (hf : ∀ v, Sim P (f v) (f' v)) :
    Sim P (afterCall m outs f) (afterCall m outs f') := by
  unfold afterCall
  refine sim_getCfg (sim_look
    (f := fun x => match x with
      | some msg => do err msg; writeNull; return false
      | none => match outs[m.outNr]? with | none => panicM | some v => f v)
    (f' := fun x => match x with
      | some msg => do err msg; writeNull; return false
      | none => match outs[m.outNr]? with | none => panicM | some v => f' v)
    (fun k => P.o.ctxErr k) (fun w => P.env.ctxErr w) (fun hg hr => H.ctxErr hg hr) (fun x => ?_))
  repeat (first | exact hf _ | ws_one)

theorem sim_callAndResolve {m : Method F} {v : V} {f : V → Bool → M F V W' Bool} {f' : V → Bool → M F V W Bool}
    (hf : ∀ v b, Sim P (f v b) (f' v b)) : Sim P (callAndResolve m v f) (callAndResolve m v f') := by
  unfold callAndResolve
  repeat (first | exact sim_callQlMethod H _ _ _ | exact sim_reportMethodErr H _ _ | exact sim_afterCall H (fun v => hf v _) | ws_one)

omit H in
theorem sim_elemsLoop {body : M F V W' Bool} {body' : M F V W Bool} (hb : Sim P body body') (start : Nat) (vs : List V) (i : Nat) :
    Sim P (elemsLoop body start i vs) (elemsLoop body' start i vs) := by
  induction vs generalizing i with
  | nil => exact Sim.pure
  | cons v vs ih =>
    unfold elemsLoop
    repeat (first | exact hb | exact ih _ | ws_one)

variable [DecidableEq F]

omit H in
structure AllSim (P : Pair F V W W') (n : Nat) : Prop where
  sels : ∀ t dept first, Sim P (resolveSelectionSet n t dept first) (resolveSelectionSet n t dept first)
  spread : ∀ t dept first, Sim P (resolveSpread n t dept first) (resolveSpread n t dept first)
  field : ∀ t dept comma, Sim P (resolveField n t dept comma) (resolveField n t dept comma)
  data : ∀ o dept sub, Sim P (resolveFieldDataValue n o dept sub) (resolveFieldDataValue n o dept sub)

set_option maxHeartbeats 1000000 in
theorem allSim (n : Nat) : AllSim P n := by
  induction n with
  | zero =>
    constructor
    · intro t dept first; unfold resolveSelectionSet; exact Sim.oofM
    · intro t dept first; unfold resolveSpread; exact Sim.oofM
    · intro t dept first; unfold resolveField; exact Sim.oofM
    · intro o dept first; unfold resolveFieldDataValue; exact Sim.oofM
  | succ n ih =>
    constructor
    · intro t dept first
      unfold resolveSelectionSet
      repeat (first | exact ih.field _ _ _ | exact ih.spread _ _ _ | exact ih.sels _ _ _ | ws_one)
    · intro t dept first
      unfold resolveSpread
      repeat (first | exact ih.sels _ _ _ | exact sim_resolveDirectives H _ _ | ws_one)
    · intro t dept first
      unfold resolveField
      repeat (first | exact sim_fieldValue H _ _ | exact sim_resolveDirectives H _ _ | exact ih.data _ _ _ | ws_one)
    · intro o dept sub
      unfold resolveFieldDataValue
      cases o with
      | method mt out =>
        repeat (first | exact sim_isNilFunc H _ _ | (with_reducible refine sim_callAndResolve H (fun v b => ?_)) | exact ih.data _ _ _ | ws_one)
      | array inner =>
        repeat (first | exact sim_elemsLoop (ih.data _ _ _) _ _ _ | ws_one)
      | data isID k =>
        repeat (first | (rw [show ∀ a b c, dataText (reworld P.env P.o) a b c = dataText P.env a b c from fun _ _ _ => by unfold dataText scalarText; rfl]) | ws_one)
      | _ =>
        repeat (first | exact ih.sels _ _ _ | exact ih.data _ _ _ | ws_one)

theorem sim_resolveOperation (n : Nat) : Sim P (resolveOperation n) (resolveOperation n) := by
  unfold resolveOperation
  repeat (first | exact (allSim H n).sels _ _ _ | refine Sim.bind (.prim (fun s a s1 h => by cases h; exact ⟨rfl, fun _ => rfl⟩)) (fun _ => ?_) | ws_one)

end

/-- whenever the request returns over the one world, in a guarded state, it returns the same over the other -/
theorem resolve_sim {F V W W' : Type} [DecidableEq F] {env : Env F V W} {o : Worldly F V W'} {Guard : W' → Prop} {Rel : W' → W → Prop}
    (H : Shows env o Guard Rel) {fuel : Nat} {schema : RSchema F V} {vals : UInt8 → V} {k : W'} {w : W} (hr : Rel k w) {req : Request}
    {a : Bytes × List ReqErr} {k1 : W'} (h : resolve fuel schema (reworld env o) vals k req = .ok a k1) (hg : Guard k1) :
    ∃ w1, resolve fuel schema env vals w req = .ok a w1 ∧ Rel k1 w1 := by
  unfold resolve at h ⊢
  cases hp : Parser.parseQuery req.query (if req.target = [] then none else some req.target) with
  | panic => rw [hp] at h; cases h
  | oof => rw [hp] at h; cases h
  | ok u p =>
    rw [hp] at h
    dsimp only at h ⊢
    by_cases he : p.errs.isEmpty
    · rw [if_pos he] at h ⊢
      cases ht : p.targetIdx with
      | none => rw [ht] at h; cases h; exact ⟨w, rfl, hr⟩
      | some at_ =>
        rw [ht] at h
        dsimp only at h ⊢
        let P : Pair F V W W' := ⟨p.res, p.frags, schema, env, req.vars, o, Guard, Rel, w⟩
        have hs := sim_resolveOperation (P := P) H fuel ⟨at_, [], [c%'{'], [], vals, 0, false, false, 0, k⟩
        cases hm : resolveOperation fuel P.fst ⟨at_, [], [c%'{'], [], vals, 0, false, false, 0, k⟩ with
        | panic => rw [show (⟨p.res, p.frags, schema, reworld env o, req.vars⟩ : Cfg F V W') = P.fst from rfl, hm] at h; cases h
        | oof => rw [show (⟨p.res, p.frags, schema, reworld env o, req.vars⟩ : Cfg F V W') = P.fst from rfl, hm] at h; cases h
        | ok x s1 =>
          rw [show (⟨p.res, p.frags, schema, reworld env o, req.vars⟩ : Cfg F V W') = P.fst from rfl, hm] at h
          cases h
          obtain ⟨w1, k1', k2⟩ := (hs x s1 hm hg).2 w hr
          refine ⟨w1, ?_, k2⟩
          rw [show (⟨p.res, p.frags, schema, env, req.vars⟩ : Cfg F V W) = P.snd from rfl]
          rw [show (⟨at_, [], [c%'{'], [], vals, 0, false, false, 0, w⟩ : RS V W) =
            put (⟨at_, [], [c%'{'], [], vals, 0, false, false, 0, k⟩ : RS V W') w from rfl, k1']
          rfl
    · rw [if_neg he] at h ⊢
      cases h
      exact ⟨w, rfl, hr⟩

end WorldSim
end Resolver
end Yarql
