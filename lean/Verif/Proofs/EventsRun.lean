import Verif.Spec.Events
import Verif.Proofs.WorldSim

/-!
# Every run is a sequence of events (`Spec/Events.lean`)
-/

namespace Yarql
namespace Resolver
namespace EventsRun
open Http (J)
open Yarql.Bind Events Eval

section
variable {F V W α β : Type}

theorem textOf_append (a b : List (Ev F V W)) : textOf (a ++ b) = textOf a ++ textOf b := by
  induction a with
  | nil => rfl
  | cons e es ih => simp only [List.cons_append, textOf, ih, List.append_assoc]

theorem errorsAt_append (e : W → V → Option Bytes) (p : List Seg) (a b : List (Ev F V W)) :
    errorsAt e p (a ++ b) = errorsAt e p a ++ errorsAt e p b := by
  induction a with
  | nil => rfl
  | cons e es ih => simp only [List.cons_append, errorsAt, ih, List.append_assoc]

theorem Plays.append {env : Env F V W} {p : List Seg} {w w1 w2 : W} {a b : List (Ev F V W)} (h : Plays env p w a w1) (h' : Plays env p w1 b w2) :
    Plays env p w (a ++ b) w2 := by
  induction a generalizing w with
  | nil => cases h; exact h'
  | cons e es ih =>
    cases h with
    | wrote h => exact .wrote (ih h)
    | error h => exact .error (ih h)
    | directive hc h => exact .directive hc (ih h)
    | field hc hf h => exact .field hc (hf.trans (List.prefix_append _ _)) (ih h)
    | inside hb hk h => exact .inside hb hk (ih h)

theorem pathText_append (p q : List Seg) : pathText (p ++ q) = pathText p ++ pathText q := by
  induction p with
  | nil => rfl
  | cons s ss ih => simp only [List.cons_append, pathText, ih, List.append_assoc]

/-- from `s` to `s'` by these events at path `q` -/
structure Did (c : Cfg F V W) (q : List Seg) (s : RS V W) (evs : List (Ev F V W)) (s' : RS V W) : Prop where
  out : s'.out = s.out ++ textOf evs
  plays : Plays c.env q s.world evs s'.world

theorem Did.trans {c : Cfg F V W} {q : List Seg} {s s1 s2 : RS V W} {a b : List (Ev F V W)} (h : Did c q s a s1) (h' : Did c q s1 b s2) :
    Did c q s (a ++ b) s2 :=
  ⟨by rw [h'.out, h.out, textOf_append, List.append_assoc], Plays.append h.plays h'.plays⟩

theorem Did.refl {c : Cfg F V W} {q : List Seg} {s s' : RS V W} (h1 : s'.out = s.out) (h3 : s'.world = s.world) :
    Did c q s [] s' := ⟨by simp [h1, textOf], by rw [h3]; exact .nil⟩

/-- the same with other errors of functions -/
def showing (c : Cfg F V W) (e : W → V → Option Bytes) : Cfg F V W := ⟨c.res, c.frags, c.schema, { c.env with errOf := e }, c.vars⟩

/-- `m` leads from `s` to `s'`, and also if the errors of functions are shown by any `e`; the events report the errors then -/
def Tells (c : Cfg F V W) (q : List Seg) (m : M F V W α) (s : RS V W) (a : α) (evs : List (Ev F V W)) (s' : RS V W) : Prop :=
  ∀ e es, m (showing c e) { s with errs := es } = .ok a { s' with errs := es ++ errorsAt e q evs }

/-- from path `q`, `m` does events of `K` at path `q`, and ends at path `r` -/
def T (c : Cfg F V W) (q r : List Seg) (K : List (Ev F V W) → Prop) (m : M F V W α) : Prop :=
  ∀ s a s', s.path = pathText q → m c s = .ok a s' → s'.path = pathText r ∧ ∃ evs, Did c q s evs s' ∧ K evs ∧ Tells c q m s a evs s'

/-- events of `K` can be joined, and may be errors -/
structure Joins (K : List (Ev F V W) → Prop) : Prop where
  nil : K []
  error : ∀ m, K [.error m]
  join : ∀ x y, K x → K y → K (x ++ y)

/-- no function of the field is called here -/
def Plain (evs : List (Ev F V W)) : Prop := ∀ m fn inputs w1 outs, .call (some m) fn inputs w1 outs ∉ evs
/-- ... and nothing is written -/
def Nothing (evs : List (Ev F V W)) : Prop := textOf evs = [] ∧ Plain evs
/-- if the context is cancelled behind the call, only null is written -/
def Tail (env : Env F V W) (evs : List (Ev F V W)) : Prop := Cancelled env evs → textOf evs = b%"null"

theorem Plain.append {a b : List (Ev F V W)} (ha : Plain a) (hb : Plain b) : Plain (a ++ b) := by
  intro m fn inputs w1 outs h
  rcases List.mem_append.1 h with h | h
  · exact ha _ _ _ _ _ h
  · exact hb _ _ _ _ _ h
theorem plain : Joins (Plain (F := F) (V := V) (W := W)) :=
  ⟨fun _ _ _ _ _ h => (by cases h), fun m _ _ _ _ _ h => (by simp at h), fun _ _ => Plain.append⟩
theorem nothing : Joins (Nothing (F := F) (V := V) (W := W)) :=
  ⟨⟨rfl, plain.nil⟩, fun m => ⟨rfl, plain.error m⟩, fun x y hx hy => ⟨by rw [textOf_append, hx.1, hy.1]; rfl, hx.2.append hy.2⟩⟩
theorem Plain.not_cancelled {env : Env F V W} {evs : List (Ev F V W)} (h : Plain evs) : ¬ Cancelled env evs := by
  rintro ⟨m, fn, inputs, w1, outs, h1, -⟩
  exact h _ _ _ _ _ h1
theorem Cancelled.behind {env : Env F V W} {a b : List (Ev F V W)} (ha : Plain a) (h : Cancelled env (a ++ b)) : Cancelled env b := by
  obtain ⟨m, fn, inputs, w1, outs, h1, h2⟩ := h
  rcases List.mem_append.1 h1 with h1 | h1
  · exact absurd h1 (ha _ _ _ _ _)
  · exact ⟨m, fn, inputs, w1, outs, h1, h2⟩
theorem Cancelled.before {env : Env F V W} {a b : List (Ev F V W)} (hb : Plain b) (h : Cancelled env (a ++ b)) : Cancelled env a := by
  obtain ⟨m, fn, inputs, w1, outs, h1, h2⟩ := h
  rcases List.mem_append.1 h1 with h1 | h1
  · exact ⟨m, fn, inputs, w1, outs, h1, h2⟩
  · exact absurd h1 (hb _ _ _ _ _)
theorem plain_wrote (b : Bytes) : Plain (F := F) (V := V) (W := W) [.wrote b] := fun _ _ _ _ _ h => (by simp at h)

variable {c : Cfg F V W} {q r : List Seg} {K : List (Ev F V W) → Prop}

theorem bind_ok {m : M F V W α} {f : α → M F V W β} {s s' : RS V W} {b : β} (h : (m >>= f) c s = .ok b s') :
    ∃ a s1, m c s = .ok a s1 ∧ f a c s1 = .ok b s' := by
  have h : (match m c s with | .ok a s1 => f a c s1 | .panic => R.panic | .oof => R.oof) = .ok b s' := h
  cases hm : m c s with
  | ok a s1 => rw [hm] at h; exact ⟨a, s1, rfl, h⟩
  | panic => rw [hm] at h; cases h
  | oof => rw [hm] at h; cases h

theorem Tells.bind {m : M F V W α} {f : α → M F V W β} {s s1 s2 : RS V W} {a : α} {b : β} {e1 e2 : List (Ev F V W)} (h : Tells c q m s a e1 s1)
    (h' : Tells c q (f a) s1 b e2 s2) : Tells c q (m >>= f) s b (e1 ++ e2) s2 := by
  intro e es
  show (match m (showing c e) { s with errs := es } with | .ok a s1 => f a (showing c e) s1 | .panic => R.panic | .oof => R.oof) = _
  rw [h e es]
  dsimp only
  have := h' e (es ++ errorsAt e q e1)
  rw [errorsAt_append, ← List.append_assoc, ← this]

theorem T.weaken {K' : List (Ev F V W) → Prop} {m : M F V W α} (h : T c q r K m) (hk : ∀ b, K b → K' b) : T c q r K' m := by
  intro s a s' hp hm
  obtain ⟨h1, evs, h2, h3, h4⟩ := h s a s' hp hm
  exact ⟨h1, evs, h2, hk _ h3, h4⟩

theorem T.then {K1 K2 : List (Ev F V W) → Prop} {m : M F V W α} {f : α → M F V W β} (hk : ∀ x y, K1 x → K2 y → K (x ++ y)) (h : T c q q K1 m)
    (hf : ∀ a, T c q r K2 (f a)) : T c q r K (m >>= f) := by
  intro s b s' hp hm
  obtain ⟨a, s1, h1, h2⟩ := bind_ok hm
  obtain ⟨p1, e1, d1, k1, t1⟩ := h s a s1 hp h1
  obtain ⟨p2, e2, d2, k2, t2⟩ := hf a s1 b s' p1 h2
  exact ⟨p2, e1 ++ e2, d1.trans d2, hk _ _ k1 k2, t1.bind t2⟩

/-- a step that writes nothing, before others -/
theorem T.quiet (hk : ∀ x y, Nothing x → K y → K (x ++ y)) {m : M F V W α} {f : α → M F V W β} (h : T c q q Nothing m) (hf : ∀ a, T c q r K (f a)) : T c q r K (m >>= f) :=
  T.then hk h hf

theorem T.bind (hK : Joins K) {m : M F V W α} {f : α → M F V W β} (h : T c q q K m) (hf : ∀ a, T c q r K (f a)) : T c q r K (m >>= f) :=
  T.then hK.join h hf

/-- steps without events -/
theorem T.prim (hK : K []) {m : M F V W α} (h : ∀ s a s', m c s = .ok a s' → s'.path = s.path ∧ s'.out = s.out ∧ s'.world = s.world ∧
    ∀ e es, m (showing c e) { s with errs := es } = .ok a { s' with errs := es }) :
    T c q q K m := by
  intro s a s' hp hm
  obtain ⟨h1, h2, h3, h4⟩ := h s a s' hm
  exact ⟨by rw [h1, hp], [], .refl h2 h3, hK, fun e es => by rw [h4 e es]; simp [errorsAt]⟩

theorem T.panicM : T (α := α) c q r K panicM := fun s a s' _ h => by cases h
theorem T.oofM : T (α := α) c q r K oofM := fun s a s' _ h => by cases h
theorem t_getCfg {f : Cfg F V W → M F V W β} (hc : ∀ e, f (showing c e) = f c) (h : T c q r K (f c)) : T c q r K (getCfg >>= f) :=
  fun s a s' hp hm => by
    obtain ⟨h1, evs, h2, h3, h4⟩ := h s a s' hp hm
    refine ⟨h1, evs, h2, h3, fun e es => ?_⟩
    show f (showing c e) (showing c e) _ = _
    rw [hc]
    exact h4 e es
theorem t_getState {f : RS V W → M F V W β} (hc : ∀ s es, f { s with errs := es } = f s) (h : ∀ s, s.path = pathText q → T c q r K (f s)) :
    T c q r K (getState >>= f) :=
  fun s a s' hp hm => by
    obtain ⟨h1, evs, h2, h3, h4⟩ := h s hp s a s' hp hm
    refine ⟨h1, evs, h2, h3, fun e es => ?_⟩
    show f { s with errs := es } (showing c e) _ = _
    rw [hc]
    exact h4 e es
theorem t_write {b : Bytes} (h : K [.wrote b]) : T c q q K (write b) := by
  intro s a s' hp hm
  cases hm
  exact ⟨hp, [.wrote b], ⟨by simp [textOf, Ev.text], .wrote .nil⟩, h, fun e es => by simp [errorsAt, Ev.errors]; rfl⟩

variable (hK : K [])
include hK

theorem T.pure {a : α} : T c q q K (Pure.pure a) := .prim hK (fun s b s' h => by
  have h : R.ok a s = R.ok b s' := h
  cases h; exact ⟨rfl, rfl, rfl, fun _ _ => rfl⟩)
theorem t_skipInst {n : Nat} : T c q q K (skipInst n) := .prim hK (fun s a s' h => by cases h; exact ⟨rfl, rfl, rfl, fun _ _ => rfl⟩)
theorem t_getPos : T c q q K getPos := .prim hK (fun s a s' h => by cases h; exact ⟨rfl, rfl, rfl, fun _ _ => rfl⟩)
theorem t_setPos {n : Nat} : T c q q K (setPos n) := .prim hK (fun s a s' h => by cases h; exact ⟨rfl, rfl, rfl, fun _ _ => rfl⟩)
theorem t_setVarsParsed : T c q q K setVarsParsed := .prim hK (fun s a s' h => by cases h; exact ⟨rfl, rfl, rfl, fun _ _ => rfl⟩)
theorem t_setArgs {n : Nat} {b : Bool} : T c q q K (setArgs b n) := .prim hK (fun s a s' h => by cases h; exact ⟨rfl, rfl, rfl, fun _ _ => rfl⟩)
theorem t_getGoValue : T c q q K getGoValue := .prim hK (fun s a s' h => by cases h; exact ⟨rfl, rfl, rfl, fun _ _ => rfl⟩)
theorem t_setGoValue {v : V} : T c q q K (setGoValue v) := .prim hK (fun s a s' h => by cases h; exact ⟨rfl, rfl, rfl, fun _ _ => rfl⟩)
theorem t_incIdx : T c q q K incIdx := .prim hK (fun s a s' h => by cases h; exact ⟨rfl, rfl, rfl, fun _ _ => rfl⟩)
theorem t_decIdx : T c q q K decIdx := .prim hK (fun s a s' h => by cases h; exact ⟨rfl, rfl, rfl, fun _ _ => rfl⟩)
theorem t_setNextGoValue {v : V} : T c q q K (setNextGoValue v) := .prim hK (fun s a s' h => by cases h; exact ⟨rfl, rfl, rfl, fun _ _ => rfl⟩)
theorem t_viewOf {v : V} : T c q q K (viewOf v) := .prim hK (fun s a s' h => by cases h; exact ⟨rfl, rfl, rfl, fun _ _ => rfl⟩)
theorem t_readInst : T c q q K readInst := .prim hK (fun s a s' h => by
  unfold readInst at h
  split at h <;> cases h
  exact ⟨rfl, rfl, rfl, fun e es => by unfold readInst; simp_all [showing]⟩)
theorem t_seekInst : T c q q K seekInst := .prim hK (fun s a s' h => by
  unfold seekInst at h
  split at h <;> cases h
  exact ⟨rfl, rfl, rfl, fun e es => by unfold seekInst; simp_all [showing]⟩)
theorem t_lastInst : T c q q K lastInst := .prim hK (fun s a s' h => by
  unfold lastInst at h
  split at h <;> cases h
  exact ⟨rfl, rfl, rfl, fun e es => by unfold lastInst; simp_all [showing]⟩)
theorem t_getRes {i : Nat} : T c q q K (getRes i) := .prim hK (fun s a s' h => by
  unfold getRes at h
  split at h <;> cases h
  exact ⟨rfl, rfl, rfl, fun e es => by unfold getRes; simp_all [showing]⟩)
theorem t_sliceRes {i j : Nat} : T c q q K (sliceRes i j) := .prim hK (fun s a s' h => by
  unfold sliceRes at h
  split at h <;> cases h
  exact ⟨rfl, rfl, rfl, fun e es => by unfold sliceRes; simp_all [showing]⟩)
theorem t_readUint32M : T c q q K readUint32M := .prim hK (fun s a s' h => by
  unfold readUint32M at h
  split at h <;> cases h
  exact ⟨rfl, rfl, rfl, fun e es => by unfold readUint32M; simp_all [showing]⟩)
theorem t_readToNul : T c q q K readToNul := .prim hK (fun s a s' h => by
  unfold readToNul at h
  dsimp only at h
  split at h <;> cases h
  exact ⟨rfl, rfl, rfl, fun e es => by unfold readToNul; simp_all [showing]⟩)

omit hK in
theorem err_path {s : RS V W} (hp : s.path = pathText q) (m : Bytes) :
    (match s.path with | [] => ⟨m, none⟩ | _ :: p => ⟨m, some p⟩ : RErr) = ⟨m, pathJSON q⟩ := by
  rw [hp]
  cases q <;> rfl

omit hK in
theorem t_err (hK : Joins K) {m : Bytes} : T c q q K (err m) := by
  intro s a s' hp hm
  have hm : R.ok () { s with errs := s.errs ++ [(match s.path with | [] => ⟨m, none⟩ | _ :: p => ⟨m, some p⟩ : RErr)] } = R.ok a s' := hm
  rw [err_path hp] at hm
  cases hm
  exact ⟨hp, [.error m], ⟨by simp [textOf, Ev.text],   .error .nil⟩, hK.error m, fun e es => by
    show R.ok () { s with errs := es ++ [(match s.path with | [] => ⟨m, none⟩ | _ :: p => ⟨m, some p⟩ : RErr)] } = _
    rw [err_path hp]
    simp [errorsAt, Ev.errors]⟩

/-- back to another path, at the end -/
theorem t_leave {m : M F V W α} {x : Bytes} (hx : x = pathText r) (hm : ∃ a, ∀ s, ∃ n, m c s = .ok a { s with charNr := n } ∧
      ∀ e es, m (showing c e) { s with errs := es } = .ok a { s with errs := es, charNr := n }) :
    T c q r K (setPath x >>= fun _ => m) := by
  intro s a s' hp h
  have h : m c { s with path := x } = .ok a s' := h
  obtain ⟨b, hm⟩ := hm
  obtain ⟨n, h1, hn⟩ := hm { s with path := x }
  rw [h1] at h
  cases h
  refine ⟨hx, [], .refl rfl rfl, hK, fun e es => ?_⟩
  show m (showing c e) { s with path := x, errs := es } = _
  rw [hn e es]
  simp [errorsAt]

end

/-- everything that happens between two changes of the path -/
theorem t_inside {F V W α : Type} {c : Cfg F V W} {p : List Seg} {seg : Seg} {x : Bytes} {m : M F V W α} (hx : x = pathText (p ++ [seg]))
    (h : T c (p ++ [seg]) p (Written c.env seg) m) : T c p p Plain (setPath x >>= fun _ => m) := by
  intro s a s' hp hm
  have hm : m c { s with path := x } = .ok a s' := hm
  obtain ⟨h1, evs, h2, h3, h4⟩ := h _ a s' hx hm
  refine ⟨h1, [.inside seg evs], ⟨by simpa [textOf, Ev.text] using h2.out, .inside h2.plays h3 .nil⟩, fun _ _ _ _ _ h => by simp at h, fun e es => ?_⟩
  show m (showing c e) { s with path := x, errs := es } = _
  have := h4 e es
  rw [this]
  simp [errorsAt, Ev.errors]

section
variable {F V W : Type} {α β : Type} {c : Cfg F V W} {q r : List Seg} {K : List (Ev F V W) → Prop}

theorem t_liftB (hK : Joins K) {b : B α} : T c q q K (liftB b) := by
  cases b with
  | ok a => exact .prim hK.nil (fun s a s' h => by cases h; exact ⟨rfl, rfl, rfl, fun _ _ => rfl⟩)
  | err m => exact T.bind hK (t_err hK) (fun _ => T.pure hK.nil)
  | panic => exact T.panicM

theorem zeroOf_showing (e : W → V → Option Bytes) (ts : List (Bytes × InStruct F)) (i : Input) :
    zeroOf (showing c e).env ts i = zeroOf c.env ts i :=
  WorldSim.zeroOf_re c.env ⟨c.env.view, c.env.call, e, c.env.skip, c.env.ctxErr⟩ _ _
theorem bindJSON_showing (e : W → V → Option Bytes) (en ts) (j : J) (i : Input) (cur : InVal F) :
    bindJSON (showing c e).env en ts j i cur = bindJSON c.env en ts j i cur :=
  WorldSim.bindJSON_re c.env ⟨c.env.view, c.env.call, e, c.env.skip, c.env.ctxErr⟩ _ _ _ _ _

/-- the program is the same, whatever shows the errors of functions -/
macro "ev_same" : tactic => `(tactic| first
  | rfl
  | (simp only [zeroOf_showing, bindJSON_showing]; rfl)
  | (simp only [zeroOf_showing, bindJSON_showing]))

/-- one step -/
macro "ev_one" : tactic => `(tactic| first
  | with_reducible exact T.pure (Joins.nil ‹_›)
  | with_reducible exact T.panicM
  | with_reducible exact T.oofM
  | with_reducible exact t_skipInst (Joins.nil ‹_›)
  | with_reducible exact t_getPos (Joins.nil ‹_›)
  | with_reducible exact t_setPos (Joins.nil ‹_›)
  | with_reducible exact t_setVarsParsed (Joins.nil ‹_›)
  | with_reducible exact t_setArgs (Joins.nil ‹_›)
  | with_reducible exact t_viewOf (Joins.nil ‹_›)
  | with_reducible exact t_err ‹_›
  | with_reducible exact t_readInst (Joins.nil ‹_›)
  | with_reducible exact t_seekInst (Joins.nil ‹_›)
  | with_reducible exact t_lastInst (Joins.nil ‹_›)
  | with_reducible exact t_getRes (Joins.nil ‹_›)
  | with_reducible exact t_sliceRes (Joins.nil ‹_›)
  | with_reducible exact t_readUint32M (Joins.nil ‹_›)
  | with_reducible exact t_readToNul (Joins.nil ‹_›)
  | with_reducible exact t_getGoValue (Joins.nil ‹_›)
  | with_reducible exact t_setGoValue (Joins.nil ‹_›)
  | with_reducible exact t_setNextGoValue (Joins.nil ‹_›)
  | with_reducible exact t_incIdx (Joins.nil ‹_›)
  | with_reducible exact t_decIdx (Joins.nil ‹_›)
  | with_reducible exact t_liftB ‹_›
  | ((with_reducible refine t_getCfg ?_ ?_); · intro e; ev_same)
  | ((with_reducible refine t_getState ?_ (fun s _ => ?_)); · intro s es; rfl)
  | (with_reducible refine T.bind ‹_› ?_ (fun _ => ?_))
  | split
  | dsimp only)

theorem t_findArgLoop (hK : Joins K) (fuel : Nat) (n : Bytes) : T c q q K (findArgLoop fuel n) := by
  induction fuel with
  | zero => exact T.oofM
  | succ fuel ih =>
    unfold findArgLoop
    repeat (first | exact ih | ev_one)

theorem t_findOperatorArgument (hK : Joins K) (n : Bytes) : T c q q K (findOperatorArgument n) := by
  unfold findOperatorArgument
  repeat (first | exact t_findArgLoop hK _ _ | ev_one)

theorem t_varTypeLoop (hK : Joins K) (n : Bytes) (inp : Input) : T c q q K (varTypeLoop n inp) := by
  induction inp with
  | slice i ih =>
    unfold varTypeLoop
    repeat (first | exact ih | ev_one)
  | _ =>
    unfold varTypeLoop
    repeat ev_one

theorem t_bindExternal (hK : Joins K) (cur : InVal F) (inp : Input) (n : Bytes) : T c q q K (bindExternalVariableValue cur inp n) := by
  unfold bindExternalVariableValue
  repeat ev_one

theorem t_bindOperatorArgumentTo (hK : Joins K) {m : M F V W (Option (InVal F × Bool))} (hm : T c q q K m)
    (cur : InVal F) (inp : Input) (n : Bytes) : T c q q K (bindOperatorArgumentTo m cur inp n) := by
  unfold bindOperatorArgumentTo
  repeat (first | exact hm | exact t_varTypeLoop hK _ _ | exact t_bindExternal hK _ _ _ | ev_one)

theorem t_walkLoop (hK : Joins K) {σ : Type} {f : Bytes → σ → M F V W (Option σ)} (hf : ∀ k a, T c q q K (f k a))
    (fuel : Nat) (a : σ) : T c q q K (walkLoop f fuel a) := by
  induction fuel generalizing a with
  | zero => exact T.oofM
  | succ fuel ih =>
    unfold walkLoop
    repeat (first | exact ih _ | exact hf _ _ | ev_one)

theorem t_walkInputObject (hK : Joins K) {σ : Type} {f : Bytes → σ → M F V W (Option σ)} (hf : ∀ k a, T c q q K (f k a)) (a : σ) :
    T c q q K (walkInputObject f a) := by
  unfold walkInputObject
  repeat (first | exact t_walkLoop hK hf _ _ | ev_one)

theorem t_listLoop (hK : Joins K) {m : M F V W (Option (InVal F × Bool))} (hm : T c q q K m) (fuel : Nat)
    (acc : List (InVal F)) : T c q q K (listLoop m fuel acc) := by
  induction fuel generalizing acc with
  | zero => exact T.oofM
  | succ fuel ih =>
    unfold listLoop
    repeat (first | exact ih _ | exact hm | ev_one)

theorem t_bindPtr (hK : Joins K) {base : InVal F → Input → M F V W (Option (InVal F × Bool))}
    (hb : ∀ x i, T c q q K (base x i)) (cur : InVal F) (inp : Input) : T c q q K (bindPtr base cur inp) := by
  induction inp generalizing cur with
  | ptr i ih =>
    unfold bindPtr
    repeat (first | exact ih _ | ev_one)
  | _ => exact hb _ _

theorem t_setTo (hK : Joins K) {b : B (InVal F)} : T c q q K (setTo b) := by
  unfold setTo
  repeat ev_one

theorem t_bindVariable (hK : Joins K) {m : M F V W (Option (InVal F × Bool))} (hm : T c q q K m) (b : Bool)
    (cur : InVal F) (inp : Input) : T c q q K (bindVariable m b cur inp) := by
  unfold bindVariable
  repeat (first | exact t_bindOperatorArgumentTo hK hm _ _ _ | exact t_findOperatorArgument hK _ | ev_one)

theorem t_bindList (hK : Joins K) {f : InVal F → Input → M F V W (Option (InVal F × Bool))}
    (hf : ∀ x i, T c q q K (f x i)) (cur : InVal F) (inp : Input) : T c q q K (bindList f cur inp) := by
  unfold bindList
  repeat (first | exact t_listLoop hK (hf _ _) _ _ | ev_one)

theorem t_bindMember (hK : Joins K) {f : InVal F → Input → M F V W (Option (InVal F × Bool))}
    (hf : ∀ x i, T c q q K (f x i)) (fs : List InField) (k : Bytes) (acc : InVal F × Bool) : T c q q K (bindMember f fs k acc) := by
  unfold bindMember
  repeat (first | exact hf _ _ | ev_one)

theorem t_bindObject (hK : Joins K) {f : InVal F → Input → M F V W (Option (InVal F × Bool))}
    (hf : ∀ x i, T c q q K (f x i)) (cur : InVal F) (inp : Input) : T c q q K (bindObject f cur inp) := by
  unfold bindObject
  repeat (first | exact t_walkInputObject hK (fun _ _ => t_bindMember hK hf _ _ _) _ | ev_one)

theorem t_bindBase (hK : Joins K) {f : Bool → InVal F → Input → M F V W (Option (InVal F × Bool))}
    (hf : ∀ b x i, T c q q K (f b x i)) (b : Bool) (cur : InVal F) (inp : Input) : T c q q K (bindBase f b cur inp) := by
  unfold bindBase bindFloat bindBoolean bindEnum
  repeat (first | exact t_bindVariable hK (hf _ _ _) _ _ _ | exact t_bindList hK (hf _) _ _ | exact t_bindObject hK (hf _) _ _ | exact t_setTo hK | ev_one)

theorem t_bindInput (hK : Joins K) (fuel : Nat) (b : Bool) (cur : InVal F) (inp : Input) : T c q q K (bindInput fuel b cur inp) := by
  induction fuel generalizing b cur inp with
  | zero => exact T.oofM
  | succ fuel ih => unfold bindInput; exact t_bindPtr hK (fun _ _ => t_bindBase hK ih _ _ _) _ _

theorem t_bindArgument (hK : Joins K) (m : Method F) (fuel : Nat) (k : Bytes) (inputs : List (Arg F)) :
    T c q q K (bindArgument m fuel k inputs) := by
  unfold bindArgument
  repeat (first | exact t_bindInput hK _ _ _ _ | ev_one)

/-! ## Calls -/

theorem jsonPath_pathText (q : List Seg) : jsonPath (pathText q) = Shows.pathArg q := by
  cases q <;> rfl

theorem callFn_ok {fn : V} {inputs : List (Arg F)} {s s' : RS V W} {outs : List V} (hp : s.path = pathText q)
    (h : callFn fn inputs c s = .ok outs s') :
    c.env.call s.world fn (Shows.pathArg q) inputs = some (s'.world, outs) ∧ s' = { s with world := s'.world } ∧ Tells c q (callFn fn inputs) s outs [] s' := by
  have h : (match c.env.call s.world fn (jsonPath s.path) inputs with | none => panicM | some (w, outs) => do setWorld w; return outs : M F V W (List V))
    c s = .ok outs s' := h
  have ht : ∀ e es, callFn fn inputs (showing c e) { s with errs := es } = (match c.env.call s.world fn (jsonPath s.path) inputs with
    | none => panicM | some (w, outs) => do setWorld w; return outs : M F V W (List V)) (showing c e) { s with errs := es } := fun e es => rfl
  have hj : jsonPath s.path = Shows.pathArg q := by rw [hp, jsonPath_pathText]
  rw [hj] at h
  simp only [hj] at ht
  cases hc : c.env.call s.world fn (Shows.pathArg q) inputs with
  | none => rw [hc] at h; cases h
  | some p =>
    obtain ⟨w1, o⟩ := p
    rw [hc] at h
    simp only [hc] at ht
    cases h
    exact ⟨rfl, rfl, fun e es => by rw [ht]; simp only [errorsAt, List.append_nil]; rfl⟩

theorem Tells.pure {a : α} {s : RS V W} : Tells c q (Pure.pure a) s a [] s := fun e es => by
  simp only [errorsAt, List.append_nil]
  rfl

/-- calling a function: arguments are bound, which may report an error and ends it; or the function is called -/
theorem callQlMethod_ok {m : Method F} {fn : V} {b : Bool} {s s' : RS V W} {res : Option (List V)} (hp : s.path = pathText q)
    (h : callQlMethod m fn b c s = .ok res s') :
    s'.path = pathText q ∧ ∃ evs, Nothing evs ∧ Tells c q (callQlMethod m fn b) s res evs s' ∧ ((res = none ∧ Did c q s evs s') ∨
      ∃ outs s1 inputs, res = some outs ∧ Did c q s evs s1 ∧
        c.env.call s1.world fn (Shows.pathArg q) inputs = some (s'.world, outs) ∧ s' = { s1 with world := s'.world }) := by
  unfold callQlMethod at h
  cases b with
  | false =>
    obtain ⟨outs, s2, h1, h2⟩ := bind_ok (m := callFn fn (freshInputs m)) h
    have h2 : R.ok (some outs) s2 = R.ok res s' := h2
    cases h2
    obtain ⟨k1, k2, k3⟩ := callFn_ok hp h1
    refine ⟨by rw [k2]; exact hp, [], nothing.nil, ?_, Or.inr ⟨outs, s, _, rfl, .refl rfl rfl, k1, k2⟩⟩
    exact (Tells.bind k3 Tells.pure : Tells c q (callFn fn (freshInputs m) >>= fun o => Pure.pure (some o)) s (some outs) ([] ++ []) s')
  | true =>
    obtain ⟨a, s1, h1, h2⟩ := bind_ok (m := walkInputObject (bindArgument m (2 * (c.res.length + 1))) (freshInputs m)) h
    obtain ⟨p1, evs, d1, t1, tt⟩ := t_walkInputObject nothing (fun _ _ => t_bindArgument nothing _ _ _ _) _ s a s1 hp h1
    have key : ∀ {x x' evs'}, Tells c q (match a with | none => Pure.pure none | some inputs => do return some (← callFn fn inputs) : M F V W (Option (List V))) s1 x evs' x' →
        Tells c q (callQlMethod m fn true) s x (evs ++ evs') x' := by
      intro x x' evs' hx e es
      exact Tells.bind (f := fun a => (match a with | none => Pure.pure none | some inputs => do return some (← callFn fn inputs) : M F V W (Option (List V)))) tt hx e es
    cases a with
    | none =>
      have h2 : R.ok none s1 = R.ok res s' := h2
      cases h2
      refine ⟨p1, evs, t1, ?_, Or.inl ⟨rfl, d1⟩⟩
      have := key (x := none) (x' := s') (evs' := []) Tells.pure
      rwa [List.append_nil] at this
    | some inputs =>
      obtain ⟨outs, s2, h3, h4⟩ := bind_ok (m := callFn fn inputs) h2
      have h4 : R.ok (some outs) s2 = R.ok res s' := h4
      cases h4
      obtain ⟨k1, k2, k3⟩ := callFn_ok p1 h3
      refine ⟨by rw [k2]; exact p1, evs, t1, ?_, Or.inr ⟨outs, s1, inputs, rfl, d1, k1, k2⟩⟩
      have := key (x := some outs) (x' := s') (evs' := [] ++ []) (Tells.bind k3 Tells.pure)
      rwa [List.append_nil, List.append_nil] at this

theorem t_resolveDirective (l : UInt8) : T c q q Nothing (resolveDirective l) := by
  have hK := nothing (F := F) (V := V) (W := W)
  unfold resolveDirective
  refine T.bind hK (t_skipInst hK.nil) (fun _ => T.bind hK (t_readInst hK.nil) (fun inst => T.bind hK (t_readToNul hK.nil) (fun name => t_getCfg (fun e => by ev_same) ?_)))
  cases lookup c.schema.directives l with
  | none => exact T.bind hK (t_err hK) (fun _ => T.pure hK.nil)
  | some ds =>
    dsimp only
    cases ds.find? (fun d => decide (d.name = name)) with
    | none => exact T.bind hK (t_err hK) (fun _ => T.pure hK.nil)
    | some d =>
      intro s a s' hp h
      obtain ⟨res, s1, h1, h2⟩ := bind_ok h
      obtain ⟨p1, evs, t1, tt, h3⟩ := callQlMethod_ok hp h1
      rcases h3 with ⟨rfl, d1⟩ | ⟨outs, s0, inputs, rfl, d1, k1, k2⟩
      · have h2 : R.ok none s1 = R.ok a s' := h2
        cases h2
        refine ⟨p1, evs, d1, t1, ?_⟩
        have := Tells.bind (f := fun r => (match r with
          | none => Pure.pure none
          | some outs => match outs[0]? with | none => panicM | some o => do let s ← getState; return some (c.env.skip s.world o) : M F V W (Option Bool))) tt
          (Tells.pure (a := none) (s := s'))
        rw [List.append_nil] at this
        exact this
      · dsimp only at h2
        cases h0 : outs[0]? with
        | none => rw [h0] at h2; cases h2
        | some o =>
          rw [h0] at h2
          cases h2
          refine ⟨p1, evs ++ [.call none d.func inputs s'.world outs], ⟨?_, ?_⟩, ?_, ?_⟩
          · rw [k2, textOf_append, t1.1]
            show s0.out = _
            rw [d1.out, t1.1]
            rfl
          · exact Plays.append d1.plays (.directive k1 .nil)
          · exact nothing.join _ _ t1 ⟨rfl, fun _ _ _ _ _ h => by simp at h⟩
          · refine Tells.bind tt (fun e es => ?_)
            dsimp only
            rw [h0]
            simp only [errorsAt, Ev.errors, List.append_nil]
            rfl

theorem t_resolveDirectives (l : UInt8) (n : Nat) : T c q q Nothing (resolveDirectives l n) := by
  have hK := nothing (F := F) (V := V) (W := W)
  induction n with
  | zero => exact T.pure hK.nil
  | succ n ih =>
    unfold resolveDirectives
    repeat (first | exact t_resolveDirective _ | exact ih | ev_one)

theorem t_fieldOf (hK : Joins K) (v : V) (i : Nat) : T c q q K (fieldOf v i) := by
  unfold fieldOf
  repeat ev_one

theorem t_fieldValue (hK : Joins K) (v : V) (f : RField F V) : T c q q K (fieldValue v f) := by
  unfold fieldValue
  repeat (first | exact t_fieldOf hK _ _ | ev_one)

theorem t_isNilFunc (hK : Joins K) (m : Method F) (v : V) : T c q q K (isNilFunc m v) := by
  unfold isNilFunc
  repeat ev_one

theorem reportMethodErr_ok {m : Method F} {outs : List V} {s s' : RS V W} {u : Unit} (hp : s.path = pathText q)
    (h : reportMethodErr m outs c s = .ok u s') (fn : V) (inputs : List (Arg F)) :
    (∃ es, s' = { s with errs := es }) ∧ Tells c q (reportMethodErr m outs) s () [.call (some m) fn inputs s.world outs] s' := by
  unfold reportMethodErr at h
  unfold Tells reportMethodErr
  simp only [errorsAt, Ev.errors, List.append_nil]
  unfold ownError
  cases hm : m.errorOutNr with
  | none =>
    rw [hm] at h
    have h : R.ok () s = R.ok u s' := h
    cases h
    exact ⟨⟨s.errs, rfl⟩, fun e es => by simp only [Option.toList, List.map_nil, List.append_nil]; rfl⟩
  | some nr =>
    rw [hm] at h
    have h : (match outs[nr]? with
      | none => panicM
      | some e => do
        let s ← getState
        match c.env.errOf s.world e with
        | none => return ()
        | some msg => err msg : M F V W Unit) c s = .ok u s' := h
    cases h0 : outs[nr]? with
    | none => rw [h0] at h; cases h
    | some x =>
      rw [h0] at h
      have h : (match c.env.errOf s.world x with | none => pure () | some msg => err msg : M F V W Unit) c s = .ok u s' := h
      have e1 : ∃ es, s' = { s with errs := es } := by
        cases h1 : c.env.errOf s.world x with
        | none =>
          rw [h1] at h
          have h : R.ok () s = R.ok u s' := h
          cases h
          exact ⟨s.errs, rfl⟩
        | some msg =>
          rw [h1] at h
          have h : R.ok () { s with errs := s.errs ++ [(match s.path with | [] => ⟨msg, none⟩ | _ :: p => ⟨msg, some p⟩ : RErr)] } = R.ok u s' := h
          cases h
          exact ⟨_, rfl⟩
      refine ⟨e1, fun e es => ?_⟩
      obtain ⟨es0, rfl⟩ := e1
      dsimp only
      show (match outs[nr]? with
        | none => panicM
        | some x => do
          let s ← getState
          match e s.world x with
          | none => return ()
          | some msg => err msg : M F V W Unit) (showing c e) { s with errs := es } = _
      rw [h0]
      show (match e s.world x with | none => pure () | some msg => err msg : M F V W Unit) (showing c e) { s with errs := es } = _
      cases h2 : e s.world x with
      | none =>
        dsimp only
        simp only [h2, Option.toList, List.map_nil, List.append_nil]
        rfl
      | some msg =>
        show R.ok () { s with errs := es ++ [(match s.path with | [] => ⟨msg, none⟩ | _ :: p => ⟨msg, some p⟩ : RErr)] } = _
        rw [err_path hp]
        simp only [h2]
        rfl

theorem t_afterCall {m : Method F} {outs : List V} {f : V → M F V W Bool} (hf : ∀ v, T c q q (Tail c.env) (f v)) {s s' : RS V W} {a : Bool}
    (hp : s.path = pathText q) (h : afterCall m outs f c s = .ok a s') :
    s'.path = pathText q ∧ ∃ evs, Did c q s evs s' ∧ cancelled c.env s.world <+: evs ∧ Tail c.env evs ∧ (c.env.ctxErr s.world ≠ none → textOf evs = b%"null") ∧ Tells c q (afterCall m outs f) s a evs s' := by
  unfold cancelled
  have h : (match c.env.ctxErr s.world with
      | some msg => do err msg; writeNull; return false
      | none => match outs[m.outNr]? with | none => panicM | some v => f v : M F V W Bool) c s = .ok a s' := h
  have tell : ∀ evs, Tells c q (match c.env.ctxErr s.world with
      | some msg => do err msg; writeNull; return false
      | none => match outs[m.outNr]? with | none => panicM | some v => f v : M F V W Bool) s a evs s' →
      Tells c q (afterCall m outs f) s a evs s' := fun evs ht e es => ht e es
  cases hc : c.env.ctxErr s.world with
  | none =>
    rw [hc] at h tell
    dsimp only at h tell
    cases ho : outs[m.outNr]? with
    | none => rw [ho] at h; cases h
    | some x =>
      rw [ho] at h
      obtain ⟨g1, evs', g2, g3, g4⟩ := hf x s a s' hp h
      exact ⟨g1, evs', g2, List.nil_prefix, g3, fun h => absurd rfl h, tell _ (by rw [ho]; exact g4)⟩
  | some msg =>
    rw [hc] at h tell
    dsimp only at h tell
    have h7 : R.ok false { s with
        errs := s.errs ++ [(match s.path with | [] => ⟨msg, none⟩ | _ :: p => ⟨msg, some p⟩ : RErr)],
        out := s.out ++ b%"null" } = R.ok a s' := h
    cases h7
    refine ⟨hp, [.error msg, .wrote b%"null"], ⟨by simp [textOf, Ev.text], .error (.wrote .nil)⟩, List.prefix_refl _, fun _ => rfl, fun _ => rfl, tell _ (fun e es => ?_)⟩
    show R.ok false { s with
        errs := es ++ [(match s.path with | [] => ⟨msg, none⟩ | _ :: p => ⟨msg, some p⟩ : RErr)],
        out := s.out ++ b%"null" } = _
    rw [err_path hp]
    simp [errorsAt, Ev.errors]

theorem tail_quiet {env : Env F V W} (x y : List (Ev F V W)) (hx : Nothing x) (hy : Tail env y) : Tail env (x ++ y) := fun h => by
  rw [textOf_append, hx.1, hy (Cancelled.behind hx.2 h)]
  rfl

theorem t_callAndResolve {m : Method F} {v : V} {f : V → Bool → M F V W Bool} (hf : ∀ v b, T c q q (Tail c.env) (f v b)) :
    T c q q (Tail c.env) (callAndResolve m v f) := by
  unfold callAndResolve
  refine T.quiet tail_quiet (t_seekInst nothing.nil) (fun inst => ?_)
  intro s a s' hp h
  obtain ⟨res, s3, h1, h2⟩ := bind_ok h
  obtain ⟨p3, evs, t1, tt, h3⟩ := callQlMethod_ok hp h1
  rcases h3 with ⟨rfl, d1⟩ | ⟨outs, s1, inputs, rfl, d1, k1, k2⟩
  · have h2 : R.ok true s3 = R.ok a s' := h2
    cases h2
    refine ⟨p3, evs ++ [], by rw [List.append_nil]; exact d1, fun h => absurd (Cancelled.before plain.nil h) t1.2.not_cancelled, ?_⟩
    exact Tells.bind tt (Tells.pure (a := true) (s := s'))
  · dsimp only at h2
    obtain ⟨inst2, s3', h4, h5⟩ := bind_ok h2
    have ts : s3' = s3 ∧ Tells c q seekInst s3 inst2 [] s3 := by
      unfold seekInst at h4
      split at h4
      · next x hx =>
        cases h4
        refine ⟨rfl, fun e es => ?_⟩
        unfold seekInst
        show (match c.res[s3.charNr]? with | some b => R.ok b _ | none => R.panic) = _
        rw [hx]
        simp only [errorsAt, List.append_nil]
      · cases h4
    obtain ⟨rfl, ts⟩ := ts
    obtain ⟨u, s4, h6, h7⟩ := bind_ok h5
    obtain ⟨⟨es4, e4⟩, tr⟩ := reportMethodErr_ok p3 h6 v inputs
    have p4 : s4.path = pathText q := by rw [e4]; exact p3
    have w4 : s4.world = s3'.world := by rw [e4]
    have o4 : s4.out = s3'.out := by rw [e4]
    obtain ⟨g1, evs', g2, g3, g5, g6, g4⟩ := t_afterCall (fun v => hf v _) p4 h7
    rw [w4] at g3 g6
    have o3 : s3'.out = s1.out := by rw [k2]
    refine ⟨g1, evs ++ ([] ++ ([.call (some m) v inputs s3'.world outs] ++ evs')), ⟨?_, ?_⟩, ?_, ?_⟩
    · rw [g2.out, o4, o3, d1.out]
      simp only [textOf_append, textOf, Ev.text, List.nil_append, List.append_nil, List.append_assoc]
    · have := g2.plays
      rw [w4] at this
      exact Plays.append d1.plays (.field k1 g3 this)
    · intro h
      have ht : textOf (evs ++ ([] ++ ([.call (some m) v inputs s3'.world outs] ++ evs'))) = textOf evs' := by
        simp only [textOf_append, textOf, Ev.text, List.nil_append, List.append_nil, t1.1]
      rw [ht]
      obtain ⟨m', fn', inputs', w1', outs', h8, h9⟩ := Cancelled.behind t1.2 h
      have h8 : .call (some m') fn' inputs' w1' outs' ∈ .call (some m) v inputs s3'.world outs :: evs' := h8
      rcases List.mem_cons.1 h8 with h8 | h8
      · injection h8 with _ _ _ e5 _
        rw [e5] at h9
        exact g6 h9
      · exact g5 ⟨m', fn', inputs', w1', outs', h8, h9⟩
    · exact Tells.bind tt (Tells.bind ts (Tells.bind tr g4))

theorem bind_assoc {γ : Type} (m : M F V W α) (f : α → M F V W β) (g : β → M F V W γ) : (m >>= f) >>= g = m >>= fun a => f a >>= g := by
  funext c s
  show (match (match m c s with | .ok a s' => f a c s' | .panic => R.panic | .oof => R.oof) with
      | .ok a s' => g a c s' | .panic => R.panic | .oof => R.oof) =
    (match m c s with
      | .ok a s' => (match f a c s' with | .ok b s' => g b c s' | .panic => R.panic | .oof => R.oof)
      | .panic => R.panic | .oof => R.oof)
  cases m c s <;> rfl

theorem t_elemsLoop {body : M F V W Bool} (hb : ∀ i, T c (q ++ [.idx i]) (q ++ [.idx i]) (Tail c.env) body) (start : Nat) (vs : List V) (i : Nat) :
    T c q q Plain (elemsLoop body start i vs) := by
  induction vs generalizing i with
  | nil => exact T.pure plain.nil
  | cons v vs ih =>
    unfold elemsLoop
    refine T.bind plain (t_setPos plain.nil) (fun _ => t_getState (fun s es => rfl) (fun s hs => ?_))
    dsimp only
    have e : (do
        setPath (s.path ++ c%',' :: intDigits (i : Int))
        setGoValue v
        let _ ← body
        if !vs.isEmpty then write [c%',']
        setPath s.path
        elemsLoop body start (i + 1) vs : M F V W Unit) =
      (do
        setPath (s.path ++ c%',' :: intDigits (i : Int))
        setGoValue v
        let _ ← body
        setPath s.path
        pure ()) >>= fun _ => (do
        if !vs.isEmpty then write [c%',']
        elemsLoop body start (i + 1) vs : M F V W Unit) := by
      by_cases h : (!vs.isEmpty) = true
      · simp only [h, if_true, bind_assoc]
        rfl
      · simp only [h, Bool.false_eq_true, if_false, bind_assoc]
        rfl
    rw [e]
    refine T.bind plain (t_inside (seg := .idx i) ?_ ?_) (fun _ => ?_)
    · rw [hs, pathText_append]
      simp [pathText, segText, intDigits]
    · have back : T c (q ++ [.idx i]) q (fun evs : List (Ev F V W) => evs = []) (do setPath s.path; pure () : M F V W Unit) :=
        t_leave (K := fun evs : List (Ev F V W) => evs = []) rfl hs ⟨(), fun s => ⟨s.charNr, rfl, fun _ _ => rfl⟩⟩
      refine T.quiet tail_quiet (t_setGoValue nothing.nil) (fun _ => T.then ?_ (hb i) (fun _ => back))
      rintro x y hx rfl
      rw [List.append_nil]
      exact hx
    · split
      · exact T.bind plain (t_write (plain_wrote _)) (fun _ => ih _)
      · exact ih _

variable [DecidableEq F]

structure AllT (c : Cfg F V W) (n : Nat) : Prop where
  sels : ∀ q t dept first, T c q q Plain (resolveSelectionSet n t dept first)
  spread : ∀ q t dept first, T c q q Plain (resolveSpread n t dept first)
  field : ∀ q t dept comma, T c q q Plain (resolveField n t dept comma)
  data : ∀ q o dept sub, T c q q (Tail c.env) (resolveFieldDataValue n o dept sub)

omit [DecidableEq F] in
theorem nothing_plain {m : M F V W α} (h : T c q r Nothing m) : T c q r Plain m := h.weaken (fun _ h => h.2)
omit [DecidableEq F] in
theorem plain_tail {m : M F V W α} (h : T c q r Plain m) : T c q r (Tail c.env) m := h.weaken (fun _ h h' => absurd h' h.not_cancelled)

omit [DecidableEq F] in
theorem tail_nothing {env : Env F V W} (x y : List (Ev F V W)) (hx : Tail env x) (hy : Nothing y) : Tail env (x ++ y) := fun h => by
  rw [textOf_append, hy.1, hx (Cancelled.before hy.2 h)]
  rfl

/-- one step that writes nothing, before the value -/
macro "ev_tail" : tactic => `(tactic| first
  | ((with_reducible refine t_getCfg ?_ ?_); · intro e; ev_same)
  | ((with_reducible refine t_getState ?_ (fun s _ => ?_)); · intro s es; rfl)
  | ((with_reducible refine T.quiet tail_quiet ?_ (fun _ => ?_)); · first
    | with_reducible exact t_seekInst (Joins.nil ‹_›)
    | with_reducible exact t_getPos (Joins.nil ‹_›)
    | with_reducible exact t_setPos (Joins.nil ‹_›)
    | with_reducible exact t_viewOf (Joins.nil ‹_›)
    | with_reducible exact t_getGoValue (Joins.nil ‹_›)
    | with_reducible exact t_setGoValue (Joins.nil ‹_›)
    | with_reducible exact t_setNextGoValue (Joins.nil ‹_›)
    | with_reducible exact t_incIdx (Joins.nil ‹_›)
    | with_reducible exact t_decIdx (Joins.nil ‹_›)
    | with_reducible exact t_sliceRes (Joins.nil ‹_›)
    | with_reducible exact t_err ‹_›
    | exact t_fieldValue ‹_› _ _
    | exact t_isNilFunc ‹_› _ _)
  | with_reducible exact T.panicM
  | split)

set_option maxHeartbeats 1000000 in
theorem t_resolveField (n : Nat) (ih : AllT c n) (t : RType F V) (dept : UInt8) (comma : Bool) : T c q q Plain (resolveField (n + 1) t dept comma) := by
  have hK := plain (F := F) (V := V) (W := W)
  have hN := nothing (F := F) (V := V) (W := W)
  unfold resolveField
  refine T.bind hK (t_readInst hK.nil) (fun directivesCount => ?_)
  refine T.bind hK (t_readUint32M hK.nil) (fun fieldLen => ?_)
  refine T.bind hK (t_skipInst hK.nil) (fun _ => ?_)
  refine T.bind hK (t_readUint32M hK.nil) (fun nameKey => ?_)
  refine T.bind hK (t_skipInst hK.nil) (fun _ => ?_)
  refine T.bind hK (t_getPos hK.nil) (fun pos => ?_)
  refine T.bind hK (t_readInst hK.nil) (fun aliasLen => ?_)
  refine T.bind hK (t_getPos hK.nil) (fun startOfAlias => ?_)
  refine T.bind hK (t_sliceRes hK.nil) (fun alias => ?_)
  refine T.bind hK (t_skipInst hK.nil) (fun _ => ?_)
  refine t_getState (fun s es => rfl) (fun s hs => ?_)
  dsimp only
  refine t_inside (seg := .key alias) ?_ ?_
  · rw [hs, pathText_append]
    simp [pathText, segText]
  · have wq : ∀ x y : List (Ev F V W), Nothing x → Written c.env (.key alias) y → Written c.env (.key alias) (x ++ y) := by
      intro x y hx hy
      have ht : textOf (x ++ y) = textOf y := by rw [textOf_append, hx.1]; rfl
      unfold Written at hy ⊢
      dsimp only at hy ⊢
      rw [ht]
      rcases hy with ⟨h1, h2⟩ | ⟨x', y', h1, h2, h3⟩
      · exact Or.inl ⟨h1, fun h => h2 (Cancelled.behind hx.2 h)⟩
      · exact Or.inr ⟨x', y', h1, h2, fun h => h3 (Cancelled.behind hx.2 h)⟩
    have w0 : Written c.env (.key alias) [] := Or.inl ⟨rfl, hK.nil.not_cancelled⟩
    refine T.quiet wq (t_readInst hN.nil) (fun lenOfName => ?_)
    refine T.quiet wq (t_getPos hN.nil) (fun nameAt => ?_)
    refine T.quiet wq (t_skipInst hN.nil) (fun _ => ?_)
    refine T.quiet wq (t_skipInst hN.nil) (fun _ => ?_)
    refine T.quiet wq (t_resolveDirectives 0 _) (fun d => ?_)
    rcases d with _ | _ | _
    · exact t_leave w0 hs ⟨(true, true), fun s => ⟨_, rfl, fun _ _ => rfl⟩⟩
    · dsimp only
      -- the key
      have rest : ∀ m : M F V W (Bool × Bool), T c (q ++ [.key alias]) q (Tail c.env) m → T c (q ++ [.key alias]) q (Written c.env (.key alias)) (do
          if comma then write [c%',']
          writeQuoted alias
          write [c%':']
          m) := by
        intro m hm
        have quoted : ∀ x, (x = [] ∨ x = b%",") → T c (q ++ [.key alias]) q
            (fun b => Written c.env (.key alias) (.wrote x :: b)) (do writeQuoted alias; write [c%':']; m) := by
          intro x hx
          refine T.then (K1 := fun b => b = [.wrote (c%'"' :: alias ++ [c%'"'])]) (K2 := fun b => ∃ rest, b = .wrote [c%':'] :: rest ∧ Tail c.env rest) ?_
            (t_write rfl) (fun _ => ?_)
          · rintro a b rfl ⟨rest, rfl, htail⟩
            refine Or.inr ⟨x, textOf rest, hx, by simp [textOf, Ev.text], fun h => ?_⟩
            have h' := Cancelled.behind (a := [.wrote x, .wrote (c%'"' :: alias ++ [c%'"']), .wrote [c%':']]) (b := rest)
              (fun _ _ _ _ _ h => by simp at h) h
            exact htail h'
          · exact T.then (K1 := fun b => b = [.wrote [c%':']]) (K2 := Tail c.env) (fun a b ha hb => ⟨b, by rw [show a = _ from ha]; rfl, hb⟩)
              (t_write rfl) (fun _ => hm)
        split
        · exact T.then (K1 := fun b => b = [.wrote b%","]) (fun a b ha hb => by rw [show a = _ from ha]; exact hb) (t_write rfl) (fun _ => quoted b%"," (Or.inr rfl))
        · refine (quoted [] (Or.inl rfl)).weaken (fun b hb => ?_)
          unfold Written at hb ⊢
          dsimp only at hb ⊢
          have hc : Cancelled c.env b → Cancelled c.env (.wrote [] :: b) := by
            rintro ⟨m, fn, inputs, w1, outs, h1, h2⟩
            exact ⟨m, fn, inputs, w1, outs, List.mem_cons_of_mem _ h1, h2⟩
          rcases hb with ⟨h1, h2⟩ | ⟨x', y', h1, h2, h3⟩
          · exact Or.inl ⟨by simpa [textOf, Ev.text] using h1, fun h => h2 (hc h)⟩
          · exact Or.inr ⟨x', y', h1, by simpa [textOf, Ev.text] using h2, fun h => h3 (hc h)⟩
      refine rest _ ?_
      have back : ∀ crit : Bool, T c (q ++ [.key alias]) q (fun evs : List (Ev F V W) => evs = []) (do setPath s.path; setPos (pos + fieldLen + 1); return (false, crit) : M F V W (Bool × Bool)) :=
        fun crit => t_leave (K := fun evs : List (Ev F V W) => evs = []) rfl hs ⟨(false, crit), fun s => ⟨_, rfl, fun _ _ => rfl⟩⟩
      have back' : ∀ crit : Bool, T c (q ++ [.key alias]) q Plain (do setPath s.path; setPos (pos + fieldLen + 1); return (false, crit) : M F V W (Bool × Bool)) :=
        fun crit => (back crit).weaken (fun _ h => by rw [h]; exact hK.nil)
      refine T.quiet tail_quiet (t_seekInst hN.nil) (fun inst => ?_)
      have backN : ∀ crit : Bool, T c (q ++ [.key alias]) q Nothing (do setPath s.path; setPos (pos + fieldLen + 1); return (false, crit) : M F V W (Bool × Bool)) :=
        fun crit => (back crit).weaken (fun _ h => by rw [h]; exact hN.nil)
      repeat (first
        | ev_tail
        | ((refine T.then tail_nothing (ih.data _ _ _ _) (fun _ => ?_)); · (repeat (first | exact backN _ | ev_one)))
        | (refine plain_tail ?_; · (repeat (first | exact back' _ | exact t_write (plain_wrote _) | ev_one))))
    · exact t_leave w0 hs ⟨(true, false), fun s => ⟨_, rfl, fun _ _ => rfl⟩⟩

set_option maxHeartbeats 1000000 in
theorem allT (n : Nat) : AllT c n := by
  have hK := plain (F := F) (V := V) (W := W)
  have hN := nothing (F := F) (V := V) (W := W)
  induction n with
  | zero =>
    constructor
    · intro q t dept first; unfold resolveSelectionSet; exact T.oofM
    · intro q t dept first; unfold resolveSpread; exact T.oofM
    · intro q t dept first; unfold resolveField; exact T.oofM
    · intro q o dept first; unfold resolveFieldDataValue; exact T.oofM
  | succ n ih =>
    constructor
    · intro q t dept first
      unfold resolveSelectionSet
      repeat (first | exact ih.field _ _ _ _ | exact ih.spread _ _ _ _ | exact ih.sels _ _ _ _ | ev_one)
    · intro q t dept first
      unfold resolveSpread
      repeat (first | exact ih.sels _ _ _ _ | exact nothing_plain (t_resolveDirectives _ _) | ev_one)
    · intro q t dept first
      exact t_resolveField n ih t dept first
    · intro q o dept sub
      unfold resolveFieldDataValue
      cases o with
      | _ =>
        dsimp only
        repeat (first
          | ev_tail
          | exact ih.data _ _ _ _
          | ((refine T.then tail_nothing (ih.data _ _ _ _) (fun _ => ?_)); · (repeat ev_one))
          | (with_reducible refine t_callAndResolve (fun v b => ?_))
          | (refine plain_tail ?_; · (repeat (first | exact t_elemsLoop (fun _ => ih.data _ _ _ _) _ _ _ | exact ih.sels _ _ _ _ | exact t_write (plain_wrote _) | ev_one))))

theorem t_resolveOperation (n : Nat) : T c q q Plain (resolveOperation n) := by
  have hK := plain (F := F) (V := V) (W := W)
  unfold resolveOperation
  repeat (first | exact (allT n).sels _ _ _ _ | refine T.bind hK (.prim hK.nil (fun s a s' h => by cases h; exact ⟨rfl, rfl, rfl, fun _ _ => rfl⟩)) (fun _ => ?_) | ev_one)

end

/-- every answer of an executed request is an account of events, which does not depend on what shows the errors of functions -/
theorem resolve_events {F V W : Type} [DecidableEq F] {fuel : Nat} {schema : RSchema F V} {env : Env F V W} {vals : UInt8 → V} {w w' : W} {req : Request}
    {body : Bytes} {es : List ReqErr} (h : resolve fuel schema env vals w req = .ok (body, es) w') :
    (∃ evs : List (Ev F V W), Plays env [] w evs w' ∧ Plain evs ∧ ∀ errOf : W → V → Option Bytes,
      resolve fuel schema { env with errOf := errOf } vals w req =
        .ok (envelope req.noMeta (b%"{" ++ textOf evs ++ b%"}") ((errorsAt errOf [] evs).map ReqErr.exec), (errorsAt errOf [] evs).map ReqErr.exec) w') ∨
    (w' = w ∧ es ≠ [] ∧ body = envelope req.noMeta b%"{}" es ∧
      ∀ errOf : W → V → Option Bytes, resolve fuel schema { env with errOf := errOf } vals w req = .ok (body, es) w') := by
  unfold resolve at h ⊢
  cases hp : Parser.parseQuery req.query (if req.target = [] then none else some req.target) with
  | panic => rw [hp] at h; cases h
  | oof => rw [hp] at h; cases h
  | ok u p =>
    rw [hp] at h
    dsimp only at h ⊢
    by_cases he : p.errs.isEmpty
    · rw [if_pos he] at h
      simp only [if_pos he]
      cases ht : p.targetIdx with
      | none => rw [ht] at h; cases h; exact Or.inr ⟨rfl, by simp, rfl, fun _ => rfl⟩
      | some at_ =>
        rw [ht] at h
        dsimp only at h ⊢
        cases hm : resolveOperation fuel (⟨p.res, p.frags, schema, env, req.vars⟩ : Cfg F V W) ⟨at_, [], [c%'{'], [], vals, 0, false, false, 0, w⟩ with
        | panic => rw [hm] at h; cases h
        | oof => rw [hm] at h; cases h
        | ok a s1 =>
          rw [hm] at h
          obtain ⟨-, evs, d, hpl, tell⟩ := t_resolveOperation (q := []) fuel _ a s1 rfl hm
          cases h
          refine Or.inl ⟨evs, d.plays, hpl, fun e => ?_⟩
          have := tell e []
          simp only [showing] at this
          rw [this]
          simp only [List.nil_append]
          rw [d.out]
    · rw [if_neg he] at h
      simp only [if_neg he]
      cases h
      refine Or.inr ⟨rfl, ?_, rfl, fun _ => rfl⟩
      simpa using he

end EventsRun
end Resolver
end Yarql
