import Verif.Model.Resolver

/-!
# Outcomes do not depend on fuel or on the value stack left by earlier requests

Two runs, the second with at least as much fuel, from states that differ only in stack entries not yet written: if the
first one does not run out of fuel, they end the same way.
-/

namespace Yarql
namespace Resolver
open Http (J)
open Yarql.Bind

section
variable {F V W α β : Type}

/-- The states differ at most in value stack entries above `d`; the current entry is number `e`. -/
structure Agree (d e : Nat) (s t : RS V W) : Prop where
  idx : s.idx = UInt8.ofNat e
  vals : ∀ j, j ≤ d → s.vals (UInt8.ofNat j) = t.vals (UInt8.ofNat j)
  rest : t = { s with vals := t.vals }

/-- run `m` from a state, `m'` from a similar one -/
def Sim (d e d' e' : Nat) (m m' : M F V W α) : Prop :=
  ∀ c s t, Agree d e s t →
    match m c s with
    | .oof => True
    | .panic => m' c t = .panic
    | .ok a s' => ∃ t', m' c t = .ok a t' ∧ Agree d' e' s' t'

theorem Agree.weaken {d d1 e : Nat} {s t : RS V W} (h : Agree d e s t) (hd : d1 ≤ d) : Agree d1 e s t :=
  ⟨h.idx, fun j hj => h.vals j (by omega), h.rest⟩

theorem Sim.bind {d e d1 e1 d2 e2 : Nat} {m m' : M F V W α} {f f' : α → M F V W β} (h : Sim d e d1 e1 m m')
    (hf : ∀ a, Sim d1 e1 d2 e2 (f a) (f' a)) : Sim d e d2 e2 (m >>= f) (m' >>= f') := by
  intro c s t ha
  have h1 := h c s t ha
  show match (match m c s with | .ok a s' => f a c s' | .panic => R.panic | .oof => R.oof) with
    | .oof => True
    | .panic => (match m' c t with | .ok a s' => f' a c s' | .panic => R.panic | .oof => R.oof) = .panic
    | .ok a s' => ∃ t', (match m' c t with | .ok a s' => f' a c s' | .panic => R.panic | .oof => R.oof) = .ok a t' ∧ Agree d2 e2 s' t'
  cases hm : m c s with
  | oof => trivial
  | panic =>
    rw [hm] at h1
    dsimp only at h1 ⊢
    rw [h1]
  | ok a s1 =>
    rw [hm] at h1
    obtain ⟨t1, h2, h3⟩ := h1
    dsimp only
    rw [h2]
    exact hf a c s1 t1 h3

theorem Sim.bindB {d e d2 e2 : Nat} {m m' : M F V W α} {f f' : α → M F V W β} (h : Sim d e d e m m')
    (hf : ∀ a, Sim d e d2 e2 (f a) (f' a)) : Sim d e d2 e2 (m >>= f) (m' >>= f') := Sim.bind h hf

theorem Sim.pure {d e : Nat} {a : α} : Sim (F := F) (V := V) (W := W) d e d e (Pure.pure a) (Pure.pure a) :=
  fun _ _ t h => ⟨t, rfl, h⟩

theorem Sim.panicM {d e d' e' : Nat} : Sim (F := F) (V := V) (W := W) (α := α) d e d' e' panicM panicM := fun _ _ _ _ => rfl

theorem Sim.oofM {d e d' e' : Nat} {m : M F V W α} : Sim d e d' e' oofM m := fun _ _ _ _ => trivial

theorem Sim.weaken {d e d1 d' e' : Nat} {m m' : M F V W α} (h : Sim d e d' e' m m') (hd : d1 ≤ d') : Sim d e d1 e' m m' := by
  intro c s t ha
  have h1 := h c s t ha
  cases hm : m c s with
  | oof => trivial
  | panic => rw [hm] at h1; exact h1
  | ok a s1 =>
    rw [hm] at h1
    obtain ⟨t1, h2, h3⟩ := h1
    exact ⟨t1, h2, h3.weaken hd⟩

/-- steps that neither read nor write the value stack -/
theorem Sim.prim {d e : Nat} {m : M F V W α}
    (h : ∀ c s v, m c { s with vals := v } = match m c s with
      | .oof => .oof
      | .panic => .panic
      | .ok a s' => .ok a { s' with vals := v })
    (hk : ∀ c s a s', m c s = .ok a s' → s'.idx = s.idx ∧ s'.vals = s.vals) : Sim d e d e m m := by
  intro c s t ha
  rw [ha.rest, h c s t.vals]
  cases hm : m c s with
  | oof => trivial
  | panic => rfl
  | ok a s' =>
    obtain ⟨k1, k2⟩ := hk c s a s' hm
    refine ⟨_, rfl, by rw [k1]; exact ha.idx, ?_, rfl⟩
    intro j hj
    rw [k2]
    exact ha.vals j hj

theorem sim_write {d e : Nat} {b : Bytes} : Sim (F := F) (V := V) (W := W) d e d e (write b) (write b) :=
  .prim (fun _ _ _ => rfl) (fun c s a s' h => by cases h; exact ⟨rfl, rfl⟩)
theorem sim_writeNull {d e : Nat} : Sim (F := F) (V := V) (W := W) d e d e writeNull writeNull := sim_write
theorem sim_writeQuoted {d e : Nat} {b : Bytes} : Sim (F := F) (V := V) (W := W) d e d e (writeQuoted b) (writeQuoted b) := sim_write
theorem sim_skipInst {d e n : Nat} : Sim (F := F) (V := V) (W := W) d e d e (skipInst n) (skipInst n) :=
  .prim (fun _ _ _ => rfl) (fun c s a s' h => by cases h; exact ⟨rfl, rfl⟩)
theorem sim_getPos {d e : Nat} : Sim (F := F) (V := V) (W := W) d e d e getPos getPos :=
  .prim (fun _ _ _ => rfl) (fun c s a s' h => by cases h; exact ⟨rfl, rfl⟩)
theorem sim_setPos {d e n : Nat} : Sim (F := F) (V := V) (W := W) d e d e (setPos n) (setPos n) :=
  .prim (fun _ _ _ => rfl) (fun c s a s' h => by cases h; exact ⟨rfl, rfl⟩)
theorem sim_getCfg {d e : Nat} : Sim (F := F) (V := V) (W := W) d e d e getCfg getCfg :=
  .prim (fun _ _ _ => rfl) (fun c s a s' h => by cases h; exact ⟨rfl, rfl⟩)
theorem sim_setWorld {d e : Nat} {w : W} : Sim (F := F) (V := V) d e d e (setWorld w) (setWorld w) :=
  .prim (fun _ _ _ => rfl) (fun c s a s' h => by cases h; exact ⟨rfl, rfl⟩)
theorem sim_setPath {d e : Nat} {p : Bytes} : Sim (F := F) (V := V) (W := W) d e d e (setPath p) (setPath p) :=
  .prim (fun _ _ _ => rfl) (fun c s a s' h => by cases h; exact ⟨rfl, rfl⟩)
theorem sim_setVarsParsed {d e : Nat} : Sim (F := F) (V := V) (W := W) d e d e setVarsParsed setVarsParsed :=
  .prim (fun _ _ _ => rfl) (fun c s a s' h => by cases h; exact ⟨rfl, rfl⟩)
theorem sim_setArgs {d e n : Nat} {b : Bool} : Sim (F := F) (V := V) (W := W) d e d e (setArgs b n) (setArgs b n) :=
  .prim (fun _ _ _ => rfl) (fun c s a s' h => by cases h; exact ⟨rfl, rfl⟩)
theorem sim_viewOf {d e : Nat} {v : V} : Sim (F := F) (W := W) d e d e (viewOf v) (viewOf v) :=
  .prim (fun _ _ _ => rfl) (fun c s a s' h => by cases h; exact ⟨rfl, rfl⟩)
theorem sim_err {d e : Nat} {m : Bytes} : Sim (F := F) (V := V) (W := W) d e d e (err m) (err m) :=
  .prim (fun _ _ _ => rfl) (fun c s a s' h => by cases h; exact ⟨rfl, rfl⟩)
theorem sim_readInst {d e : Nat} : Sim (F := F) (V := V) (W := W) d e d e readInst readInst := by
  refine .prim (fun c s v => ?_) (fun c s a s' h => ?_)
  · unfold readInst; dsimp only; cases c.res[s.charNr]? <;> rfl
  · unfold readInst at h; cases h1 : c.res[s.charNr]? <;> rw [h1] at h <;> cases h; exact ⟨rfl, rfl⟩
theorem sim_seekInst {d e : Nat} : Sim (F := F) (V := V) (W := W) d e d e seekInst seekInst := by
  refine .prim (fun c s v => ?_) (fun c s a s' h => ?_)
  · unfold seekInst; dsimp only; cases c.res[s.charNr]? <;> rfl
  · unfold seekInst at h; cases h1 : c.res[s.charNr]? <;> rw [h1] at h <;> cases h; exact ⟨rfl, rfl⟩
theorem sim_lastInst {d e : Nat} : Sim (F := F) (V := V) (W := W) d e d e lastInst lastInst := by
  refine .prim (fun c s v => ?_) (fun c s a s' h => ?_)
  · unfold lastInst; dsimp only; cases c.res[s.charNr - 1]? <;> rfl
  · unfold lastInst at h; cases h1 : c.res[s.charNr - 1]? <;> rw [h1] at h <;> cases h; exact ⟨rfl, rfl⟩
theorem sim_getRes {d e i : Nat} : Sim (F := F) (V := V) (W := W) d e d e (getRes i) (getRes i) := by
  refine .prim (fun c s v => ?_) (fun c s a s' h => ?_)
  · unfold getRes; cases c.res[i]? <;> rfl
  · unfold getRes at h; cases h1 : c.res[i]? <;> rw [h1] at h <;> cases h; exact ⟨rfl, rfl⟩
theorem sim_sliceRes {d e i j : Nat} : Sim (F := F) (V := V) (W := W) d e d e (sliceRes i j) (sliceRes i j) := by
  refine .prim (fun c s v => ?_) (fun c s a s' h => ?_)
  · unfold sliceRes; split <;> rfl
  · unfold sliceRes at h; split at h <;> cases h; exact ⟨rfl, rfl⟩
theorem sim_readUint32M {d e : Nat} : Sim (F := F) (V := V) (W := W) d e d e readUint32M readUint32M := by
  refine .prim (fun c s v => ?_) (fun c s a s' h => ?_)
  · unfold readUint32M; dsimp only; cases readUint32 c.res s.charNr <;> rfl
  · unfold readUint32M at h; cases h1 : readUint32 c.res s.charNr <;> rw [h1] at h <;> cases h; exact ⟨rfl, rfl⟩
theorem sim_readToNul {d e : Nat} : Sim (F := F) (V := V) (W := W) d e d e readToNul readToNul := by
  refine .prim (fun c s v => ?_) (fun c s a s' h => ?_)
  · unfold readToNul; dsimp only; split <;> rfl
  · unfold readToNul at h; dsimp only at h; split at h <;> cases h; exact ⟨rfl, rfl⟩
theorem sim_liftB {d e : Nat} {b : B α} : Sim (F := F) (V := V) (W := W) d e d e (liftB b) (liftB b) := by
  cases b with
  | ok a => exact .prim (fun _ _ _ => rfl) (fun c s a s' h => by cases h; exact ⟨rfl, rfl⟩)
  | err m => exact .prim (fun _ _ _ => rfl) (fun c s a s' h => by cases h; exact ⟨rfl, rfl⟩)
  | panic => exact .prim (fun _ _ _ => rfl) (fun c s a s' h => by cases h)

/-- reading the state: everything but the stack is the same -/
theorem sim_getState {d e d' e' : Nat} {f f' : RS V W → M F V W β}
    (h : ∀ s v, Sim d e d' e' (f s) (f' { s with vals := v })) : Sim d e d' e' (getState >>= f) (getState >>= f') := by
  intro c s t ha
  have h1 := h s t.vals c s t ha
  rw [← ha.rest] at h1
  exact h1

theorem sim_getGoValue {d e : Nat} (hde : e ≤ d) : Sim (F := F) (V := V) (W := W) d e d e getGoValue getGoValue := by
  intro c s t ha
  refine ⟨t, ?_, ha⟩
  show R.ok (t.vals t.idx) t = R.ok (s.vals s.idx) t
  rw [show t.idx = s.idx by rw [ha.rest], ha.idx, ha.vals e hde]

theorem sim_setGoValue {d e : Nat} {v : V} (hde : e ≤ d + 1) : Sim (F := F) (W := W) d e (max d e) e (setGoValue v) (setGoValue v) := by
  intro c s t ha
  refine ⟨{ t with vals := fun i => if i = t.idx then v else t.vals i }, rfl, ha.idx, ?_, ?_⟩
  · intro j hj
    have hidx : t.idx = s.idx := by rw [ha.rest]
    dsimp only
    rw [hidx]
    by_cases he : UInt8.ofNat j = s.idx
    · rw [if_pos he, if_pos he]
    · rw [if_neg he, if_neg he]
      rcases Nat.lt_or_ge d j with h | h
      · have : j = e := by omega
        exact absurd (by rw [this, ha.idx]) he
      · exact ha.vals j h
  · rw [ha.rest]

theorem sim_incIdx {d e : Nat} : Sim (F := F) (V := V) (W := W) d e d (e + 1) incIdx incIdx := by
  intro c s t ha
  refine ⟨{ t with idx := t.idx + 1 }, rfl, ?_, ha.vals, by rw [ha.rest]⟩
  show s.idx + 1 = _
  rw [ha.idx]
  apply UInt8.toNat_inj.1
  simp [UInt8.toNat_add, UInt8.toNat_ofNat']

theorem sim_decIdx {d e : Nat} : Sim (F := F) (V := V) (W := W) d (e + 1) d e decIdx decIdx := by
  intro c s t ha
  refine ⟨{ t with idx := t.idx - 1 }, rfl, ?_, ha.vals, by rw [ha.rest]⟩
  show s.idx - 1 = _
  rw [ha.idx]
  have h : UInt8.ofNat (e + 1) = UInt8.ofNat e + 1 := by
    apply UInt8.toNat_inj.1
    simp [UInt8.toNat_add, UInt8.toNat_ofNat']
  rw [h, UInt8.add_sub_cancel]

theorem sim_setNextGoValue {d : Nat} {v : V} : Sim (F := F) (W := W) d d (d + 1) (d + 1) (setNextGoValue v) (setNextGoValue v) := by
  unfold setNextGoValue
  have h := sim_setGoValue (F := F) (W := W) (d := d) (e := d + 1) (v := v) (by omega)
  rw [Nat.max_eq_right (by omega)] at h
  exact Sim.bind sim_incIdx (fun _ => h)

/-- one step of a similarity proof for code that does not touch the stack -/
macro "sim_one" : tactic => `(tactic| first
  | with_reducible exact Sim.pure
  | with_reducible exact Sim.panicM
  | with_reducible exact Sim.oofM
  | with_reducible exact sim_write
  | with_reducible exact sim_skipInst
  | with_reducible exact sim_getPos
  | with_reducible exact sim_setPos
  | with_reducible exact sim_getCfg
  | with_reducible exact sim_setWorld
  | with_reducible exact sim_setPath
  | with_reducible exact sim_setVarsParsed
  | with_reducible exact sim_setArgs
  | with_reducible exact sim_viewOf
  | with_reducible exact sim_err
  | with_reducible exact sim_readInst
  | with_reducible exact sim_seekInst
  | with_reducible exact sim_lastInst
  | with_reducible exact sim_getRes
  | with_reducible exact sim_sliceRes
  | with_reducible exact sim_readUint32M
  | with_reducible exact sim_readToNul
  | with_reducible exact sim_liftB
  | with_reducible exact sim_writeNull
  | with_reducible exact sim_writeQuoted
  | (with_reducible refine sim_getState (fun s v => ?_); try dsimp only)
  | (with_reducible refine Sim.bindB ?_ (fun _ => ?_))
  | split
  | dsimp only)

/-- code that does not touch the stack -/
abbrev Blind (m : M F V W α) : Prop := ∀ d e, Sim d e d e m m

theorem blind_findArgLoop (fuel : Nat) (n : Bytes) : Blind (F := F) (V := V) (W := W) (findArgLoop fuel n) := by
  induction fuel with
  | zero => intro d e; exact Sim.oofM
  | succ fuel ih =>
    intro d e
    unfold findArgLoop
    repeat (first | exact ih d e | sim_one)

theorem blind_findOperatorArgument (n : Bytes) : Blind (F := F) (V := V) (W := W) (findOperatorArgument n) := by
  intro d e
  unfold findOperatorArgument
  repeat (first | exact blind_findArgLoop _ _ d e | sim_one)

theorem blind_varTypeLoop (n : Bytes) (inp : Input) : Blind (F := F) (V := V) (W := W) (varTypeLoop n inp) := by
  induction inp with
  | slice i ih =>
    intro d e
    unfold varTypeLoop
    repeat (first | exact ih d e | sim_one)
  | _ =>
    intro d e
    unfold varTypeLoop
    repeat sim_one

theorem blind_bindExternal (cur : InVal F) (inp : Input) (n : Bytes) : Blind (V := V) (W := W) (bindExternalVariableValue cur inp n) := by
  intro d e
  unfold bindExternalVariableValue
  repeat sim_one

theorem blind_bindOperatorArgumentTo {m : M F V W (Option (InVal F × Bool))} (hm : Blind m) (cur : InVal F) (inp : Input) (n : Bytes) :
    Blind (bindOperatorArgumentTo m cur inp n) := by
  intro d e
  unfold bindOperatorArgumentTo
  repeat (first | exact hm d e | exact blind_varTypeLoop _ _ d e | exact blind_bindExternal _ _ _ d e | sim_one)

theorem blind_walkLoop {σ : Type} {f : Bytes → σ → M F V W (Option σ)} (hf : ∀ k a, Blind (f k a)) (fuel : Nat) (a : σ) :
    Blind (walkLoop f fuel a) := by
  induction fuel generalizing a with
  | zero => intro d e; exact Sim.oofM
  | succ fuel ih =>
    intro d e
    unfold walkLoop
    repeat (first | exact ih _ d e | exact hf _ _ d e | sim_one)

theorem blind_walkInputObject {σ : Type} {f : Bytes → σ → M F V W (Option σ)} (hf : ∀ k a, Blind (f k a)) (a : σ) :
    Blind (walkInputObject f a) := by
  intro d e
  unfold walkInputObject
  repeat (first | exact blind_walkLoop hf _ _ d e | sim_one)

theorem blind_listLoop {m : M F V W (Option (InVal F × Bool))} (hm : Blind m) (fuel : Nat) (acc : List (InVal F)) :
    Blind (listLoop m fuel acc) := by
  induction fuel generalizing acc with
  | zero => intro d e; exact Sim.oofM
  | succ fuel ih =>
    intro d e
    unfold listLoop
    repeat (first | exact ih _ d e | exact hm d e | sim_one)

theorem blind_bindPtr {base : InVal F → Input → M F V W (Option (InVal F × Bool))} (hb : ∀ c i, Blind (base c i)) (cur : InVal F) (inp : Input) :
    Blind (bindPtr base cur inp) := by
  induction inp generalizing cur with
  | ptr i ih =>
    intro d e
    unfold bindPtr
    repeat (first | exact ih _ d e | sim_one)
  | _ => exact hb _ _

theorem blind_setTo {b : B (InVal F)} : Blind (V := V) (W := W) (setTo b) := by
  intro d e
  unfold setTo
  repeat sim_one

theorem blind_bindVariable {m : M F V W (Option (InVal F × Bool))} (hm : Blind m) (b : Bool) (cur : InVal F) (inp : Input) :
    Blind (bindVariable m b cur inp) := by
  intro d e
  unfold bindVariable
  repeat (first | exact blind_bindOperatorArgumentTo hm _ _ _ d e | exact blind_findOperatorArgument _ d e | sim_one)

theorem blind_bindList {f : InVal F → Input → M F V W (Option (InVal F × Bool))} (hf : ∀ c i, Blind (f c i)) (cur : InVal F) (inp : Input) :
    Blind (bindList f cur inp) := by
  intro d e
  unfold bindList
  repeat (first | exact blind_listLoop (hf _ _) _ _ d e | sim_one)

theorem blind_bindMember {f : InVal F → Input → M F V W (Option (InVal F × Bool))} (hf : ∀ c i, Blind (f c i)) (fs : List InField)
    (k : Bytes) (acc : InVal F × Bool) : Blind (bindMember f fs k acc) := by
  intro d e
  unfold bindMember
  repeat (first | exact hf _ _ d e | sim_one)

theorem blind_bindObject {f : InVal F → Input → M F V W (Option (InVal F × Bool))} (hf : ∀ c i, Blind (f c i)) (cur : InVal F) (inp : Input) :
    Blind (bindObject f cur inp) := by
  intro d e
  unfold bindObject
  repeat (first | exact blind_walkInputObject (fun _ _ => blind_bindMember hf _ _ _) _ d e | sim_one)

theorem blind_bindBase {f : Bool → InVal F → Input → M F V W (Option (InVal F × Bool))} (hf : ∀ b c i, Blind (f b c i)) (b : Bool)
    (cur : InVal F) (inp : Input) : Blind (bindBase f b cur inp) := by
  intro d e
  unfold bindBase bindFloat bindBoolean bindEnum
  repeat (first | exact blind_bindVariable (hf _ _ _) _ _ _ d e | exact blind_bindList (hf _) _ _ d e | exact blind_bindObject (hf _) _ _ d e | exact blind_setTo d e | sim_one)

theorem blind_bindInput (fuel : Nat) (b : Bool) (cur : InVal F) (inp : Input) : Blind (V := V) (W := W) (bindInput fuel b cur inp) := by
  induction fuel generalizing b cur inp with
  | zero => intro d e; exact Sim.oofM
  | succ fuel ih => unfold bindInput; exact blind_bindPtr (fun _ _ => blind_bindBase ih _ _ _) _ _

theorem blind_bindArgument (m : Method F) (fuel : Nat) (k : Bytes) (inputs : List (Arg F)) :
    Blind (V := V) (W := W) (bindArgument m fuel k inputs) := by
  intro d e
  unfold bindArgument
  repeat (first | exact blind_bindInput _ _ _ _ d e | sim_one)

theorem blind_callFn (fn : V) (inputs : List (Arg F)) : Blind (W := W) (callFn fn inputs) := by
  intro d e
  unfold callFn
  repeat sim_one

theorem blind_callQlMethod (m : Method F) (fn : V) (b : Bool) : Blind (W := W) (callQlMethod m fn b) := by
  intro d e
  unfold callQlMethod
  repeat (first | exact blind_callFn _ _ d e | exact blind_walkInputObject (fun _ _ => blind_bindArgument _ _ _ _) _ d e | sim_one)

theorem blind_resolveDirective (l : UInt8) : Blind (F := F) (V := V) (W := W) (resolveDirective l) := by
  intro d e
  unfold resolveDirective
  repeat (first | exact blind_callQlMethod _ _ _ d e | sim_one)

theorem blind_resolveDirectives (l : UInt8) (n : Nat) : Blind (F := F) (V := V) (W := W) (resolveDirectives l n) := by
  induction n with
  | zero => intro d e; exact Sim.pure
  | succ n ih =>
    intro d e
    unfold resolveDirectives
    repeat (first | exact blind_resolveDirective _ d e | exact ih d e | sim_one)

theorem blind_fieldOf (v : V) (i : Nat) : Blind (F := F) (W := W) (fieldOf v i) := by
  intro d e
  unfold fieldOf
  repeat sim_one

theorem blind_fieldValue (v : V) (f : RField F V) : Blind (W := W) (fieldValue v f) := by
  intro d e
  unfold fieldValue
  repeat (first | exact blind_fieldOf _ _ d e | sim_one)

theorem blind_isNilFunc (m : Method F) (v : V) : Blind (W := W) (isNilFunc m v) := by
  intro d e
  unfold isNilFunc
  repeat sim_one

theorem blind_reportMethodErr (m : Method F) (outs : List V) : Blind (W := W) (reportMethodErr m outs) := by
  intro d e
  unfold reportMethodErr
  repeat sim_one

/-! ## Code that uses the stack -/

/-- resolving at stack depth `d` -/
abbrev Keeps (m m' : M F V W α) : Prop := ∀ d, Sim d d d d m m'

theorem sim_afterCall {m : Method F} {outs : List V} {f f' : V → M F V W Bool} (hf : ∀ v, Keeps (f v) (f' v)) :
    Keeps (afterCall m outs f) (afterCall m outs f') := by
  intro d
  unfold afterCall
  repeat (first | exact hf _ d | sim_one)

theorem sim_callAndResolve {m : Method F} {v : V} {f f' : V → Bool → M F V W Bool} (hf : ∀ v b, Keeps (f v b) (f' v b)) :
    Keeps (callAndResolve m v f) (callAndResolve m v f') := by
  intro d
  unfold callAndResolve
  repeat (first | exact blind_callQlMethod _ _ _ d d | exact blind_reportMethodErr _ _ d d | exact sim_afterCall (fun v => hf v _) d | sim_one)

theorem sim_setSame {d : Nat} {v : V} : Sim (F := F) (W := W) d d d d (setGoValue v) (setGoValue v) := by
  have := sim_setGoValue (F := F) (W := W) (d := d) (e := d) (v := v) (by omega)
  rwa [Nat.max_self] at this

theorem sim_elemsLoop {body body' : M F V W Bool} (hb : Keeps body body') (start : Nat) (vs : List V) (i d : Nat) :
    (∀ d1, d1 = d ∨ d1 = d + 1 → Sim d1 (d + 1) d (d + 1) (elemsLoop body start i vs) (elemsLoop body' start i vs)) := by
  induction vs generalizing i with
  | nil =>
    intro d1 h
    unfold elemsLoop
    exact Sim.weaken Sim.pure (by omega)
  | cons v vs ih =>
    intro d1 h
    unfold elemsLoop
    refine Sim.bind sim_setPos (fun _ => ?_)
    refine sim_getState (fun s v => ?_)
    dsimp only
    refine Sim.bind sim_setPath (fun _ => ?_)
    refine Sim.bind (d1 := d + 1) (e1 := d + 1) ?_ (fun _ => ?_)
    · have := sim_setGoValue (F := F) (W := W) (d := d1) (e := d + 1) (v := ‹V›) (by omega)
      exact this.weaken (by omega)
    · refine Sim.bind (hb (d + 1)) (fun _ => ?_)
      repeat (first | exact ih _ (d + 1) (Or.inr rfl) | sim_one)

variable [DecidableEq F]

structure AllSim (F V W : Type) [DecidableEq F] (n m : Nat) : Prop where
  sels : ∀ t dept first, Keeps (W := W) (resolveSelectionSet n (t : RType F V) dept first) (resolveSelectionSet m t dept first)
  spread : ∀ t dept first, Keeps (W := W) (resolveSpread n (t : RType F V) dept first) (resolveSpread m t dept first)
  field : ∀ t dept comma, Keeps (W := W) (resolveField n (t : RType F V) dept comma) (resolveField m t dept comma)
  data : ∀ o dept sub, Keeps (V := V) (W := W) (resolveFieldDataValue n (o : Obj F) dept sub) (resolveFieldDataValue m o dept sub)

set_option maxHeartbeats 1000000 in
theorem allSim (n : Nat) : ∀ m, n ≤ m → AllSim F V W n m := by
  induction n with
  | zero =>
    intro m _
    constructor
    · intro t dept first d; unfold resolveSelectionSet; exact Sim.oofM
    · intro t dept first d; unfold resolveSpread; exact Sim.oofM
    · intro t dept first d; unfold resolveField; exact Sim.oofM
    · intro o dept first d; unfold resolveFieldDataValue; exact Sim.oofM
  | succ n ih =>
    intro m hm
    obtain ⟨m, rfl⟩ : ∃ k, m = k + 1 := ⟨m - 1, by omega⟩
    have ih := ih m (by omega)
    constructor
    · intro t dept first d
      unfold resolveSelectionSet
      repeat (first | exact ih.field _ _ _ d | exact ih.spread _ _ _ d | exact ih.sels _ _ _ d | sim_one)
    · intro t dept first d
      unfold resolveSpread
      repeat (first | exact ih.sels _ _ _ d | exact blind_resolveDirectives _ _ d d | sim_one)
    · intro t dept first d
      unfold resolveField
      repeat (first | exact sim_getGoValue (Nat.le_refl _) | exact blind_fieldValue _ _ d d | exact blind_resolveDirectives _ _ d d | (refine Sim.bind sim_setNextGoValue (fun _ => Sim.bind (ih.data _ _ _ (d + 1)) (fun _ => Sim.bind (sim_decIdx.weaken (d1 := d) (by omega)) (fun _ => ?_)))) | exact (sim_decIdx.weaken (by omega)) | exact ih.data _ _ _ _ | sim_one)
    · intro o dept sub d
      unfold resolveFieldDataValue
      refine Sim.bind sim_getCfg (fun _ => Sim.bind (sim_getGoValue (Nat.le_refl _)) (fun _ => Sim.bind sim_seekInst (fun _ => ?_)))
      split
      · repeat sim_one
      · cases o with
        | array inner =>
          refine Sim.bind sim_viewOf (fun x => ?_)
          cases x with
          | seq vs =>
            cases vs with
            | none => repeat sim_one
            | some vs =>
              refine Sim.bind sim_write (fun _ => Sim.bind sim_incIdx (fun _ => Sim.bind sim_getPos (fun _ => ?_)))
              refine Sim.bind (sim_elemsLoop (ih.data _ _ _) _ vs 0 d d (Or.inl rfl)) (fun _ => Sim.bind sim_decIdx (fun _ => ?_))
              repeat sim_one
          | _ => repeat sim_one
        | ptr inner =>
          refine Sim.bind sim_viewOf (fun x => ?_)
          cases x with
          | ptr v =>
            cases v with
            | none => repeat sim_one
            | some v => exact Sim.bind sim_setSame (fun _ => ih.data _ _ _ d)
          | _ => repeat sim_one
        | method mt out =>
          refine Sim.bind (blind_isNilFunc _ _ d d) (fun b => ?_)
          split
          · repeat sim_one
          · refine sim_callAndResolve (fun v b d => ?_) d
            exact Sim.bindB sim_setSame (fun _ => ih.data _ _ _ d)
        | interfaceRef ty =>
          dsimp only
          split
          · repeat sim_one
          · split
            · repeat sim_one
            · refine Sim.bind sim_viewOf (fun x => ?_)
              cases x with
              | iface v =>
                cases v with
                | none => repeat sim_one
                | some p =>
                  obtain ⟨g, p, v⟩ := p
                  refine Sim.bind sim_setNextGoValue (fun _ => ?_)
                  split
                  · refine Sim.bind (ih.data _ _ _ (d + 1)) (fun _ => Sim.bind (sim_decIdx.weaken (d1 := d) (by omega)) (fun _ => ?_))
                    repeat sim_one
                  · refine Sim.bind (sim_decIdx.weaken (d1 := d) (by omega)) (fun _ => ?_)
                    repeat sim_one
              | _ => repeat sim_one
        | _ =>
          dsimp only
          repeat (first | exact ih.sels _ _ _ d | sim_one)

/-- setting the root value: entry 0 -/
theorem sim_setRoot {v : V} : ∀ (s t : RS V W), t = { s with vals := t.vals } → s.idx = 0 →
    Agree 0 0 { s with vals := fun i => if i = 0 then v else s.vals i } { t with vals := fun i => if i = 0 then v else t.vals i } := by
  intro s t h1 h2
  refine ⟨h2, ?_, by rw [h1]⟩
  intro j hj
  have : j = 0 := by omega
  subst this
  rfl

end
end Resolver
end Yarql
