import Verif.Proofs.RWp
import Verif.Proofs.DeliverAny

/-!
# Binding arguments changes nothing but the position; it delivers values of the declared types, or fails with exactly one error
-/

namespace Yarql
namespace Resolver
namespace BindQuiet
open Yarql.Bind Delivered

section
variable {F V W α β : Type}

/-- nothing changed but the position and the state of the variables; the errors `msgs` are reported -/
structure Quiet (s : RS V W) (msgs : List Bytes) (s' : RS V W) : Prop where
  path : s'.path = s.path
  out : s'.out = s.out
  world : s'.world = s.world
  vals : s'.vals = s.vals
  idx : s'.idx = s.idx
  errs : s'.errs = s.errs ++ msgs.map (mkErr s.path)

theorem Quiet.trans {s s1 s2 : RS V W} {a b : List Bytes} (h : Quiet s a s1) (h' : Quiet s1 b s2) : Quiet s (a ++ b) s2 :=
  ⟨h'.path.trans h.path, h'.out.trans h.out, h'.world.trans h.world, h'.vals.trans h.vals, h'.idx.trans h.idx, by
    rw [h'.errs, h.errs, h.path, List.map_append, List.append_assoc]⟩

/-- `m` is quiet; it delivers something with `Q`, or fails with one message with `R` -/
def G (c : Cfg F V W) (R : Bytes → Prop) (Q : α → Prop) (m : M F V W (Option α)) : Prop :=
  ∀ s a s', m c s = .ok a s' → (∃ x, a = some x ∧ Q x ∧ Quiet s [] s') ∨ (a = none ∧ ∃ msg, R msg ∧ Quiet s [msg] s')

/-- quiet and without errors -/
def Q0 (c : Cfg F V W) (m : M F V W α) : Prop := ∀ s a s', m c s = .ok a s' → Quiet s [] s'

variable {c : Cfg F V W} {R : Bytes → Prop} {Q : α → Prop}

theorem bind_ok {m : M F V W α} {f : α → M F V W β} {s s' : RS V W} {b : β} (h : (m >>= f) c s = .ok b s') :
    ∃ a s1, m c s = .ok a s1 ∧ f a c s1 = .ok b s' := by
  have h : (match m c s with | .ok a s1 => f a c s1 | .panic => R.panic | .oof => R.oof) = .ok b s' := h
  cases hm : m c s with
  | ok a s1 => rw [hm] at h; exact ⟨a, s1, rfl, h⟩
  | panic => rw [hm] at h; cases h
  | oof => rw [hm] at h; cases h

theorem Quiet.refl {s s' : RS V W} (h1 : s'.path = s.path) (h2 : s'.out = s.out) (h3 : s'.world = s.world) (h4 : s'.vals = s.vals)
    (h5 : s'.idx = s.idx) (h6 : s'.errs = s.errs) : Quiet s [] s' := ⟨h1, h2, h3, h4, h5, by rw [h6]; simp⟩

theorem G.mono {R' : Bytes → Prop} {Q' : α → Prop} {m : M F V W (Option α)} (h : G c R Q m) (hR : ∀ msg, R msg → R' msg) (hQ : ∀ x, Q x → Q' x) : G c R' Q' m := by
  intro s a s' hm
  rcases h s a s' hm with ⟨x, h1, h2, h3⟩ | ⟨h1, msg, h2, h3⟩
  · exact .inl ⟨x, h1, hQ _ h2, h3⟩
  · exact .inr ⟨h1, msg, hR _ h2, h3⟩

theorem G.quiet {Q : β → Prop} {m : M F V W α} {f : α → M F V W (Option β)} (h : Q0 c m) (hf : ∀ a, G c R Q (f a)) : G c R Q (m >>= f) := by
  intro s b s' hm
  obtain ⟨a, s1, h1, h2⟩ := bind_ok hm
  rcases hf a s1 b s' h2 with ⟨x, k1, k2, k3⟩ | ⟨k1, msg, k2, k3⟩
  · exact .inl ⟨x, k1, k2, by simpa using (h s a s1 h1).trans k3⟩
  · exact .inr ⟨k1, msg, k2, by simpa using (h s a s1 h1).trans k3⟩

theorem G.bind {P : α → Prop} {Q : β → Prop} {m : M F V W (Option α)} {f : Option α → M F V W (Option β)} (h : G c R P m)
    (h0 : f none = Pure.pure none) (hf : ∀ a, P a → G c R Q (f (some a))) : G c R Q (m >>= f) := by
  intro s b s' hm
  obtain ⟨a, s1, h1, h2⟩ := bind_ok hm
  rcases h s a s1 h1 with ⟨x, rfl, k2, k3⟩ | ⟨rfl, msg, k2, k3⟩
  · rcases hf x k2 s1 b s' h2 with ⟨y, l1, l2, l3⟩ | ⟨l1, msg, l2, l3⟩
    · exact .inl ⟨y, l1, l2, by simpa using k3.trans l3⟩
    · exact .inr ⟨l1, msg, l2, by simpa using k3.trans l3⟩
  · rw [h0] at h2
    have h2 : Resolver.R.ok none s1 = Resolver.R.ok b s' := h2
    cases h2
    exact .inr ⟨rfl, msg, k2, k3⟩

/-- quiet steps afterwards -/
theorem G.after {m : M F V W (Option α)} {k : M F V W β} (h : G c R Q m) (hk : Q0 c k) : G c R Q (m >>= fun r => k >>= fun _ => Pure.pure r) := by
  intro s b s' hm
  obtain ⟨a, s1, h1, h2⟩ := bind_ok hm
  obtain ⟨u, s2, h3, h4⟩ := bind_ok h2
  have h4 : Resolver.R.ok a s2 = Resolver.R.ok b s' := h4
  have q := hk s1 u s2 h3
  cases h4
  rcases h s _ s1 h1 with ⟨x, rfl, k2, k3⟩ | ⟨rfl, msg, k2, k3⟩
  · exact .inl ⟨x, rfl, k2, by simpa using k3.trans q⟩
  · exact .inr ⟨rfl, msg, k2, by simpa using k3.trans q⟩

theorem G.err {msg : Bytes} (h : R msg) : G c R Q (err msg >>= fun _ => Pure.pure none) := by
  intro s b s' hm
  obtain ⟨a, s1, h1, h2⟩ := bind_ok hm
  cases h1
  have h2 : Resolver.R.ok none _ = Resolver.R.ok b s' := h2
  cases h2
  exact .inr ⟨rfl, msg, h, rfl, rfl, rfl, rfl, rfl, rfl⟩

theorem G.pure {a : α} (h : Q a) : G c R Q (Pure.pure (some a)) := by
  intro s b s' hm
  have hm : Resolver.R.ok (some a) s = Resolver.R.ok b s' := hm
  cases hm
  exact .inl ⟨a, rfl, h, .refl rfl rfl rfl rfl rfl rfl⟩
theorem G.panicM : G (α := α) c R Q panicM := fun s a s' h => by cases h
theorem G.oofM : G (α := α) c R Q oofM := fun s a s' h => by cases h
theorem G.getCfg {Q : β → Prop} {f : Cfg F V W → M F V W (Option β)} (h : G c R Q (f c)) : G c R Q (getCfg >>= f) := fun s a s' hm => h s a s' hm
theorem G.getState {Q : β → Prop} {f : RS V W → M F V W (Option β)} (h : ∀ s, G c R Q (f s)) : G c R Q (getState >>= f) :=
  fun s a s' hm => h s s a s' hm

theorem g_skipInst {n : Nat} : Q0 c (skipInst n) := fun s a s' h => by cases h; exact .refl rfl rfl rfl rfl rfl rfl
theorem g_getPos : Q0 c getPos := fun s a s' h => by cases h; exact .refl rfl rfl rfl rfl rfl rfl
theorem g_setPos {n : Nat} : Q0 c (setPos n) := fun s a s' h => by cases h; exact .refl rfl rfl rfl rfl rfl rfl
theorem g_setVarsParsed : Q0 c setVarsParsed := fun s a s' h => by cases h; exact .refl rfl rfl rfl rfl rfl rfl
theorem g_readInst : Q0 c readInst := fun s a s' h => by
  unfold readInst at h; split at h <;> cases h; exact .refl rfl rfl rfl rfl rfl rfl
theorem g_seekInst : Q0 c seekInst := fun s a s' h => by
  unfold seekInst at h; split at h <;> cases h; exact .refl rfl rfl rfl rfl rfl rfl
theorem g_lastInst : Q0 c lastInst := fun s a s' h => by
  unfold lastInst at h; split at h <;> cases h; exact .refl rfl rfl rfl rfl rfl rfl
theorem g_getRes {i : Nat} : Q0 c (getRes i) := fun s a s' h => by
  unfold getRes at h; split at h <;> cases h; exact .refl rfl rfl rfl rfl rfl rfl
theorem g_sliceRes {i j : Nat} : Q0 c (sliceRes i j) := fun s a s' h => by
  unfold sliceRes at h; split at h <;> cases h; exact .refl rfl rfl rfl rfl rfl rfl
theorem g_readUint32M : Q0 c readUint32M := fun s a s' h => by
  unfold readUint32M at h; split at h <;> cases h; exact .refl rfl rfl rfl rfl rfl rfl
theorem g_readToNul : Q0 c readToNul := fun s a s' h => by
  unfold readToNul at h; dsimp only at h; split at h <;> cases h; exact .refl rfl rfl rfl rfl rfl rfl

theorem g_pure {a : α} : Q0 c (Pure.pure a) := fun s b s' h => by
  have h : Resolver.R.ok a s = Resolver.R.ok b s' := h
  cases h; exact .refl rfl rfl rfl rfl rfl rfl
theorem Q0.bind {m : M F V W α} {f : α → M F V W β} (h : Q0 c m) (hf : ∀ a, Q0 c (f a)) : Q0 c (m >>= f) := by
  intro s b s' hm
  obtain ⟨a, s1, h1, h2⟩ := bind_ok hm
  simpa using (h s a s1 h1).trans (hf a s1 b s' h2)

theorem g_liftB {b : B α} (h1 : ∀ x, b = .ok x → Q x) (h2 : ∀ msg, b = .err msg → R msg) : G c R Q (liftB b) := by
  cases b with
  | ok a => exact G.pure (h1 a rfl)
  | err m => exact G.err (h2 m rfl)
  | panic => intro s b s' h; cases h

/-- one step -/
macro "g_one" : tactic => `(tactic| first
  | with_reducible exact G.panicM
  | with_reducible exact G.oofM
  | with_reducible refine G.getCfg ?_
  | with_reducible refine G.getState (fun s => ?_)
  | with_reducible refine G.quiet g_readInst (fun _ => ?_)
  | with_reducible refine G.quiet g_seekInst (fun _ => ?_)
  | with_reducible refine G.quiet g_lastInst (fun _ => ?_)
  | with_reducible refine G.quiet g_getRes (fun _ => ?_)
  | with_reducible refine G.quiet g_sliceRes (fun _ => ?_)
  | with_reducible refine G.quiet g_readUint32M (fun _ => ?_)
  | with_reducible refine G.quiet g_readToNul (fun _ => ?_)
  | with_reducible refine G.quiet g_skipInst (fun _ => ?_)
  | with_reducible refine G.quiet g_getPos (fun _ => ?_)
  | with_reducible refine G.quiet g_setPos (fun _ => ?_)
  | with_reducible refine G.quiet g_setVarsParsed (fun _ => ?_)
  | with_reducible refine G.quiet g_pure (fun _ => ?_)
  | with_reducible refine G.quiet (Q0.bind g_readInst (fun _ => g_pure)) (fun _ => ?_)
  | split
  | dsimp only)

end

section
variable {F V W α : Type} {c : Cfg F V W} {R : Bytes → Prop} {Q : α → Prop}

theorem g_findArgLoop (fuel : Nat) (n : Bytes) : Q0 c (findArgLoop fuel n) := by
  induction fuel with
  | zero => intro s a s' h; cases h
  | succ fuel ih =>
    unfold findArgLoop
    refine Q0.bind g_getPos (fun _ => Q0.bind g_readInst (fun _ => ?_))
    split
    · exact g_pure
    · refine Q0.bind g_readUint32M (fun _ => Q0.bind g_skipInst (fun _ => Q0.bind g_readToNul (fun _ => ?_)))
      split
      · exact g_pure
      · exact Q0.bind g_setPos (fun _ => ih)

theorem g_findOperatorArgument (n : Bytes) : Q0 c (findOperatorArgument n) := by
  unfold findOperatorArgument
  intro s a s' h
  have h : (if !s.hasArgs then pure false else do
    setPos s.argsStart
    skipInst 2
    let c ← getCfg
    findArgLoop (c.res.length + 1) n : M F V W Bool) c s = .ok a s' := h
  by_cases hh : s.hasArgs
  · rw [if_neg (by simp [hh])] at h
    refine Q0.bind g_setPos (fun _ => Q0.bind g_skipInst (fun _ => ?_)) s a s' h
    intro s a s' h
    exact g_findArgLoop _ _ s a s' h
  · rw [if_pos (by simp [hh])] at h
    exact g_pure s a s' h

/-- messages for a parameter -/
abbrev RF (c : Cfg F V W) (inp : Input) : Bytes → Prop := Refused c.env c.schema.enums c.schema.inTypes c.vars inp
/-- values for a parameter -/
abbrev DV (c : Cfg F V W) (inp : Input) (cur x : InVal F) : Prop := Delivered.Delivered c.env c.schema.enums c.schema.inTypes inp cur x
/-- binding steps for a parameter -/
abbrev GV (c : Cfg F V W) (inp : Input) (cur : InVal F) (m : M F V W (Option (InVal F × Bool))) : Prop := G c (RF c inp) (fun r => DV c inp cur r.1) m

theorem g_varTypeLoop (n : Bytes) (inp : Input) : G c (RF c inp) (fun r => ∀ msg, RF c r.1 msg → RF c inp msg) (varTypeLoop n inp) := by
  have base : ∀ {inp : Input}, (∀ e, inp ≠ .slice e) → G c (RF c inp) (fun r => ∀ msg, RF c r.1 msg → RF c inp msg) (do
      let ch ← readInst
      if ch == c%'L' || ch == c%'l' then
        err (b%"variable $" ++ n ++ b%" cannot be bind to " ++ kindString inp)
        return none
      else return some (inp, ch)) := by
    intro inp hs
    refine G.quiet g_readInst (fun ch => ?_)
    split
    · refine G.err ?_
      rw [kindName_eq]
      exact .listType hs
    · exact G.pure (fun _ h => h)
  induction inp with
  | slice i ih =>
    unfold varTypeLoop
    refine G.quiet g_readInst (fun ch => ?_)
    split
    · exact ih.mono (fun _ h => .inList h) (fun _ h msg hm => .inList (h msg hm))
    · exact G.pure (fun _ h => h)
  | _ => exact base (by simp)

theorem g_bindExternal (cur : InVal F) (inp : Input) (n : Bytes) :
    G c (RF c inp) (fun r => ∀ x, r = some x → DV c inp cur x.1) (bindExternalVariableValue cur inp n) := by
  have look : G c (RF c inp) (fun r => ∀ x, r = some x → DV c inp cur x.1) (match c.vars.get n with
    | none => return some none
    | some j => do
      match ← liftB (bindJSON c.env c.schema.enums c.schema.inTypes j inp cur) with
      | none => return none
      | some r => return some (some r) : M F V W (Option (Option (InVal F × Bool)))) := by
    split
    · exact G.pure (by simp)
    · refine G.bind (g_liftB (Q := fun r => DV c inp cur r.1) (fun _ h => bindJSON_ok h) (fun _ h => bindJSON_err h)) rfl (fun x hx => ?_)
      exact G.pure (by rintro y ⟨⟩; exact hx)
  unfold bindExternalVariableValue
  refine G.getCfg (G.getState (fun s => ?_))
  dsimp only
  split
  · exact look
  · cases hv : c.vars with
    | empty => exact G.pure (by simp)
    | invalid msg => exact G.quiet g_setVarsParsed (fun _ => G.err (.badVariables hv))
    | json j =>
      cases j with
      | obj ms => rw [hv] at look; exact G.quiet g_setVarsParsed (fun _ => look)
      | _ => exact G.quiet g_setVarsParsed (fun _ => G.err (.noVariables (by simp [hv])))

theorem g_bindOperatorArgumentTo {cur : InVal F} {inp : Input} {m : M F V W (Option (InVal F × Bool))} (hm : GV c inp cur m)
    (n : Bytes) : GV c inp cur (bindOperatorArgumentTo m cur inp n) := by
  have rest : GV c inp cur (do
      let hasDefaultValue := (← readInst) == c%'t'
      skipInst 1
      match ← bindExternalVariableValue cur inp n with
      | none => return none
      | some (some r) => return some r
      | some none =>
        if !hasDefaultValue then
          err b%"variable has no value nor default"
          return none
        m) := by
    refine G.quiet g_readInst (fun ch => G.quiet g_skipInst (fun _ => ?_))
    refine G.bind (g_bindExternal _ _ _) rfl (fun r hr => ?_)
    cases r with
    | some r => exact G.pure (hr r rfl)
    | none =>
      dsimp only
      split
      · exact G.err .noValue
      · exact hm
  unfold bindOperatorArgumentTo
  refine G.bind (g_varTypeLoop _ _) rfl (fun r hr => ?_)
  obtain ⟨elem, ch⟩ := r
  dsimp only
  split
  · refine G.quiet g_readToNul (fun name => G.getCfg ?_)
    exact G.bind (g_liftB (Q := fun _ => True) (fun _ _ => trivial) (fun msg h => hr msg (checkVarType_err h))) rfl (fun _ _ => rest)
  · exact rest

theorem g_walkLoop {σ : Type} {I : σ → Prop} {f : Bytes → σ → M F V W (Option σ)} (hf : ∀ k a, I a → G c R I (f k a))
    (fuel : Nat) (a : σ) (ha : I a) : G c R I (walkLoop f fuel a) := by
  induction fuel generalizing a with
  | zero => exact G.oofM
  | succ fuel ih =>
    unfold walkLoop
    have fin : ∀ b : Bool, G c R I (if b then (do skipInst 1; return some a) else do
        let key ← readToNul
        match ← f key a with
        | none => return none
        | some acc' => walkLoop f fuel acc') := by
      intro b
      split
      · exact G.quiet g_skipInst (fun _ => G.pure ha)
      · exact G.quiet g_readToNul (fun k => G.bind (hf k a ha) rfl (fun x hx => ih x hx))
    refine G.quiet g_readInst (fun ch => ?_)
    split
    · exact fin true
    · split
      · refine G.quiet g_readInst (fun ch' => fin _)
      · exact fin false

theorem g_walkInputObject {σ : Type} {I : σ → Prop} {f : Bytes → σ → M F V W (Option σ)} (hf : ∀ k a, I a → G c R I (f k a)) (a : σ) (ha : I a) :
    G c R I (walkInputObject f a) := by
  unfold walkInputObject
  exact G.quiet g_skipInst (fun _ => G.getCfg (g_walkLoop hf _ _ ha))

theorem g_listLoop {I : InVal F → Prop} {m : M F V W (Option (InVal F × Bool))} (hm : G c R (fun r => I r.1) m) (fuel : Nat)
    (acc : List (InVal F)) (ha : ∀ y ∈ acc, I y) : G c R (fun ys => ∀ y ∈ ys, I y) (listLoop m fuel acc) := by
  induction fuel generalizing acc with
  | zero => exact G.oofM
  | succ fuel ih =>
    unfold listLoop
    refine G.quiet g_seekInst (fun ch => ?_)
    split
    · exact G.pure ha
    · refine G.bind hm rfl (fun x hx => ih _ ?_)
      intro y hy
      rcases List.mem_append.1 hy with hy | hy
      · exact ha y hy
      · rw [List.mem_singleton.1 hy]; exact hx

theorem g_bindPtr {base : InVal F → Input → M F V W (Option (InVal F × Bool))}
    (hb : ∀ x i, GV c i x (base x i)) (cur : InVal F) (inp : Input) : GV c inp cur (bindPtr base cur inp) := by
  induction inp generalizing cur with
  | ptr i ih =>
    unfold bindPtr
    refine G.getCfg (G.quiet g_getPos (fun pos => G.quiet g_getRes (fun ch => ?_)))
    split
    · exact G.quiet g_skipInst (fun _ => G.pure .same)
    · refine G.bind ((ih _).mono (fun _ h => .inPtr h) (fun _ h => h)) rfl (fun r hr => ?_)
      obtain ⟨v, b⟩ := r
      rw [Binding.zeroOf_eq] at hr
      cases b with
      | true => exact G.pure (.ptr hr)
      | false => exact G.pure .same
  | _ => exact hb _ _

theorem g_setTo {inp : Input} {cur : InVal F} {b : B (InVal F)} (h1 : ∀ x, b = .ok x → DV c inp cur x) (h2 : ∀ msg, b = .err msg → RF c inp msg) :
    GV c inp cur (setTo b) := by
  unfold setTo
  exact G.bind (g_liftB h1 h2) rfl (fun x hx => G.pure hx)

theorem g_bindVariable {cur : InVal F} {inp : Input} {m : M F V W (Option (InVal F × Bool))} (hm : GV c inp cur m) (b : Bool) :
    GV c inp cur (bindVariable m b cur inp) := by
  unfold bindVariable
  split
  · exact G.err .notHere
  · refine G.quiet g_readToNul (fun n => G.quiet g_getPos (fun pos => G.quiet (g_findOperatorArgument _) (fun found => ?_)))
    split
    · exact G.quiet g_setPos (fun _ => G.err .undeclared)
    · exact G.after (g_bindOperatorArgumentTo hm _) g_setPos

theorem g_bindList {f : InVal F → Input → M F V W (Option (InVal F × Bool))}
    (hf : ∀ x i, GV c i x (f x i)) (cur : InVal F) (inp : Input) : GV c inp cur (bindList f cur inp) := by
  unfold bindList
  refine G.getCfg ?_
  dsimp only
  split
  · exact G.err .array
  · refine G.quiet g_skipInst (fun _ => G.bind ((g_listLoop (hf _ _) _ _ (by simp)).mono (fun _ h => .inList h) (fun _ h => h)) rfl (fun ys hys => ?_))
    refine G.pure (.list ?_)
    rw [Binding.zeroOf_eq] at hys
    exact hys
  · rename_i hn
    exact G.err (.noList hn (shown _ _))

theorem g_bindMember {f : InVal F → Input → M F V W (Option (InVal F × Bool))} (hf : ∀ x i, GV c i x (f x i)) {n : Bytes} {d : InStruct F}
    (hl : lookup c.schema.inTypes n = some d) (cur : InVal F) (k : Bytes) (acc : InVal F × Bool) (ha : DV c (.struct n) cur acc.1) :
    GV c (.struct n) cur (bindMember f d.fields k acc) := by
  unfold bindMember
  cases hk : d.fields.find? (fun f => decide (f.key = k)) with
  | none => exact G.err (.noMember hl (fun x hx => by simpa using List.find?_eq_none.1 hk x hx))
  | some fd =>
    dsimp only
    cases hg : getField acc.1 fd.goFieldIdx with
    | none => exact G.panicM
    | some cu =>
      have hmem := List.mem_of_find?_eq_some hk
      refine G.bind ((hf _ _).mono (fun _ h => .inMember hl hmem h) (fun _ h => h)) rfl (fun r hr => ?_)
      obtain ⟨v, b⟩ := r
      exact G.pure (.member hl ha hmem ((Binding.withField_iff _ _ _ _ _).1 ⟨hg, rfl⟩) hr)

theorem g_bindObject {f : InVal F → Input → M F V W (Option (InVal F × Bool))}
    (hf : ∀ x i, GV c i x (f x i)) (cur : InVal F) (inp : Input) : GV c inp cur (bindObject f cur inp) := by
  unfold bindObject
  refine G.getCfg ?_
  dsimp only
  split
  · rename_i n
    cases hl : lookup c.schema.inTypes n with
    | none => exact G.panicM
    | some d =>
      refine G.quiet g_getPos (fun pos => G.quiet g_setPos (fun _ => ?_))
      exact g_walkInputObject (I := fun r => DV c (.struct n) cur r.1) (fun k a ha => g_bindMember hf hl cur k a ha) (cur, true) .same
  · refine G.quiet g_getPos (fun pos => G.quiet g_setPos (fun _ => ?_))
    exact g_walkInputObject (I := fun r : InVal F × Bool => DV c .time cur r.1) (fun k a ha => G.err .noTimeMember) (cur, true) .same
  · rename_i h1 h2
    exact G.err (.noObject h1 h2 (shown _ _))

theorem g_bindFloat (cur : InVal F) (inp : Input) : GV c inp cur (bindFloat cur inp) := by
  have one : ∀ d, GV c inp cur (setTo (assignFloat c.env inp cur d)) := fun d =>
    g_setTo (fun x h => delivered_lit ((Binding.assignFloat_iff (enums := c.schema.enums) _ _ _ _).1 h)) (fun _ h => assignFloat_err h)
  unfold bindFloat
  refine G.getCfg ?_
  split
  · exact G.quiet g_readToNul (fun d => one d)
  · exact G.quiet g_readToNul (fun d => one d)
  · exact one []

theorem g_bindBoolean (cur : InVal F) (inp : Input) : GV c inp cur (bindBoolean cur inp) := by
  have one : ∀ b, GV c inp cur (setTo (assignBool c.env inp cur b)) := fun b =>
    g_setTo (fun x h => delivered_lit ((Binding.assignBool_iff (enums := c.schema.enums) _ _ _ _).1 h)) (fun _ h => assignBool_err h)
  unfold bindBoolean
  refine G.getCfg ?_
  split
  · exact G.quiet g_readInst (fun b => G.quiet g_skipInst (fun _ => one _))
  · exact one true

theorem g_bindEnum (cur : InVal F) (inp : Input) : GV c inp cur (bindEnum inp) := by
  have one : ∀ b, GV c inp cur (setTo (assignEnumLit c.schema.enums inp b)) := fun b =>
    g_setTo (fun x h => delivered_lit ((Binding.assignEnumLit_iff (env := c.env) _ _ _).1 h)) (fun _ h => assignEnumLit_err h)
  unfold bindEnum
  refine G.getCfg ?_
  split
  · exact G.quiet g_readToNul (fun d => one d)
  · exact one []

theorem g_bindBase {f : Bool → InVal F → Input → M F V W (Option (InVal F × Bool))}
    (hf : ∀ b x i, GV c i x (f b x i)) (b : Bool) (cur : InVal F) (inp : Input) : GV c inp cur (bindBase f b cur inp) := by
  unfold bindBase
  refine G.getCfg (G.quiet g_skipInst (fun _ => G.quiet g_readInst (fun kind => G.quiet g_skipInst (fun _ => ?_))))
  split
  · exact g_bindVariable (hf _ _ _) _
  split
  · exact G.quiet g_readToNul (fun d =>
      g_setTo (fun x h => delivered_lit ((Binding.assignInt_iff (enums := c.schema.enums) _ _ _ _).1 h)) (fun _ h => assignInt_err h))
  split
  · exact g_bindFloat _ _
  split
  · exact G.quiet g_readToNul (fun d => g_setTo (fun x h => delivered_text ((Binding.assignString_iff _ _ _ _).1 h)) (fun _ h => assignString_err h))
  split
  · exact g_bindBoolean _ _
  split
  · exact G.quiet g_skipInst (fun _ => G.pure .same)
  split
  · exact g_bindEnum _ _
  split
  · exact g_bindList (hf _) _ _
  split
  · exact g_bindObject (hf _) _ _
  · exact G.pure .same

theorem g_bindInput (fuel : Nat) (b : Bool) (cur : InVal F) (inp : Input) : GV c inp cur (bindInput fuel b cur inp) := by
  induction fuel generalizing b cur inp with
  | zero => exact G.oofM
  | succ fuel ih => unfold bindInput; exact g_bindPtr (fun _ _ => g_bindBase ih _ _ _) _ _

/-- why a function is not called -/
abbrev RN (c : Cfg F V W) (m : Method F) : Bytes → Prop := Reason c.env c.schema.enums c.schema.inTypes c.vars m.inFields
/-- what a function is called with -/
abbrev CW (c : Cfg F V W) (m : Method F) : List (Arg F) → Prop := CalledWith c.env c.schema.enums c.schema.inTypes m

theorem withArg_of {inputs : List (Arg F)} {a : ArgField} {cur x : InVal F} (h : argField inputs a = some cur) :
    Binding.WithArg inputs a cur x (setArgField inputs a x) := by
  unfold argField at h
  unfold setArgField
  cases hi : inputs[a.inputIdx]? with
  | none => rw [hi] at h; cases h
  | some y =>
    rw [hi] at h
    cases y with
    | ctx => cases h
    | val v => exact ⟨v, _, hi, (Binding.withField_iff _ _ _ _ _).1 ⟨h, rfl⟩, rfl⟩

theorem g_bindArgument (m : Method F) (fuel : Nat) (k : Bytes) (inputs : List (Arg F)) (hi : CW c m inputs) :
    G c (RN c m) (CW c m) (bindArgument m fuel k inputs) := by
  unfold bindArgument
  cases hk : m.inFields.find? (fun a => decide (a.key = k)) with
  | none => exact G.err (.noParameter (fun x hx => by simpa using List.find?_eq_none.1 hk x hx))
  | some a =>
    dsimp only
    cases hg : argField inputs a with
    | none => exact G.panicM
    | some cur =>
      have hmem := List.mem_of_find?_eq_some hk
      refine G.bind ((g_bindInput fuel true cur a.input).mono (fun _ h => .argument hmem h) (fun _ h => h)) rfl (fun r hr => ?_)
      obtain ⟨v, b⟩ := r
      exact G.pure (.arg hi hmem (withArg_of hg) hr)

/-- calling a function: either the arguments do not bind, which is reported, or it is called with what its parameters allow and nothing is reported -/
theorem callQlMethod_ok {m : Method F} {fn : V} {b : Bool} {s s' : RS V W} {res : Option (List V)} (h : callQlMethod m fn b c s = .ok res s') :
    (∃ msg, res = none ∧ RN c m msg ∧ Quiet s [msg] s') ∨
      ∃ outs inputs s1, res = some outs ∧ Quiet s [] s1 ∧ CW c m inputs ∧ c.env.call s.world fn (jsonPath s.path) inputs = some (s'.world, outs) ∧
        s' = { s1 with world := s'.world } := by
  have call : ∀ {inputs : List (Arg F)} {outs : List V} {s s' : RS V W}, callFn fn inputs c s = .ok outs s' →
      c.env.call s.world fn (jsonPath s.path) inputs = some (s'.world, outs) ∧ s' = { s with world := s'.world } := by
    intro inputs outs s s' h
    have h : (match c.env.call s.world fn (jsonPath s.path) inputs with | none => panicM | some (w, outs) => do setWorld w; return outs : M F V W (List V))
      c s = .ok outs s' := h
    cases hc : c.env.call s.world fn (jsonPath s.path) inputs with
    | none => rw [hc] at h; cases h
    | some p =>
      obtain ⟨w1, o⟩ := p
      rw [hc] at h
      cases h
      exact ⟨rfl, rfl⟩
  unfold callQlMethod at h
  cases b with
  | false =>
    obtain ⟨outs, s2, h1, h2⟩ := bind_ok (m := callFn fn (freshInputs m)) h
    have h2 : Resolver.R.ok (some outs) s2 = Resolver.R.ok res s' := h2
    cases h2
    obtain ⟨k1, k2⟩ := call h1
    exact Or.inr ⟨outs, _, s, rfl, .refl rfl rfl rfl rfl rfl rfl, .fresh, k1, k2⟩
  | true =>
    obtain ⟨a, s1, h1, h2⟩ := bind_ok (m := walkInputObject (bindArgument m (2 * (c.res.length + 1))) (freshInputs m)) h
    rcases g_walkInputObject (fun k a ha => g_bindArgument m _ k a ha) _ .fresh s a s1 h1 with ⟨inputs, rfl, k2, k1⟩ | ⟨rfl, msg, k2, k1⟩
    · obtain ⟨outs, s2, h3, h4⟩ := bind_ok (m := callFn fn inputs) h2
      have h4 : Resolver.R.ok (some outs) s2 = Resolver.R.ok res s' := h4
      cases h4
      obtain ⟨k3, k4⟩ := call h3
      rw [k1.world, k1.path] at k3
      exact Or.inr ⟨outs, inputs, s1, rfl, k1, k2, k3, k4⟩
    · have h2 : Resolver.R.ok none s1 = Resolver.R.ok res s' := h2
      cases h2
      exact Or.inl ⟨msg, rfl, k2, k1⟩

end
end BindQuiet
end Resolver
end Yarql
