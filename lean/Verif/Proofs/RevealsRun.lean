import Verif.Spec.Reveals
import Verif.Proofs.BindQuiet
import Verif.Proofs.ShowsSound

/-!
# Every run reveals Go values (`Spec/Reveals.lean`)
-/

namespace Yarql
namespace Resolver
namespace RevealsRun
open Yarql.Bind Eval Reveals BindQuiet
open Doc (OpKind)

section
variable {F V W α β : Type} {c : Cfg F V W}

theorem pathText_append (p q : List Seg) : pathText (p ++ q) = pathText p ++ pathText q := by
  induction p with
  | nil => rfl
  | cons s ss ih => simp only [List.cons_append, pathText, ih, List.append_assoc]

theorem mkErr_path {s : RS V W} {q : List Seg} (hp : s.path = pathText q) (m : Bytes) : mkErr s.path m = ⟨m, pathJSON q⟩ := by
  rw [hp]
  cases q <;> rfl

theorem map_mkErr {s : RS V W} {q : List Seg} (hp : s.path = pathText q) (ms : List Bytes) :
    ms.map (mkErr s.path) = ms.map (fun m => ⟨m, pathJSON q⟩) := by
  apply List.map_congr_left
  intro m _
  exact mkErr_path hp m

theorem jsonPath_pathText (q : List Seg) : jsonPath (pathText q) = Shows.pathArg q := by
  cases q <;> rfl

/-- if `m` returns normally, result and state satisfy `Q` -/
def post (m : M F V W α) (c : Cfg F V W) (s : RS V W) (Q : α → RS V W → Prop) : Prop := ∀ a s', m c s = .ok a s' → Q a s'

theorem post_bind {m : M F V W α} {f : α → M F V W β} {s : RS V W} {Q : β → RS V W → Prop}
    (h : post m c s (fun a s1 => post (f a) c s1 Q)) : post (m >>= f) c s Q := by
  intro b s' hm
  obtain ⟨a, s1, h1, h2⟩ := bind_ok hm
  exact h a s1 h1 b s' h2

theorem post_pure {a : α} {s : RS V W} {Q : α → RS V W → Prop} (h : Q a s) : post (pure a) c s Q := by
  intro b s' hm
  have hm : R.ok a s = R.ok b s' := hm
  cases hm
  exact h

theorem post_mono {m : M F V W α} {s : RS V W} {Q Q' : α → RS V W → Prop} (h : post m c s Q') (hq : ∀ a s', Q' a s' → Q a s') : post m c s Q :=
  fun a s' hm => hq a s' (h a s' hm)

theorem post_panicM {s : RS V W} {Q : α → RS V W → Prop} : post panicM c s Q := fun a s' h => by cases h
theorem post_oofM {s : RS V W} {Q : α → RS V W → Prop} : post oofM c s Q := fun a s' h => by cases h

/-- steps known exactly, before others -/
theorem post_write {b : Bytes} {f : Unit → M F V W β} {s : RS V W} {Q} (h : post (f ()) c { s with out := s.out ++ b } Q) : post (write b >>= f) c s Q :=
  fun b s' hm => h b s' hm
theorem post_writeNull {f : Unit → M F V W β} {s : RS V W} {Q} (h : post (f ()) c { s with out := s.out ++ b%"null" } Q) : post (writeNull >>= f) c s Q :=
  fun b s' hm => h b s' hm
theorem post_writeQuoted {b : Bytes} {f : Unit → M F V W β} {s : RS V W} {Q} (h : post (f ()) c { s with out := s.out ++ (c%'"' :: b ++ [c%'"']) } Q) :
    post (writeQuoted b >>= f) c s Q := fun b s' hm => h b s' hm
theorem post_err {m : Bytes} {f : Unit → M F V W β} {s : RS V W} {Q} (h : post (f ()) c { s with errs := s.errs ++ [mkErr s.path m] } Q) :
    post (err m >>= f) c s Q := fun b s' hm => h b s' hm
theorem post_getCfg {f : Cfg F V W → M F V W β} {s : RS V W} {Q} (h : post (f c) c s Q) : post (getCfg >>= f) c s Q := fun b s' hm => h b s' hm
theorem post_getState {f : RS V W → M F V W β} {s : RS V W} {Q} (h : post (f s) c s Q) : post (getState >>= f) c s Q := fun b s' hm => h b s' hm
theorem post_getGoValue {f : V → M F V W β} {s : RS V W} {Q} (h : post (f (s.vals s.idx)) c s Q) : post (getGoValue >>= f) c s Q := fun b s' hm => h b s' hm
theorem post_setGoValue {v : V} {f : Unit → M F V W β} {s : RS V W} {Q}
    (h : post (f ()) c { s with vals := fun i => if i = s.idx then v else s.vals i } Q) : post (setGoValue v >>= f) c s Q := fun b s' hm => h b s' hm
theorem post_setNextGoValue {v : V} {f : Unit → M F V W β} {s : RS V W} {Q}
    (h : post (f ()) c { s with idx := s.idx + 1, vals := fun i => if i = s.idx + 1 then v else s.vals i } Q) : post (setNextGoValue v >>= f) c s Q :=
  fun b s' hm => h b s' hm
theorem post_incIdx {f : Unit → M F V W β} {s : RS V W} {Q} (h : post (f ()) c { s with idx := s.idx + 1 } Q) : post (incIdx >>= f) c s Q :=
  fun b s' hm => h b s' hm
theorem post_decIdx {f : Unit → M F V W β} {s : RS V W} {Q} (h : post (f ()) c { s with idx := s.idx - 1 } Q) : post (decIdx >>= f) c s Q :=
  fun b s' hm => h b s' hm
theorem post_setPath {p : Bytes} {f : Unit → M F V W β} {s : RS V W} {Q} (h : post (f ()) c { s with path := p } Q) : post (setPath p >>= f) c s Q :=
  fun b s' hm => h b s' hm
theorem post_viewOf {v : V} {f : View F V → M F V W β} {s : RS V W} {Q} (h : post (f (c.env.view s.world v)) c s Q) : post (viewOf v >>= f) c s Q :=
  fun b s' hm => h b s' hm
theorem post_getPos {f : Nat → M F V W β} {s : RS V W} {Q} (h : ∀ n, post (f n) c s Q) : post (getPos >>= f) c s Q := fun b s' hm => h _ b s' hm

/-- steps that move the position only -/
def Moves (c : Cfg F V W) (m : M F V W α) : Prop := ∀ s a s', m c s = .ok a s' → ∃ n, s' = { s with charNr := n }
theorem post_moves {m : M F V W α} {f : α → M F V W β} {s : RS V W} {Q} (hm : Moves c m) (h : ∀ a n, post (f a) c { s with charNr := n } Q) :
    post (m >>= f) c s Q := by
  refine post_bind (fun a s1 h1 => ?_)
  obtain ⟨n, rfl⟩ := hm s a s1 h1
  exact h a n
theorem moves_skipInst {n : Nat} : Moves c (skipInst n) := fun s a s' h => by cases h; exact ⟨_, rfl⟩
theorem moves_setPos {n : Nat} : Moves c (setPos n) := fun s a s' h => by cases h; exact ⟨_, rfl⟩
theorem moves_readInst : Moves c readInst := fun s a s' h => by unfold readInst at h; split at h <;> cases h; exact ⟨_, rfl⟩
theorem moves_seekInst : Moves c seekInst := fun s a s' h => by unfold seekInst at h; split at h <;> cases h; exact ⟨_, rfl⟩
theorem moves_lastInst : Moves c lastInst := fun s a s' h => by unfold lastInst at h; split at h <;> cases h; exact ⟨_, rfl⟩
theorem moves_sliceRes {i j : Nat} : Moves c (sliceRes i j) := fun s a s' h => by unfold sliceRes at h; split at h <;> cases h; exact ⟨_, rfl⟩
theorem moves_readUint32M : Moves c readUint32M := fun s a s' h => by unfold readUint32M at h; split at h <;> cases h; exact ⟨_, rfl⟩
theorem moves_readToNul : Moves c readToNul := fun s a s' h => by unfold readToNul at h; dsimp only at h; split at h <;> cases h; exact ⟨_, rfl⟩

/-- one step -/
macro "post_one" : tactic => `(tactic| first
  | with_reducible exact post_panicM
  | with_reducible refine post_moves moves_readInst (fun _ _ => ?_)
  | with_reducible refine post_moves moves_seekInst (fun _ _ => ?_)
  | with_reducible refine post_moves moves_lastInst (fun _ _ => ?_)
  | with_reducible refine post_moves moves_sliceRes (fun _ _ => ?_)
  | with_reducible refine post_moves moves_readUint32M (fun _ _ => ?_)
  | with_reducible refine post_moves moves_readToNul (fun _ _ => ?_)
  | with_reducible refine post_moves moves_skipInst (fun _ _ => ?_)
  | with_reducible refine post_moves moves_setPos (fun _ _ => ?_)
  | with_reducible refine post_getPos (fun _ => ?_)
  | with_reducible refine post_getCfg ?_
  | with_reducible refine post_getGoValue ?_
  | with_reducible refine post_viewOf ?_)

/-! ## Directives -/

/-- what directives do at path `q`, seen from any object around -/
def DirRun (c : Cfg F V W) (q : List Seg) (s s' : RS V W) : Prop :=
  s'.path = s.path ∧ s'.out = s.out ∧ s'.idx = s.idx ∧ s'.vals = s.vals ∧ ∃ es, s'.errs = s.errs ++ es ∧
      ∀ near t v p, (q = p ∨ ∃ k, q = p ++ [.key k]) → ∀ ms es' w', Members c.schema c.env c.vars near t v p s'.world ms es' w' →
        Members c.schema c.env c.vars near t v p s.world ms (es ++ es') w'

theorem directives_run {c : Cfg F V W} (loc : UInt8) (n : Nat) {s s' : RS V W} {a : Option Bool} {q : List Seg} (hp : s.path = pathText q)
    (h : resolveDirectives loc n c s = .ok a s') : DirRun c q s s' := by
  have one : ∀ {s : RS V W}, s.path = pathText q → post (resolveDirective loc) c s (fun _ s' => DirRun c q s s') := by
    intro s hp
    unfold resolveDirective
    refine post_moves moves_skipInst (fun _ _ => post_moves moves_readInst (fun _ _ => post_moves moves_readToNul (fun name n => post_getCfg ?_)))
    have bad : (∀ table, lookup c.schema.directives loc = some table → ∀ d ∈ table, d.name ≠ name) →
        post (do err (b%"unknown directive " ++ name); return none : M F V W (Option Bool)) c { s with charNr := n } (fun _ s' => DirRun c q s s') := by
      intro hno
      refine post_err (post_pure ⟨rfl, rfl, rfl, rfl, [mkErr s.path (b%"unknown directive " ++ name)], rfl, ?_⟩)
      intro near t v p hq ms es' w' hm
      rw [mkErr_path hp]
      exact .error hq (.unknownDirective hno) hm
    cases hl : lookup c.schema.directives loc with
    | none => exact bad (by intro table h; rw [hl] at h; cases h)
    | some ds =>
      dsimp only
      cases hf : ds.find? (fun d => decide (d.name = name)) with
      | none => exact bad (by
          intro table h d hd
          rw [hl] at h
          cases h
          simpa using List.find?_eq_none.1 hf d hd)
      | some d =>
        dsimp only
        refine post_bind (fun r s1 h1 => ?_)
        rcases callQlMethod_ok h1 with ⟨msg, rfl, hne, hq⟩ | ⟨outs, inputs, s2, rfl, hq, hcw, hc, e⟩
        · refine post_pure ⟨hq.path, hq.out, hq.idx, hq.vals, _, hq.errs, ?_⟩
          intro near t v p hqp ms es' w' hm
          rw [hq.world] at hm
          dsimp only at hm ⊢
          rw [map_mkErr hp]
          exact .error hqp (.directive hl (List.mem_of_find?_eq_some hf) hne) hm
        · dsimp only
          cases ho : outs[0]? with
          | none => exact post_panicM
          | some o =>
            refine post_getState (post_pure ?_)
            have e1 : s1.path = s2.path := by rw [e]
            have e2 : s1.out = s2.out := by rw [e]
            have e3 : s1.idx = s2.idx := by rw [e]
            have e4 : s1.vals = s2.vals := by rw [e]
            have e5 : s1.errs = s2.errs := by rw [e]
            refine ⟨e1.trans hq.path, e2.trans hq.out, e3.trans hq.idx, e4.trans hq.vals, [], by rw [e5, hq.errs]; rfl, ?_⟩
            intro near t v p hqp ms es' w' hm
            dsimp only at hc
            rw [hp, jsonPath_pathText] at hc
            exact .directive hqp hl (List.mem_of_find?_eq_some hf) hcw hc hm
  induction n generalizing s s' a with
  | zero =>
    have h : R.ok (some false) s = R.ok a s' := h
    cases h
    exact ⟨rfl, rfl, rfl, rfl, [], by simp, fun _ _ _ _ _ _ _ _ h => h⟩
  | succ n ih =>
    unfold resolveDirectives at h
    obtain ⟨r, s1, h1, h2⟩ := bind_ok h
    obtain ⟨k1, k2, k3, k4, es, k5, k6⟩ := one hp r s1 h1
    rcases r with _ | _ | _
    · have h2 : R.ok none s1 = R.ok a s' := h2
      cases h2
      exact ⟨k1, k2, k3, k4, es, k5, k6⟩
    · obtain ⟨j1, j2, j3, j4, es', j5, j6⟩ := ih (k1.trans hp) h2
      refine ⟨j1.trans k1, j2.trans k2, j3.trans k3, j4.trans k4, es ++ es', by rw [j5, k5, List.append_assoc], ?_⟩
      intro near t v p hq ms es'' w' hm
      rw [List.append_assoc]
      exact k6 near t v p hq _ _ _ (j6 near t v p hq _ _ _ hm)
    · have h2 : R.ok (some true) s1 = R.ok a s' := h2
      cases h2
      exact ⟨k1, k2, k3, k4, es, k5, k6⟩

/-! ## Fields and values -/

theorem fieldValue_run {c : Cfg F V W} {s : RS V W} (v : V) (f : RField F V) :
    post (fieldValue v f) c s (fun x s' => s' = s ∧ FieldValue c.env s.world v f x) := by
  have sf : f.customObjValue = none → (∀ m out, f.obj = .method m out → m.isTypeMethod = false) →
      post (fieldOf v f.structFieldIdx) c s (fun x s' => s' = s ∧ FieldValue c.env s.world v f x) := by
    intro h1 h2
    unfold fieldOf
    refine post_viewOf ?_
    split
    · rename_i fs hv
      split
      · rename_i x hx
        exact post_pure ⟨rfl, .field h1 h2 hv hx⟩
      · exact post_panicM
    · exact post_panicM
  unfold fieldValue
  refine post_getCfg ?_
  cases hcu : f.customObjValue with
  | some x => exact post_pure ⟨rfl, .fixed hcu⟩
  | none =>
    dsimp only
    split
    · rename_i m out ho
      by_cases hm : m.isTypeMethod = true
      · rw [if_pos hm]
        exact post_pure ⟨rfl, .method hcu ho hm⟩
      · rw [if_neg hm]
        exact sf hcu (fun m' out' ho' => by rw [ho] at ho'; cases ho'; simpa using hm)
    · rename_i ho
      exact sf hcu (fun m' out' ho' => absurd ho' (ho m' out'))

theorem depthMembers_append (a b : List (Bytes × Out)) : depthMembers (a ++ b) = max (depthMembers a) (depthMembers b) := by
  induction a with
  | nil => simp [depthMembers]
  | cons x a ih =>
    obtain ⟨k, x⟩ := x
    simp only [List.cons_append, depthMembers, ih]
    omega

theorem succ_toNat {i : UInt8} (h : i.toNat + 1 ≤ 255) : (i + 1).toNat = i.toNat + 1 := by
  rw [UInt8.toNat_add]
  show (i.toNat + 1) % 256 = _
  omega

/-- interfaces need a slot of the value stack -/
def budget : Obj F → Nat
  | .objRef _ => 0
  | _ => 1
theorem budget_le (o : Obj F) : budget o ≤ 1 := by cases o <;> simp [budget]

/-- a value of type `o` has been written at path `q` -/
def VR (c : Cfg F V W) (q : List Seg) (o : Obj F) (s s' : RS V W) : Prop :=
  s'.path = s.path ∧ s'.idx = s.idx ∧ ∃ out es, s'.out = s.out ++ print out ∧ s'.errs = s.errs ++ es ∧
    ∀ near : Prop, (near → s.idx.toNat + budget o + 2 * depth out ≤ 255) →
      Reveals.Reveals c.schema c.env c.vars near s.world o (s.vals s.idx) q out es s'.world ∧ (near → ∀ i : UInt8, i.toNat < s.idx.toNat → s'.vals i = s.vals i)

/-- members of an object at path `q` have been written -/
def Core (c : Cfg F V W) (q : List Seg) (t : RType F V) (s : RS V W) (ms : List (Bytes × Out)) (es : List RErr) (s' : RS V W) : Prop :=
  ∀ near : Prop, (near → s.idx.toNat + 2 * depthMembers ms ≤ 255) →
    (∀ v, (near → v = s.vals s.idx) → ∀ ms' es' w', Members c.schema c.env c.vars near t v q s'.world ms' es' w' →
      Members c.schema c.env c.vars near t v q s.world (ms ++ ms') (es ++ es') w') ∧ (near → ∀ i : UInt8, i.toNat ≤ s.idx.toNat → s'.vals i = s.vals i)

def SR (c : Cfg F V W) (q : List Seg) (t : RType F V) (first : Bool) (s : RS V W) (a : Bool × Bool) (s' : RS V W) : Prop :=
  s'.path = s.path ∧ s'.idx = s.idx ∧ ∃ ms es, s'.out = s.out ++ printMembers first ms ∧ (a.1 = false → a.2 = (first && ms.isEmpty)) ∧
    s'.errs = s.errs ++ es ∧ Core c q t s ms es s'

def FR (c : Cfg F V W) (q : List Seg) (t : RType F V) (comma : Bool) (s : RS V W) (a : Bool × Bool) (s' : RS V W) : Prop :=
  s'.path = s.path ∧ s'.idx = s.idx ∧ ∃ ms es, s'.out = s.out ++ printMembers (!comma) ms ∧ a.1 = ms.isEmpty ∧
    s'.errs = s.errs ++ es ∧ Core c q t s ms es s'

theorem Core.trans {c : Cfg F V W} {q : List Seg} {t : RType F V} {s s1 s2 : RS V W} {ms1 ms2 : List (Bytes × Out)} {es1 es2 : List RErr}
    (h1 : Core c q t s ms1 es1 s1) (hi : s1.idx = s.idx) (h2 : Core c q t s1 ms2 es2 s2) : Core c q t s (ms1 ++ ms2) (es1 ++ es2) s2 := by
  intro near hn
  rw [depthMembers_append] at hn
  obtain ⟨a1, a2⟩ := h1 near (fun n => by have := hn n; omega)
  obtain ⟨b1, b2⟩ := h2 near (fun n => by have := hn n; rw [hi]; omega)
  refine ⟨fun v hv ms' es' w' hm => ?_, fun n i hl => ?_⟩
  · rw [List.append_assoc, List.append_assoc]
    refine a1 v hv _ _ _ (b1 v (fun n => ?_) _ _ _ hm)
    rw [hi, a2 n _ (Nat.le_refl _)]
    exact hv n
  · rw [b2 n i (by rw [hi]; exact hl), a2 n i hl]

theorem Core.nil {c : Cfg F V W} {q : List Seg} {t : RType F V} {s s' : RS V W} (hw : s'.world = s.world) (hv : s'.vals = s.vals) : Core c q t s [] [] s' := by
  intro near hn
  refine ⟨fun v _ ms' es' w' hm => ?_, fun _ i _ => by rw [hv]⟩
  rw [hw] at hm
  exact hm

theorem Core.err {c : Cfg F V W} {q q' : List Seg} {t : RType F V} {s s' : RS V W} {msg : Bytes} (hw : s'.world = s.world) (hv : s'.vals = s.vals)
    (hq : q' = q ∨ ∃ k, q' = q ++ [.key k]) (hm : SelectionError c.schema c.env c.vars msg) : Core c q t s [] [⟨msg, pathJSON q'⟩] s' := by
  intro near hn
  refine ⟨fun v _ ms' es' w' hr => ?_, fun _ i _ => by rw [hv]⟩
  rw [hw] at hr
  exact .error hq hm hr

theorem DirRun.core {c : Cfg F V W} {q q' : List Seg} {t : RType F V} {s s' : RS V W} (h : DirRun c q' s s') (hq : q' = q ∨ ∃ k, q' = q ++ [.key k]) :
    ∃ es, s'.errs = s.errs ++ es ∧ Core c q t s [] es s' := by
  obtain ⟨-, -, -, h4, es, h5, h6⟩ := h
  exact ⟨es, h5, fun near _ => ⟨fun v _ ms' es' w' hm => h6 near t v q hq _ _ _ hm, fun _ i _ => by rw [h4]⟩⟩

theorem printMembers_append (first : Bool) (a b : List (Bytes × Out)) :
    printMembers first (a ++ b) = printMembers first a ++ printMembers (first && a.isEmpty) b := by
  induction a generalizing first with
  | nil => simp [printMembers]
  | cons x a ih =>
    obtain ⟨k, x⟩ := x
    simp only [List.cons_append, printMembers, List.append_assoc, ih]
    simp

/-! ## Lists -/

theorem elems_run {c : Cfg F V W} {q : List Seg} {o : Obj F} {body : M F V W Bool}
    (hb : ∀ i s, s.path = pathText (q ++ [.idx i]) → post body c s (fun _ s' => VR c (q ++ [.idx i]) o s s'))
    (start : Nat) (vs : List V) : ∀ (i : Nat) (s : RS V W), s.path = pathText q → post (elemsLoop body start i vs) c s (fun _ s' =>
      s'.path = s.path ∧ s'.idx = s.idx ∧ ∃ os es, os.length = vs.length ∧ s'.out = s.out ++ printItems true os ∧ s'.errs = s.errs ++ es ∧
      ∀ near : Prop, (near → s.idx.toNat + 2 * depthItems os ≤ 256) →
        Elems c.schema c.env c.vars near o q s.world i vs os es s'.world ∧ (near → ∀ j : UInt8, j.toNat < s.idx.toNat → s'.vals j = s.vals j)) := by
  induction vs with
  | nil =>
    intro i s hp
    unfold elemsLoop
    exact post_pure ⟨rfl, rfl, [], [], rfl, by simp [printItems], by simp, fun near _ => ⟨.nil, fun _ _ _ => rfl⟩⟩
  | cons v vs ih =>
    intro i s hp
    unfold elemsLoop
    refine post_moves moves_setPos (fun _ n => post_getState (post_setPath (post_setGoValue (post_bind ?_))))
    dsimp only
    refine post_mono (hb i _ ?_) ?_
    · show s.path ++ c%',' :: intDigits i = _
      rw [hp, pathText_append]
      simp [pathText, segText, intDigits]
    · rintro - s1 ⟨k1, k2, out, es, k3, k4, k5⟩
      dsimp only at k1 k2 k3 k4 k5
      -- behind the element
      have rest : ∀ (txt : Bytes), (txt = if vs.isEmpty then [] else [c%',']) →
          post (do setPath s.path; elemsLoop body start (i + 1) vs : M F V W Unit) c { s1 with out := s1.out ++ txt } (fun _ s' =>
            s'.path = s.path ∧ s'.idx = s.idx ∧ ∃ os es, os.length = (v :: vs).length ∧ s'.out = s.out ++ printItems true os ∧ s'.errs = s.errs ++ es ∧
            ∀ near : Prop, (near → s.idx.toNat + 2 * depthItems os ≤ 256) →
              Elems c.schema c.env c.vars near o q s.world i (v :: vs) os es s'.world ∧ (near → ∀ j : UInt8, j.toNat < s.idx.toNat → s'.vals j = s.vals j)) := by
        intro txt ht
        refine post_setPath (post_mono (ih (i + 1) _ hp) ?_)
        rintro - s2 ⟨j1, j2, os, es', j3, j4, j5, j6⟩
        dsimp only at j1 j2 j4 j5 j6
        refine ⟨j1, by rw [j2, k2], out :: os, es ++ es', by simp [j3], ?_, by rw [j5, k4, List.append_assoc], fun near hn => ?_⟩
        · rw [j4, k3]
          simp only [printItems, if_true, List.nil_append, List.append_assoc]
          congr 2
          cases os with
          | nil =>
            have : vs = [] := by simpa using j3.symm
            subst this
            simp [ht, printItems]
          | cons x os =>
            have : vs.isEmpty = false := by cases vs <;> simp_all
            simp [ht, this, printItems]
        · simp only [depthItems] at hn
          obtain ⟨a1, a2⟩ := k5 near (fun n => by have := hn n; have := budget_le o; omega)
          obtain ⟨b1, b2⟩ := j6 near (fun n => by have := hn n; rw [k2]; omega)
          simp only [if_true] at a1
          refine ⟨.cons a1 b1, fun n j hj => ?_⟩
          rw [b2 n j (by rw [k2]; exact hj), a2 n j hj]
          have : j ≠ s.idx := by rintro rfl; omega
          simp [this]
      by_cases he : vs.isEmpty = true
      · simp only [he, Bool.not_true, Bool.false_eq_true, if_false]
        have := rest [] (by simp [he])
        rw [List.append_nil] at this
        exact this
      · simp only [he, Bool.not_false, if_true]
        exact post_write (rest [c%','] (by simp [he]))

/-! ## Functions -/

theorem reportMethodErr_run {c : Cfg F V W} {q : List Seg} {s : RS V W} {m : Method F} {outs : List V} (hp : s.path = pathText q) :
    post (reportMethodErr m outs) c s (fun _ s' => s' = { s with errs := s.errs ++ ownErrors c.env m q s.world outs }) := by
  unfold reportMethodErr ownErrors Events.ownError
  refine post_getCfg ?_
  cases hm : m.errorOutNr with
  | none => exact post_pure (by simp)
  | some nr =>
    dsimp only
    cases ho : outs[nr]? with
    | none => exact post_panicM
    | some e =>
      refine post_getState ?_
      dsimp only
      cases he : c.env.errOf s.world e with
      | none => exact post_pure (by simp)
      | some msg =>
        intro a s' h
        have h : R.ok () { s with errs := s.errs ++ [mkErr s.path msg] } = R.ok a s' := h
        cases h
        rw [mkErr_path hp]
        rfl

theorem callAndResolve_run {c : Cfg F V W} {q : List Seg} {s : RS V W} {m : Method F} {out : Obj F} {next : V → Bool → M F V W Bool} (hp : s.path = pathText q)
    (hc : m.isTypeMethod = true ∨ c.env.view s.world (s.vals s.idx) = .func false)
    (hn : ∀ v b s, s.path = pathText q → post (next v b) c s (fun _ s' =>
      s'.path = s.path ∧ s'.idx = s.idx ∧ ∃ o es, s'.out = s.out ++ print o ∧ s'.errs = s.errs ++ es ∧
      ∀ near : Prop, (near → s.idx.toNat + budget out + 2 * depth o ≤ 255) →
        Reveals.Reveals c.schema c.env c.vars near s.world out v q o es s'.world ∧ (near → ∀ i : UInt8, i.toNat < s.idx.toNat → s'.vals i = s.vals i))) :
    post (callAndResolve m (s.vals s.idx) next) c s (fun _ s' => VR c q (.method m out) s s') := by
  unfold callAndResolve
  refine post_moves moves_seekInst (fun inst n => post_bind (fun r s1 h1 => ?_))
  rcases callQlMethod_ok h1 with ⟨msg, rfl, hne, hq⟩ | ⟨outs, inputs, s2, rfl, hq, hcw, hcall, e⟩
  · refine post_pure ⟨hq.path, hq.idx, .missing, _, by rw [hq.out]; simp [print], hq.errs, fun near _ => ⟨?_, fun _ i _ => by rw [hq.vals]⟩⟩
    rw [hq.world]
    dsimp only
    rw [map_mkErr hp]
    exact .unbound hc hne
  · dsimp only
    have e1 : s1.path = s.path := by rw [e]; exact hq.path
    have e2 : s1.out = s.out := by rw [e]; exact hq.out
    have e3 : s1.idx = s.idx := by rw [e]; exact hq.idx
    have e4 : s1.vals = s.vals := by rw [e]; exact hq.vals
    have e5 : s1.errs = s.errs := by rw [e]; simpa using hq.errs
    dsimp only at hcall
    rw [hp, jsonPath_pathText] at hcall
    refine post_moves moves_seekInst (fun inst n => post_bind (post_mono (reportMethodErr_run (q := q) (by rw [← hp]; exact e1)) ?_))
    rintro - s3 rfl
    unfold afterCall
    refine post_getCfg (post_getState ?_)
    dsimp only
    cases hx : c.env.ctxErr s1.world with
    | some msg =>
      refine post_err (post_writeNull (post_pure ⟨e1, e3, .null, ownErrors c.env m q s1.world outs ++ [⟨msg, pathJSON q⟩], by simp [print, e2], ?_,
        fun near _ => ⟨.cancelled hc hcw hcall hx, fun _ i _ => by simp [e4]⟩⟩))
      dsimp only
      rw [e5, mkErr_path (q := q) (e1.trans hp), List.append_assoc]
    | none =>
      dsimp only
      cases ho : outs[m.outNr]? with
      | none => exact post_panicM
      | some x =>
        dsimp only
        refine post_mono (hn x _ _ (e1.trans hp)) ?_
        rintro - s4 ⟨k1, k2, o, es, k3, k4, k5⟩
        dsimp only at k1 k2 k3 k4 k5
        refine ⟨k1.trans e1, k2.trans e3, o, ownErrors c.env m q s1.world outs ++ es, by rw [k3, e2], by rw [k4, e5, List.append_assoc], fun near hnear => ?_⟩
        obtain ⟨a1, a2⟩ := k5 near (fun n => by have := hnear n; have := budget_le out; simp only [budget] at this ⊢; rw [e3]; simp only [budget] at *; omega)
        exact ⟨.call hc hcw hcall hx ho a1, fun n i hi => by rw [a2 n i (by rw [e3]; exact hi), e4]⟩

variable [DecidableEq F]

structure AllR (c : Cfg F V W) (n : Nat) : Prop where
  sels : ∀ q t dept first s, s.path = pathText q → post (resolveSelectionSet n t dept first) c s (SR c q t first s)
  spread : ∀ q t dept first s, s.path = pathText q → post (resolveSpread n t dept first) c s (SR c q t first s)
  field : ∀ q t dept comma s, s.path = pathText q → post (resolveField n t dept comma) c s (FR c q t comma s)
  data : ∀ q o dept sub s, s.path = pathText q → post (resolveFieldDataValue n o dept sub) c s (fun _ s' => VR c q o s s')

omit [DecidableEq F] in
theorem SR.nil {c : Cfg F V W} {q : List Seg} {t : RType F V} {first : Bool} {s s' : RS V W} {a : Bool × Bool} (h1 : s'.path = s.path) (h2 : s'.idx = s.idx)
    (h3 : s'.out = s.out) (h4 : s'.errs = s.errs) (h5 : s'.world = s.world) (h6 : s'.vals = s.vals) (h7 : a.1 = false → a.2 = first) : SR c q t first s a s' :=
  ⟨h1, h2, [], [], by simp [h3, printMembers], by simpa using h7, by simp [h4], Core.nil h5 h6⟩

/-- behind members, more members -/
theorem SR.then {c : Cfg F V W} {q : List Seg} {t : RType F V} {first : Bool} {s s1 s2 : RS V W} {ms : List (Bytes × Out)} {es : List RErr} {a : Bool × Bool}
    (k1 : s1.path = s.path) (k2 : s1.idx = s.idx) (k3 : s1.out = s.out ++ printMembers first ms) (k4 : s1.errs = s.errs ++ es) (k5 : Core c q t s ms es s1)
    (h : SR c q t (first && ms.isEmpty) s1 a s2) : SR c q t first s a s2 := by
  obtain ⟨j1, j2, ms', es', j3, j4, j5, j6⟩ := h
  refine ⟨j1.trans k1, j2.trans k2, ms ++ ms', es ++ es', by rw [j3, k3, printMembers_append, List.append_assoc], ?_, by rw [j5, k4, List.append_assoc], k5.trans k2 j6⟩
  intro h
  rw [j4 h]
  cases first <;> cases ms <;> simp

theorem sels_run {c : Cfg F V W} (n : Nat) (ih : AllR c n) (q : List Seg) (t : RType F V) (dept : UInt8) (first : Bool) (s : RS V W) (hp : s.path = pathText q) :
    post (resolveSelectionSet (n + 1) t dept first) c s (SR c q t first s) := by
  unfold resolveSelectionSet
  refine post_moves moves_readInst (fun inst n => ?_)
  split
  · exact post_pure (SR.nil rfl rfl rfl rfl rfl rfl (fun _ => rfl))
  · split
    · refine post_bind (post_mono (ih.field q t dept (!first) _ hp) ?_)
      rintro ⟨skipped, crit⟩ s1 ⟨k1, k2, ms, es, k3, k4, k5, k6⟩
      dsimp only at k1 k2 k3 k4 k5 ⊢
      rw [Bool.not_not] at k3
      split
      · exact post_pure ⟨k1, k2, ms, es, k3, fun h => (by cases h), k5, k6⟩
      · rw [k4]
        exact post_mono (ih.sels q t dept (first && ms.isEmpty) s1 (k1.trans hp)) (fun a s2 h => SR.then k1 k2 k3 k5 k6 h)
    · split
      · refine post_bind (post_mono (ih.spread q t dept first _ hp) ?_)
        rintro ⟨crit, first'⟩ s1 ⟨k1, k2, ms, es, k3, k4, k5, k6⟩
        dsimp only at k1 k2 k3 k4 k5 ⊢
        split
        · rename_i hc
          exact post_pure ⟨k1, k2, ms, es, k3, fun h => (by cases h), k5, k6⟩
        · rename_i hc
          rw [k4 (by simpa using hc)]
          exact post_mono (ih.sels q t dept (first && ms.isEmpty) s1 (k1.trans hp)) (fun a s2 h => SR.then k1 k2 k3 k5 k6 h)
      · refine post_moves moves_lastInst (fun _ _ => post_err (post_pure ⟨rfl, rfl, [], _, by simp [printMembers], fun h => (by cases h), rfl, ?_⟩))
        dsimp only
        rw [mkErr_path hp]
        exact Core.err rfl rfl (Or.inl rfl) .instruction

omit [DecidableEq F] in
theorem SR.moved {c : Cfg F V W} {q : List Seg} {t : RType F V} {first : Bool} {s s' : RS V W} {a : Bool × Bool} {n : Nat} (h : SR c q t first s a s') :
    SR c q t first s a { s' with charNr := n } := h

theorem spread_run {c : Cfg F V W} (n : Nat) (ih : AllR c n) (q : List Seg) (t : RType F V) (dept : UInt8) (first : Bool) (s : RS V W) (hp : s.path = pathText q) :
    post (resolveSpread (n + 1) t dept first) c s (SR c q t first s) := by
  unfold resolveSpread
  refine post_moves moves_readInst (fun isInline _ => post_moves moves_readInst (fun dirs _ => post_moves moves_readUint32M (fun len _ =>
    post_moves moves_skipInst (fun _ _ => post_getPos (fun nameStart => post_moves moves_readToNul (fun name _ => ?_))))))
  dsimp only
  refine post_bind (fun d s1 h1 => ?_)
  have hd := directives_run _ _ (q := q) (by exact hp) h1
  obtain ⟨es, k4, k5⟩ := hd.core (t := t) (Or.inl rfl)
  obtain ⟨k1, k2, k3, -⟩ := hd
  dsimp only at k1 k2 k3 k4
  have k2' : s1.out = s.out ++ printMembers first [] := by rw [k2]; simp [printMembers]
  have stop : ∀ (crit : Bool) (n : Nat), SR c q t first s (crit, first) { s1 with charNr := n } := fun crit n =>
    ⟨k1, k3, [], es, k2', fun _ => by simp, k4, k5⟩
  have more : ∀ a s2, SR c q t first s1 a s2 → SR c q t first s a s2 := fun a s2 h => SR.then k1 k3 k2' k4 k5 (by simpa using h)
  rcases d with _ | _ | _
  · exact post_moves moves_setPos (fun _ n => post_pure (stop true n))
  · dsimp only
    split
    · split
      · exact post_moves moves_setPos (fun _ n => post_pure (stop false n))
      · refine post_bind (post_mono (ih.sels q t dept first s1 (k1.trans hp)) (fun a s2 h => ?_))
        exact post_moves moves_skipInst (fun _ n => post_pure (SR.moved (more a s2 h)))
    · refine post_getCfg ?_
      split
      · refine post_err (post_pure ?_)
        refine more _ _ ⟨rfl, rfl, [], _, by simp [printMembers], fun h => (by cases h), rfl, ?_⟩
        rw [mkErr_path (k1.trans hp)]
        exact Core.err rfl rfl (Or.inl rfl) .noFragment
      · refine post_getPos (fun _ => post_moves moves_setPos (fun _ _ => post_moves moves_readToNul (fun typeName n => ?_)))
        split
        · exact post_moves moves_setPos (fun _ n => post_pure (stop false n))
        · refine post_bind (post_mono (ih.sels q t dept first _ (k1.trans hp)) (fun a s2 h => ?_))
          exact post_moves moves_setPos (fun _ n => post_pure (SR.moved (more a s2 h)))
  · exact post_moves moves_setPos (fun _ n => post_pure (stop false n))

omit [DecidableEq F] in
/-- one member -/
theorem FR.member {c : Cfg F V W} {q : List Seg} {t : RType F V} {comma : Bool} {s s1 s2 : RS V W} {crit : Bool} {es es' : List RErr} {k : Bytes} {x : Out}
    (hp : s2.path = s.path) (hi : s2.idx = s.idx) (he : s1.errs = s.errs ++ es) (hc : Core c q t s [] es s1) (h1 : s1.idx = s.idx) (ho : s1.out = s.out)
    (hx : s2.out = s1.out ++ printMembers (!comma) [(k, x)]) (he' : s2.errs = s1.errs ++ es') (h : Core c q t s1 [(k, x)] es' s2) :
    FR c q t comma s (false, crit) s2 :=
  ⟨hp, hi, [(k, x)], es ++ es', by rw [hx, ho], rfl, by rw [he', he, List.append_assoc], hc.trans h1 h⟩

omit [DecidableEq F] in
theorem printMember (comma : Bool) (k : Bytes) (x : Out) : printMembers (!comma) [(k, x)] =
    (if comma then [c%','] else []) ++ (c%'"' :: k ++ [c%'"']) ++ [c%':'] ++ print x := by
  cases comma <;> simp [printMembers]

theorem field_run {c : Cfg F V W} (n : Nat) (ih : AllR c n) (q : List Seg) (t : RType F V) (dept : UInt8) (comma : Bool) (s : RS V W) (hp : s.path = pathText q) :
    post (resolveField (n + 1) t dept comma) c s (FR c q t comma s) := by
  unfold resolveField
  refine post_moves moves_readInst (fun dirs _ => post_moves moves_readUint32M (fun fieldLen _ => post_moves moves_skipInst (fun _ _ =>
    post_moves moves_readUint32M (fun nameKey _ => post_moves moves_skipInst (fun _ _ => post_getPos (fun pos => post_moves moves_readInst (fun aliasLen _ =>
    post_getPos (fun startOfAlias => post_moves moves_sliceRes (fun alias _ => post_moves moves_skipInst (fun _ _ => post_getState (post_setPath ?_)))))))))))
  refine post_moves moves_readInst (fun lenOfName _ => post_getPos (fun nameAt => post_moves moves_skipInst (fun _ _ => post_moves moves_skipInst (fun _ n0 => ?_))))
  dsimp only
  have hq : s.path ++ b%",\"" ++ alias ++ [c%'"'] = pathText (q ++ [.key alias]) := by
    rw [hp, pathText_append]
    simp [pathText, segText]
  refine post_bind (fun d s1 h1 => ?_)
  have hd := directives_run _ _ (q := q ++ [.key alias]) (by exact hq) h1
  obtain ⟨es, k4, k5⟩ := hd.core (q := q) (t := t) (Or.inr ⟨alias, rfl⟩)
  obtain ⟨k1, k2, k3, -⟩ := hd
  dsimp only at k1 k2 k3 k4
  have k5 : Core c q t s [] es s1 := k5
  have stop : ∀ (a : Bool) (n : Nat), FR c q t comma s (true, a) { s1 with path := s.path, charNr := n } := fun a n =>
    ⟨rfl, k3, [], es, by simp [printMembers, k2], rfl, k4, k5⟩
  rcases d with _ | _ | _
  · exact post_setPath (post_moves moves_setPos (fun _ n => post_pure (stop true n)))
  · dsimp only
    -- the key
    have rest : ∀ (m : M F V W (Bool × Bool)), (∀ n, post m c { s1 with charNr := n, out := s1.out ++ ((if comma then [c%','] else []) ++ (c%'"' :: alias ++ [c%'"']) ++ [c%':']) } (FR c q t comma s)) →
        post (do
          if comma then write [c%',']
          writeQuoted alias
          write [c%':']
          m) c s1 (FR c q t comma s) := by
      intro m hm
      have hm := hm s1.charNr
      cases comma with
      | true =>
        simp only [if_true] at hm ⊢
        refine post_write (post_writeQuoted (post_write ?_))
        simpa only [List.append_assoc] using hm
      | false =>
        simp only [Bool.false_eq_true, if_false, List.nil_append] at hm ⊢
        refine post_writeQuoted (post_write ?_)
        simpa only [List.append_assoc] using hm
    refine rest _ (fun _ => ?_)
    refine post_moves moves_seekInst (fun inst _ => ?_)
    have back : ∀ (crit : Bool) (x : Out) (es' : List RErr) (s2 : RS V W), s2.idx = s.idx →
        s2.out = s1.out ++ ((if comma then [c%','] else []) ++ (c%'"' :: alias ++ [c%'"']) ++ [c%':']) ++ print x → s2.errs = s1.errs ++ es' →
        Core c q t s1 [(alias, x)] es' s2 → post (do setPath s.path; setPos (pos + fieldLen + 1); return (false, crit) : M F V W (Bool × Bool)) c s2 (FR c q t comma s) := by
      intro crit x es' s2 g1 g2 g3 g4
      refine post_setPath (post_moves moves_setPos (fun _ n => post_pure ?_))
      exact FR.member (s1 := s1) (es := es) (es' := es') (k := alias) (x := x) rfl g1 k4 k5 k3 k2 (by rw [printMember]; simpa only [List.append_assoc] using g2) g3 g4
    split
    · refine post_moves moves_sliceRes (fun name _ => ?_)
      split
      · split
        · refine post_err (back _ .missing _ _ k3 ?_ rfl ?_)
          · simp [print]
          · dsimp only
            rw [mkErr_path (k1.trans hq)]
            intro near hn
            exact ⟨fun v _ ms' es' w' hm => .noTypename hm, fun _ i _ => rfl⟩
        · refine post_writeQuoted (back _ (.leaf (Shows.quoted t.typeName)) [] _ k3 ?_ (by simp) ?_)
          · simp [print, Shows.quoted]
          · intro near hn
            exact ⟨fun v _ ms' es' w' hm => .typename hm, fun _ i _ => rfl⟩
      · refine post_writeNull (post_err (back _ .null _ _ k3 ?_ rfl ?_))
        · simp [print]
        · dsimp only
          rw [mkErr_path (k1.trans hq)]
          intro near hn
          exact ⟨fun v _ ms' es' w' hm => .noField (by assumption) hm, fun _ i _ => rfl⟩
    · rename_i f hf
      refine post_getGoValue (post_bind (post_mono (fieldValue_run _ f) ?_))
      rintro x s2 ⟨rfl, hx⟩
      refine post_setNextGoValue ?_
      dsimp only at hx ⊢
      refine post_bind (post_mono (ih.data (q ++ [.key alias]) f.obj dept _ _ (k1.trans hq)) ?_)
      rintro crit s3 ⟨j1, j2, out, es', j3, j4, j5⟩
      dsimp only at j1 j2 j3 j4 j5
      refine post_decIdx (back _ out es' _ ?_ ?_ j4 ?_)
      · show s3.idx - 1 = s.idx
        rw [j2, UInt8.add_sub_cancel]
        exact k3
      · exact j3
      · intro near hn
        simp only [depthMembers] at hn
        have b1 := budget_le f.obj
        have hs : near → (s1.idx + 1).toNat = s1.idx.toNat + 1 := fun n => succ_toNat (by have := hn n; omega)
        obtain ⟨a1, a2⟩ := j5 near (fun n => by rw [hs n]; have := hn n; omega)
        simp only [if_true] at a1
        refine ⟨fun v hv ms' es'' w' hm => .field (List.mem_of_find?_eq_some hf) (fun n => (hv n).symm) hx a1 hm, fun n i hi => ?_⟩
        dsimp only
        rw [a2 n i (by rw [hs n]; omega), if_neg]
        rintro rfl
        rw [hs n] at hi
        omega
  · exact post_setPath (post_moves moves_setPos (fun _ n => post_pure (stop false n)))

omit [DecidableEq F] in
theorem VR.leaf {c : Cfg F V W} {q : List Seg} {o : Obj F} {s s' : RS V W} (x : Out) (es : List RErr) (h1 : s'.path = s.path) (h2 : s'.idx = s.idx)
    (h3 : s'.out = s.out ++ print x) (h4 : s'.errs = s.errs ++ es) (hv : s'.vals = s.vals)
    (h : ∀ near, Reveals.Reveals c.schema c.env c.vars near s.world o (s.vals s.idx) q x es s'.world) : VR c q o s s' :=
  ⟨h1, h2, x, es, h3, h4, fun near _ => ⟨h near, fun _ i _ => by rw [hv]⟩⟩

omit [DecidableEq F] in
theorem VR.null {c : Cfg F V W} {q : List Seg} {o : Obj F} {s : RS V W} {n : Nat}
    (h : ∀ near, Reveals.Reveals c.schema c.env c.vars near s.world o (s.vals s.idx) q .null [] s.world) : VR c q o s { s with charNr := n, out := s.out ++ b%"null" } :=
  VR.leaf .null [] rfl rfl rfl (by simp) rfl h

omit [DecidableEq F] in
theorem VR.refused {c : Cfg F V W} {q : List Seg} {o : Obj F} {s : RS V W} {n : Nat} {msg : Bytes} (hp : s.path = pathText q) (ho : ¬ Shows.Callable o) (hm : msg ∈ refusals) :
    VR c q o s { s with charNr := n, out := s.out ++ b%"null", errs := s.errs ++ [mkErr s.path msg] } :=
  VR.leaf .null [⟨msg, pathJSON q⟩] rfl rfl rfl (by rw [mkErr_path hp]) rfl (fun near => .refused ho hm)

omit [DecidableEq F] in
theorem callable_method {o : Obj F} (h : Shows.Callable o) : methodBehindPtr o = true := by
  induction h with
  | method => rfl
  | ptr _ ih => exact ih

theorem data_run {c : Cfg F V W} (n : Nat) (ih : AllR c n) (q : List Seg) (o : Obj F) (dept : UInt8) (sub : Bool) (s : RS V W) (hp : s.path = pathText q) :
    post (resolveFieldDataValue (n + 1) o dept sub) c s (fun _ s' => VR c q o s s') := by
  unfold resolveFieldDataValue
  refine post_getCfg (post_getGoValue (post_moves moves_seekInst (fun inst n0 => ?_)))
  by_cases hc : (inst == c%'v' && !methodBehindPtr o) = true
  · rw [if_pos hc]
    refine post_writeNull (post_err (post_pure (VR.refused hp (fun h => ?_) (by simp [refusals]))))
    rw [callable_method h] at hc
    simp at hc
  · rw [if_neg hc]
    clear hc
    cases o with
    | undefined => exact post_writeNull (post_pure (VR.null (fun _ => .undefined)))
    | array o =>
      dsimp only
      refine post_viewOf ?_
      dsimp only
      cases hv : c.env.view s.world (s.vals s.idx) with
      | seq vs =>
        cases vs with
        | none => exact post_writeNull (post_pure (VR.null (fun _ => .nilList hv)))
        | some vs =>
          refine post_write (post_incIdx (post_getPos (fun start => post_bind (post_mono (elems_run (q := q) (o := o) ?_ start vs 0 _ hp) ?_))))
          · intro i s' hs'
            exact ih.data _ o dept sub s' hs'
          · rintro - s1 ⟨k1, k2, os, es, k3, k4, k5, k6⟩
            dsimp only at k1 k2 k4 k5 k6
            refine post_decIdx (post_write (post_pure ⟨k1, by rw [k2, UInt8.add_sub_cancel], .list os, es, by simp [k4, print], k5, fun near hn => ?_⟩))
            simp only [depth, budget] at hn
            have hs : near → (s.idx + 1).toNat = s.idx.toNat + 1 := fun n => succ_toNat (by have := hn n; omega)
            obtain ⟨a1, a2⟩ := k6 near (fun n => by rw [hs n]; have := hn n; omega)
            exact ⟨.list hv a1, fun n i hi => a2 n i (by rw [hs n]; omega)⟩
      | _ => exact post_panicM
    | objRef name =>
      dsimp only
      have nc : ¬ Shows.Callable (.objRef name : Obj F) := fun h => by cases h
      split
      · exact post_writeNull (post_err (post_pure (VR.refused hp nc (by simp [refusals]))))
      · cases hl : lookup c.schema.types name with
        | none => exact post_writeNull (post_pure (VR.null (fun _ => .noObject hl)))
        | some t =>
          dsimp only
          split
          · exact post_writeNull (post_err (post_pure (VR.refused hp nc (by simp [refusals]))))
          · refine post_write (post_bind (post_mono (ih.sels q t (dept + 1) true _ hp) ?_))
            rintro ⟨crit, first⟩ s1 ⟨k1, k2, ms, es, k3, -, k5, k6⟩
            dsimp only at k1 k2 k3 k5
            refine post_write (post_pure ⟨k1, k2, .obj ms, es, by simp [k3, print], k5, fun near hn => ?_⟩)
            simp only [depth, budget, Nat.add_zero] at hn
            obtain ⟨a1, a2⟩ := k6 near hn
            refine ⟨.object hl ?_, fun n i hi => a2 n i (Nat.le_of_lt hi)⟩
            have := a1 (s.vals s.idx) (fun _ => rfl) [] [] _ .nil
            rwa [List.append_nil, List.append_nil] at this
    | data isID kind =>
      dsimp only
      have nc : ¬ Shows.Callable (.data isID kind : Obj F) := fun h => by cases h
      split
      · exact post_writeNull (post_err (post_pure (VR.refused hp nc (by simp [refusals]))))
      · refine post_viewOf ?_
        dsimp only
        cases hv : c.env.view s.world (s.vals s.idx) with
        | scalar x =>
          dsimp only
          cases ht : dataText c.env isID kind x with
          | none => exact post_panicM
          | some t => exact post_write (post_pure (VR.leaf (.leaf t) [] rfl rfl rfl (by simp) rfl (fun _ => .scalar hv (dataText_shows c.env isID kind x t ht))))
        | _ => exact post_panicM
    | ptr o =>
      dsimp only
      refine post_viewOf ?_
      dsimp only
      cases hv : c.env.view s.world (s.vals s.idx) with
      | ptr v =>
        cases v with
        | none => exact post_writeNull (post_pure (VR.null (fun _ => .nilPtr hv)))
        | some v =>
          refine post_setGoValue (post_mono (ih.data q o dept sub _ hp) ?_)
          rintro - s1 ⟨k1, k2, out, es, k3, k4, k5⟩
          dsimp only at k1 k2 k3 k4 k5
          refine ⟨k1, k2, out, es, k3, k4, fun near hn => ?_⟩
          obtain ⟨a1, a2⟩ := k5 near (fun n => by have := hn n; have := budget_le o; simp only [budget] at *; omega)
          simp only [if_true] at a1
          refine ⟨.ptr hv a1, fun n i hi => ?_⟩
          rw [a2 n i hi, if_neg]
          rintro rfl
          omega
      | _ => exact post_panicM
    | method m out =>
      dsimp only
      have call : (m.isTypeMethod = true ∨ c.env.view s.world (s.vals s.idx) = .func false) →
          post (callAndResolve m (s.vals s.idx) (fun v hasSubSelection => do
            setGoValue v
            resolveFieldDataValue n out dept hasSubSelection)) c { s with charNr := n0 } (fun _ s' => VR c q (.method m out) s s') := by
        intro hm
        refine callAndResolve_run (c := c) (q := q) (s := { s with charNr := n0 }) (m := m) (out := out) hp hm ?_
        intro v b s1 hs1
        refine post_setGoValue (post_mono (ih.data q out dept b _ hs1) ?_)
        rintro - s2 ⟨k1, k2, o, es, k3, k4, k5⟩
        dsimp only at k1 k2 k3 k4 k5
        refine ⟨k1, k2, o, es, k3, k4, fun near hn => ?_⟩
        obtain ⟨a1, a2⟩ := k5 near hn
        simp only [if_true] at a1
        refine ⟨a1, fun n i hi => ?_⟩
        rw [a2 n i hi, if_neg]
        rintro rfl
        omega
      unfold isNilFunc
      by_cases hm : m.isTypeMethod = true
      · rw [if_pos hm]
        exact post_bind (post_pure (call (Or.inl hm)))
      · rw [if_neg hm]
        refine post_bind (post_viewOf ?_)
        dsimp only
        cases hv : c.env.view s.world (s.vals s.idx) with
        | func b =>
          refine post_pure ?_
          cases b with
          | true => exact post_writeNull (post_pure (VR.null (fun _ => .nilFunc (by simpa using hm) hv)))
          | false => exact call (Or.inr hv)
        | _ => exact post_panicM
    | enum idx =>
      dsimp only
      cases he : c.schema.enums[idx]? with
      | none => exact post_panicM
      | some e =>
        refine post_viewOf ?_
        dsimp only
        cases hv : c.env.view s.world (s.vals s.idx) with
        | scalar x =>
          dsimp only
          obtain ⟨e1, e2⟩ := enumKey_cases e x
          cases hk : enumKey e x with
          | none => exact post_panicM
          | some k =>
            cases k with
            | some k =>
              obtain ⟨g1, pre, post, g2, g3⟩ := e1 k hk
              refine post_writeQuoted (post_pure (VR.leaf (.leaf (Shows.quoted k)) [] rfl rfl ?_ (by simp) rfl (fun _ => .enum he hv g1 g2 g3)))
              simp [print, Shows.quoted]
            | none => exact post_writeNull (post_pure (VR.null (fun _ => .noEnum he hv (e2 hk))))
        | _ => exact post_panicM
    | time =>
      dsimp only
      refine post_viewOf ?_
      dsimp only
      cases hv : c.env.view s.world (s.vals s.idx) with
      | time t =>
        refine post_write (post_pure (VR.leaf (.leaf (Shows.quoted (Time.timeToIso8601String [] t))) [] rfl rfl ?_ (by simp) rfl (fun _ => .time hv (time_text t))))
        simp [print, Shows.quoted]
      | _ => exact post_writeNull (post_pure (VR.null (fun _ => .noTime (by rw [hv]; intro t h; cases h))))
    | interfaceRef name =>
      dsimp only
      have nc : ¬ Shows.Callable (.interfaceRef name : Obj F) := fun h => by cases h
      split
      · exact post_writeNull (post_err (post_pure (VR.refused hp nc (by simp [refusals]))))
      · cases hl : lookup c.schema.interfaces name with
        | none => exact post_writeNull (post_pure (VR.null (fun _ => .noInterface hl)))
        | some impls =>
          refine post_viewOf ?_
          dsimp only
          cases hv : c.env.view s.world (s.vals s.idx) with
          | iface x =>
            cases x with
            | none => exact post_writeNull (post_pure (VR.null (fun _ => .nilInterface hl hv)))
            | some x =>
              obtain ⟨goName, goPkg, v⟩ := x
              refine post_setNextGoValue ?_
              dsimp only
              cases hf : impls.find? (fun i => decide (i.goTypeName = goName ∧ i.goPkgPath = goPkg)) with
              | some i =>
                refine post_bind (post_mono (ih.data q (.objRef i.typeName) (dept + 1) sub _ hp) ?_)
                rintro crit s1 ⟨k1, k2, out, es, k3, k4, k5⟩
                dsimp only at k1 k2 k3 k4 k5
                refine post_decIdx (post_pure ⟨k1, by rw [k2, UInt8.add_sub_cancel], out, es, k3, k4, fun near hn => ?_⟩)
                simp only [budget] at hn
                have hs : near → (s.idx + 1).toNat = s.idx.toNat + 1 := fun n => succ_toNat (by have := hn n; omega)
                obtain ⟨a1, a2⟩ := k5 near (fun n => by rw [hs n]; have := hn n; simp only [budget]; omega)
                simp only [if_true] at a1
                refine ⟨.interface hl hv hf a1, fun n j hj => ?_⟩
                dsimp only
                rw [a2 n j (by rw [hs n]; omega), if_neg]
                rintro rfl
                rw [hs n] at hj
                omega
              | none =>
                refine post_decIdx (post_writeNull (post_pure ⟨rfl, UInt8.add_sub_cancel .., .null, [], rfl, by simp, fun near hn => ⟨.unregistered hl hv ?_, fun n j hj => ?_⟩⟩))
                · intro i hi
                  simpa using List.find?_eq_none.1 hf i hi
                · simp only [budget] at hn
                  have hs : (s.idx + 1).toNat = s.idx.toNat + 1 := succ_toNat (by have := hn n; omega)
                  dsimp only
                  rw [if_neg]
                  rintro rfl
                  rw [hs] at hj
                  omega
          | _ => exact post_panicM

theorem allR (c : Cfg F V W) (n : Nat) : AllR c n := by
  induction n with
  | zero =>
    constructor
    · intro q t dept first s _; unfold resolveSelectionSet; exact post_oofM
    · intro q t dept first s _; unfold resolveSpread; exact post_oofM
    · intro q t dept first s _; unfold resolveField; exact post_oofM
    · intro q o dept first s _; unfold resolveFieldDataValue; exact post_oofM
  | succ n ih => exact ⟨fun q t dept first s => sels_run n ih q t dept first s, fun q t dept first s => spread_run n ih q t dept first s,
      fun q t dept first s => field_run n ih q t dept first s, fun q o dept sub s => data_run n ih q o dept sub s⟩

/-- an operation: nothing but an error, or the members of a root object -/
def OpRun (c : Cfg F V W) (kind : OpKind) (s s' : RS V W) : Prop :=
  ∃ ms es, s'.out = s.out ++ printMembers true ms ∧ s'.errs = s.errs ++ es ∧
      ((ms = [] ∧ s'.world = s.world ∧ ∃ msg ∈ [b%"subscriptions are not supported", b%"operation directives unsupported"], es = [⟨msg, none⟩]) ∨
        (kind ≠ .subscription ∧ ∀ near : Prop, (near → 2 * depthMembers ms ≤ 255) →
          Members c.schema c.env c.vars near (rootOf c.schema kind).1 (rootOf c.schema kind).2 [] s.world ms es s'.world))

theorem operation_run {c : Cfg F V W} (n : Nat) {s : RS V W} (kind : OpKind) (hk : c.res[s.charNr + 2]? = some kind.code) (hp : s.path = []) (hi : s.idx = 0) :
    post (resolveOperation n) c s (fun _ s' => OpRun c kind s s') := by
  have rest : ∀ (kb : UInt8) (s1 : RS V W), kind ≠ .subscription → s1.vals 0 = (rootOf c.schema kind).2 → (if kb == c%'m' then c.schema.rootMethod else c.schema.rootQuery) = (rootOf c.schema kind).1 →
      s1.path = s.path → s1.idx = s.idx → s1.out = s.out → s1.errs = s.errs → s1.world = s.world →
      post (do
        let hasArgs := (← readInst) == c%'t'
        setArgs hasArgs 0
        let directivesCount ← readInst
        if directivesCount > 0 then
          err b%"operation directives unsupported"
          return true
        let _ ← readToNul
        if hasArgs then
          let argumentsLen ← readUint32M
          setArgs true ((← getPos) + 5)
          skipInst (argumentsLen + 5)
        let root := if kb == c%'m' then c.schema.rootMethod else c.schema.rootQuery
        let (criticalErr, _) ← resolveSelectionSet n root 0 true
        return criticalErr : M F V W Bool) c s1 (fun _ s' => OpRun c kind s s') := by
    intro kb s1 hs hv hr h1 h2 h3 h4 h5
    have fin : ∀ s2 : RS V W, s2.path = s1.path → s2.idx = s1.idx → s2.out = s1.out → s2.errs = s1.errs → s2.world = s1.world → s2.vals = s1.vals →
        post (do let (criticalErr, _) ← resolveSelectionSet n (if kb == c%'m' then c.schema.rootMethod else c.schema.rootQuery) 0 true
                 return criticalErr : M F V W Bool) c s2 (fun _ s' => OpRun c kind s s') := by
      intro s2 k1 k2 k3 k4 k5 k6
      rw [hr]
      refine post_bind (post_mono ((allR c n).sels [] _ 0 true s2 (by rw [k1, h1, hp]; rfl)) ?_)
      rintro a s3 ⟨j1, j2, ms, es, j3, -, j4, j5⟩
      refine post_pure ⟨ms, es, by rw [j3, k3, h3], by rw [j4, k4, h4], Or.inr ⟨hs, fun near hn => ?_⟩⟩
      have hi2 : s2.idx = 0 := by rw [k2, h2, hi]
      have := (j5 near (fun n => by have := hn n; rw [hi2]; simpa using this)).1 (rootOf c.schema kind).2 (fun _ => by rw [hi2, k6, hv]) [] [] _ .nil
      rw [k5, h5, List.append_nil, List.append_nil] at this
      exact this
    refine post_moves moves_readInst (fun b m => ?_)
    dsimp only
    refine post_bind ?_
    intro _ s2 hs2
    cases hs2
    refine post_moves moves_readInst (fun b2 m2 => ?_)
    split
    · refine post_err (post_pure ⟨[], _, by simp [printMembers, h3], congrArg (· ++ _) h4, Or.inl ⟨rfl, h5, b%"operation directives unsupported", by simp, ?_⟩⟩)
      dsimp only
      rw [h1, hp]; rfl
    · refine post_moves moves_readToNul (fun _ m3 => ?_)
      split
      · refine post_moves moves_readUint32M (fun _ m4 => post_getPos (fun _ => post_bind ?_))
        intro _ s2 hs2
        cases hs2
        refine post_moves moves_skipInst (fun _ m4 => ?_)
        exact fin _ rfl rfl rfl rfl rfl rfl
      · exact fin _ rfl rfl rfl rfl rfl rfl
  unfold resolveOperation
  refine post_getCfg (post_bind ?_)
  intro _ s0 hs0
  have hs0 : R.ok () { s with charNr := s.charNr + 2 } = R.ok () s0 := hs0
  cases hs0
  refine post_bind ?_
  intro kb s1 h1
  unfold readInst at h1
  dsimp only at h1
  rw [hk] at h1
  cases h1
  dsimp only
  cases kind with
  | subscription =>
    rw [if_pos (by decide)]
    refine post_err (post_pure ⟨[], _, by simp [printMembers], rfl, Or.inl ⟨rfl, rfl, b%"subscriptions are not supported", by simp, ?_⟩⟩)
    dsimp only
    rw [hp]; rfl
  | query =>
    rw [if_neg (by decide), if_pos (by decide)]
    refine post_bind ?_
    intro _ s2 h2
    have h2 : R.ok () _ = R.ok () s2 := h2
    cases h2
    rw [if_neg (by decide)]
    exact rest _ _ (by decide) rfl rfl rfl rfl rfl rfl rfl
  | mutation =>
    rw [if_neg (by decide), if_neg (by decide), if_pos (by decide)]
    refine post_bind ?_
    intro _ s2 h2
    have h2 : R.ok () _ = R.ok () s2 := h2
    cases h2
    exact rest _ _ (by decide) rfl rfl rfl rfl rfl rfl rfl

end
end RevealsRun
end Resolver
end Yarql
