import Verif.Spec.Alias
import Verif.Proofs.Respell
import Verif.Proofs.TwoRuns

/-!
# Evaluating selections with other aliases

`Sim P A m m'`: from states with the same world, whenever the first step is defined, so is the second, with results related by `A`, the
same effects, and the same messages at paths related by `P`.
-/

namespace Yarql
namespace Alias
open Doc Eval Resolver Yarql.Bind Binding
open Http (J)

section
variable {F V W α α' β β' : Type}

/-- errors with the same messages and related paths -/
inductive Errs (P : List Seg → List Seg → Prop) : List (Bytes × List Seg) → List (Bytes × List Seg) → Prop where
  | nil : Errs P [] []
  | cons {msg p p' es es'} : P p p' → Errs P es es' → Errs P ((msg, p) :: es) ((msg, p') :: es')

theorem Errs.append {P : List Seg → List Seg → Prop} {a b c d : List (Bytes × List Seg)} (h : Errs P a b) (h' : Errs P c d) : Errs P (a ++ c) (b ++ d) := by
  induction h with
  | nil => exact h'
  | cons h1 _ ih => exact .cons h1 ih

theorem Errs.mono {P Q : List Seg → List Seg → Prop} (hPQ : ∀ p p', P p p' → Q p p') {a b : List (Bytes × List Seg)} (h : Errs P a b) : Errs Q a b := by
  induction h with
  | nil => exact .nil
  | cons h1 _ ih => exact .cons (hPQ _ _ h1) ih

def Sim (P : List Seg → List Seg → Prop) (A : α → α' → Prop) (m : E W α) (m' : E W α') : Prop :=
  ∀ es es' : ES W, es'.world = es.world → es'.varsParsed = es.varsParsed → ∀ a s, m es = some (a, s) →
    ∃ a' s', m' es' = some (a', s') ∧ A a a' ∧ s'.world = s.world ∧ s'.varsParsed = s.varsParsed ∧
      ∃ new new', s.errs = es.errs ++ new ∧ s'.errs = es'.errs ++ new' ∧ Errs P new new'

variable {P Q : List Seg → List Seg → Prop}

theorem Sim.pure {A : α → α' → Prop} {a : α} {a' : α'} (h : A a a') : Sim (W := W) P A (Pure.pure a) (Pure.pure a') := by
  intro es es' hw hv b s hm
  have e := E_pure.1 hm
  cases e
  exact ⟨a', es', rfl, h, hw, hv, [], [], by simp, by simp, .nil⟩

theorem Sim.bind {A : α → α' → Prop} {B : β → β' → Prop} {m : E W α} {m' : E W α'} {f : α → E W β} {f' : α' → E W β'}
    (hm : Sim P A m m') (hf : ∀ a a', A a a' → Sim P B (f a) (f' a')) : Sim P B (m >>= f) (m' >>= f') := by
  intro es es' hw hv b s hb
  obtain ⟨a, s1, h1, h2⟩ := E_bind.1 hb
  obtain ⟨a', s1', k1, k2, k3, k4, n1, n1', k5, k6, k7⟩ := hm es es' hw hv a s1 h1
  obtain ⟨b', s', l1, l2, l3, l4, n2, n2', l5, l6, l7⟩ := hf a a' k2 s1 s1' k3 k4 b s h2
  exact ⟨b', s', E_bind.2 ⟨a', s1', k1, l1⟩, l2, l3, l4, n1 ++ n2, n1' ++ n2', by rw [l5, k5, List.append_assoc], by rw [l6, k6, List.append_assoc],
    k7.append l7⟩

theorem Sim.mono {A B : α → α' → Prop} {m : E W α} {m' : E W α'} (hPQ : ∀ p p', P p p' → Q p p') (hAB : ∀ a a', A a a' → B a a') (h : Sim P A m m') :
    Sim Q B m m' := by
  intro es es' hw hv a s hm
  obtain ⟨a', s', k1, k2, k3, k4, n1, n1', k5, k6, k7⟩ := h es es' hw hv a s hm
  exact ⟨a', s', k1, hAB _ _ k2, k3, k4, n1, n1', k5, k6, k7.mono hPQ⟩

theorem Sim.undefined {A : α → α' → Prop} {m' : E W α'} : Sim P A undefinedE m' := by
  intro es es' _ _ a s hm
  cases hm

theorem Sim.report {path path' : List Seg} {msg : Bytes} (h : P path path') : Sim (W := W) P Eq (Eval.report path msg) (Eval.report path' msg) := by
  intro es es' hw hv b s hm
  have e1 : Option.some ((), ({ es with errs := es.errs ++ [(msg, path)] } : ES W)) = Option.some (b, s) := hm
  cases e1
  exact ⟨(), _, rfl, rfl, hw, hv, [(msg, path)], [(msg, path')], rfl, rfl, .cons h .nil⟩

theorem Sim.getWorld : Sim (W := W) P Eq Eval.getWorld Eval.getWorld := by
  intro es es' hw hv b s hm
  have e1 : Option.some (es.world, es) = Option.some (b, s) := hm
  cases e1
  exact ⟨_, es', rfl, hw.symm, hw, hv, [], [], by simp, by simp, .nil⟩

theorem Sim.getVars : Sim (W := W) P Eq Eval.getVarsParsed Eval.getVarsParsed := by
  intro es es' hw hv b s hm
  have e1 : Option.some (es.varsParsed, es) = Option.some (b, s) := hm
  cases e1
  exact ⟨_, es', rfl, hv.symm, hw, hv, [], [], by simp, by simp, .nil⟩

theorem Sim.setWorld {w : W} : Sim P Eq (Eval.setWorld w) (Eval.setWorld w) := by
  intro es es' hw hv b s hm
  have e1 : Option.some ((), ({ es with world := w } : ES W)) = Option.some (b, s) := hm
  cases e1
  exact ⟨(), _, rfl, rfl, rfl, hv, [], [], by simp, by simp, .nil⟩

theorem Sim.setVars : Sim (W := W) P Eq Eval.setVarsParsed Eval.setVarsParsed := by
  intro es es' hw hv b s hm
  have e1 : Option.some ((), ({ es with varsParsed := true } : ES W)) = Option.some (b, s) := hm
  cases e1
  exact ⟨(), _, rfl, rfl, hw, rfl, [], [], by simp, by simp, .nil⟩

/-- then the same -/
theorem Sim.then {B : β → β' → Prop} {m m' : E W α} {f : α → E W β} {f' : α → E W β'}
    (hm : Sim P Eq m m') (hf : ∀ a, Sim P B (f a) (f' a)) : Sim P B (m >>= f) (m' >>= f') :=
  hm.bind (fun a a' h => by subst h; exact hf a)

/-- the same request with other fragments -/
def refrag (r : Req F V W) (frags' : List Fragment) : Req F V W := ⟨r.schema, r.env, r.vars, frags', r.decls⟩

theorem refrag_schema (r : Req F V W) (frags' : List Fragment) : (refrag r frags').schema = r.schema := rfl
theorem refrag_env (r : Req F V W) (frags' : List Fragment) : (refrag r frags').env = r.env := rfl
theorem refrag_decls (r : Req F V W) (frags' : List Fragment) : (refrag r frags').decls = r.decls := rfl

section
variable {path path' : List Seg} (hp : P path path')
include hp

theorem Sim.fail {msg : Bytes} : Sim (W := W) P Eq (Eval.fail (α := α) path msg) (Eval.fail path' msg) :=
  (Sim.report hp).then (fun _ => Sim.pure rfl)

theorem Sim.convert {b : B α} : Sim (W := W) P Eq (Eval.convert path b) (Eval.convert path' b) := by
  cases b with
  | ok a => exact Sim.pure rfl
  | err m => exact Sim.fail hp
  | panic => exact Sim.undefined

theorem Sim.setE {b : B (InVal F)} : Sim (W := W) P Eq (Eval.setE path b) (Eval.setE path' b) := by
  unfold Eval.setE
  refine (Sim.convert hp).then ?_
  intro a
  cases a <;> exact Sim.pure rfl

/-! ## Binding -/

variable (r : Req F V W) (frags' : List Fragment)

local notation "r'" => refrag r frags'

omit hp in
theorem ptrBind_sim (isNull : Bool) {base base' : InVal F → Input → E W (Bound F)} (hb : ∀ c i, Sim P Eq (base c i) (base' c i))
    (inp : Input) (cur : InVal F) : Sim P Eq (ptrBind r isNull base cur inp) (ptrBind r' isNull base' cur inp) := by
  induction inp generalizing cur with
  | ptr e ih =>
    unfold ptrBind
    split
    · exact Sim.pure rfl
    · refine (ih _).then ?_
      rintro (_ | ⟨v, _ | _⟩) <;> exact Sim.pure rfl
  | _ => exact hb _ _

mutual
theorem litBase_sim {onVar onVar' : Bytes → InVal F → Input → E W (Bound F)} (hv : ∀ n c i, Sim P Eq (onVar n c i) (onVar' n c i))
    (v : Value) (cur : InVal F) (inp : Input) : Sim P Eq (bindLitBase r path onVar v cur inp) (bindLitBase r' path' onVar' v cur inp) := by
  cases v with
  | var n => simp only [bindLitBase]; exact hv n cur inp
  | int d => simp only [bindLitBase]; exact Sim.setE hp
  | float d => simp only [bindLitBase]; exact Sim.setE hp
  | str s => simp only [bindLitBase]; exact Sim.setE hp
  | bool b => simp only [bindLitBase]; exact Sim.setE hp
  | null => simp only [bindLitBase]; exact Sim.pure rfl
  | enum n => simp only [bindLitBase]; exact Sim.setE hp
  | list vs =>
    cases inp with
    | slice e =>
      simp only [bindLitBase]
      refine (items_sim hv vs e).then ?_
      rintro (_ | xs) <;> exact Sim.pure rfl
    | _ => simp only [bindLitBase]; exact Sim.fail hp
  | obj fs =>
    cases inp with
    | struct n =>
      simp only [bindLitBase]
      rw [refrag_schema]
      cases lookup r.schema.inTypes n with
      | none => exact Sim.undefined
      | some d => exact members_sim hv fs d.fields (cur, true)
    | time => simp only [bindLitBase]; exact members_sim hv fs [] (cur, true)
    | _ => simp only [bindLitBase]; exact Sim.fail hp
theorem items_sim {onVar onVar' : Bytes → InVal F → Input → E W (Bound F)} (hv : ∀ n c i, Sim P Eq (onVar n c i) (onVar' n c i))
    (vs : List Value) (e : Input) : Sim P Eq (bindItems r path onVar vs e) (bindItems r' path' onVar' vs e) := by
  match vs with
  | [] => simp only [bindItems]; exact Sim.pure rfl
  | v :: vs =>
    simp only [bindItems]
    refine (ptrBind_sim r frags' _ (fun c i => litBase_sim hv v c i) _ _).then ?_
    rintro (_ | x)
    · exact Sim.pure rfl
    · refine (items_sim hv vs e).then ?_
      rintro (_ | xs) <;> exact Sim.pure rfl
theorem members_sim {onVar onVar' : Bytes → InVal F → Input → E W (Bound F)} (hv : ∀ n c i, Sim P Eq (onVar n c i) (onVar' n c i))
    (ms : List (Bytes × Value)) (fs : List InField) (acc : InVal F × Bool) :
    Sim P Eq (bindMembers r path onVar ms fs acc) (bindMembers r' path' onVar' ms fs acc) := by
  match ms with
  | [] => simp only [bindMembers]; exact Sim.pure rfl
  | (k, v) :: ms =>
    simp only [bindMembers]
    cases fs.find? (fun f => decide (f.key = k)) with
    | none => exact Sim.fail hp
    | some f =>
      dsimp only
      cases getField acc.1 f.goFieldIdx with
      | none => exact Sim.undefined
      | some c =>
        dsimp only
        refine (ptrBind_sim r frags' _ (fun c i => litBase_sim hv v c i) _ _).then ?_
        rintro (_ | ⟨x, set⟩)
        · exact Sim.pure rfl
        · exact members_sim hv ms fs _
end

theorem lit_sim {onVar onVar' : Bytes → InVal F → Input → E W (Bound F)} (hv : ∀ n c i, Sim P Eq (onVar n c i) (onVar' n c i))
    (v : Value) (cur : InVal F) (inp : Input) : Sim P Eq (bindLit r path onVar v cur inp) (bindLit r' path' onVar' v cur inp) := by
  unfold bindLit
  exact ptrBind_sim r frags' _ (fun c i => litBase_sim hp r frags' hv v c i) _ _

theorem checkDeclared_sim (name : Bytes) (t : Ty) (inp : Input) :
    Sim P Eq (checkDeclared r path name t inp) (checkDeclared r' path' name t inp) := by
  induction t generalizing inp with
  | named n nn => unfold checkDeclared; exact Sim.convert hp
  | list t nn ih =>
    cases inp with
    | slice e => unfold checkDeclared; exact ih e
    | _ => unfold checkDeclared; exact Sim.fail hp

theorem supplied_sim (name : Bytes) : Sim P Eq (suppliedValue r path name) (suppliedValue r' path' name) := by
  unfold suppliedValue
  refine Sim.getVars.then ?_
  rintro (_ | _)
  · rw [if_neg (by decide), if_neg (by decide)]
    show Sim P Eq _ (match r.vars with
      | .empty => return some none
      | .invalid msg => do
        setVarsParsed
        Eval.fail path' msg
      | .json (.obj ms) => do
        setVarsParsed
        return some (Http.get ms name)
      | .json _ => do
        setVarsParsed
        Eval.fail path' b%"variables provided must be of type object")
    cases r.vars with
    | empty => exact Sim.pure rfl
    | invalid msg => exact Sim.setVars.then (fun _ => Sim.fail hp)
    | json j =>
      cases j with
      | obj ms => exact Sim.setVars.then (fun _ => Sim.pure rfl)
      | _ => exact Sim.setVars.then (fun _ => Sim.fail hp)
  · exact Sim.pure rfl

theorem var_sim (name : Bytes) (cur : InVal F) (inp : Input) :
    Sim P Eq (bindVar r path name cur inp) (bindVar r' path' name cur inp) := by
  unfold bindVar
  rw [refrag_decls]
  cases r.decls.find? (fun d => decide (d.name = name)) with
  | none => exact Sim.fail hp
  | some d =>
    refine (checkDeclared_sim hp r frags' name d.ty inp).then ?_
    rintro (_ | _)
    · exact Sim.pure rfl
    · refine (supplied_sim hp r frags' name).then ?_
      rintro (_ | _ | j)
      · exact Sim.pure rfl
      · dsimp only
        cases d.default with
        | none => exact Sim.fail hp
        | some v => exact lit_sim hp r frags' (fun _ _ _ => Sim.fail hp) v cur inp
      · exact Sim.convert hp

theorem args_sim (m : Method F) (args : List (Bytes × Value)) (inputs : List (Arg F)) :
    Sim P Eq (bindArgs r path m args inputs) (bindArgs r' path' m args inputs) := by
  induction args generalizing inputs with
  | nil => unfold bindArgs; exact Sim.pure rfl
  | cons kv rest ih =>
    obtain ⟨k, v⟩ := kv
    unfold bindArgs
    cases m.inFields.find? (fun a => decide (a.key = k)) with
    | none => exact Sim.fail hp
    | some a =>
      dsimp only
      cases argField inputs a with
      | none => exact Sim.undefined
      | some cur =>
        dsimp only
        refine (lit_sim hp r frags' (fun n c i => var_sim hp r frags' n c i) v cur a.input).then ?_
        rintro (_ | ⟨x, _⟩)
        · exact Sim.pure rfl
        · exact ih _

variable (hb : Shows.PathBlind r.env)
include hb

theorem callWith_sim (m : Method F) (fn : V) (args : List (Bytes × Value)) :
    Sim P Eq (callWith r path m fn args) (callWith r' path' m fn args) := by
  unfold callWith
  refine (args_sim hp r frags' m args _).then ?_
  rintro (_ | inputs)
  · exact Sim.pure rfl
  · refine Sim.getWorld.then ?_
    intro w
    rw [refrag_env, hb w fn (jsonPath (pathText path)) (jsonPath (pathText path')) inputs]
    cases r.env.call w fn (jsonPath (pathText path')) inputs with
    | none => exact Sim.undefined
    | some x => exact Sim.setWorld.then (fun _ => Sim.pure rfl)

theorem directive_sim (loc : UInt8) (d : Directive) : Sim P Eq (evalDirective r path loc d) (evalDirective r' path' loc d) := by
  unfold evalDirective
  rw [refrag_schema, refrag_env]
  cases (lookup r.schema.directives loc).bind (fun ds => ds.find? (fun x => decide (x.name = d.name))) with
  | none => exact Sim.fail hp
  | some x =>
    refine (callWith_sim hp r frags' hb x.method x.func _).then ?_
    rintro (_ | outs)
    · exact Sim.pure rfl
    · dsimp only
      cases outs[0]? with
      | none => exact Sim.undefined
      | some o => exact Sim.getWorld.then (fun w => Sim.pure rfl)

theorem directives_sim (loc : UInt8) (ds : List Directive) : Sim P Eq (evalDirectives r path loc ds) (evalDirectives r' path' loc ds) := by
  induction ds with
  | nil => unfold evalDirectives; exact Sim.pure rfl
  | cons d ds ih =>
    unfold evalDirectives
    refine (directive_sim hp r frags' hb loc d).then ?_
    rintro (_ | _ | _)
    · exact Sim.pure rfl
    · exact ih
    · exact Sim.pure rfl

end

/-! ## Places -/

section
variable {frags frags' : List Fragment}

theorem Counterpart.single {s s' : Sel} {rest rest' : List Sel} {a b : Bytes × List Sel} (h : Counterpart frags frags' [s] [s'] a b) :
    Counterpart frags frags' (s :: rest) (s' :: rest') a b := by
  cases h with
  | here => exact .here
  | later h => cases h
  | inline h => exact .inline h
  | spread h1 h2 h3 => exact .spread h1 h2 h3

theorem SamePlace.mono {S S' T T' : List Sel} {p p' : List Seg} (h : SamePlace frags frags' S S' p p')
    (hc : ∀ a b, Counterpart frags frags' S S' a b → Counterpart frags frags' T T' a b) : SamePlace frags frags' T T' p p' := by
  induction h with
  | here => exact .here
  | item _ ih => exact .item (ih hc)
  | member h1 h2 _ => exact .member (hc _ _ h1) h2

theorem RelabelledMembers.mono {S S' T T' : List Sel} (hc : ∀ a b, Counterpart frags frags' S S' a b → Counterpart frags frags' T T' a b) :
    ∀ {xs ys : List (Bytes × Out)}, RelabelledMembers frags frags' S S' xs ys → RelabelledMembers frags frags' T T' xs ys
  | [], _, h => by cases h; exact .nil
  | _ :: _, _, h => by
    cases h with
    | cons h1 h2 h3 => exact .cons (hc _ _ h1) h2 (RelabelledMembers.mono hc h3)

theorem RelabelledMembers.append {S S' : List Sel} :
    ∀ {a b c d : List (Bytes × Out)}, RelabelledMembers frags frags' S S' a b → RelabelledMembers frags frags' S S' c d →
      RelabelledMembers frags frags' S S' (a ++ c) (b ++ d)
  | [], _, _, _, h, h' => by cases h; exact h'
  | _ :: _, _, _, _, h, h' => by
    cases h with
    | cons h1 h2 h3 => exact .cons h1 h2 (RelabelledMembers.append h3 h')

variable (frags frags')

/-- the paths go on from `q` and `q'` to the same place -/
def Below (q q' : List Seg) (S S' : List Sel) (a b : List Seg) : Prop :=
  ∃ p p', a = q ++ p ∧ b = q' ++ p' ∧ SamePlace frags frags' S S' p p'

variable {frags frags'}

theorem Below.here {q q' : List Seg} {S S' : List Sel} : Below frags frags' q q' S S' q q' := ⟨[], [], by simp, by simp, .here⟩

theorem Below.mono {q q' : List Seg} {S S' T T' : List Sel} (hc : ∀ a b, Counterpart frags frags' S S' a b → Counterpart frags frags' T T' a b)
    (p p' : List Seg) (h : Below frags frags' q q' S S' p p') : Below frags frags' q q' T T' p p' := by
  obtain ⟨x, x', h1, h2, h3⟩ := h
  exact ⟨x, x', h1, h2, h3.mono hc⟩

theorem Below.item {q q' : List Seg} {S S' : List Sel} {i : Nat} (p p' : List Seg)
    (h : Below frags frags' (q ++ [.idx i]) (q' ++ [.idx i]) S S' p p') : Below frags frags' q q' S S' p p' := by
  obtain ⟨x, x', h1, h2, h3⟩ := h
  exact ⟨.idx i :: x, .idx i :: x', by rw [h1]; simp, by rw [h2]; simp, .item h3⟩

theorem Below.member {q q' : List Seg} {S S' : List Sel} {key key' : Bytes} {sub sub' : List Sel}
    (hc : Counterpart frags frags' S S' (key, sub) (key', sub')) (p p' : List Seg)
    (h : Below frags frags' (q ++ [.key key]) (q' ++ [.key key']) sub sub' p p') : Below frags frags' q q' S S' p p' := by
  obtain ⟨x, x', h1, h2, h3⟩ := h
  exact ⟨.key key :: x, .key key' :: x', by rw [h1]; simp, by rw [h2]; simp, .member hc h3⟩

/-- related members and the same verdict -/
def MembersOK (frags frags' : List Fragment) (S S' : List Sel) (a b : List (Bytes × Out) × Bool) : Prop :=
  RelabelledMembers frags frags' S S' a.1 b.1 ∧ b.2 = a.2

/-- related values and the same verdict -/
def ValueOK (frags frags' : List Fragment) (S S' : List Sel) (a b : Out × Bool) : Prop :=
  Relabelled frags frags' S S' a.1 b.1 ∧ b.2 = a.2

/-- a related member or none, and the same verdict -/
inductive MemberOK (frags frags' : List Fragment) (key key' : Bytes) (sub sub' : List Sel) : Option (Bytes × Out) × Bool → Option (Bytes × Out) × Bool → Prop where
  | none {c} : MemberOK frags frags' key key' sub sub' (none, c) (none, c)
  | some {x y c} : Relabelled frags frags' sub sub' x y → MemberOK frags frags' key key' sub sub' (some (key, x), c) (some (key', y), c)

theorem MembersOK.mono {S S' T T' : List Sel} (hc : ∀ a b, Counterpart frags frags' S S' a b → Counterpart frags frags' T T' a b)
    (a b : List (Bytes × Out) × Bool) (h : MembersOK frags frags' S S' a b) : MembersOK frags frags' T T' a b := ⟨h.1.mono hc, h.2⟩

end

/-! ## Evaluation -/

theorem sameArgs_eq {a b : Option (List (Bytes × Value))} (h : SameArgs False a b) : b = a := by
  cases h with
  | same => rfl
  | order h => exact h.elim

theorem sameDirs_eq {a b : List Directive} (h : SameDirs False a b) : b = a := by
  induction h with
  | nil => rfl
  | @cons d d' ds ds' h1 h2 _ ih =>
    have e := sameArgs_eq h2
    obtain ⟨n, as⟩ := d
    obtain ⟨n', as'⟩ := d'
    dsimp only at h1 e
    rw [h1, e, ih]

section
variable (r : Req F V W) (frags' : List Fragment) (hfr : RespelledFrags True False r.frags frags') (hb : Shows.PathBlind r.env)

local notation "r'" => refrag r frags'

omit hfr hb in
theorem structField_sim (v : V) (i : Nat) : Sim P Eq (structField r v i) (structField r' v i) := by
  unfold structField
  rw [refrag_env]
  refine Sim.getWorld.then ?_
  intro w
  cases r.env.view w v with
  | struct fs =>
    dsimp only
    cases fs[i]? with
    | none => exact Sim.undefined
    | some x => exact Sim.pure rfl
  | _ => exact Sim.undefined

omit hfr hb in
theorem valueOfField_sim (v : V) (f : RField F V) : Sim P Eq (valueOfField r v f) (valueOfField r' v f) := by
  unfold valueOfField
  rw [refrag_env]
  cases f.customObjValue with
  | some x => exact Sim.pure rfl
  | none =>
    dsimp only
    cases f.obj with
    | method m out =>
      dsimp only
      split
      · exact Sim.pure rfl
      · exact structField_sim r frags' _ _
    | _ => exact structField_sim r frags' _ _

omit hfr hb in
theorem evalResult_sim {path path' : List Seg} (hp : P path path') {A : Out × Bool → Out × Bool → Prop} (hA : A (.null, false) (.null, false))
    (m : Method F) (outs : List V) {next next' : V → E W (Out × Bool)} (hn : ∀ x, Sim P A (next x) (next' x)) :
    Sim P A (evalResult r path m outs next) (evalResult r' path' m outs next') := by
  unfold evalResult
  rw [refrag_env]
  refine Sim.getWorld.then ?_
  intro w
  cases r.env.ctxErr w with
  | some msg => exact (Sim.report hp).then (fun _ => Sim.pure hA)
  | none =>
    dsimp only
    cases outs[m.outNr]? with
    | none => exact Sim.undefined
    | some x => exact hn x

include hb in
omit hfr in
theorem evalCall_sim {path path' : List Seg} (hp : P path path') {A : Out × Bool → Out × Bool → Prop} (hA : A (.null, false) (.null, false))
    (hA' : A (.missing, true) (.missing, true))
    (m : Method F) (fn : V) (args : List (Bytes × Value)) {next next' : V → E W (Out × Bool)} (hn : ∀ x, Sim P A (next x) (next' x)) :
    Sim P A (evalCall r path m fn args next) (evalCall r' path' m fn args next') := by
  unfold evalCall
  rw [refrag_env]
  refine (callWith_sim hp r frags' hb m fn args).then ?_
  rintro (_ | outs)
  · exact Sim.pure hA'
  · dsimp only
    cases m.errorOutNr with
    | none => exact evalResult_sim r frags' hp hA m outs hn
    | some nr =>
      dsimp only
      cases outs[nr]? with
      | none => exact Sim.undefined
      | some e =>
        refine Sim.getWorld.then ?_
        intro w
        cases r.env.errOf w e with
        | none => exact evalResult_sim r frags' hp hA m outs hn
        | some msg => exact (Sim.report hp).then (fun _ => evalResult_sim r frags' hp hA m outs hn)

omit hfr hb in
theorem evalElems_sim {S S' : List Sel} {elem elem' : Nat → V → E W (Out × Bool)}
    (h : ∀ i x, Sim P (ValueOK r.frags frags' S S') (elem i x) (elem' i x)) :
    ∀ (vs : List V) (i : Nat), Sim P (RelabelledItems r.frags frags' S S') (evalElems elem i vs) (evalElems elem' i vs)
  | [], i => by unfold evalElems; exact Sim.pure .nil
  | v :: vs, i => by
    unfold evalElems
    refine (h i v).bind ?_
    rintro ⟨o, c⟩ ⟨o', c'⟩ ho
    dsimp only
    refine (evalElems_sim h vs (i + 1)).bind ?_
    intro os os' hos
    exact Sim.pure (.cons ho.1 hos)

variable [DecidableEq F]

/-- what is shown of all five functions, for one fuel -/
structure AllSim (n : Nat) : Prop where
  sels : ∀ (t : RType F V) (v : V) (dept : UInt8) (q q' : List Seg) (room : Nat) {S S' : List Sel}, Respelled True False S S' →
    Sim (Below r.frags frags' q q' S S') (MembersOK r.frags frags' S S') (evalSels r n t v dept q room S) (evalSels r' n t v dept q' room S')
  spread : ∀ (t : RType F V) (v : V) (dept : UInt8) (q q' : List Seg) (room : Nat) (name : Bytes) (dirs : List Directive),
    Sim (Below r.frags frags' q q' [.spread name dirs] [.spread name dirs]) (MembersOK r.frags frags' [.spread name dirs] [.spread name dirs])
      (evalSpread r n t v dept q room name dirs) (evalSpread r' n t v dept q' room name dirs)
  inline : ∀ (t : RType F V) (v : V) (dept : UInt8) (q q' : List Seg) (room : Nat) (ty : Bytes) (dirs : List Directive) {S S' : List Sel},
    Respelled True False S S' →
    Sim (Below r.frags frags' q q' S S') (MembersOK r.frags frags' S S')
      (evalInline r n t v dept q room ty dirs S) (evalInline r' n t v dept q' room ty dirs S')
  field : ∀ (t : RType F V) (v : V) (dept : UInt8) (q q' : List Seg) (room : Nat) (key key' name : Bytes) (dirs : List Directive)
    (args : Option (List (Bytes × Value))) {S S' : List Sel}, Respelled True False S S' →
    Sim (Below r.frags frags' (q ++ [.key key]) (q' ++ [.key key']) S S') (MemberOK r.frags frags' key key' S S')
      (evalField r n t v dept q room key name dirs args S) (evalField r' n t v dept q' room key' name dirs args S')
  data : ∀ (o : Obj F) (v : V) (dept : UInt8) (q q' : List Seg) (room : Nat) (args : Option (List (Bytes × Value))) {S S' : List Sel},
    Respelled True False S S' →
    Sim (Below r.frags frags' q q' S S') (ValueOK r.frags frags' S S') (evalData r n o v dept q room args S) (evalData r' n o v dept q' room args S')

omit hfr hb in
theorem allSim_zero : AllSim r frags' 0 where
  sels := fun _ _ _ _ _ _ _ _ _ => by simp only [evalSels]; exact Sim.undefined
  spread := fun _ _ _ _ _ _ _ _ => by simp only [evalSpread]; exact Sim.undefined
  inline := fun _ _ _ _ _ _ _ _ _ _ _ => by simp only [evalInline]; exact Sim.undefined
  field := fun _ _ _ _ _ _ _ _ _ _ _ _ _ _ => by simp only [evalField]; exact Sim.undefined
  data := fun _ _ _ _ _ _ _ _ _ _ => by simp only [evalData]; exact Sim.undefined

include hfr hb in
theorem allSim_succ {n : Nat} (ih : AllSim r frags' n) : AllSim r frags' (n + 1) where
  sels := by
    intro t v dept q q' room S S' hS
    cases hS with
    | nil => simp only [evalSels]; exact Sim.pure ⟨.nil, rfl⟩
    | @field key key' name name' dirs dirs' args args' sub sub' rest rest' _ h2 h3 h4 h5 h6 =>
      have e1 := sameDirs_eq h3
      have e2 := sameArgs_eq h4
      subst e1
      subst e2
      simp only [evalSels]
      rw [h2]
      refine Sim.bind ((ih.field t v dept q q' room key key' (name.getD key) dirs' args' h5).mono (Below.member .here) (fun _ _ h => h)) ?_
      intro a b hab
      have hrest : ∀ (m m' : List (Bytes × Out)), RelabelledMembers r.frags frags' (.field key name dirs' args' sub :: rest) (.field key' name' dirs' args' sub' :: rest') m m' →
          ∀ c, Sim (Below r.frags frags' q q' (.field key name dirs' args' sub :: rest) (.field key' name' dirs' args' sub' :: rest'))
            (MembersOK r.frags frags' (.field key name dirs' args' sub :: rest) (.field key' name' dirs' args' sub' :: rest'))
            (if c = true then (Pure.pure (m, true) : E W _) else do
              let (ms, crit) ← evalSels r n t v dept q room rest
              Pure.pure (m ++ ms, crit))
            (if c = true then (Pure.pure (m', true) : E W _) else do
              let (ms, crit) ← evalSels r' n t v dept q' room rest'
              Pure.pure (m' ++ ms, crit)) := by
        intro m m' hm c
        cases c with
        | true => exact Sim.pure ⟨hm, rfl⟩
        | false =>
          rw [if_neg (by decide), if_neg (by decide)]
          refine Sim.bind (A := MembersOK r.frags frags' (.field key name dirs' args' sub :: rest) (.field key' name' dirs' args' sub' :: rest')) ((ih.sels t v dept q q' room h6).mono (Below.mono (fun _ _ h => .later h)) (MembersOK.mono (fun _ _ h => .later h))) ?_
          rintro ⟨x, c⟩ ⟨y, c'⟩ ⟨hx, hc⟩
          exact Sim.pure ⟨hm.append hx, hc⟩
      cases hab with
      | none => exact hrest [] [] .nil _
      | some hx => exact hrest [_] [_] (.cons .here hx .nil) _
    | @spread name dirs dirs' rest rest' h1 h2 =>
      have e1 := sameDirs_eq h1
      subst e1
      simp only [evalSels]
      refine Sim.bind (A := MembersOK r.frags frags' (.spread name dirs' :: rest) (.spread name dirs' :: rest')) ((ih.spread t v dept q q' room name dirs').mono (Below.mono (fun _ _ h => h.single)) (MembersOK.mono (fun _ _ h => h.single))) ?_
      rintro ⟨x, c⟩ ⟨y, c'⟩ ⟨hx, hc⟩
      dsimp only at hx hc ⊢
      subst hc
      cases c' with
      | true => exact Sim.pure ⟨hx, rfl⟩
      | false =>
        rw [if_neg (by decide), if_neg (by decide)]
        refine Sim.bind (A := MembersOK r.frags frags' (.spread name dirs' :: rest) (.spread name dirs' :: rest')) ((ih.sels t v dept q q' room h2).mono (Below.mono (fun _ _ h => .later h)) (MembersOK.mono (fun _ _ h => .later h))) ?_
        rintro ⟨x2, c⟩ ⟨y2, c'⟩ ⟨hx2, hc2⟩
        exact Sim.pure ⟨hx.append hx2, hc2⟩
    | @inline ty dirs dirs' sub sub' rest rest' h1 h2 h3 =>
      have e1 := sameDirs_eq h1
      subst e1
      simp only [evalSels]
      refine Sim.bind (A := MembersOK r.frags frags' (.inline ty dirs' sub :: rest) (.inline ty dirs' sub' :: rest')) ((ih.inline t v dept q q' room ty dirs' h2).mono (Below.mono (fun _ _ h => .inline h)) (MembersOK.mono (fun _ _ h => .inline h))) ?_
      rintro ⟨x, c⟩ ⟨y, c'⟩ ⟨hx, hc⟩
      dsimp only at hx hc ⊢
      subst hc
      cases c' with
      | true => exact Sim.pure ⟨hx, rfl⟩
      | false =>
        rw [if_neg (by decide), if_neg (by decide)]
        refine Sim.bind (A := MembersOK r.frags frags' (.inline ty dirs' sub :: rest) (.inline ty dirs' sub' :: rest')) ((ih.sels t v dept q q' room h3).mono (Below.mono (fun _ _ h => .later h)) (MembersOK.mono (fun _ _ h => .later h))) ?_
        rintro ⟨x2, c⟩ ⟨y2, c'⟩ ⟨hx2, hc2⟩
        exact Sim.pure ⟨hx.append hx2, hc2⟩
  spread := by
    intro t v dept q q' room name dirs
    simp only [evalSpread]
    refine (directives_sim Below.here r frags' hb 1 dirs).then ?_
    rintro (_ | _ | _)
    · exact Sim.pure ⟨.nil, rfl⟩
    · dsimp only
      show Sim _ _ _ (match frags'.find? (fun f => decide (f.name = name)) with
        | none => _
        | some f => _)
      cases hf : r.frags.find? (fun f => decide (f.name = name)) with
      | none =>
        rw [Shows.find_none_respelled hfr hf]
        exact (Sim.report Below.here).then (fun _ => Sim.pure ⟨.nil, rfl⟩)
      | some f =>
        obtain ⟨f', l1, l2, l3⟩ := Shows.find_respelled hfr hf
        rw [l1]
        dsimp only
        rw [l2]
        split
        · exact (ih.sels t v dept q q' room l3).mono (Below.mono (fun _ _ h => .spread hf l1 h)) (MembersOK.mono (fun _ _ h => .spread hf l1 h))
        · exact Sim.pure ⟨.nil, rfl⟩
    · exact Sim.pure ⟨.nil, rfl⟩
  inline := by
    intro t v dept q q' room ty dirs S S' hS
    simp only [evalInline]
    refine (directives_sim Below.here r frags' hb 2 dirs).then ?_
    rintro (_ | _ | _)
    · exact Sim.pure ⟨.nil, rfl⟩
    · dsimp only
      split
      · exact ih.sels t v dept q q' room hS
      · exact Sim.pure ⟨.nil, rfl⟩
    · exact Sim.pure ⟨.nil, rfl⟩
  field := by
    intro t v dept q q' room key key' name dirs args S S' hS
    simp only [evalField]
    refine (directives_sim Below.here r frags' hb 0 dirs).then ?_
    rintro (_ | _ | _)
    · exact Sim.pure .none
    · dsimp only
      cases t.fields.find? (fun f => decide (f.key = fnv1 name)) with
      | none =>
        dsimp only
        split
        · have hnil : S'.isEmpty = S.isEmpty := by
            have := Shows.Respelled.nil_iff hS
            cases S <;> cases S' <;> simp_all
          rw [hnil]
          split
          · exact (Sim.report Below.here).then (fun _ => Sim.pure (.some .missing))
          · exact Sim.pure (.some .leaf)
        · exact (Sim.report Below.here).then (fun _ => Sim.pure (.some .null))
      | some f =>
        dsimp only
        cases room with
        | zero => exact Sim.undefined
        | succ room =>
          dsimp only
          refine (valueOfField_sim r frags' v f).then ?_
          intro x
          refine (ih.data f.obj x dept _ _ room args hS).bind ?_
          rintro ⟨x, c⟩ ⟨y, c'⟩ ⟨hx, hc⟩
          dsimp only at hx hc ⊢
          subst hc
          exact Sim.pure (.some hx)
    · exact Sim.pure .none
  data := by
    intro o v dept q q' room args S S' hS
    have hnil : S'.isEmpty = S.isEmpty := by
      have := Shows.Respelled.nil_iff hS
      cases S <;> cases S' <;> simp_all
    unfold evalData
    dsimp only
    rw [hnil, refrag_env, refrag_schema]
    by_cases h0 : (args.isSome && !takesArgs o) = true
    · rw [if_pos h0, if_pos h0]
      exact (Sim.report Below.here).then (fun _ => Sim.pure ⟨.null, rfl⟩)
    · rw [if_neg h0, if_neg h0]
      cases o with
      | undefined => exact Sim.pure ⟨.null, rfl⟩
      | array inner =>
        dsimp only
        refine Sim.getWorld.then ?_
        intro w
        cases r.env.view w v with
        | seq s =>
          cases s with
          | none => exact Sim.pure ⟨.null, rfl⟩
          | some vs =>
            dsimp only
            cases room with
            | zero => exact Sim.undefined
            | succ room =>
              dsimp only
              refine (evalElems_sim r frags' (fun i x => (ih.data inner x dept (q ++ [.idx i]) (q' ++ [.idx i]) room args hS).mono Below.item (fun _ _ h => h)) vs 0).bind ?_
              intro os os' hos
              exact Sim.pure ⟨.list hos, rfl⟩
        | _ => exact Sim.undefined
      | objRef typeName =>
        dsimp only
        by_cases h1 : (!(args.isSome || !S.isEmpty)) = true
        · rw [if_pos h1, if_pos h1]
          exact (Sim.report Below.here).then (fun _ => Sim.pure ⟨.null, rfl⟩)
        · rw [if_neg h1, if_neg h1]
          cases lookup r.schema.types typeName with
          | none => exact Sim.pure ⟨.null, rfl⟩
          | some t =>
            dsimp only
            split
            · exact (Sim.report Below.here).then (fun _ => Sim.pure ⟨.null, rfl⟩)
            · refine (ih.sels t v (dept + 1) q q' room hS).bind ?_
              rintro ⟨x, c⟩ ⟨y, c'⟩ ⟨hx, hc⟩
              exact Sim.pure ⟨.obj hx, hc⟩
      | data isID kind =>
        dsimp only
        by_cases h1 : (args.isSome || !S.isEmpty) = true
        · rw [if_pos h1, if_pos h1]
          exact (Sim.report Below.here).then (fun _ => Sim.pure ⟨.null, rfl⟩)
        · rw [if_neg h1, if_neg h1]
          refine Sim.getWorld.then ?_
          intro w
          cases r.env.view w v with
          | scalar x =>
            dsimp only
            cases dataText r.env isID kind x with
            | none => exact Sim.undefined
            | some t => exact Sim.pure ⟨.leaf, rfl⟩
          | _ => exact Sim.undefined
      | ptr inner =>
        dsimp only
        refine Sim.getWorld.then ?_
        intro w
        cases r.env.view w v with
        | ptr p =>
          cases p with
          | none => exact Sim.pure ⟨.null, rfl⟩
          | some x => exact ih.data inner x dept q q' room args hS
        | _ => exact Sim.undefined
      | method m out =>
        dsimp only
        have hcall := evalCall_sim r frags' hb (P := Below r.frags frags' q q' S S') (A := ValueOK r.frags frags' S S') Below.here ⟨.null, rfl⟩ ⟨.missing, rfl⟩
          m v (args.getD []) (fun x => ih.data out x dept q q' room none hS)
        by_cases h1 : (!m.isTypeMethod) = true
        · rw [if_pos h1, if_pos h1]
          refine Sim.getWorld.then ?_
          intro w
          cases r.env.view w v with
          | func b =>
            cases b with
            | true => exact Sim.pure ⟨.null, rfl⟩
            | false => exact hcall
          | _ => exact Sim.undefined
        · rw [if_neg h1, if_neg h1]
          exact hcall
      | enum idx =>
        dsimp only
        cases r.schema.enums[idx]? with
        | none => exact Sim.undefined
        | some e =>
          dsimp only
          refine Sim.getWorld.then ?_
          intro w
          cases r.env.view w v with
          | scalar x =>
            dsimp only
            cases enumKey e x with
            | none => exact Sim.undefined
            | some k =>
              cases k with
              | none => exact Sim.pure ⟨.null, rfl⟩
              | some k => exact Sim.pure ⟨.leaf, rfl⟩
          | _ => exact Sim.undefined
      | time =>
        dsimp only
        refine Sim.getWorld.then ?_
        intro w
        cases r.env.view w v with
        | time t => exact Sim.pure ⟨.leaf, rfl⟩
        | _ => exact Sim.pure ⟨.null, rfl⟩
      | interfaceRef typeName =>
        dsimp only
        by_cases h1 : (!(args.isSome || !S.isEmpty)) = true
        · rw [if_pos h1, if_pos h1]
          exact (Sim.report Below.here).then (fun _ => Sim.pure ⟨.null, rfl⟩)
        · rw [if_neg h1, if_neg h1]
          cases lookup r.schema.interfaces typeName with
          | none => exact Sim.pure ⟨.null, rfl⟩
          | some impls =>
            dsimp only
            refine Sim.getWorld.then ?_
            intro w
            cases r.env.view w v with
            | iface i =>
              cases i with
              | none => exact Sim.pure ⟨.null, rfl⟩
              | some x =>
                obtain ⟨goName, goPkg, x⟩ := x
                dsimp only
                cases room with
                | zero => exact Sim.undefined
                | succ room =>
                  dsimp only
                  cases impls.find? (fun i => decide (i.goTypeName = goName ∧ i.goPkgPath = goPkg)) with
                  | none => exact Sim.pure ⟨.null, rfl⟩
                  | some i => exact ih.data (.objRef i.typeName) x (dept + 1) q q' room args hS
            | _ => exact Sim.undefined

include hfr hb in
theorem allSim : ∀ n, AllSim r frags' n
  | 0 => allSim_zero r frags'
  | n + 1 => allSim_succ r frags' hfr hb (allSim n)

omit [DecidableEq F] in
theorem errs_same {S S' : List Sel} {a b : List (Bytes × List Seg)} (h : Errs (Below r.frags frags' [] [] S S') a b) :
    SameErrors r.frags frags' S S' a b := by
  induction h with
  | nil => exact .nil
  | cons h1 _ ih =>
    obtain ⟨p, p', e1, e2, h3⟩ := h1
    rw [List.nil_append] at e1 e2
    subst e1
    subst e2
    exact .cons h3 ih

include hfr hb in
/-- an operation with other aliases -/
theorem operation_sim (n : Nat) {o o' : Operation} (hk : o'.kind = o.kind) (hd : o'.dirs = o.dirs) (hs : Respelled True False o.sels o'.sels) :
    Sim (Below r.frags frags' [] [] o.sels o'.sels) (ValueOK r.frags frags' o.sels o'.sels) (evalOperation r n o) (evalOperation r' n o') := by
  unfold evalOperation
  rw [hk, hd, refrag_schema]
  have run : ∀ (t : RType F V) (v : V), Sim (Below r.frags frags' [] [] o.sels o'.sels) (ValueOK r.frags frags' o.sels o'.sels)
      (if o.dirs ≠ [] then do
        report [] b%"operation directives unsupported"
        Pure.pure (.obj [], true)
      else do
        let (ms, crit) ← evalSels r n t v 0 [] 255 o.sels
        Pure.pure (.obj ms, crit))
      (if o.dirs ≠ [] then do
        report [] b%"operation directives unsupported"
        Pure.pure (.obj [], true)
      else do
        let (ms, crit) ← evalSels r' n t v 0 [] 255 o'.sels
        Pure.pure (.obj ms, crit)) := by
    intro t v
    split
    · exact (Sim.report Below.here).then (fun _ => Sim.pure ⟨.obj .nil, rfl⟩)
    · refine ((allSim r frags' hfr hb n).sels t v 0 [] [] 255 hs).bind ?_
      rintro ⟨x, c⟩ ⟨y, c'⟩ ⟨hx, hc⟩
      exact Sim.pure ⟨.obj hx, hc⟩
  have kinds : o.kind = .subscription ∨ o.kind = .query ∨ o.kind = .mutation := by cases o.kind <;> simp
  rcases kinds with hk | hk | hk
  · rw [hk]
    exact (Sim.report Below.here).then (fun _ => Sim.pure ⟨.obj .nil, rfl⟩)
  · rw [hk]
    exact run _ _
  · rw [hk]
    exact run _ _

end
end

end Alias
end Yarql
