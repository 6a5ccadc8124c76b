import Verif.Proofs.Deliver

/-! # Literals and variables are delivered as `Spec/Binding.lean` says -/

namespace Yarql
namespace Binding
open Doc Http Yarql.Bind Eval

section
variable {F V W α β : Type}

/-- A step that converts a value: a result satisfying `P` and no other effect, or exactly one error at `path` and no
other effect (or it is undefined). Whether the variables were looked at may change. -/
def Delivers (path : List Seg) (m : E W (Option α)) (P : α → Prop) : Prop :=
  ∀ es a es', m es = some (a, es') → es'.world = es.world ∧
    match a with
    | some a => P a ∧ es'.errs = es.errs
    | none => ∃ msg, es'.errs = es.errs ++ [(msg, path)]

theorem Delivers.mono {path : List Seg} {m : E W (Option α)} {P Q : α → Prop} (h : Delivers path m P) (hpq : ∀ a, P a → Q a) :
    Delivers path m Q := by
  intro es a es' hm
  obtain ⟨h1, h2⟩ := h es a es' hm
  refine ⟨h1, ?_⟩
  cases a with
  | none => exact h2
  | some a => exact ⟨hpq a h2.1, h2.2⟩

theorem Delivers.some {path : List Seg} {a : α} {P : α → Prop} (h : P a) : Delivers (W := W) path (return (some a)) P := by
  intro es b es' hm
  have e := E_pure.1 hm
  cases e
  exact ⟨rfl, h, rfl⟩

theorem Delivers.fail {path : List Seg} {msg : Bytes} {P : α → Prop} : Delivers (W := W) path (Eval.fail path msg) P := by
  intro es b es' hm
  obtain ⟨u, es1, h1, h2⟩ := E_bind.1 hm
  have e1 : Option.some ((), ({ es with errs := es.errs ++ [(msg, path)] } : ES W)) = Option.some (u, es1) := h1
  cases e1
  have e := E_pure.1 h2
  cases e
  exact ⟨rfl, msg, rfl⟩

theorem Delivers.undefined {path : List Seg} {P : α → Prop} : Delivers (W := W) path undefinedE P := by
  intro es b es' hm
  cases hm

theorem Delivers.bind {path : List Seg} {m : E W (Option α)} {f : Option α → E W (Option β)} {P : α → Prop} {Q : β → Prop}
    (hm : Delivers path m P) (hn : f none = return none) (hs : ∀ a, P a → Delivers path (f (.some a)) Q) :
    Delivers path (m >>= f) Q := by
  intro es b es' h
  obtain ⟨a, es1, h1, h2⟩ := E_bind.1 h
  obtain ⟨k1, k2⟩ := hm es a es1 h1
  cases a with
  | none =>
    rw [hn] at h2
    have e := E_pure.1 h2
    cases e
    exact ⟨k1, k2⟩
  | some a =>
    obtain ⟨k3, k4⟩ := k2
    obtain ⟨l1, l2⟩ := hs a k3 es1 b es' h2
    refine ⟨l1.trans k1, ?_⟩
    rw [k4] at l2
    exact l2

theorem Delivers.convert {path : List Seg} {b : B α} {P : α → Prop} (h : ∀ a, b = .ok a → P a) :
    Delivers (W := W) path (Eval.convert path b) P := by
  cases b with
  | ok a => exact .some (h a rfl)
  | err m => exact .fail
  | panic => exact .undefined

variable (r : Req F V W) (path : List Seg)

theorem setE_delivers {inp : Input} {v : Value} {b : B (InVal F)} {var} {cur : InVal F}
    (h : ∀ x, b = .ok x → ScalarLit r.env r.schema.enums v inp x) :
    Delivers path (setE (W := W) path b) (fun p => Lit r.env r.schema.enums r.schema.inTypes var v inp cur p.1 p.2) := by
  unfold setE
  refine Delivers.bind (Delivers.convert (P := fun x => ScalarLit r.env r.schema.enums v inp x) h) rfl ?_
  intro a ha
  exact .some (.scalar ha)

variable {onVar : Bytes → InVal F → Input → E W (Bound F)} {var : Bytes → Input → InVal F → InVal F → Bool → Prop}

theorem ptrBind_delivers {v : Value} {base : InVal F → Input → E W (Bound F)}
    (hbase : ∀ cur inp, (∀ e, inp ≠ .ptr e) →
      Delivers path (base cur inp) (fun p => Lit r.env r.schema.enums r.schema.inTypes var v inp cur p.1 p.2)) (inp : Input) (cur : InVal F) :
    Delivers path (ptrBind r (isNullLit v) base cur inp) (fun p => Lit r.env r.schema.enums r.schema.inTypes var v inp cur p.1 p.2) := by
  induction inp generalizing cur with
  | ptr e ih =>
    unfold ptrBind
    by_cases hn : isNullLit v = true
    · rw [if_pos hn]
      have : v = .null := by cases v <;> simp [isNullLit] at hn; rfl
      subst this
      exact .some .null
    · rw [if_neg hn]
      have hv : v ≠ .null := by rintro rfl; exact hn rfl
      refine Delivers.bind (ih _) rfl ?_
      rintro ⟨x, set⟩ hx
      cases set with
      | true => exact .some (.ptr hv (zeroOf_eq r.env r.schema.inTypes e ▸ hx))
      | false => exact .some (.ptrUnset hv (zeroOf_eq r.env r.schema.inTypes e ▸ hx))
  | scalar => exact hbase _ _ (by simp)
  | time => exact hbase _ _ (by simp)
  | file => exact hbase _ _ (by simp)
  | slice => exact hbase _ _ (by simp)
  | array => exact hbase _ _ (by simp)
  | struct => exact hbase _ _ (by simp)

mutual
theorem bindLitBase_delivers
    (hvar : ∀ n cur inp, (∀ e, inp ≠ .ptr e) → Delivers path (onVar n cur inp) (fun p => var n inp cur p.1 p.2))
    (v : Value) (cur : InVal F) (inp : Input) (hp : ∀ e, inp ≠ .ptr e) :
    Delivers path (bindLitBase r path onVar v cur inp) (fun p => Lit r.env r.schema.enums r.schema.inTypes var v inp cur p.1 p.2) := by
  cases v with
  | var n =>
    simp only [bindLitBase]
    exact (hvar n cur inp hp).mono (fun a h => .var hp h)
  | int d => simp only [bindLitBase]; exact setE_delivers r path (fun x h => (assignInt_iff _ _ _ _).1 h)
  | float d => simp only [bindLitBase]; exact setE_delivers r path (fun x h => (assignFloat_iff _ _ _ _).1 h)
  | str s => simp only [bindLitBase]; exact setE_delivers r path (fun x h => (scalarStr_iff _ _ _).2 ((assignString_iff _ _ _ _).1 h))
  | bool b => simp only [bindLitBase]; exact setE_delivers r path (fun x h => (assignBool_iff _ _ _ _).1 h)
  | null => simp only [bindLitBase]; exact .some .null
  | enum n => simp only [bindLitBase]; exact setE_delivers r path (fun x h => (assignEnumLit_iff _ _ _).1 h)
  | list vs =>
    simp only [bindLitBase]
    cases inp with
    | slice e =>
      refine Delivers.bind (bindItems_delivers hvar vs e) rfl ?_
      intro xs hxs
      exact .some (.list hxs)
    | _ => exact .fail
  | obj fs =>
    simp only [bindLitBase]
    cases inp with
    | struct n =>
      dsimp only
      cases hl : lookup r.schema.inTypes n with
      | none => exact .undefined
      | some d => exact (bindMembers_delivers hvar fs d.fields (cur, true)).mono (fun a h => .obj hl h)
    | time =>
      dsimp only
      cases fs with
      | nil => simp only [bindMembers]; exact .some .emptyTime
      | cons m ms =>
        obtain ⟨k, v⟩ := m
        simp only [bindMembers, List.find?_nil]
        exact .fail
    | _ => exact .fail
theorem bindItems_delivers
    (hvar : ∀ n cur inp, (∀ e, inp ≠ .ptr e) → Delivers path (onVar n cur inp) (fun p => var n inp cur p.1 p.2))
    (vs : List Value) (e : Input) :
    Delivers path (bindItems r path onVar vs e) (fun xs => Items r.env r.schema.enums r.schema.inTypes var vs e xs) := by
  cases vs with
  | nil => simp only [bindItems]; exact .some .nil
  | cons v vs =>
    simp only [bindItems]
    refine Delivers.bind (ptrBind_delivers r path (var := var) (fun cur inp hp => bindLitBase_delivers hvar v cur inp hp) _ _) rfl ?_
    rintro ⟨x, set⟩ hx
    refine Delivers.bind (bindItems_delivers hvar vs e) rfl ?_
    intro xs hxs
    exact .some (.cons (zeroOf_eq r.env r.schema.inTypes e ▸ hx) hxs)
theorem bindMembers_delivers
    (hvar : ∀ n cur inp, (∀ e, inp ≠ .ptr e) → Delivers path (onVar n cur inp) (fun p => var n inp cur p.1 p.2))
    (ms : List (Bytes × Value)) (fs : List InField) (acc : InVal F × Bool) :
    Delivers path (bindMembers r path onVar ms fs acc) (fun p => Members r.env r.schema.enums r.schema.inTypes var ms fs acc p) := by
  cases ms with
  | nil => simp only [bindMembers]; exact .some .nil
  | cons m ms =>
    obtain ⟨k, v⟩ := m
    obtain ⟨cur, s0⟩ := acc
    simp only [bindMembers]
    cases hf : fs.find? (fun f => decide (f.key = k)) with
    | none => exact .fail
    | some f =>
      dsimp only
      cases hg : getField cur f.goFieldIdx with
      | none => exact .undefined
      | some c =>
        dsimp only
        refine Delivers.bind (ptrBind_delivers r path (var := var) (fun cur inp hp => bindLitBase_delivers hvar v cur inp hp) _ _) rfl ?_
        rintro ⟨x, set⟩ hx
        exact (bindMembers_delivers hvar ms fs _).mono (fun a h => .cons hf hx ((withField_iff _ _ _ _ _).1 ⟨hg, rfl⟩) h)
end

/-- A literal is delivered as `Lit` says, or exactly one error is reported. -/
theorem bindLit_delivers
    (hvar : ∀ n cur inp, (∀ e, inp ≠ .ptr e) → Delivers path (onVar n cur inp) (fun p => var n inp cur p.1 p.2))
    (v : Value) (cur : InVal F) (inp : Input) :
    Delivers path (bindLit r path onVar v cur inp) (fun p => Lit r.env r.schema.enums r.schema.inTypes var v inp cur p.1 p.2) :=
  ptrBind_delivers r path (fun cur inp hp => bindLitBase_delivers r path hvar v cur inp hp) inp cur

theorem typeFits_iff (enums : List (EnumDef F)) (inp : Input) (n : Bytes) : checkVarType enums inp n = .ok () ↔ TypeFits enums inp n := by
  have e1 : ∀ m : Bytes, (if n ≠ m then B.err (b%"expected variable type " ++ m ++ b%" but got " ++ n) else B.ok ()) = .ok () ↔ n = m := by
    intro m
    by_cases h : n = m
    · rw [if_neg (by simpa using h)]; exact ⟨fun _ => h, fun _ => rfl⟩
    · rw [if_pos h]; exact ⟨fun h => (by cases h), fun h' => absurd h' h⟩
  have e2 : ∀ m : Bytes, (if n ≠ m ∧ n ≠ b%"String" then B.err (b%"expected variable type " ++ m ++ b%" but got " ++ n) else B.ok ()) = .ok () ↔
      n = m ∨ n = b%"String" := by
    intro m
    by_cases h : n = m
    · rw [if_neg (fun h' => h'.1 h)]; exact ⟨fun _ => Or.inl h, fun _ => rfl⟩
    · by_cases h2 : n = b%"String"
      · rw [if_neg (fun h' => h'.2 h2)]; exact ⟨fun _ => Or.inr h2, fun _ => rfl⟩
      · rw [if_pos ⟨h, h2⟩]; exact ⟨fun h => (by cases h), fun h' => by rcases h' with h' | h' <;> contradiction⟩
  unfold checkVarType
  match inp with
  | .scalar _ (some e) _ =>
    dsimp only [TypeFits]
    cases h : enums[e]? with
    | none => exact ⟨fun h => (by cases h), fun ⟨d, h, _⟩ => (by cases h)⟩
    | some d =>
      dsimp only
      rw [e2]
      exact ⟨fun h => ⟨d, rfl, h⟩, fun ⟨d', h, h'⟩ => by cases h; exact h'⟩
  | .scalar _ none true => exact e2 _
  | .file => exact e2 _
  | .time => exact e2 _
  | .scalar .bool none false => exact ⟨fun _ => trivial, fun _ => rfl⟩
  | .scalar (.int _) none false => exact e1 _
  | .scalar (.uint _) none false => exact e1 _
  | .scalar .float32 none false => exact e1 _
  | .scalar .float64 none false => exact e1 _
  | .scalar .string none false => exact e1 _
  | .array _ _ => exact e1 _
  | .slice _ => exact e1 _
  | .struct _ => exact e1 _
  | .ptr _ => exact ⟨fun h => (by cases h), fun h => h.elim⟩

theorem checkDeclared_delivers (name : Bytes) (t : Ty) (inp : Input) :
    Delivers path (checkDeclared r path name t inp) (fun _ => DeclFits r.schema.enums t inp) := by
  induction t generalizing inp with
  | named n nn =>
    unfold checkDeclared
    exact Delivers.convert (fun _ h => .named ((typeFits_iff _ _ _).1 h))
  | list t nn ih =>
    cases inp with
    | slice e =>
      unfold checkDeclared
      exact (ih e).mono (fun _ h => .list h)
    | _ => unfold checkDeclared; exact .fail

theorem get_supplied (vars : VarsSrc) (name : Bytes) : vars.get name = Supplied vars name := by
  unfold VarsSrc.get Supplied Http.get
  cases vars with
  | json j =>
    cases j with
    | obj ms =>
      dsimp only
      congr 2
      funext x
      exact Bool.beq_eq_decide_eq _ _
    | _ => rfl
  | _ => rfl

theorem suppliedValue_delivers (name : Bytes) :
    Delivers path (suppliedValue r path name) (fun j => j = Supplied r.vars name) := by
  intro es a es' hm
  unfold suppliedValue at hm
  obtain ⟨b, es1, h1, h2⟩ := E_bind.1 hm
  have e1 : some (es.varsParsed, es) = some (b, es1) := h1
  cases e1
  by_cases hv : es.varsParsed = true
  · rw [if_pos hv] at h2
    have e := E_pure.1 h2
    cases e
    exact ⟨rfl, get_supplied _ _, rfl⟩
  · rw [if_neg hv] at h2
    have parsed : ∀ {m : E W (Option (Option J))}, (setVarsParsed >>= fun _ => m) es = some (a, es') →
        m { es with varsParsed := true } = some (a, es') := by
      intro m h
      obtain ⟨u, es2, k1, k2⟩ := E_bind.1 h
      have e2 : some ((), ({ es with varsParsed := true } : ES W)) = some (u, es2) := k1
      cases e2
      exact k2
    cases hs : r.vars with
    | empty =>
      rw [hs] at h2
      have e := E_pure.1 h2
      cases e
      exact ⟨rfl, rfl, rfl⟩
    | invalid msg =>
      rw [hs] at h2
      obtain ⟨k1, k2⟩ := (Delivers.fail (P := fun j => j = Supplied (.invalid msg) name)) _ _ _ (parsed h2)
      exact ⟨k1, k2⟩
    | json j =>
      cases j with
      | obj ms =>
        rw [hs] at h2
        have e := E_pure.1 (parsed h2)
        cases e
        exact ⟨rfl, get_supplied (.json (.obj ms)) name, rfl⟩
      | _ =>
        rw [hs] at h2
        obtain ⟨k1, k2⟩ := (Delivers.fail (P := fun j => j = Supplied r.vars name)) _ _ _ (parsed h2)
        rw [hs] at k2
        exact ⟨k1, k2⟩

theorem noVars_delivers (n : Bytes) (cur : InVal F) (inp : Input) (P : InVal F × Bool → Prop) :
    Delivers path (noVars (F := F) (W := W) path n cur inp) P := .fail

/-- A variable reference delivers what `Var` says, or exactly one error is reported. -/
theorem bindVar_delivers (name : Bytes) (cur : InVal F) (inp : Input) :
    Delivers path (bindVar r path name cur inp)
      (fun p => Var r.env r.schema.enums r.schema.inTypes r.vars r.decls name inp cur p.1 p.2) := by
  unfold bindVar
  cases hd : r.decls.find? (fun d => decide (d.name = name)) with
  | none => exact .fail
  | some d =>
    dsimp only
    refine Delivers.bind (checkDeclared_delivers r path name d.ty inp) rfl ?_
    intro _ hfit
    dsimp only
    refine Delivers.bind (suppliedValue_delivers r path name) rfl ?_
    intro j hj
    cases j with
    | some j =>
      exact Delivers.convert (fun a h => .supplied hd hfit hj.symm ((bindJSON_iff _ _ _ _ _).1 h))
    | none =>
      dsimp only
      cases hdef : d.default with
      | none => exact .fail
      | some v =>
        exact (bindLit_delivers r path (var := noVar) (fun n cur inp _ => noVars_delivers path n cur inp _) v cur inp).mono
          (fun a h => .default hd hfit hj.symm hdef h)

theorem withArg_iff (inputs : List (Arg F)) (a : ArgField) (old x : InVal F) (inputs' : List (Arg F)) :
    (Resolver.argField inputs a = some old ∧ Resolver.setArgField inputs a x = inputs') ↔ WithArg inputs a old x inputs' := by
  unfold Resolver.argField Resolver.setArgField WithArg
  cases h : inputs[a.inputIdx]? with
  | none =>
    constructor
    · rintro ⟨h1, _⟩; cases h1
    · rintro ⟨v, v', h1, _⟩; cases h1
  | some y =>
    cases y with
    | ctx =>
      constructor
      · rintro ⟨h1, _⟩; cases h1
      · rintro ⟨v, v', h1, _⟩; cases h1
    | val v =>
      dsimp only
      constructor
      · rintro ⟨h1, h2⟩
        exact ⟨v, _, rfl, (withField_iff _ _ _ _ _).1 ⟨h1, rfl⟩, h2.symm⟩
      · rintro ⟨v1, v', h1, h2, h3⟩
        cases h1
        obtain ⟨k1, k2⟩ := (withField_iff _ _ _ _ _).2 h2
        exact ⟨k1, by rw [k2, h3]⟩

/-! ## The other direction: what the specification delivers is not rejected -/

/-- the step succeeds with this result, from every state -/
def Succeeds (m : E W (Option α)) (a : α) : Prop := ∀ es, ∃ es', m es = some (some a, es')

theorem Succeeds.some {a : α} : Succeeds (W := W) (return (some a)) a := fun es => ⟨es, rfl⟩

theorem Succeeds.bind {m : E W (Option α)} {f : Option α → E W (Option β)} {a : α} {b : β}
    (hm : Succeeds m a) (hf : Succeeds (f (.some a)) b) : Succeeds (m >>= f) b := by
  intro es
  obtain ⟨es1, h1⟩ := hm es
  obtain ⟨es2, h2⟩ := hf es1
  exact ⟨es2, E_bind.2 ⟨_, es1, h1, h2⟩⟩

theorem Succeeds.convert {b : B α} {a : α} (h : b = .ok a) : Succeeds (W := W) (Eval.convert path b) a := by
  subst h
  exact .some

theorem ptrBind_base (isNull : Bool) (base : InVal F → Input → E W (Bound F)) (cur : InVal F) (inp : Input) (hp : ∀ e, inp ≠ .ptr e) :
    ptrBind r isNull base cur inp = base cur inp := by
  cases inp with
  | ptr e => exact absurd rfl (hp e)
  | _ => rfl

theorem scalarLit_not_ptr {v : Value} {e : Input} {x : InVal F} : ¬ ScalarLit r.env r.schema.enums v (.ptr e) x := by
  intro h
  cases h with
  | str h => cases h

theorem setE_succeeds {b : B (InVal F)} {x : InVal F} (h : b = .ok x) : Succeeds (setE (W := W) path b) (x, true) := by
  subst h
  exact fun es => ⟨es, rfl⟩

mutual
theorem lit_complete (hvar : ∀ n cur inp x set, var n inp cur x set → Succeeds (onVar n cur inp) (x, set))
    {v : Value} {inp : Input} {cur x : InVal F} {set : Bool} (h : Lit r.env r.schema.enums r.schema.inTypes var v inp cur x set) :
    Succeeds (bindLit r path onVar v cur inp) (x, set) := by
  match h with
  | .null =>
    unfold bindLit
    cases inp with
    | ptr e => unfold ptrBind; rw [if_pos (by rfl)]; exact .some
    | _ => unfold ptrBind; simp only [bindLitBase]; exact .some
  | .ptr (x := y) hv h' =>
    have := lit_complete hvar h'
    unfold bindLit at this ⊢
    rw [ptrBind, if_neg (by cases v <;> simp_all [isNullLit]), zeroOf_eq]
    exact Succeeds.bind this .some
  | .ptrUnset hv h' =>
    have := lit_complete hvar h'
    unfold bindLit at this ⊢
    rw [ptrBind, if_neg (by cases v <;> simp_all [isNullLit]), zeroOf_eq]
    exact Succeeds.bind this .some
  | .var hp h' =>
    unfold bindLit
    rw [ptrBind_base r _ _ _ _ hp]
    simp only [bindLitBase]
    exact hvar _ _ _ _ _ h'
  | .scalar h' =>
    unfold bindLit
    rw [ptrBind_base r _ _ _ _ (by rintro e rfl; exact scalarLit_not_ptr r h')]
    cases v with
    | int d => simp only [bindLitBase]; exact setE_succeeds path ((assignInt_iff _ _ _ _).2 h')
    | float d => simp only [bindLitBase]; exact setE_succeeds path ((assignFloat_iff _ _ _ _).2 h')
    | str d => simp only [bindLitBase]; exact setE_succeeds path ((assignString_iff _ _ _ _).2 ((scalarStr_iff _ _ _).1 h'))
    | bool d => simp only [bindLitBase]; exact setE_succeeds path ((assignBool_iff _ _ _ _).2 h')
    | enum d => simp only [bindLitBase]; exact setE_succeeds path ((assignEnumLit_iff _ _ _).2 h')
    | var => cases h'
    | null => cases h'
    | list => cases h'
    | obj => cases h'
  | .list h' =>
    unfold bindLit ptrBind
    simp only [bindLitBase]
    exact Succeeds.bind (items_complete hvar h') .some
  | .obj hl h' =>
    unfold bindLit ptrBind
    simp only [bindLitBase, hl]
    exact members_complete hvar h'
  | .emptyTime =>
    unfold bindLit ptrBind
    simp only [bindLitBase, bindMembers]
    exact .some
theorem items_complete (hvar : ∀ n cur inp x set, var n inp cur x set → Succeeds (onVar n cur inp) (x, set))
    {vs : List Value} {e : Input} {xs : List (InVal F)} (h : Items r.env r.schema.enums r.schema.inTypes var vs e xs) :
    Succeeds (bindItems r path onVar vs e) xs := by
  match h with
  | .nil => simp only [bindItems]; exact .some
  | .cons h1 h2 =>
    simp only [bindItems]
    have k := lit_complete hvar h1
    unfold bindLit at k
    rw [zeroOf_eq]
    exact Succeeds.bind k (Succeeds.bind (items_complete hvar h2) .some)
theorem members_complete (hvar : ∀ n cur inp x set, var n inp cur x set → Succeeds (onVar n cur inp) (x, set))
    {ms : List (Bytes × Value)} {fs : List InField} {acc p : InVal F × Bool}
    (h : Members r.env r.schema.enums r.schema.inTypes var ms fs acc p) :
    Succeeds (bindMembers r path onVar ms fs acc) p := by
  match h with
  | .nil => simp only [bindMembers]; exact .some
  | .cons hf h1 hw h2 =>
    obtain ⟨k1, k2⟩ := (withField_iff _ _ _ _ _).2 hw
    simp only [bindMembers, hf, k1]
    have k := lit_complete hvar h1
    unfold bindLit at k
    refine Succeeds.bind k ?_
    dsimp only
    rw [k2]
    exact members_complete hvar h2
end

/-- the variables text is absent or an object -/
def Usable : VarsSrc → Prop
  | .empty => True
  | .json (.obj _) => True
  | _ => False

theorem checkDeclared_complete {name : Bytes} {t : Ty} {inp : Input} (h : DeclFits r.schema.enums t inp) :
    Succeeds (checkDeclared r path name t inp) () := by
  induction h with
  | named h => unfold checkDeclared; exact Succeeds.convert path ((typeFits_iff _ _ _).2 h)
  | list _ ih => unfold checkDeclared; exact ih

theorem supplied_complete (name : Bytes) (hu : Usable r.vars) : Succeeds (suppliedValue r path name) (Supplied r.vars name) := by
  intro es
  unfold suppliedValue
  by_cases hv : es.varsParsed = true
  · refine ⟨es, E_bind.2 ⟨es.varsParsed, es, rfl, ?_⟩⟩
    rw [if_pos hv, get_supplied]
    rfl
  · match hs : r.vars with
    | .empty =>
      refine ⟨es, E_bind.2 ⟨es.varsParsed, es, rfl, ?_⟩⟩
      rw [if_neg hv]
      rfl
    | .json (.obj ms) =>
      refine ⟨{ es with varsParsed := true }, E_bind.2 ⟨es.varsParsed, es, rfl, ?_⟩⟩
      rw [if_neg hv]
      refine E_bind.2 ⟨(), { es with varsParsed := true }, rfl, ?_⟩
      rw [show Http.get ms name = Supplied (.json (.obj ms)) name from get_supplied (.json (.obj ms)) name]
      rfl
    | .invalid _ => rw [hs] at hu; exact hu.elim
    | .json .null => rw [hs] at hu; exact hu.elim
    | .json (.bool _) => rw [hs] at hu; exact hu.elim
    | .json (.num _) => rw [hs] at hu; exact hu.elim
    | .json (.str _) => rw [hs] at hu; exact hu.elim
    | .json (.arr _) => rw [hs] at hu; exact hu.elim

theorem var_complete (hu : Usable r.vars) (name : Bytes) (cur : InVal F) (inp : Input) (x : InVal F) (set : Bool)
    (h : Var r.env r.schema.enums r.schema.inTypes r.vars r.decls name inp cur x set) :
    Succeeds (bindVar r path name cur inp) (x, set) := by
  unfold bindVar
  cases h with
  | supplied hd hf hs hj =>
    rw [hd]
    refine Succeeds.bind (checkDeclared_complete r path hf) ?_
    refine Succeeds.bind (supplied_complete r path name hu) ?_
    rw [hs]
    exact Succeeds.convert path ((bindJSON_iff _ _ _ _ _).2 hj)
  | default hd hf hs hdef hl =>
    rw [hd]
    refine Succeeds.bind (checkDeclared_complete r path hf) ?_
    refine Succeeds.bind (supplied_complete r path name hu) ?_
    rw [hs]
    dsimp only
    rw [hdef]
    exact lit_complete r path (var := noVar) (fun n cur inp x set h => h.elim) hl

end
end Binding
end Yarql
