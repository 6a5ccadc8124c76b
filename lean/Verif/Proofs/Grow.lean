import Verif.Spec.Grow
import Verif.Spec.Eval

/-!
# Evaluating with a larger schema
-/

namespace Yarql
namespace Grow
open Doc Eval Resolver Yarql.Bind Typed
open Http (J)

section
variable {F V W : Type}

theorem find_inserted {A : Type} {P : A → Prop} {p : A → Bool} (hp : ∀ y, P y → p y = false) {xs ys : List A} (h : Inserted P xs ys) :
    ys.find? p = xs.find? p := by
  induction h with
  | nil => rfl
  | keep _ ih => rw [List.find?_cons, List.find?_cons, ih]
  | add hy _ ih => rw [List.find?_cons, hp _ hy]; exact ih

/-! ## Conversions -/

section
variable (s s' : RSchema F V) (env : Env F V W) (hc : ∀ n d, lookup s.inTypes n = some d → ∀ f ∈ d.fields, Known s env f.input)
  (hin : ∀ n d, lookup s.inTypes n = some d → lookup s'.inTypes n = some d) (hen : ∃ more, s'.enums = s.enums ++ more)

include hen in
theorem enum_eq {i : Nat} (h : i < s.enums.length) : s'.enums[i]? = s.enums[i]? := by
  obtain ⟨more, e⟩ := hen
  rw [e, List.getElem?_append_left h]

include hin in
theorem lookup_eq {n : Bytes} (h : (lookup s.inTypes n).isSome = true) : lookup s'.inTypes n = lookup s.inTypes n := by
  cases e : lookup s.inTypes n with
  | none => rw [e] at h; cases h
  | some d => exact hin n d e

include hin in
theorem zero_eq {inp : Input} (h : Known s env inp) : zeroOf env s'.inTypes inp = zeroOf env s.inTypes inp := by
  induction inp with
  | array n e ih => unfold zeroOf; rw [ih h]
  | struct n =>
    unfold zeroOf
    rw [lookup_eq s s' hin h]
  | _ => rfl

include hen in
theorem assignEnum_eq {i : Nat} (h : i < s.enums.length) (key : Bytes) : assignEnum s'.enums i key = assignEnum s.enums i key := by
  unfold assignEnum
  rw [enum_eq s s' hen h]

include hen in
theorem assignString_eq {inp : Input} (h : Known s env inp) (cur : InVal F) (t : Bytes) :
    assignString env s'.enums inp cur t = assignString env s.enums inp cur t := by
  cases inp with
  | scalar k e id =>
    cases e with
    | some i => exact assignEnum_eq s s' hen (h i rfl) t
    | none => cases id <;> cases k <;> rfl
  | _ => rfl

include hen in
theorem assignEnumLit_eq {inp : Input} (h : Known s env inp) (t : Bytes) :
    assignEnumLit s'.enums inp t = assignEnumLit s.enums inp t := by
  cases inp with
  | scalar k e id =>
    cases e with
    | some i => exact assignEnum_eq s s' hen (h i rfl) t
    | none => rfl
  | _ => rfl

include hen in
theorem checkVarType_eq {inp : Input} (h : Known s env inp) (t : Bytes) :
    checkVarType s'.enums inp t = checkVarType s.enums inp t := by
  cases inp with
  | scalar k e id =>
    cases e with
    | some i => unfold checkVarType; dsimp only; rw [enum_eq s s' hen (h i rfl)]
    | none => cases id <;> cases k <;> rfl
  | _ => rfl

include hen in
theorem jsonSpecial_eq {inp : Input} (h : Known s env inp) (j : J) :
    jsonSpecial env s'.enums inp j = jsonSpecial env s.enums inp j := by
  cases inp with
  | scalar k e id =>
    cases e with
    | some i =>
      cases j with
      | str t => unfold jsonSpecial; dsimp only; rw [assignEnum_eq s s' hen (h i rfl)]
      | _ => rfl
    | none => rfl
  | _ => rfl

include hin in
theorem ptrWrap_eq {base base' : Input → InVal F → B (InVal F × Bool)} (hb : ∀ i c, Known s env i → base' i c = base i c) {inp : Input}
    (h : Known s env inp) (cur : InVal F) : ptrWrap env s'.inTypes base' inp cur = ptrWrap env s.inTypes base inp cur := by
  induction inp generalizing cur with
  | ptr e ih =>
    have he : Known s env e := h
    unfold ptrWrap
    rw [ih he, zero_eq s s' env hin he]
  | _ => exact hb _ _ h

include hc hin hen

mutual
theorem jsonBase_eq (j : J) {inp : Input} (h : Known s env inp) (cur : InVal F) :
    bindJSONBase env s'.enums s'.inTypes j inp cur = bindJSONBase env s.enums s.inTypes j inp cur := by
  cases j with
  | null => unfold bindJSONBase; rw [jsonSpecial_eq s s' env hen h]
  | bool b => unfold bindJSONBase; rw [jsonSpecial_eq s s' env hen h]
  | num r => unfold bindJSONBase; rw [jsonSpecial_eq s s' env hen h]
  | str t => unfold bindJSONBase; rw [jsonSpecial_eq s s' env hen h, assignString_eq s s' env hen h]
  | arr items =>
    unfold bindJSONBase
    rw [jsonSpecial_eq s s' env hen h]
    cases inp with
    | slice e => dsimp only; rw [jsonItems_eq items (e := e) h]
    | _ => rfl
  | obj ms =>
    unfold bindJSONBase
    rw [jsonSpecial_eq s s' env hen h]
    cases inp with
    | struct n =>
      dsimp only
      rw [lookup_eq s s' hin h]
      cases hl : lookup s.inTypes n with
      | none => rfl
      | some d => dsimp only; rw [jsonMembers_eq ms (hc n d hl) cur]
    | _ => rfl
theorem jsonItems_eq (js : List J) {e : Input} (h : Known s env e) :
    bindJSONItems env s'.enums s'.inTypes js e = bindJSONItems env s.enums s.inTypes js e := by
  cases js with
  | nil => unfold bindJSONItems; rfl
  | cons j js =>
    unfold bindJSONItems
    rw [jsonItems_eq js h, zero_eq s s' env hin h, ptrWrap_eq s s' env hin (fun i c hi => jsonBase_eq j hi c) h]
theorem jsonMembers_eq (ms : List (Bytes × J)) {fs : List InField} (h : ∀ f ∈ fs, Known s env f.input) (cur : InVal F) :
    bindJSONMembers env s'.enums s'.inTypes ms fs cur = bindJSONMembers env s.enums s.inTypes ms fs cur := by
  match ms with
  | [] => unfold bindJSONMembers; rfl
  | (k, j) :: ms =>
    unfold bindJSONMembers
    cases hf : fs.find? (fun f => decide (f.key = k)) with
    | none => rfl
    | some f =>
      dsimp only
      cases getField cur f.goFieldIdx with
      | none => rfl
      | some c =>
        dsimp only
        rw [ptrWrap_eq s s' env hin (fun i c hi => jsonBase_eq j hi c) (h f (List.mem_of_find?_eq_some hf))]
        congr 1
        funext r
        exact jsonMembers_eq ms h _
end

theorem bindJSON_eq (j : J) {inp : Input} (h : Known s env inp) (cur : InVal F) :
    bindJSON env s'.enums s'.inTypes j inp cur = bindJSON env s.enums s.inTypes j inp cur := by
  unfold bindJSON
  exact ptrWrap_eq s s' env hin (fun i c hi => jsonBase_eq s s' env hc hin hen j hi c) h cur

end

/-! ## Arguments -/

/-- the same request to another schema -/
def reschema (r : Req F V W) (s' : RSchema F V) : Req F V W := ⟨s', r.env, r.vars, r.frags, r.decls⟩

section
variable (r : Req F V W) (s' : RSchema F V) (hc : ∀ n d, lookup r.schema.inTypes n = some d → ∀ f ∈ d.fields, Known r.schema r.env f.input)
  (hin : ∀ n d, lookup r.schema.inTypes n = some d → lookup s'.inTypes n = some d) (hen : ∃ more, s'.enums = r.schema.enums ++ more)

local notation "r'" => reschema r s'

include hin in
theorem ptrBind_eq (isNull : Bool) {base base' : InVal F → Input → E W (Bound F)} (hb : ∀ c i, Known r.schema r.env i → base' c i = base c i)
    {inp : Input} (h : Known r.schema r.env inp) (cur : InVal F) : ptrBind r' isNull base' cur inp = ptrBind r isNull base cur inp := by
  induction inp generalizing cur with
  | ptr e ih =>
    have he : Known r.schema r.env e := h
    unfold ptrBind
    have hz : zeroOf (r').env (r').schema.inTypes e = zeroOf r.env r.schema.inTypes e := zero_eq r.schema s' r.env hin he
    rw [hz, ih he]
  | _ => exact hb _ _ h

include hc hin hen

mutual
theorem litBase_eq (path : List Seg) {onVar onVar' : Bytes → InVal F → Input → E W (Bound F)}
    (hv : ∀ n c i, Known r.schema r.env i → onVar' n c i = onVar n c i) (v : Value) (cur : InVal F) {inp : Input} (h : Known r.schema r.env inp) :
    bindLitBase r' path onVar' v cur inp = bindLitBase r path onVar v cur inp := by
  cases v with
  | var n => simp only [bindLitBase]; exact hv n cur inp h
  | int d => simp only [bindLitBase]; rfl
  | float d => simp only [bindLitBase]; rfl
  | str t => simp only [bindLitBase]; exact congrArg _ (assignString_eq r.schema s' r.env hen h cur t)
  | bool b => simp only [bindLitBase]; rfl
  | null => simp only [bindLitBase]
  | enum n => simp only [bindLitBase]; exact congrArg _ (assignEnumLit_eq r.schema s' r.env hen h n)
  | list vs =>
    cases inp with
    | slice e => simp only [bindLitBase]; rw [items_eq path hv vs (e := e) h]
    | _ => simp only [bindLitBase] <;> rfl
  | obj fs =>
    cases inp with
    | struct n =>
      simp only [bindLitBase]
      have e : lookup (r').schema.inTypes n = lookup r.schema.inTypes n := lookup_eq r.schema s' hin h
      rw [e]
      cases hl : lookup r.schema.inTypes n with
      | none => rfl
      | some d => exact members_eq path hv fs (hc n d hl) (cur, true)
    | time => simp only [bindLitBase]; exact members_eq path hv fs (fun _ h => absurd h List.not_mem_nil) (cur, true)
    | _ => simp only [bindLitBase] <;> rfl
theorem items_eq (path : List Seg) {onVar onVar' : Bytes → InVal F → Input → E W (Bound F)}
    (hv : ∀ n c i, Known r.schema r.env i → onVar' n c i = onVar n c i) (vs : List Value) {e : Input} (h : Known r.schema r.env e) :
    bindItems r' path onVar' vs e = bindItems r path onVar vs e := by
  match vs with
  | [] => simp only [bindItems]
  | v :: vs =>
    simp only [bindItems]
    have hz : zeroOf (r').env (r').schema.inTypes e = zeroOf r.env r.schema.inTypes e := zero_eq r.schema s' r.env hin h
    rw [hz, ptrBind_eq r s' hin _ (fun c i hi => litBase_eq path hv v c hi) h, items_eq path hv vs h]
theorem members_eq (path : List Seg) {onVar onVar' : Bytes → InVal F → Input → E W (Bound F)}
    (hv : ∀ n c i, Known r.schema r.env i → onVar' n c i = onVar n c i) (ms : List (Bytes × Value)) {fs : List InField}
    (h : ∀ f ∈ fs, Known r.schema r.env f.input) (acc : InVal F × Bool) :
    bindMembers r' path onVar' ms fs acc = bindMembers r path onVar ms fs acc := by
  match ms with
  | [] => simp only [bindMembers]
  | (k, v) :: ms =>
    simp only [bindMembers]
    cases hf : fs.find? (fun f => decide (f.key = k)) with
    | none => rfl
    | some f =>
      dsimp only
      cases getField acc.1 f.goFieldIdx with
      | none => rfl
      | some c =>
        dsimp only
        rw [ptrBind_eq r s' hin _ (fun c i hi => litBase_eq path hv v c hi) (h f (List.mem_of_find?_eq_some hf))]
        congr 1
        funext x
        match x with
        | none => rfl
        | some (x, set) => exact members_eq path hv ms h _
end

theorem lit_eq (path : List Seg) {onVar onVar' : Bytes → InVal F → Input → E W (Bound F)}
    (hv : ∀ n c i, Known r.schema r.env i → onVar' n c i = onVar n c i) (v : Value) (cur : InVal F) {inp : Input} (h : Known r.schema r.env inp) :
    bindLit r' path onVar' v cur inp = bindLit r path onVar v cur inp := by
  unfold bindLit
  exact ptrBind_eq r s' hin _ (fun c i hi => litBase_eq r s' hc hin hen path hv v c hi) h cur

omit hc hin in
theorem checkDeclared_eq (path : List Seg) (name : Bytes) (t : Doc.Ty) {inp : Input} (h : Known r.schema r.env inp) :
    checkDeclared r' path name t inp = checkDeclared r path name t inp := by
  induction t generalizing inp with
  | named n nn => unfold checkDeclared; exact congrArg _ (checkVarType_eq r.schema s' r.env hen h n)
  | list t nn ih =>
    cases inp with
    | slice e => unfold checkDeclared; exact ih (inp := e) h
    | _ => rfl

theorem bindVar_eq (path : List Seg) (name : Bytes) (cur : InVal F) {inp : Input} (h : Known r.schema r.env inp) :
    bindVar r' path name cur inp = bindVar r path name cur inp := by
  unfold bindVar
  have e : (r').decls = r.decls := rfl
  rw [e]
  cases r.decls.find? (fun d => decide (d.name = name)) with
  | none => rfl
  | some d =>
    dsimp only
    rw [checkDeclared_eq r s' hen path name d.ty h]
    congr 1
    funext x
    match x with
    | none => rfl
    | some () =>
      dsimp only
      have e : suppliedValue r' path name = suppliedValue r path name := rfl
      rw [e]
      congr 1
      funext y
      match y with
      | none => rfl
      | some (some j) => exact congrArg (convert path) (bindJSON_eq r.schema s' r.env hc hin hen j h cur)
      | some none =>
        dsimp only
        cases d.default with
        | none => rfl
        | some v => exact lit_eq r s' hc hin hen path (fun _ _ _ _ => rfl) v cur h

theorem bindArgs_eq (path : List Seg) (m : Method F) (hm : ∀ a ∈ m.inFields, Known r.schema r.env a.input) (args : List (Bytes × Value))
    (inputs : List (Arg F)) : bindArgs r' path m args inputs = bindArgs r path m args inputs := by
  induction args generalizing inputs with
  | nil => unfold bindArgs; rfl
  | cons a rest ih =>
    obtain ⟨k, v⟩ := a
    unfold bindArgs
    cases hf : m.inFields.find? (fun a => decide (a.key = k)) with
    | none => rfl
    | some a =>
      dsimp only
      cases argField inputs a with
      | none => rfl
      | some cur =>
        dsimp only
        rw [lit_eq r s' hc hin hen path (fun n c i hi => bindVar_eq r s' hc hin hen path n c hi) v cur (hm a (List.mem_of_find?_eq_some hf))]
        congr 1
        funext x
        match x with
        | none => rfl
        | some (x, set) => exact ih _

theorem callWith_eq (path : List Seg) (m : Method F) (hm : ∀ a ∈ m.inFields, Known r.schema r.env a.input) (fn : V) (args : List (Bytes × Value)) :
    callWith r' path m fn args = callWith r path m fn args := by
  unfold callWith
  rw [bindArgs_eq r s' hc hin hen path m hm]
  rfl

theorem evalCall_eq (path : List Seg) (m : Method F) (hm : ∀ a ∈ m.inFields, Known r.schema r.env a.input) (fn : V) (args : List (Bytes × Value))
    {next next' : V → E W (Out × Bool)} (hn : ∀ x, next' x = next x) :
    evalCall r' path m fn args next' = evalCall r path m fn args next := by
  have e : next' = next := funext hn
  subst e
  unfold evalCall
  rw [callWith_eq r s' hc hin hen path m hm]
  rfl

end

/-! ## Selections -/

section
variable [DecidableEq F] (r : Req F V W) (s' : RSchema F V) (uses usesDir : Bytes → Prop) (hx : Extends r.env uses usesDir r.schema s')
  (hcl : Closed r.schema r.env)

local notation "r'" => reschema r s'

/-- the selections use nothing new -/
structure Inside (uses usesDir : Bytes → Prop) (sels : List Sel) : Prop where
  fields : ∀ n, UsesField sels n → uses n
  dirs : ∀ n, UsesDirective sels n → usesDir n

include hx hcl

omit [DecidableEq F] in
theorem directives_eq (path : List Seg) (loc : UInt8) (ds : List Directive) (hd : ∀ d ∈ ds, usesDir d.name) :
    evalDirectives r' path loc ds = evalDirectives r path loc ds := by
  induction ds with
  | nil => unfold evalDirectives; rfl
  | cons d ds ih =>
    unfold evalDirectives
    have e : evalDirective r' path loc d = evalDirective r path loc d := by
      unfold evalDirective
      have e : (lookup (r').schema.directives loc).bind (fun ds => ds.find? (fun x => decide (x.name = d.name))) =
          (lookup r.schema.directives loc).bind (fun ds => ds.find? (fun x => decide (x.name = d.name))) :=
        hx.directives loc d.name (hd d (by simp))
      rw [e]
      cases hf : (lookup r.schema.directives loc).bind (fun ds => ds.find? (fun x => decide (x.name = d.name))) with
      | none => rfl
      | some x =>
        dsimp only
        rw [callWith_eq r s' hcl.inputs hx.inputs hx.enums path x.method (hcl.directives loc d.name x hf)]
        rfl
    rw [e, ih (fun d h => hd d (by simp [h]))]

/-- what is shown of the functions, for one fuel -/
structure AllEq (n : Nat) : Prop where
  sels : ∀ (t t' : RType F V) (v : V) (dept : UInt8) (q : List Seg) (room : Nat) (S : List Sel), Flat.IsType r.schema t → Grown uses t t' →
    Inside uses usesDir S → evalSels r' n t' v dept q room S = evalSels r n t v dept q room S
  spread : ∀ (t t' : RType F V) (v : V) (dept : UInt8) (q : List Seg) (room : Nat) (name : Bytes) (dirs : List Directive),
    Flat.IsType r.schema t → Grown uses t t' → (∀ d ∈ dirs, usesDir d.name) →
    evalSpread r' n t' v dept q room name dirs = evalSpread r n t v dept q room name dirs
  inline : ∀ (t t' : RType F V) (v : V) (dept : UInt8) (q : List Seg) (room : Nat) (ty : Bytes) (dirs : List Directive) (S : List Sel),
    Flat.IsType r.schema t → Grown uses t t' → (∀ d ∈ dirs, usesDir d.name) → Inside uses usesDir S →
    evalInline r' n t' v dept q room ty dirs S = evalInline r n t v dept q room ty dirs S
  field : ∀ (t t' : RType F V) (v : V) (dept : UInt8) (q : List Seg) (room : Nat) (key name : Bytes) (dirs : List Directive)
    (args : Option (List (Bytes × Value))) (S : List Sel), Flat.IsType r.schema t → Grown uses t t' → uses name → (∀ d ∈ dirs, usesDir d.name) →
    Inside uses usesDir S → evalField r' n t' v dept q room key name dirs args S = evalField r n t v dept q room key name dirs args S
  data : ∀ (o : Obj F) (v : V) (dept : UInt8) (q : List Seg) (room : Nat) (args : Option (List (Bytes × Value))) (S : List Sel),
    Declared r.schema r.env o → Inside uses usesDir S → evalData r' n o v dept q room args S = evalData r n o v dept q room args S

omit hx hcl in
theorem allEq_zero : AllEq r s' uses usesDir 0 where
  sels := fun _ _ _ _ _ _ _ _ _ _ => by simp only [evalSels]
  spread := fun _ _ _ _ _ _ _ _ _ _ _ => by simp only [evalSpread]
  inline := fun _ _ _ _ _ _ _ _ _ _ _ _ _ => by simp only [evalInline]
  field := fun _ _ _ _ _ _ _ _ _ _ _ _ _ _ _ _ => by simp only [evalField]
  data := fun _ _ _ _ _ _ _ _ _ => by simp only [evalData]

variable (hfr : ∀ f ∈ r.frags, Inside uses usesDir f.sels)
include hfr

theorem allEq_succ {n : Nat} (ih : AllEq r s' uses usesDir n) : AllEq r s' uses usesDir (n + 1) where
  sels := by
    intro t t' v dept q room S ht hg hS
    cases S with
    | nil => simp only [evalSels]
    | cons x rest =>
      have hrest : Inside uses usesDir rest := ⟨fun n h => hS.fields n (.later h), fun n h => hS.dirs n (.later h)⟩
      cases x with
      | field key name dirs args sub =>
        simp only [evalSels]
        rw [ih.field t t' v dept q room key (name.getD key) dirs args sub ht hg (hS.fields _ .here) (fun d hd => hS.dirs _ (.field d hd))
          ⟨fun n h => hS.fields n (.under h), fun n h => hS.dirs n (.under h)⟩, ih.sels t t' v dept q room rest ht hg hrest]
      | spread name dirs =>
        simp only [evalSels]
        rw [ih.spread t t' v dept q room name dirs ht hg (fun d hd => hS.dirs _ (.spread d hd)), ih.sels t t' v dept q room rest ht hg hrest]
      | inline ty dirs sub =>
        simp only [evalSels]
        rw [ih.inline t t' v dept q room ty dirs sub ht hg (fun d hd => hS.dirs _ (.onInline d hd))
          ⟨fun n h => hS.fields n (.inline h), fun n h => hS.dirs n (.inline h)⟩, ih.sels t t' v dept q room rest ht hg hrest]
  spread := by
    intro t t' v dept q room name dirs ht hg hd
    simp only [evalSpread]
    rw [directives_eq r s' uses usesDir hx hcl q 1 dirs hd]
    congr 1
    funext x
    match x with
    | none => rfl
    | some true => rfl
    | some false =>
      dsimp only
      have e : (r').frags = r.frags := rfl
      rw [e]
      cases hf : r.frags.find? (fun f => decide (f.name = name)) with
      | none => rfl
      | some f =>
        dsimp only
        rw [hg.name, ih.sels t t' v dept q room f.sels ht hg (hfr f (List.mem_of_find?_eq_some hf))]
  inline := by
    intro t t' v dept q room ty dirs S ht hg hd hS
    simp only [evalInline]
    rw [directives_eq r s' uses usesDir hx hcl q 2 dirs hd]
    congr 1
    funext x
    match x with
    | none => rfl
    | some true => rfl
    | some false =>
      dsimp only
      rw [hg.name, ih.sels t t' v dept q room S ht hg hS]
  field := by
    intro t t' v dept q room key name dirs args S ht hg hu hd hS
    simp only [evalField]
    rw [directives_eq r s' uses usesDir hx hcl _ 0 dirs hd]
    congr 1
    funext x
    match x with
    | none => rfl
    | some true => rfl
    | some false =>
      dsimp only
      have e : t'.fields.find? (fun f => decide (f.key = fnv1 name)) = t.fields.find? (fun f => decide (f.key = fnv1 name)) :=
        find_inserted (fun y hy => by simpa using hy name hu) hg.fields
      rw [e, hg.name]
      cases hf : t.fields.find? (fun f => decide (f.key = fnv1 name)) with
      | none => rfl
      | some f =>
        dsimp only
        cases room with
        | zero => rfl
        | succ room =>
          dsimp only
          have e : valueOfField r' v f = valueOfField r v f := rfl
          rw [e]
          congr 1
          funext x
          rw [ih.data f.obj x dept _ room args S (hcl.fields t ht f (List.mem_of_find?_eq_some hf)) hS]
  data := by
    intro o v dept q room args S ho hS
    have henv : (r').env = r.env := rfl
    cases o with
    | undefined => simp only [evalData]
    | data isID kind => simp only [evalData, henv]
    | enum idx =>
      have e : (r').schema.enums[idx]? = r.schema.enums[idx]? := enum_eq r.schema s' hx.enums ho
      simp only [evalData, henv, e]
    | time => simp only [evalData, henv]
    | array inner =>
      have e : ∀ x dept q room args, evalData r' n inner x dept q room args S = evalData r n inner x dept q room args S :=
        fun x dept q room args => ih.data inner x dept q room args S ho hS
      simp only [evalData, henv, e]
    | ptr inner =>
      have e : ∀ x dept q room args, evalData r' n inner x dept q room args S = evalData r n inner x dept q room args S :=
        fun x dept q room args => ih.data inner x dept q room args S ho hS
      simp only [evalData, henv, e]
    | method m out =>
      have e : ∀ x dept q room args, evalData r' n out x dept q room args S = evalData r n out x dept q room args S :=
        fun x dept q room args => ih.data out x dept q room args S ho.2 hS
      have e2 : ∀ next, evalCall r' q m v (args.getD []) next = evalCall r q m v (args.getD []) next :=
        fun next => evalCall_eq r s' hcl.inputs hx.inputs hx.enums q m ho.1 v _ (fun _ => rfl)
      simp only [evalData, henv, e, e2]
    | objRef typeName =>
      obtain ⟨t, ht⟩ := ho
      obtain ⟨t', ht', hg⟩ := hx.types typeName t ht
      have e1 : lookup (r').schema.types typeName = some t' := ht'
      have e2 : (r').schema.maxDepth = r.schema.maxDepth := hx.maxDepth
      simp only [evalData, e1, ht, ih.sels t t' v (dept + 1) q room S (Or.inr (Or.inr ⟨_, ht⟩)) hg hS]
      by_cases h : dept + 1 = r.schema.maxDepth
      · have h' : dept + 1 = (r').schema.maxDepth := by rw [e2]; exact h
        simp only [if_pos h, if_pos h']
      · have h' : ¬ dept + 1 = (r').schema.maxDepth := by rw [e2]; exact h
        simp only [if_neg h, if_neg h']
    | interfaceRef typeName =>
      obtain ⟨impls, hi, ht⟩ := ho
      obtain ⟨impls', hi', hin⟩ := hx.interfaces typeName impls hi
      have e1 : lookup (r').schema.interfaces typeName = some impls' := hi'
      simp only [evalData, e1, hi, henv]
      split
      · rfl
      · split
        · rfl
        · congr 1
          funext w
          cases hv : r.env.view w v with
          | iface x =>
            rcases x with _ | ⟨goName, goPkg, x⟩
            · rfl
            · dsimp only
              rw [find_inserted (p := fun i : Impl => decide (i.goTypeName = goName ∧ i.goPkgPath = goPkg)) (fun y hy => by
                refine decide_eq_false fun h => ?_
                obtain ⟨h1, h2⟩ := h
                exact hy w v x (by rw [h1, h2]; exact hv)) hin]
              cases room with
              | zero => rfl
              | succ room =>
                dsimp only
                cases hf : impls.find? (fun i => decide (i.goTypeName = goName ∧ i.goPkgPath = goPkg)) with
                | none => rfl
                | some i => exact ih.data (.objRef i.typeName) x (dept + 1) q room args S (ht i (List.mem_of_find?_eq_some hf)) hS
          | _ => rfl

theorem allEq : ∀ n, AllEq r s' uses usesDir n
  | 0 => allEq_zero r s' uses usesDir
  | n + 1 => allEq_succ r s' uses usesDir hx hcl hfr (allEq n)

theorem operation_eq (n : Nat) (o : Operation) (hS : Inside uses usesDir o.sels) : evalOperation r' n o = evalOperation r n o := by
  unfold evalOperation
  have e1 : (r').schema.rootQueryValue = r.schema.rootQueryValue := hx.queryValue
  have e2 : (r').schema.rootMethodValue = r.schema.rootMethodValue := hx.mutationValue
  have h1 := (allEq r s' uses usesDir hx hcl hfr n).sels r.schema.rootQuery s'.rootQuery r.schema.rootQueryValue 0 [] 255 o.sels (Or.inl rfl) hx.query hS
  have h2 := (allEq r s' uses usesDir hx hcl hfr n).sels r.schema.rootMethod s'.rootMethod r.schema.rootMethodValue 0 [] 255 o.sels (Or.inr (Or.inl rfl))
    hx.mutation hS
  have e3 : (r').schema.rootQuery = s'.rootQuery := rfl
  have e4 : (r').schema.rootMethod = s'.rootMethod := rfl
  rw [e1, e2, e3, e4, h1, h2]

end
end
end Grow
end Yarql
