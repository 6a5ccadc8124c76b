import Verif.Spec.Typed
import Verif.Proofs.DeliverLit

/-! # Binding of arguments is defined on well typed schemas -/

namespace Yarql
namespace Typed
open Doc Resolver Eval Yarql.Bind Binding
open Http (J)

section
variable {F V W α β : Type}

/-- The step is defined from every state and its result satisfies `Q`. -/
def Total (m : E W α) (Q : α → Prop) : Prop := ∀ es, ∃ a es', m es = some (a, es') ∧ Q a

theorem Total.mono {m : E W α} {P Q : α → Prop} (h : Total m P) (hpq : ∀ a, P a → Q a) : Total m Q := by
  intro es
  obtain ⟨a, es', h1, h2⟩ := h es
  exact ⟨a, es', h1, hpq a h2⟩

theorem Total.bind {m : E W α} {f : α → E W β} {P : α → Prop} {Q : β → Prop} (h : Total m P) (hf : ∀ a, P a → Total (f a) Q) :
    Total (m >>= f) Q := by
  intro es
  obtain ⟨a, es1, h1, h2⟩ := h es
  obtain ⟨b, es2, h3, h4⟩ := hf a h2 es1
  exact ⟨b, es2, E_bind.2 ⟨a, es1, h1, h3⟩, h4⟩

theorem Total.pure {a : α} {Q : α → Prop} (h : Q a) : Total (W := W) (Pure.pure a) Q := fun es => ⟨a, es, rfl, h⟩

theorem Total.report {path : List Seg} {msg : Bytes} : Total (W := W) (Eval.report path msg) (fun _ => True) :=
  fun _ => ⟨(), _, rfl, trivial⟩

theorem Total.getWorld : Total (W := W) Eval.getWorld (fun _ => True) := fun _ => ⟨_, _, rfl, trivial⟩

theorem Total.setWorld {w : W} : Total (Eval.setWorld w) (fun _ => True) := fun _ => ⟨(), _, rfl, trivial⟩

/-- the result, if any, satisfies `P` -/
def Opt (P : α → Prop) : Option α → Prop
  | none => True
  | some a => P a

theorem Total.fail {path : List Seg} {msg : Bytes} {P : α → Prop} : Total (W := W) (Eval.fail path msg) (Opt P) :=
  fun _ => ⟨none, _, rfl, trivial⟩

theorem Total.reportThen {path : List Seg} {msg : Bytes} {b : β} {Q : β → Prop} (h : Q b) :
    Total (W := W) (Eval.report path msg >>= fun _ => Pure.pure b) Q :=
  Total.report.bind (fun _ _ => .pure h)

theorem Total.convert {path : List Seg} {b : B α} {P : α → Prop} (hp : b ≠ .panic) (h : ∀ a, b = .ok a → P a) :
    Total (W := W) (Eval.convert path b) (Opt P) := by
  cases b with
  | ok a => exact .pure (h a rfl)
  | err m => exact .fail
  | panic => exact absurd rfl hp

theorem Total.optBind {m : E W (Option α)} {f : α → E W (Option β)} {P : α → Prop} {Q : β → Prop} (h : Total m (Opt P))
    (hf : ∀ a, P a → Total (f a) (Opt Q)) :
    Total (m >>= fun x => match x with | none => Pure.pure none | some a => f a) (Opt Q) := by
  refine h.bind ?_
  intro a ha
  cases a with
  | none => exact .pure trivial
  | some a => exact hf a ha

variable {schema : RSchema F V} {env : Env F V W}

theorem shaped_zero (hT : InTypesOK schema env) {e : Input} (hk : Known schema env e) : Shaped schema.inTypes e (zeroOf env schema.inTypes e) := by
  cases e with
  | struct n =>
    unfold zeroOf
    unfold Known at hk
    cases hl : lookup schema.inTypes n with
    | none => rw [hl] at hk; cases hk
    | some d => exact (hT n d hl).2.1
  | _ => exact .other (by intro n h; cases h)

/-- setting a field keeps the shape -/
theorem shaped_set (hT : InTypesOK schema env) {n : Bytes} {d : InStruct F} {cur c x : InVal F} {f : InField}
    (hl : lookup schema.inTypes n = some d) (hs : Shaped schema.inTypes (.struct n) cur) (hf : f ∈ d.fields)
    (hx : Shaped schema.inTypes f.input x) : Shaped schema.inTypes (.struct n) (setField cur f.goFieldIdx x) := by
  cases hs with
  | other h => exact absurd rfl (h n)
  | struct cc h1 h2 h3 =>
    rename_i d' vs
    rw [hl] at h1
    cases h1
    unfold setField
    refine .struct (fun g => if g.goFieldIdx = f.goFieldIdx then x else cc g) hl ?_ ?_
    · intro g hg
      have hb := h2 g hg
      have hlt : g.goFieldIdx < vs.length := (List.getElem?_eq_some_iff.1 hb).1
      by_cases he : g.goFieldIdx = f.goFieldIdx
      · rw [if_pos he, ← he, List.getElem?_set_self (by omega)]
      · rw [if_neg he, List.getElem?_set_ne (Ne.symm he)]
        exact hb
    · intro g hg
      by_cases he : g.goFieldIdx = f.goFieldIdx
      · rw [if_pos he, (hT n d hl).2.2 g hg f hf he]
        exact hx
      · rw [if_neg he]
        exact h3 g hg

theorem shaped_get {n : Bytes} {d : InStruct F} {cur : InVal F} {f : InField}
    (hl : lookup schema.inTypes n = some d) (hs : Shaped schema.inTypes (.struct n) cur) (hf : f ∈ d.fields) :
    ∃ c, getField cur f.goFieldIdx = some c ∧ Shaped schema.inTypes f.input c := by
  cases hs with
  | other h => exact absurd rfl (h n)
  | struct cc h1 h2 h3 =>
    rw [hl] at h1
    cases h1
    exact ⟨cc f, h2 f hf, h3 f hf⟩

/-! ## Conversions do not panic -/

theorem assignEnum_np {e : Nat} {s : Bytes} (h : e < schema.enums.length) : assignEnum schema.enums e s ≠ .panic := by
  unfold assignEnum
  rw [List.getElem?_eq_getElem h]
  dsimp only
  cases List.find? (fun x => decide (x.1 = s)) (schema.enums[e]).entries with
  | none => simp
  | some x =>
    dsimp only
    cases (schema.enums[e]).kind <;> simp

theorem assignID_np {k : Kind} {s : Bytes} : assignID (F := F) k s ≠ .panic := by
  unfold assignID
  cases k <;> dsimp only <;> repeat' split
  all_goals simp

theorem assignTime_np {s : Bytes} : assignTime (F := F) s ≠ .panic := by
  unfold assignTime
  split <;> simp

theorem assignInt_np {inp : Input} {cur : InVal F} {d : Bytes} : assignInt env inp cur d ≠ .panic := by
  unfold assignInt
  repeat' split
  all_goals simp

theorem assignFloat_np {inp : Input} {cur : InVal F} {d : Bytes} : assignFloat env inp cur d ≠ .panic := by
  unfold assignFloat
  repeat' split
  all_goals simp

theorem assignBool_np {inp : Input} {cur : InVal F} {b : Bool} : assignBool env inp cur b ≠ .panic := by
  unfold assignBool
  repeat' split
  all_goals simp

theorem assignString_np {inp : Input} {cur : InVal F} {s : Bytes} (hk : Known schema env inp) :
    assignString env schema.enums inp cur s ≠ .panic := by
  unfold assignString
  split
  · exact assignEnum_np (hk _ rfl)
  · exact assignID_np
  · repeat' split
    all_goals simp
  · exact assignTime_np
  · simp
  · simp

theorem assignEnumLit_np {inp : Input} {s : Bytes} (hk : Known schema env inp) : assignEnumLit schema.enums inp s ≠ .panic := by
  unfold assignEnumLit
  split
  · exact assignEnum_np (hk _ rfl)
  · simp

theorem checkVarType_np {inp : Input} {s : Bytes} (hk : Known schema env inp) : checkVarType schema.enums inp s ≠ .panic := by
  unfold checkVarType
  cases inp with
  | scalar k e id =>
    cases e with
    | some e =>
      dsimp only
      rw [List.getElem?_eq_getElem (hk e rfl)]
      dsimp only
      split <;> simp
    | none =>
      cases id <;> cases k <;> dsimp only
      all_goals first | (split <;> simp; done) | simp
  | ptr e => simp
  | _ => dsimp only; split <;> simp

theorem Bbind_np {α β : Type} {m : B α} {f : α → B β} (h1 : m ≠ .panic) (h2 : ∀ a, m = .ok a → f a ≠ .panic) : m.bind f ≠ .panic := by
  cases m with
  | ok a => exact h2 a rfl
  | err e => simp [B.bind]
  | panic => exact absurd rfl h1

theorem jsonSpecial_np {inp : Input} {j : J} (hk : Known schema env inp) : jsonSpecial env schema.enums inp j ≠ .panic := by
  unfold jsonSpecial
  cases j with
  | str s =>
    dsimp only
    split
    · exact Bbind_np (assignEnum_np (hk _ rfl)) (by simp)
    · exact Bbind_np assignID_np (by simp)
    · cases hf : env.formFile with
      | none => unfold Known at hk; rw [hf] at hk; cases hk
      | some f => dsimp only; split <;> simp
    · exact Bbind_np assignTime_np (by simp)
  | _ => simp

theorem jsonNumber_np {inp : Input} {cur : InVal F} {r : Bytes} : jsonNumber env inp cur r ≠ .panic := by
  unfold jsonNumber
  repeat' split
  all_goals simp

/-- results of conversions are shaped -/
def JOK (schema : RSchema F V) (inp : Input) (b : B (InVal F × Bool)) : Prop :=
  b ≠ .panic ∧ ∀ p, b = .ok p → Shaped schema.inTypes inp p.1

theorem ptrWrap_ok (hT : InTypesOK schema env) {base : Input → InVal F → B (InVal F × Bool)} {inp : Input} {cur : InVal F}
    (hk : Known schema env inp) (hs : Shaped schema.inTypes inp cur)
    (hb : ∀ i c, (∀ e, i ≠ .ptr e) → Known schema env i → Shaped schema.inTypes i c → JOK schema i (base i c)) :
    JOK schema inp (ptrWrap env schema.inTypes base inp cur) := by
  induction inp generalizing cur with
  | ptr e ih =>
    have h := ih (cur := zeroOf env schema.inTypes e) hk (shaped_zero hT hk)
    unfold ptrWrap
    cases hr : ptrWrap env schema.inTypes base e (zeroOf env schema.inTypes e) with
    | ok p =>
      obtain ⟨v, b⟩ := p
      cases b
      · exact ⟨by simp, fun p hp => by cases hp; exact hs⟩
      · exact ⟨by simp, fun p hp => by cases hp; exact .other (by intro n h; cases h)⟩
    | err m => exact ⟨by simp, fun p hp => by cases hp⟩
    | panic => exact absurd hr h.1
  | _ => exact hb _ _ (by intro e h; cases h) hk hs

mutual
theorem bindJSONBase_ok (hT : InTypesOK schema env) (j : J) (inp : Input) (cur : InVal F) (hp : ∀ e, inp ≠ .ptr e)
    (hk : Known schema env inp) (hs : Shaped schema.inTypes inp cur) :
    JOK schema inp (bindJSONBase env schema.enums schema.inTypes j inp cur) := by
  have spec : ∀ j', isSpecial inp = true → JOK schema inp (jsonSpecial env schema.enums inp j') := by
    intro j' h
    refine ⟨jsonSpecial_np hk, fun p hp => .other ?_⟩
    intro n hn
    subst hn
    cases h
  have ns : ∀ (b : B (InVal F × Bool)), b ≠ .panic → (∀ n, inp ≠ .struct n) → JOK schema inp b :=
    fun b h1 h2 => ⟨h1, fun p _ => .other h2⟩
  have bad : ∀ (m : Bytes), JOK schema inp (.err m) := fun m => ⟨by simp, fun p hp => by cases hp⟩
  cases j with
  | null =>
    unfold bindJSONBase
    by_cases h : isSpecial inp = true
    · rw [if_pos h]; exact spec _ h
    · rw [if_neg h]; exact ⟨by simp, fun p hp => by cases hp; exact hs⟩
  | bool b =>
    unfold bindJSONBase
    by_cases h : isSpecial inp = true
    · rw [if_pos h]; exact spec _ h
    · rw [if_neg h]
      split
      · exact ns _ (by simp) (by intro n h; cases h)
      · exact bad _
  | num r =>
    unfold bindJSONBase
    by_cases h : isSpecial inp = true
    · rw [if_pos h]; exact spec _ h
    · rw [if_neg h]
      refine ⟨jsonNumber_np, fun p hp => ?_⟩
      cases inp with
      | struct n =>
        unfold jsonNumber at hp
        dsimp only at hp
        cases hi : parseInt64 r <;> rw [hi] at hp <;> cases hp
      | _ => exact .other (by intro n h; cases h)
  | str s =>
    unfold bindJSONBase
    by_cases h : isSpecial inp = true
    · rw [if_pos h]; exact spec _ h
    · rw [if_neg h]
      refine ⟨Bbind_np (assignString_np hk) (by simp), fun p hp => ?_⟩
      cases inp with
      | struct n => unfold assignString at hp; cases hp
      | _ => exact .other (by intro n h; cases h)
  | arr items =>
    unfold bindJSONBase
    by_cases h : isSpecial inp = true
    · rw [if_pos h]; exact spec _ h
    · rw [if_neg h]
      cases inp with
      | slice e => exact ns _ (Bbind_np (bindJSONItems_ok hT items e hk) (by simp)) (by intro n h; cases h)
      | _ => exact bad _
  | obj members =>
    unfold bindJSONBase
    by_cases h : isSpecial inp = true
    · rw [if_pos h]; exact spec _ h
    · rw [if_neg h]
      cases inp with
      | struct n =>
        dsimp only
        cases hl : lookup schema.inTypes n with
        | none => unfold Known at hk; rw [hl] at hk; cases hk
        | some d =>
          dsimp only
          obtain ⟨h1, h2⟩ := bindJSONMembers_ok hT members n d cur hl hs
          refine ⟨Bbind_np h1 (by simp), fun p hp => ?_⟩
          obtain ⟨a, ha, hb⟩ := bindB.1 hp
          cases hb
          exact h2 a ha
      | _ => exact bad _
theorem bindJSONItems_ok (hT : InTypesOK schema env) (js : List J) (e : Input) (hk : Known schema env e) :
    bindJSONItems env schema.enums schema.inTypes js e ≠ .panic := by
  cases js with
  | nil => unfold bindJSONItems; simp
  | cons j js =>
    unfold bindJSONItems
    refine Bbind_np (ptrWrap_ok hT hk (shaped_zero hT hk) (fun i c h1 h2 h3 => bindJSONBase_ok hT j i c h1 h2 h3)).1 ?_
    intro a _
    exact Bbind_np (bindJSONItems_ok hT js e hk) (by simp)
theorem bindJSONMembers_ok (hT : InTypesOK schema env) (ms : List (Bytes × J)) (n : Bytes) (d : InStruct F) (cur : InVal F)
    (hl : lookup schema.inTypes n = some d) (hs : Shaped schema.inTypes (.struct n) cur) :
    bindJSONMembers env schema.enums schema.inTypes ms d.fields cur ≠ .panic ∧
    ∀ x, bindJSONMembers env schema.enums schema.inTypes ms d.fields cur = .ok x → Shaped schema.inTypes (.struct n) x := by
  cases ms with
  | nil => unfold bindJSONMembers; exact ⟨by simp, fun x hx => by cases hx; exact hs⟩
  | cons m ms =>
    obtain ⟨k, j⟩ := m
    unfold bindJSONMembers
    cases hf : d.fields.find? (fun f => decide (f.key = k)) with
    | none => exact ⟨by simp, fun x hx => by cases hx⟩
    | some f =>
      dsimp only
      have hm := List.mem_of_find?_eq_some hf
      obtain ⟨c, hc, hcs⟩ := shaped_get hl hs hm
      rw [hc]
      dsimp only
      have hw := ptrWrap_ok hT ((hT n d hl).1 f hm) hcs (fun i c h1 h2 h3 => bindJSONBase_ok hT j i c h1 h2 h3)
      have step := fun (a : InVal F × Bool) (ha : Shaped schema.inTypes f.input a.1) =>
        bindJSONMembers_ok hT ms n d (setField cur f.goFieldIdx a.1) hl (shaped_set (c := c) hT hl hs hm ha)
      refine ⟨Bbind_np hw.1 (fun a ha => (step a (hw.2 a ha)).1), fun x hx => ?_⟩
      obtain ⟨a, ha, hb⟩ := bindB.1 hx
      exact (step a (hw.2 a ha)).2 x hb
end

theorem bindJSON_ok (hT : InTypesOK schema env) (j : J) (inp : Input) (cur : InVal F) (hk : Known schema env inp)
    (hs : Shaped schema.inTypes inp cur) : JOK schema inp (bindJSON env schema.enums schema.inTypes j inp cur) :=
  ptrWrap_ok hT hk hs (fun i c h1 h2 h3 => bindJSONBase_ok hT j i c h1 h2 h3)

/-! ## Literals and variables -/

variable {r : Req F V W} (path : List Seg)

/-- binding is defined and keeps the shape -/
abbrev BOK (r : Req F V W) (inp : Input) (m : E W (Bound F)) : Prop := Total m (Opt (fun p => Shaped r.schema.inTypes inp p.1))

theorem ptrBind_total (hT : InTypesOK r.schema r.env) (isNull : Bool) {base : InVal F → Input → E W (Bound F)} {cur : InVal F} {inp : Input}
    (hk : Known r.schema r.env inp) (hs : Shaped r.schema.inTypes inp cur)
    (hb : ∀ c i, Known r.schema r.env i → Shaped r.schema.inTypes i c → BOK r i (base c i)) :
    BOK r inp (ptrBind r isNull base cur inp) := by
  induction inp generalizing cur with
  | ptr e ih =>
    unfold ptrBind
    by_cases hn : isNull = true
    · rw [if_pos hn]; exact .pure hs
    · rw [if_neg hn]
      refine (ih (cur := zeroOf r.env r.schema.inTypes e) hk (shaped_zero hT hk)).bind ?_
      rintro (_ | ⟨v, _ | _⟩) ha
      · exact .pure trivial
      · exact .pure hs
      · exact .pure (.other (by intro n h; cases h))
  | _ => exact hb _ _ hk hs

theorem setE_total {inp : Input} {b : B (InVal F)} (hb : b ≠ .panic) (h : ∀ x, b = .ok x → Shaped r.schema.inTypes inp x) :
    BOK r inp (setE path b) := by
  unfold setE
  refine (Total.convert hb h).bind ?_
  intro a ha
  cases a with
  | none => exact .pure trivial
  | some a => exact .pure ha

mutual
theorem bindLitBase_total (hT : InTypesOK r.schema r.env) {onVar : Bytes → InVal F → Input → E W (Bound F)}
    (hv : ∀ n c i, Known r.schema r.env i → Shaped r.schema.inTypes i c → BOK r i (onVar n c i))
    (v : Value) (cur : InVal F) (inp : Input) (hk : Known r.schema r.env inp) (hs : Shaped r.schema.inTypes inp cur) :
    BOK r inp (bindLitBase r path onVar v cur inp) := by
  have ns : ∀ (b : B (InVal F)), b ≠ .panic → (∀ n, inp = .struct n → ∃ e, b = .err e) → BOK r inp (setE path b) := by
    intro b h1 h2
    refine setE_total path h1 ?_
    intro x hx
    cases inp with
    | struct n => obtain ⟨e, he⟩ := h2 n rfl; rw [he] at hx; cases hx
    | _ => exact .other (by intro n h; cases h)
  cases v with
  | var n => unfold bindLitBase; exact hv n cur inp hk hs
  | int d => unfold bindLitBase; exact ns _ assignInt_np (by rintro n rfl; exact ⟨_, rfl⟩)
  | float d => unfold bindLitBase; exact ns _ assignFloat_np (by rintro n rfl; exact ⟨_, rfl⟩)
  | str s => unfold bindLitBase; exact ns _ (assignString_np hk) (by rintro n rfl; exact ⟨_, rfl⟩)
  | bool b => unfold bindLitBase; exact ns _ assignBool_np (by rintro n rfl; exact ⟨_, rfl⟩)
  | null => unfold bindLitBase; exact .pure hs
  | enum n => unfold bindLitBase; exact ns _ (assignEnumLit_np hk) (by rintro n rfl; exact ⟨_, rfl⟩)
  | list vs =>
    unfold bindLitBase
    cases inp with
    | slice e =>
      dsimp only
      refine (bindItems_total hT hv vs e hk).bind ?_
      intro a _
      cases a with
      | none => exact .pure trivial
      | some xs => exact .pure (.other (by intro n h; cases h))
    | _ => exact .fail
  | obj fs =>
    unfold bindLitBase
    cases inp with
    | struct n =>
      dsimp only
      cases hl : lookup r.schema.inTypes n with
      | none => unfold Known at hk; rw [hl] at hk; cases hk
      | some d => exact bindMembers_total hT hv fs n d (cur, true) hl hs
    | time =>
      dsimp only
      cases fs with
      | nil => unfold bindMembers; exact .pure hs
      | cons m ms => obtain ⟨k, v⟩ := m; unfold bindMembers; exact .fail
    | _ => exact .fail
theorem bindItems_total (hT : InTypesOK r.schema r.env) {onVar : Bytes → InVal F → Input → E W (Bound F)}
    (hv : ∀ n c i, Known r.schema r.env i → Shaped r.schema.inTypes i c → BOK r i (onVar n c i))
    (vs : List Value) (e : Input) (hk : Known r.schema r.env e) : Total (bindItems r path onVar vs e) (fun _ => True) := by
  cases vs with
  | nil => unfold bindItems; exact .pure trivial
  | cons v vs =>
    unfold bindItems
    refine (ptrBind_total hT (isNullLit v) hk (shaped_zero hT hk) (fun c i h1 h2 => bindLitBase_total hT hv v c i h1 h2)).bind ?_
    intro a _
    cases a with
    | none => exact .pure trivial
    | some x =>
      dsimp only
      refine (bindItems_total hT hv vs e hk).bind ?_
      intro a _
      cases a with
      | none => exact .pure trivial
      | some xs => exact .pure trivial
theorem bindMembers_total (hT : InTypesOK r.schema r.env) {onVar : Bytes → InVal F → Input → E W (Bound F)}
    (hv : ∀ n c i, Known r.schema r.env i → Shaped r.schema.inTypes i c → BOK r i (onVar n c i))
    (ms : List (Bytes × Value)) (n : Bytes) (d : InStruct F) (acc : InVal F × Bool) (hl : lookup r.schema.inTypes n = some d)
    (hs : Shaped r.schema.inTypes (.struct n) acc.1) : BOK r (.struct n) (bindMembers r path onVar ms d.fields acc) := by
  cases ms with
  | nil => unfold bindMembers; exact .pure hs
  | cons m ms =>
    obtain ⟨k, v⟩ := m
    unfold bindMembers
    cases hf : d.fields.find? (fun f => decide (f.key = k)) with
    | none => exact .fail
    | some f =>
      dsimp only
      have hm := List.mem_of_find?_eq_some hf
      obtain ⟨c, hc, hcs⟩ := shaped_get hl hs hm
      rw [hc]
      dsimp only
      refine (ptrBind_total hT (isNullLit v) ((hT n d hl).1 f hm) hcs (fun c i h1 h2 => bindLitBase_total hT hv v c i h1 h2)).bind ?_
      intro a ha
      cases a with
      | none => exact .pure trivial
      | some p => exact bindMembers_total hT hv ms n d _ hl (shaped_set (c := c) hT hl hs hm ha)
end

theorem bindLit_total (hT : InTypesOK r.schema r.env) {onVar : Bytes → InVal F → Input → E W (Bound F)}
    (hv : ∀ n c i, Known r.schema r.env i → Shaped r.schema.inTypes i c → BOK r i (onVar n c i))
    (v : Value) (cur : InVal F) (inp : Input) (hk : Known r.schema r.env inp) (hs : Shaped r.schema.inTypes inp cur) :
    BOK r inp (bindLit r path onVar v cur inp) :=
  ptrBind_total hT (isNullLit v) hk hs (fun c i h1 h2 => bindLitBase_total path hT hv v c i h1 h2)

theorem known_elem {e : Input} (h : Known r.schema r.env (.slice e)) : Known r.schema r.env e := h

theorem checkDeclared_total (name : Bytes) (t : Ty) (inp : Input) (hk : Known r.schema r.env inp) :
    Total (checkDeclared r path name t inp) (fun _ => True) := by
  induction t generalizing inp with
  | named n nn =>
    unfold checkDeclared
    exact (Total.convert (checkVarType_np hk) (fun _ _ => trivial)).mono (fun _ _ => trivial)
  | list t nn ih =>
    cases inp with
    | slice e => unfold checkDeclared; exact ih e hk
    | _ => unfold checkDeclared; exact (Total.fail (P := fun _ => True)).mono (fun _ _ => trivial)

theorem suppliedValue_total (name : Bytes) : Total (suppliedValue r path name) (fun _ => True) := by
  intro es
  unfold suppliedValue
  by_cases hv : es.varsParsed = true
  · exact ⟨_, es, E_bind.2 ⟨es.varsParsed, es, rfl, by rw [if_pos hv]; rfl⟩, trivial⟩
  · cases hs : r.vars with
    | empty => exact ⟨_, es, E_bind.2 ⟨es.varsParsed, es, rfl, by rw [if_neg hv]; rfl⟩, trivial⟩
    | invalid m => exact ⟨_, _, E_bind.2 ⟨es.varsParsed, es, rfl, by rw [if_neg hv]; rfl⟩, trivial⟩
    | json j =>
      cases j with
      | obj ms => exact ⟨_, _, E_bind.2 ⟨es.varsParsed, es, rfl, by rw [if_neg hv]; rfl⟩, trivial⟩
      | _ => exact ⟨_, _, E_bind.2 ⟨es.varsParsed, es, rfl, by rw [if_neg hv]; rfl⟩, trivial⟩

theorem bindVar_total (hT : InTypesOK r.schema r.env) (name : Bytes) (cur : InVal F) (inp : Input) (hk : Known r.schema r.env inp)
    (hs : Shaped r.schema.inTypes inp cur) : BOK r inp (bindVar r path name cur inp) := by
  unfold bindVar
  cases hd : r.decls.find? (fun d => decide (d.name = name)) with
  | none => exact .fail
  | some d =>
    dsimp only
    refine (checkDeclared_total path name d.ty inp hk).bind ?_
    intro a _
    cases a with
    | none => exact .pure trivial
    | some u =>
      dsimp only
      refine (suppliedValue_total path name).bind ?_
      rintro (_ | _ | j) _
      · exact .pure trivial
      · dsimp only
        cases d.default with
        | none => exact .fail
        | some v => exact bindLit_total path hT (fun n c i _ _ => .fail) v cur inp hk hs
      · obtain ⟨h1, h2⟩ := bindJSON_ok hT j inp cur hk hs
        exact .convert h1 h2

theorem bindArgs_total (hT : InTypesOK r.schema r.env) (m : Method F) (hm : MethodOK r.schema r.env m) (args : List (Bytes × Value))
    (inputs : List (Arg F)) (hi : InputsOK r.schema m inputs) : Total (bindArgs r path m args inputs) (Opt (InputsOK r.schema m)) := by
  induction args generalizing inputs with
  | nil => unfold bindArgs; exact .pure hi
  | cons p rest ih =>
    obtain ⟨k, v⟩ := p
    unfold bindArgs
    cases ha : m.inFields.find? (fun a => decide (a.key = k)) with
    | none => exact .fail
    | some a =>
      dsimp only
      have hmem := List.mem_of_find?_eq_some ha
      obtain ⟨vs, c, h1, h2, h3⟩ := hi.2 a hmem
      have hf : argField inputs a = some c := by
        unfold argField
        rw [h1]
        exact h2
      rw [hf]
      dsimp only
      refine (bindLit_total path hT (fun n c i h1 h2 => bindVar_total path hT n c i h1 h2) v c a.input (hm.known a hmem) h3).bind ?_
      intro x hx
      cases x with
      | none => exact .pure trivial
      | some p =>
        dsimp only
        refine ih _ ?_
        have e : setArgField inputs a p.1 = inputs.set a.inputIdx (.val (.struct (vs.set a.goFieldIdx p.1))) := by
          unfold setArgField
          rw [h1]
          rfl
        rw [e]
        have hlt : a.inputIdx < inputs.length := (List.getElem?_eq_some_iff.1 h1).1
        have hlt2 : a.goFieldIdx < vs.length := (List.getElem?_eq_some_iff.1 h2).1
        refine ⟨by rw [List.length_set]; exact hi.1, ?_⟩
        intro b hb
        obtain ⟨ws, d, k1, k2, k3⟩ := hi.2 b hb
        by_cases hab : b.inputIdx = a.inputIdx
        · rw [hab, h1] at k1
          cases k1
          refine ⟨vs.set a.goFieldIdx p.1, ?_⟩
          by_cases hg : b.goFieldIdx = a.goFieldIdx
          · refine ⟨p.1, by rw [hab, List.getElem?_set_self hlt], by rw [hg, List.getElem?_set_self hlt2], ?_⟩
            rw [hm.slots b hb a hmem hab hg]
            exact hx
          · exact ⟨d, by rw [hab, List.getElem?_set_self hlt], by rw [List.getElem?_set_ne (Ne.symm hg)]; exact k2, k3⟩
        · exact ⟨ws, d, by rw [List.getElem?_set_ne (Ne.symm hab)]; exact k1, k2, k3⟩

end
end Typed
end Yarql
