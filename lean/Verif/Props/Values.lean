import Verif.Props.Respond

/-!
# Values in responses: C43, C44

What stands where in a response without errors: every value in it, at whatever depth, comes from a Go value of some type (`Origin`).
-/

namespace Yarql
open Doc Resolver Eval Typed Yarql.Bind

section
variable {F V W : Type}

/-- Where the value at path `p` of the response comes from: a Go value `v` of type `o` seen in the world `w`, or `__typename` of an object type. -/
inductive Origin (c : Shows.Ctx F V W) (p : List Seg) (x : Out) : Prop where
  | value (w : W) (o : Obj F) (v : V) (args : Option (List (Bytes × Value))) (sels : List Sel) (w' : W) :
      Shows.Shows c w o v p args sels x w' → Origin c p x
  | typename (t : RType F V) : x = .leaf (Shows.quoted t.typeName) → Origin c p x

variable {c : Shows.Ctx F V W}

/-- if everything below `x` has an origin, so has `x` -/
theorem origin_of {w o v p args sels x w'} (h : Shows.Shows c w o v p args sels x w')
    (hb : ∀ {q y}, q ≠ [] → At x q y → Origin c (p ++ q) y) {q y} (ha : At x q y) : Origin c (p ++ q) y := by
  by_cases hq : q = []
  · subst hq
    cases ha
    rw [List.append_nil]
    exact .value _ _ _ _ _ _ h
  · exact hb hq ha

mutual
theorem shows_below {w o v p args sels out w'} (h : Shows.Shows c w o v p args sels out w') :
    ∀ {q y}, q ≠ [] → At out q y → Origin c (p ++ q) y := by
  match h with
  | .ptr hv hs => intro q y hq ha; exact shows_below hs hq ha
  | .interface h1 h2 h3 hs => intro q y hq ha; exact shows_below hs hq ha
  | .call h1 h2 h3 h4 h5 h6 hs => intro q y hq ha; exact shows_below hs hq ha
  | .object hs ht hm =>
    intro q y hq ha
    cases ha with
    | here => exact absurd rfl hq
    | key hk ha =>
      have := selects_origin hm hk ha
      rw [List.append_assoc] at this
      exact this
  | .list hv he =>
    intro q y hq ha
    cases ha with
    | here => exact absurd rfl hq
    | idx hk ha =>
      have := elems_origin he hk ha
      rw [Nat.zero_add, List.append_assoc] at this
      exact this
  | .undefined  => intro q y hq ha; cases ha; exact absurd rfl hq
  | .nilList _ => intro q y hq ha; cases ha; exact absurd rfl hq
  | .nilPtr _ _ => intro q y hq ha; cases ha; exact absurd rfl hq
  | .noObject _ _ => intro q y hq ha; cases ha; exact absurd rfl hq
  | .scalar _ _ => intro q y hq ha; cases ha; exact absurd rfl hq
  | .enum _ _ _ _ _ => intro q y hq ha; cases ha; exact absurd rfl hq
  | .noEnum _ _ _ => intro q y hq ha; cases ha; exact absurd rfl hq
  | .time _ _ => intro q y hq ha; cases ha; exact absurd rfl hq
  | .noTime _ => intro q y hq ha; cases ha; exact absurd rfl hq
  | .noInterface _ _ => intro q y hq ha; cases ha; exact absurd rfl hq
  | .nilInterface _ _ _ => intro q y hq ha; cases ha; exact absurd rfl hq
  | .unregistered _ _ _ _ => intro q y hq ha; cases ha; exact absurd rfl hq
  | .nilFunc _ _ => intro q y hq ha; cases ha; exact absurd rfl hq
theorem elems_origin {o p sels w i vs os w'} (h : Shows.Elems c o p sels w i vs os w') :
    ∀ {k x q y}, os[k]? = some x → At x q y → Origin c (p ++ [.idx (i + k)] ++ q) y := by
  match h with
  | .nil => intro k x q y hk _; simp at hk
  | .cons hs he =>
    intro k x q y hk ha
    cases k with
    | zero =>
      rw [List.getElem?_cons_zero] at hk
      cases hk
      exact origin_of hs (shows_below hs) ha
    | succ k =>
      rw [List.getElem?_cons_succ] at hk
      have := elems_origin he hk ha
      rw [show i + 1 + k = i + (k + 1) by omega] at this
      exact this
theorem selects_origin {t v p w sels ms w'} (h : Shows.Selects c t v p w sels ms w') :
    ∀ {k x q y}, (k, x) ∈ ms → At x q y → Origin c (p ++ [.key k] ++ q) y := by
  match h with
  | .nil => intro k x q y hk _; cases hk
  | .field _ _ _ hs hr =>
    intro k x q y hk ha
    rcases List.mem_cons.1 hk with e | hk
    · cases e; exact origin_of hs (shows_below hs) ha
    · exact selects_origin hr hk ha
  | .typename (t := t) _ _ _ hr =>
    intro k x q y hk ha
    rcases List.mem_cons.1 hk with e | hk
    · cases e; cases ha; exact .typename t rfl
    · exact selects_origin hr hk ha
  | .skipField _ hr => intro k x q y hk ha; exact selects_origin hr hk ha
  | .spread _ _ _ h1 h2 =>
    intro k x q y hk ha
    rcases List.mem_append.1 hk with hk | hk
    · exact selects_origin h1 hk ha
    · exact selects_origin h2 hk ha
  | .spreadOther _ _ _ hr => intro k x q y hk ha; exact selects_origin hr hk ha
  | .skipSpread _ hr => intro k x q y hk ha; exact selects_origin hr hk ha
  | .inline _ _ h1 h2 =>
    intro k x q y hk ha
    rcases List.mem_append.1 hk with hk | hk
    · exact selects_origin h1 hk ha
    · exact selects_origin h2 hk ha
  | .inlineOther _ _ hr => intro k x q y hk ha; exact selects_origin hr hk ha
  | .skipInline _ hr => intro k x q y hk ha; exact selects_origin hr hk ha
end

/-! ## C43 -/

/-- What is written as null: nil, or a value of a type or with a name that is not registered. -/
inductive Nullish (c : Shows.Ctx F V W) (w : W) : Obj F → V → Prop where
  | nilList {o v} : c.env.view w v = .seq none → Nullish c w (.array o) v
  | nilPtr {o v} : c.env.view w v = .ptr none → Nullish c w (.ptr o) v
  | nilFunc {m o v} : m.isTypeMethod = false → c.env.view w v = .func true → Nullish c w (.method m o) v
  | nilInterface {n impls v} : lookup c.schema.interfaces n = some impls → c.env.view w v = .iface none → Nullish c w (.interfaceRef n) v
  | unregistered {n impls v goName goPkg x} : lookup c.schema.interfaces n = some impls → c.env.view w v = .iface (some (goName, goPkg, x)) →
      (∀ i ∈ impls, ¬ (i.goTypeName = goName ∧ i.goPkgPath = goPkg)) → Nullish c w (.interfaceRef n) v
  | noEnumKey {i e v x} : c.schema.enums[i]? = some e → c.env.view w v = .scalar x →
      ((∀ y ∈ e.entries, y.2 ≠ x) ∨ e.kind = .bool ∨ e.kind = .float32 ∨ e.kind = .float64) → Nullish c w (.enum i) v
  | noTime {v} : (∀ t, c.env.view w v ≠ .time t) → Nullish c w .time v
  | noType {n v} : lookup c.schema.types n = none → Nullish c w (.objRef n) v
  | noInterface {n v} : lookup c.schema.interfaces n = none → Nullish c w (.interfaceRef n) v
  | undefined {v} : Nullish c w .undefined v

/-- a null-able value is shown as null, whatever is selected from it -/
theorem nullish_shown {w o v p args sels x w'} (h : Shows.Shows c w o v p args sels x w') (hn : Nullish c w o v) : x = .null := by
  cases hn with
  | nilList hv => cases h with
    | nilList _ => rfl
    | list hv' _ => rw [hv] at hv'; cases hv'
  | nilPtr hv => cases h with
    | nilPtr _ _ => rfl
    | ptr hv' _ => rw [hv] at hv'; cases hv'
  | nilFunc hm hv => cases h with
    | nilFunc _ _ => rfl
    | call h1 _ _ _ _ _ _ =>
      rcases h1 with h1 | h1
      · rw [hm] at h1; cases h1
      · rw [hv] at h1; cases h1
  | nilInterface hl hv => cases h with
    | noInterface _ _ => rfl
    | nilInterface _ _ _ => rfl
    | interface _ hv' _ _ => rw [hv] at hv'; cases hv'
    | unregistered _ _ _ _ => rfl
  | unregistered hl hv hi => cases h with
    | noInterface _ _ => rfl
    | nilInterface _ _ _ => rfl
    | interface hl' hv' hi' _ =>
      rw [hl] at hl'; cases hl'
      rw [hv] at hv'; cases hv'
      have h1 := List.mem_of_find?_eq_some hi'
      have h2 := List.find?_some hi'
      exact absurd (of_decide_eq_true h2) (hi _ h1)
    | unregistered _ _ _ _ => rfl
  | noEnumKey he hv hk => cases h with
    | enum he' hv' hkind hent hpre =>
      rw [he] at he'; cases he'
      rw [hv] at hv'; cases hv'
      rcases hk with hk | hk | hk | hk
      · exact absurd rfl (hk (_, _) (by rw [hent]; exact List.mem_append_right _ (List.mem_cons_self ..)))
      · exact absurd hk hkind.1
      · exact absurd hk hkind.2.1
      · exact absurd hk hkind.2.2
    | noEnum _ _ _ => rfl
  | noTime ht => cases h with
    | time hv => exact absurd hv (ht _)
    | noTime _ => rfl
  | noType hl => cases h with
    | object _ hl' _ => rw [hl] at hl'; cases hl'
    | noObject _ _ => rfl
  | noInterface hl => cases h with
    | noInterface _ _ => rfl
    | nilInterface _ _ _ => rfl
    | interface hl' _ _ _ => rw [hl] at hl'; cases hl'
    | unregistered _ _ _ _ => rfl
  | undefined => cases h; rfl

/-- null comes from a null-able value at the same place -/
theorem null_shown' {w o v p args sels x w'} (h : Shows.Shows c w o v p args sels x w') : x = .null → Nullish c w o v ∨
    ∃ w1 o1 v1 args1 sels1 w2, Shows.Shows c w1 o1 v1 p args1 sels1 .null w2 ∧ Nullish c w1 o1 v1 := by
  match h with
  | .ptr _ hs =>
    intro hx
    rcases null_shown' hs hx with h | h
    · exact Or.inr ⟨_, _, _, _, _, _, hx ▸ hs, h⟩
    · exact Or.inr h
  | .interface _ _ _ hs =>
    intro hx
    rcases null_shown' hs hx with h | h
    · exact Or.inr ⟨_, _, _, _, _, _, hx ▸ hs, h⟩
    · exact Or.inr h
  | .call _ _ _ _ _ _ hs =>
    intro hx
    rcases null_shown' hs hx with h | h
    · exact Or.inr ⟨_, _, _, _, _, _, hx ▸ hs, h⟩
    · exact Or.inr h
  | .list _ _ => intro hx; cases hx
  | .object _ _ _ => intro hx; cases hx
  | .scalar _ _ => intro hx; cases hx
  | .enum _ _ _ _ _ => intro hx; cases hx
  | .time _ _ => intro hx; cases hx
  | .undefined => exact fun _ => Or.inl .undefined
  | .nilList hv => exact fun _ => Or.inl (.nilList hv)
  | .nilPtr hv _ => exact fun _ => Or.inl (.nilPtr hv)
  | .noObject _ hl => exact fun _ => Or.inl (.noType hl)
  | .noEnum h1 h2 h3 => exact fun _ => Or.inl (.noEnumKey h1 h2 h3)
  | .noTime h1 => exact fun _ => Or.inl (.noTime h1)
  | .noInterface _ hl => exact fun _ => Or.inl (.noInterface hl)
  | .nilInterface _ h2 h3 => exact fun _ => Or.inl (.nilInterface h2 h3)
  | .unregistered _ h2 h3 h4 => exact fun _ => Or.inl (.unregistered h2 h3 h4)
  | .nilFunc h1 h2 => exact fun _ => Or.inl (.nilFunc h1 h2)

theorem null_shown {w o v p args sels x w'} (h : Shows.Shows c w o v p args sels x w') (hx : x = .null) :
    ∃ w1 o1 v1 args1 sels1 w2, Shows.Shows c w1 o1 v1 p args1 sels1 .null w2 ∧ Nullish c w1 o1 v1 := by
  rcases null_shown' h hx with h' | h'
  · exact ⟨_, _, _, _, _, _, hx ▸ h, h'⟩
  · exact h'

theorem elems_get {o p sels w i vs os w'} (h : Shows.Elems c o p sels w i vs os w') : os.length = vs.length ∧
    ∀ k v, vs[k]? = some v → ∃ w1 x w2, os[k]? = some x ∧ Shows.Shows c w1 o v (p ++ [.idx (i + k)]) none sels x w2 := by
  match h with
  | .nil => exact ⟨rfl, fun k v hv => by simp at hv⟩
  | .cons hs he =>
    obtain ⟨h1, h2⟩ := elems_get he
    refine ⟨by simp [h1], ?_⟩
    intro k v hv
    cases k with
    | zero =>
      rw [List.getElem?_cons_zero] at hv
      cases hv
      exact ⟨_, _, _, rfl, hs⟩
    | succ k =>
      rw [List.getElem?_cons_succ] at hv
      obtain ⟨w1, x, w2, k1, k2⟩ := h2 k v hv
      exact ⟨w1, x, w2, k1, by rw [show i + (k + 1) = i + 1 + k by omega]; exact k2⟩

/-- What is known about the Go value behind the value `x` at path `p` of a response. -/
structure Faithful (c : Shows.Ctx F V W) (w : W) (o : Obj F) (v : V) (p : List Seg) (x : Out) : Prop where
  /-- nil and unregistered values are null -/
  null : Nullish c w o v → x = .null
  /-- lists: one entry per element, in order -/
  list : ∀ e vs, o = .array e → c.env.view w v = .seq (some vs) → ∃ os, x = .list os ∧ os.length = vs.length ∧
    ∀ (i : Nat) y, vs[i]? = some y → ∃ w1 z, os[i]? = some z ∧ ∃ sels w2, Shows.Shows c w1 e y (p ++ [.idx i]) none sels z w2
  /-- numeric IDs are quoted, other numbers are not -/
  int : ∀ isID wd i, o = .data isID (.int wd) → c.env.view w v = .scalar (.int i) →
    ∃ t, Shows.IntCanon t i ∧ x = .leaf (if isID then Shows.quoted t else t)
  uint : ∀ isID wd n, o = .data isID (.uint wd) → c.env.view w v = .scalar (.uint n) →
    ∃ t, Shows.NatCanon t n ∧ x = .leaf (if isID then Shows.quoted t else t)
  bool : ∀ b, o = .data false .bool → c.env.view w v = .scalar (.bool b) → x = .leaf (if b then b%"true" else b%"false")
  string : ∀ isID s, o = .data isID .string → c.env.view w v = .scalar (.string s) → ∃ t cs, Utf8.Reads s cs ∧ Json.JString t cs ∧ x = .leaf t
  /-- an interface value is shown as its registered implementation -/
  interface : ∀ n impls goName goPkg y i, o = .interfaceRef n → lookup c.schema.interfaces n = some impls →
    c.env.view w v = .iface (some (goName, goPkg, y)) → impls.find? (fun i => i.goTypeName = goName ∧ i.goPkgPath = goPkg) = some i →
    ∃ sels w2, Shows.Shows c w (.objRef i.typeName) y p none sels x w2

theorem shows_faithful {w o v p args sels x w'} (h : Shows.Shows c w o v p args sels x w') : Faithful c w o v p x where
  null := nullish_shown h
  list := by
    intro e vs ho hv
    subst ho
    cases h with
    | nilList hv' => rw [hv] at hv'; cases hv'
    | list hv' he =>
      rw [hv] at hv'
      cases hv'
      obtain ⟨h1, h2⟩ := elems_get he
      refine ⟨_, rfl, h1, ?_⟩
      intro i y hy
      obtain ⟨w1, z, w2, k1, k2⟩ := h2 i y hy
      rw [Nat.zero_add] at k2
      exact ⟨w1, z, k1, sels, w2, k2⟩
  int := by
    intro isID wd i ho hv
    subst ho
    cases h with
    | scalar hv' hs =>
      rw [hv] at hv'
      cases hv'
      cases hs with
      | plain hor ht =>
        cases ht with
        | int hc =>
          rcases hor with rfl | hor
          · exact ⟨_, hc, rfl⟩
          · cases hor
      | id _ ht => cases ht with | int hc => exact ⟨_, hc, rfl⟩
  uint := by
    intro isID wd n ho hv
    subst ho
    cases h with
    | scalar hv' hs =>
      rw [hv] at hv'
      cases hv'
      cases hs with
      | plain hor ht =>
        cases ht with
        | uint hc =>
          rcases hor with rfl | hor
          · exact ⟨_, hc, rfl⟩
          · cases hor
      | id _ ht => cases ht with | uint hc => exact ⟨_, hc, rfl⟩
  bool := by
    intro b ho hv
    subst ho
    cases h with
    | scalar hv' hs =>
      rw [hv] at hv'
      cases hv'
      cases hs with
      | plain hor ht => cases ht <;> rfl
  string := by
    intro isID s ho hv
    subst ho
    cases h with
    | scalar hv' hs =>
      rw [hv] at hv'
      cases hv'
      cases hs with
      | plain hor ht => cases ht with | string h1 h2 => exact ⟨_, _, h1, h2, rfl⟩
      | id hne _ => exact absurd rfl hne
  interface := by
    intro n impls goName goPkg y i ho hl hv hi
    subst ho
    cases h with
    | noInterface _ hl' => rw [hl] at hl'; cases hl'
    | nilInterface _ hl' hv' => rw [hv] at hv'; cases hv'
    | interface hl' hv' hi' hs =>
      rw [hl] at hl'; cases hl'
      rw [hv] at hv'; cases hv'
      rw [hi] at hi'; cases hi'
      exact ⟨_, _, hs⟩
    | unregistered _ hl' hv' hno =>
      rw [hl] at hl'; cases hl'
      rw [hv] at hv'; cases hv'
      have h2 := List.find?_some hi
      exact absurd (of_decide_eq_true h2) (hno _ (List.mem_of_find?_eq_some hi))

variable [DecidableEq F]

/-- **C43.** In a response without errors, every value below the root comes from a Go value that it shows faithfully (or is a `__typename`):
nil pointers, lists, functions and interfaces are null; lists have one entry per element in order; IDs are quoted. And null stands
only where there is such a value. -/
theorem C43_values_partial (schema : RSchema F V) (env : Env F V W) (T : Obj F → V → Prop) (w w' : W) (req : Request)
    (d : List Def) (o : Operation) (fuel : Nat) (vals : UInt8 → V) (body : Bytes)
    (hs : Serves req d o) (ht : WellTyped schema env T) (hf : Fits schema (fragmentsOf d) o)
    (h : resolve fuel schema env vals w req = .ok (body, []) w') :
    ∃ out, body = envelope req.noMeta (print out) [] ∧ ∀ p x, p ≠ [] → At out p x →
      ((∃ t : RType F V, x = .leaf (Shows.quoted t.typeName)) ∨
        ∃ w1 o1 v1, Faithful (showCtx schema env req d o) w1 o1 v1 p x) ∧
      (x = .null → ∃ w1 o1 v1 args sels w2, Shows.Shows (showCtx schema env req d o) w1 o1 v1 p args sels .null w2 ∧
        Nullish (showCtx schema env req d o) w1 o1 v1) := by
  obtain ⟨out, h1, h2⟩ := C16_response_mirrors_selection_partial schema env T w w' req d o fuel vals body hs ht hf h
  refine ⟨out, h2, ?_⟩
  intro p x hp ha
  have ho : Origin (showCtx schema env req d o) p x := by
    have hsel : ∃ t v ms, out = .obj ms ∧ Shows.Selects (showCtx schema env req d o) t v [] w o.sels ms w' := by
      cases h1 with
      | query _ _ h => exact ⟨_, _, _, rfl, h⟩
      | mutation _ _ h => exact ⟨_, _, _, rfl, h⟩
    obtain ⟨t, v, ms, rfl, hsel⟩ := hsel
    cases ha with
    | here => exact absurd rfl hp
    | key hk ha =>
      have := selects_origin hsel hk ha
      exact this
  cases ho with
  | value w1 o1 v1 args sels w2 hs => exact ⟨Or.inr ⟨w1, o1, v1, shows_faithful hs⟩, null_shown hs⟩
  | typename t e => exact ⟨Or.inl ⟨t, e⟩, fun h => by rw [e] at h; cases h⟩

/-! ## C44 -/

omit [DecidableEq F] in
/-- an object in a response is the selection from a Go value of a registered object type -/
theorem object_shown {w o v p args sels x w'} (h : Shows.Shows c w o v p args sels x w') : ∀ ms, x = .obj ms →
    ∃ w1 n t v1 sels1 w2, lookup c.schema.types n = some t ∧ Shows.Selects c t v1 p w1 sels1 ms w2 := by
  match h with
  | .ptr _ hs => exact object_shown hs
  | .interface _ _ _ hs => exact object_shown hs
  | .call _ _ _ _ _ _ hs => exact object_shown hs
  | .object _ ht hm => intro ms hx; cases hx; exact ⟨_, _, _, _, _, _, ht, hm⟩
  | .list _ _ => intro ms hx; cases hx
  | .scalar _ _ => intro ms hx; cases hx
  | .enum _ _ _ _ _ => intro ms hx; cases hx
  | .time _ _ => intro ms hx; cases hx
  | .undefined => intro ms hx; cases hx
  | .nilList hv => intro ms hx; cases hx
  | .nilPtr hv _ => intro ms hx; cases hx
  | .noObject _ hl => intro ms hx; cases hx
  | .noEnum h1 h2 h3 => intro ms hx; cases hx
  | .noTime h1 => intro ms hx; cases hx
  | .noInterface _ hl => intro ms hx; cases hx
  | .nilInterface _ h2 h3 => intro ms hx; cases hx
  | .unregistered _ h2 h3 h4 => intro ms hx; cases hx
  | .nilFunc h1 h2 => intro ms hx; cases hx

omit [DecidableEq F] in
/-- `__typename` among the selections gives the name of the object type -/
theorem selects_typename {t v p w sels ms w'} (h : Shows.Selects c t v p w sels ms w')
    (hno : t.fields.find? (fun f => f.key = fnv1 b%"__typename") = none) {key name} (hn : Option.getD name key = b%"__typename") :
    Sel.field key name [] none [] ∈ sels → (key, Out.leaf (Shows.quoted t.typeName)) ∈ ms := by
  match h with
  | .nil => intro hm; cases hm
  | .field _ hf _ _ hr =>
    intro hm
    rcases List.mem_cons.1 hm with e | hm
    · cases e
      rw [hn, hno] at hf
      cases hf
    · exact List.mem_cons_of_mem _ (selects_typename hr hno hn hm)
  | .typename _ _ _ hr =>
    intro hm
    rcases List.mem_cons.1 hm with e | hm
    · cases e; exact List.mem_cons_self ..
    · exact List.mem_cons_of_mem _ (selects_typename hr hno hn hm)
  | .skipField hd hr =>
    intro hm
    rcases List.mem_cons.1 hm with e | hm
    · cases e; cases hd
    · exact selects_typename hr hno hn hm
  | .spread _ _ _ _ hr =>
    intro hm
    rcases List.mem_cons.1 hm with e | hm
    · cases e
    · exact List.mem_append_right _ (selects_typename hr hno hn hm)
  | .spreadOther _ _ _ hr =>
    intro hm
    rcases List.mem_cons.1 hm with e | hm
    · cases e
    · exact selects_typename hr hno hn hm
  | .skipSpread _ hr =>
    intro hm
    rcases List.mem_cons.1 hm with e | hm
    · cases e
    · exact selects_typename hr hno hn hm
  | .inline _ _ _ hr =>
    intro hm
    rcases List.mem_cons.1 hm with e | hm
    · cases e
    · exact List.mem_append_right _ (selects_typename hr hno hn hm)
  | .inlineOther _ _ hr =>
    intro hm
    rcases List.mem_cons.1 hm with e | hm
    · cases e
    · exact selects_typename hr hno hn hm
  | .skipInline _ hr =>
    intro hm
    rcases List.mem_cons.1 hm with e | hm
    · cases e
    · exact selects_typename hr hno hn hm

/-- **C44** (`__typename`). In a response without errors, every object is the selection `sels` from a value of an object type `t` (a root
type or a registered type; for interface values see `Faithful.interface` in C43: the type of the registered implementation), and
every `__typename` among `sels`, under whatever alias, yields the name of `t`. -/
theorem C44_typename_partial (schema : RSchema F V) (env : Env F V W) (T : Obj F → V → Prop) (w w' : W) (req : Request)
    (d : List Def) (o : Operation) (fuel : Nat) (vals : UInt8 → V) (body : Bytes)
    (hs : Serves req d o) (ht : WellTyped schema env T) (hf : Fits schema (fragmentsOf d) o)
    (h : resolve fuel schema env vals w req = .ok (body, []) w') :
    ∃ out, body = envelope req.noMeta (print out) [] ∧ ∀ p ms, At out p (.obj ms) → ∃ w1 t v sels w2,
      (t = schema.rootQuery ∨ t = schema.rootMethod ∨ ∃ n, lookup schema.types n = some t) ∧
      Shows.Selects (showCtx schema env req d o) t v p w1 sels ms w2 ∧
      (t.fields.find? (fun f => f.key = fnv1 b%"__typename") = none → ∀ key name, Option.getD name key = b%"__typename" →
        Sel.field key name [] none [] ∈ sels → (key, Out.leaf (Shows.quoted t.typeName)) ∈ ms) := by
  obtain ⟨out, h1, h2⟩ := C16_response_mirrors_selection_partial schema env T w w' req d o fuel vals body hs ht hf h
  refine ⟨out, h2, ?_⟩
  intro p ms ha
  have hsel : ∃ t v ms, (t = schema.rootQuery ∨ t = schema.rootMethod) ∧ out = .obj ms ∧
      Shows.Selects (showCtx schema env req d o) t v [] w o.sels ms w' := by
    cases h1 with
    | query _ _ h => exact ⟨_, _, _, Or.inl rfl, rfl, h⟩
    | mutation _ _ h => exact ⟨_, _, _, Or.inr rfl, rfl, h⟩
  obtain ⟨t, v, ms0, hroot, rfl, hsel⟩ := hsel
  cases ha with
  | here =>
    refine ⟨w, t, v, o.sels, w', ?_, hsel, fun hno key name hn hm => selects_typename hsel hno hn hm⟩
    rcases hroot with h | h
    · exact Or.inl h
    · exact Or.inr (Or.inl h)
  | key hk ha =>
    have ho : Origin (showCtx schema env req d o) _ _ := selects_origin hsel hk ha
    cases ho with
    | typename t e => cases e
    | value w1 o1 v1 args sels w2 hs =>
      obtain ⟨w3, n, t3, v3, sels3, w4, k1, k2⟩ := object_shown hs ms rfl
      exact ⟨w3, t3, v3, sels3, w4, Or.inr (Or.inr ⟨n, k1⟩), k2, fun hno key name hn hm => selects_typename k2 hno hn hm⟩

end

/-! ## Examples -/

namespace Demo

def opValues : Operation := query [f b%"friend" [f b%"friend" [f b%"name"], f b%"scores", f b%"pet" [f b%"__typename"]], f b%"scores",
  f b%"pet" [f b%"__typename"]]
def requestValues : Request := request b%"{friend{friend{name} scores pet{__typename}} scores pet{__typename}}"
theorem servesValues : Serves requestValues [.op opValues] opValues := Check.serves (by decide +kernel) rfl

/-- C43 and C44 apply to this request: it is answered without errors. -/
example : ask 300 requestValues = some (dataOnly
    b%"{\"friend\":{\"friend\":null,\"scores\":null,\"pet\":null},\"scores\":[1,-2],\"pet\":{\"__typename\":\"Dog\"}}", 0, 0) := by decide +kernel
example : Fits schema (fragmentsOf [.op opValues]) opValues := fits (by decide +kernel)

end Demo
end Yarql
