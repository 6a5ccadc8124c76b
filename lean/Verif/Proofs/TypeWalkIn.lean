import Verif.Proofs.TypeWalk

/-!
# The walk over the inputs of functions
-/

namespace Yarql
namespace TypeWalk
open GoTypes Naming

variable {F V W : Type}

/-- The table of `s'` extends that of `s`. -/
structure ExtI (s s' : InSt) : Prop where
  types : ∀ n e, lookup s.inTypes n = some e → ∃ e', lookup s'.inTypes n = some e' ∧ e'.src = e.src
  unknown : s.unknownInputs ≤ s'.unknownInputs

theorem ExtI.refl (s : InSt) : ExtI s s := ⟨fun _ e h => ⟨e, h, rfl⟩, Nat.le_refl _⟩

theorem ExtI.trans {a b c : InSt} (h1 : ExtI a b) (h2 : ExtI b c) : ExtI a c := by
  refine ⟨?_, Nat.le_trans h1.unknown h2.unknown⟩
  intro n e h
  obtain ⟨e1, l1, s1⟩ := h1.types n e h
  obtain ⟨e2, l2, s2⟩ := h2.types n e1 l1
  exact ⟨e2, l2, s2.trans s1⟩

theorem _root_.Yarql.GoTypes.StandsIn.mono {prog : Program F} {s s' : InSt} (h : ExtI s s') :
    ∀ {t id x}, StandsIn prog s t id x → StandsIn prog s' t id x := by
  intro t id x hs
  induction hs with
  | enum a b => exact .enum a b
  | scalar a b c => exact .scalar a b c
  | file a b => exact .file a b
  | ptr a b _ ih => exact .ptr a b ih
  | array a _ ih => exact .array a ih
  | slice a _ ih => exact .slice a ih
  | time a b => exact .time a b
  | struct a b c =>
    obtain ⟨e', l, hsrc⟩ := h.types _ _ b
    exact .struct a l (hsrc.trans c)

theorem fieldIn_mono {prog : Program F} {s s' : InSt} (h : ExtI s s') {fs key i x} (hf : FieldIn prog s fs key i x) :
    FieldIn prog s' fs key i x := by
  obtain ⟨gf, id, a, b, c, d⟩ := hf
  exact ⟨gf, id, a, b, c, d.mono h⟩

theorem _root_.Yarql.GoTypes.InFieldsOf.mono {prog : Program F} {s s' : InSt} (h : ExtI s s') {t fs} (hf : InFieldsOf prog s t fs) :
    InFieldsOf prog s' t fs :=
  ⟨fun f hm => (hf.sound f hm).imp fun _ hx => ⟨hx.1, fieldIn_mono h hx.2⟩, hf.complete, hf.unique⟩

section
variable (prog : Program F) (isType : Bytes → Bool)

structure InvI (s : InSt) : Prop where
  types : ∀ n e, lookup s.inTypes n = some e → (∃ fs, IsStruct prog e.src fs) ∧
    (((prog.get e.src).name ≠ [] ∧ n = inputName prog isType (prog.get e.src).name) ∨
     ((prog.get e.src).name = [] ∧ ∃ k, k ≤ s.unknownInputs ∧ n = unknownInput k))

structure PostI (s s' : InSt) : Prop where
  inv : InvI prog isType s'
  ext : ExtI s s'
  done : ∀ n e, lookup s'.inTypes n = some e → InFieldsOf prog s' e.src e.fields ∨ lookup s.inTypes n = some e

theorem PostI.refl {s : InSt} (h : InvI prog isType s) : PostI prog isType s s := ⟨h, .refl s, fun _ _ l => .inr l⟩

theorem PostI.trans {a b c : InSt} (h1 : PostI prog isType a b) (h2 : PostI prog isType b c) : PostI prog isType a c := by
  refine ⟨h2.inv, h1.ext.trans h2.ext, ?_⟩
  intro n e l
  rcases h2.done n e l with h | h
  · exact .inl h
  · rcases h1.done n e h with h | h
    · exact .inl (h.mono h2.ext)
    · exact .inr h

def GoodI (chk : Ty → Bool → M InSt Input) : Prop :=
  ∀ t id s x s', InvI prog isType s → chk t id s = .ok x s' → PostI prog isType s s' ∧ StandsIn prog s' t id x

end

section
variable {prog : Program F} {isType : Bytes → Bool}

theorem mem_inFieldSet {fs : List InField} {f g : InField} : g ∈ inFieldSet fs f ↔ g = f ∨ (g ∈ fs ∧ g.key ≠ f.key) := by
  simp [inFieldSet]

/-- fields found so far -/
structure AccI (prog : Program F) (s : InSt) (fields : List GoField) (i : Nat) (acc : List InField) : Prop where
  sound : ∀ f ∈ acc, FieldIn prog s fields f.key f.goFieldIdx f.input
  complete : ∀ n, FieldsUpTo fields i n → ∃ f ∈ acc, f.key = n
  unique : ∀ f ∈ acc, ∀ g ∈ acc, f.key = g.key → f = g

theorem walkInFields_good {chk : Ty → Bool → M InSt Input} (hg : GoodI prog isType chk) {fields : List GoField} :
    ∀ (fs : List GoField) (i : Nat) (acc : List InField) (s : InSt) (r : List InField) (s' : InSt),
    fields.drop i = fs → InvI prog isType s → AccI prog s fields i acc → walkInFields chk i fs acc s = .ok r s' →
    PostI prog isType s s' ∧ AccI prog s' fields fields.length r := by
  intro fs
  induction fs with
  | nil =>
    intro i acc s r s' hd hi ha h
    obtain ⟨rfl, rfl⟩ := pure_ok.1 h
    refine ⟨.refl _ _ hi, ha.sound, ?_, ha.unique⟩
    rintro n ⟨j, gf, id, hj, h1, h2, h3⟩
    exact ha.complete n ⟨j, gf, id, Nat.lt_of_lt_of_le hj (List.drop_eq_nil_iff.1 hd), h1, h2, h3⟩
  | cons f fs ih =>
    intro i acc s r s' hd hi ha h
    obtain ⟨hf, hd'⟩ := drop_step hd
    simp only [walkInFields] at h
    cases hem : f.embedded with
    | true =>
      rw [hem, if_pos rfl] at h
      refine ih (i + 1) acc s r s' hd' hi ⟨ha.sound, fun n hn => ha.complete n ?_, ha.unique⟩ h
      rcases hn.step hf with h | ⟨h, _⟩
      · exact h
      · rw [hem] at h; cases h
    | false =>
      rw [hem, if_neg (by simp)] at h
      cases hn : fieldName f.name f.tag with
      | err => rw [hn] at h; exact (fail_ok.1 h).elim
      | ignored =>
        rw [hn] at h; dsimp only at h
        refine ih (i + 1) acc s r s' hd' hi ⟨ha.sound, fun n hn' => ha.complete n ?_, ha.unique⟩ h
        rcases hn'.step hf with h | ⟨_, id, h⟩
        · exact h
        · rw [hn] at h; cases h
      | named ql isID =>
        rw [hn] at h; dsimp only at h
        obtain ⟨x, s1, h1, h⟩ := bind_ok.1 h
        obtain ⟨p1, st⟩ := hg _ _ _ _ _ hi h1
        obtain ⟨p2, a2⟩ := ih (i + 1) _ s1 r s' hd' p1.inv (by
          refine ⟨?_, ?_, ?_⟩
          · intro g hm
            rcases mem_inFieldSet.1 hm with rfl | ⟨hm, _⟩
            · exact ⟨f, isID, hf, hem, hn, st⟩
            · exact fieldIn_mono p1.ext (ha.sound g hm)
          · intro n hn'
            have : FieldsUpTo fields i n ∨ n = ql := by
              rcases hn'.step hf with h | ⟨_, id, h⟩
              · exact .inl h
              · rw [hn] at h; injection h with h1 h2; exact .inr h1.symm
            rcases this with h | rfl
            · obtain ⟨g, hm, hk⟩ := ha.complete n h
              by_cases e : g.key = ql
              · exact ⟨_, mem_inFieldSet.2 (.inl rfl), by rw [← hk, e]⟩
              · exact ⟨g, mem_inFieldSet.2 (.inr ⟨hm, e⟩), hk⟩
            · exact ⟨_, mem_inFieldSet.2 (.inl rfl), rfl⟩
          · intro a ha' b hb he
            rcases mem_inFieldSet.1 ha' with rfl | ⟨h1, h2⟩
            · rcases mem_inFieldSet.1 hb with rfl | ⟨h3, h4⟩
              · rfl
              · exact (h4 he.symm).elim
            · rcases mem_inFieldSet.1 hb with rfl | ⟨h3, h4⟩
              · exact (h2 he).elim
              · exact ha.unique a h1 b h3 he) h
        exact ⟨p1.trans _ _ p2, a2⟩

theorem unknownInput_inj {a b : Nat} (h : unknownInput a = unknownInput b) : a = b :=
  natDigits_injective (List.append_cancel_left h)

theorem inputName_inj (hd : Distinct prog) {t u : Ty} (ht : Named prog t) (hu : Named prog u)
    (h : inputName prog isType (prog.get t).name = inputName prog isType (prog.get u).name) : t = u := by
  unfold inputName at h
  by_cases h1 : isType (qlName prog (prog.get t).name) = true
  · rw [if_pos h1] at h
    by_cases h2 : isType (qlName prog (prog.get u).name) = true
    · rw [if_pos h2] at h
      exact hd.structs t u ht hu (List.append_cancel_right h)
    · rw [if_neg h2] at h
      exact absurd h.symm (hd.notInput u t hu ht)
  · rw [if_neg h1] at h
    by_cases h2 : isType (qlName prog (prog.get u).name) = true
    · rw [if_pos h2] at h
      exact absurd h (hd.notInput t u ht hu)
    · rw [if_neg h2] at h
      exact hd.structs t u ht hu h

theorem inputName_ne (hd : Distinct prog) {t : Ty} (ht : Named prog t) (k : Nat) :
    inputName prog isType (prog.get t).name ≠ unknownInput k := by
  unfold inputName
  by_cases h1 : isType (qlName prog (prog.get t).name) = true
  · rw [if_pos h1]
    intro h
    have e := congrArg List.getLast? h
    unfold unknownInput at e
    rw [List.getLast?_append, List.getLast?_append] at e
    cases hg : (natDigits k).getLast? with
    | none => exact natDigits_ne_nil k (List.getLast?_eq_none_iff.1 hg)
    | some b =>
      rw [hg] at e
      have hb := natDigits_digits k b (List.mem_of_getLast? hg)
      have : b = c%'t' := by
        have : (b%"__input").getLast? = some c%'t' := rfl
        rw [this] at e
        simpa using e.symm
      rw [this] at hb
      exact absurd hb (by decide)
  · rw [if_neg h1]
    exact (hd.notUnknown t ht k).2

theorem setIn_inv {s : InSt} {t : Ty} {n : Bytes} {fields : List GoField} (hst : IsStruct prog t fields)
    (hn : ((prog.get t).name ≠ [] ∧ n = inputName prog isType (prog.get t).name) ∨
      ((prog.get t).name = [] ∧ ∃ k, k ≤ s.unknownInputs ∧ n = unknownInput k)) (fs : List InField) (hi : InvI prog isType s) :
    InvI prog isType { s with inTypes := mapSet s.inTypes n ⟨t, fs⟩ } := by
  refine ⟨?_⟩
  intro m e l
  by_cases hm : m = n
  · subst hm
    rw [lookup_mapSet_self] at l
    injection l with l; subst l
    exact ⟨⟨fields, hst⟩, hn⟩
  · rw [lookup_mapSet_ne hm] at l
    exact hi.types m e l

theorem setIn_ext {s : InSt} {n : Bytes} {x : InEntry} (h : ∀ e, lookup s.inTypes n = some e → e.src = x.src) :
    ExtI s { s with inTypes := mapSet s.inTypes n x } := by
  refine ⟨?_, Nat.le_refl _⟩
  intro m e l
  by_cases hm : m = n
  · subst hm; exact ⟨x, lookup_mapSet_self _ _ _, (h e l).symm⟩
  · exact ⟨e, (lookup_mapSet_ne hm).trans l, rfl⟩

theorem inTable_good (hd : Distinct prog) {chk : Ty → Bool → M InSt Input} (hg : GoodI prog isType chk) {t : Ty}
    {fields : List GoField} (hst : IsStruct prog t fields) {n : Bytes} {id : Bool} {s s' : InSt} {x : Input} (hi : InvI prog isType s)
    (hn : ((prog.get t).name ≠ [] ∧ n = inputName prog isType (prog.get t).name) ∨
      ((prog.get t).name = [] ∧ ∃ k, k ≤ s.unknownInputs ∧ n = unknownInput k))
    (hfresh : (prog.get t).name = [] → lookup s.inTypes n = none)
    (h : (match lookup s.inTypes n with
      | some _ => (return .struct n : M InSt Input)
      | none => do
        setS { s with inTypes := mapSet s.inTypes n ⟨t, []⟩ }
        let fs ← walkInFields chk 0 fields []
        let s ← getS
        setS { s with inTypes := mapSet s.inTypes n ⟨t, fs⟩ }
        return .struct n) s = .ok x s') :
    PostI prog isType s s' ∧ StandsIn prog s' t id x := by
  cases hl : lookup s.inTypes n with
  | some e =>
    rw [hl] at h
    obtain ⟨rfl, rfl⟩ := pure_ok.1 h
    refine ⟨.refl _ _ hi, .struct hst hl ?_⟩
    rcases hn with ⟨hne, hn⟩ | ⟨he, _⟩
    · obtain ⟨⟨fs, hf⟩, h | ⟨_, k, _, hk⟩⟩ := hi.types n e hl
      · exact inputName_inj (isType := isType) hd ⟨⟨fs, hf.1⟩, h.1⟩ ⟨⟨fields, hst.1⟩, hne⟩ (h.2.symm.trans hn)
      · exact absurd (hn.symm.trans hk) (inputName_ne hd ⟨⟨fields, hst.1⟩, hne⟩ k)
    · rw [hfresh he] at hl; cases hl
  | none =>
    rw [hl] at h; dsimp only at h
    obtain ⟨_, s1, hset, h⟩ := bind_ok.1 h
    have e1 := setS_ok.1 hset
    obtain ⟨fs, s2, hw, h⟩ := bind_ok.1 h
    obtain ⟨_, _, hget, h⟩ := bind_ok.1 h
    obtain ⟨rfl, rfl⟩ := getS_ok.1 hget
    obtain ⟨_, s3, hset, h⟩ := bind_ok.1 h
    have e3 := setS_ok.1 hset
    obtain ⟨e4, e5⟩ := pure_ok.1 h
    subst e4; subst e5
    have i1 : InvI prog isType s1 := by rw [e1]; exact setIn_inv hst hn [] hi
    have x1 : ExtI s s1 := by
      rw [e1]
      refine setIn_ext ?_
      intro e l
      have := hl.symm.trans l
      cases this
    have l1 : lookup s1.inTypes n = some ⟨t, []⟩ := by rw [e1]; exact lookup_mapSet_self _ _ _
    obtain ⟨p2, a2⟩ := walkInFields_good hg fields 0 [] s1 fs s2 (show fields.drop 0 = fields from rfl) i1
      ⟨fun f hf => (by cases hf), fun m hm => (by obtain ⟨j, _, _, hj, _⟩ := hm; omega), fun f hf => (by cases hf)⟩ hw
    obtain ⟨e', l2, hsrc⟩ := p2.ext.types _ _ l1
    have x3 : ExtI s2 s3 := by
      rw [e3]
      refine setIn_ext ?_
      intro e le
      rw [l2] at le; injection le with le; subst le; exact hsrc
    have i3 : InvI prog isType s3 := by
      rw [e3]
      refine setIn_inv hst ?_ fs p2.inv
      rcases hn with h | ⟨a, k, hk, b⟩
      · exact .inl h
      · exact .inr ⟨a, k, Nat.le_trans hk (x1.trans p2.ext).unknown, b⟩
    have l3 : lookup s3.inTypes n = some ⟨t, fs⟩ := by rw [e3]; exact lookup_mapSet_self _ _ _
    refine ⟨⟨i3, (x1.trans p2.ext).trans x3, ?_⟩, .struct hst l3 rfl⟩
    intro m e l
    by_cases hm : m = n
    · subst hm
      rw [l3] at l; injection l with l; subst l
      refine .inl (InFieldsOf.mono x3 ⟨fun f hf => ⟨fields, hst, a2.sound f hf⟩, ?_, a2.unique⟩)
      intro fs' m hs' hx
      have e := hs'.1.symm.trans hst.1
      injection e with e; subst e
      obtain ⟨i, gf, id, h1, h2, h3⟩ := hx
      exact a2.complete m ⟨i, gf, id, (List.getElem?_eq_some_iff.1 h1).1, h1, h2, h3⟩
    · have l' := l
      rw [e3, lookup_mapSet_ne hm] at l'
      rcases p2.done m e l' with h | h
      · exact .inl (h.mono x3)
      · rw [e1, lookup_mapSet_ne hm] at h
        exact .inr h

theorem checkInStruct_good (hd : Distinct prog) {chk : Ty → Bool → M InSt Input} (hg : GoodI prog isType chk) {t : Ty}
    {fields : List GoField} (hsh : (prog.get t).shape = .struct fields) {id : Bool} {s s' : InSt} {x : Input} (hi : InvI prog isType s)
    (h : checkInStruct prog isType chk t fields s = .ok x s') : PostI prog isType s s' ∧ StandsIn prog s' t id x := by
  unfold checkInStruct at h
  cases htm : isTime (prog.get t) with
  | true =>
    rw [htm, if_pos rfl] at h
    obtain ⟨rfl, rfl⟩ := pure_ok.1 h
    exact ⟨.refl _ _ hi, .time hsh htm⟩
  | false =>
  rw [htm, if_neg (by simp)] at h
  obtain ⟨_, _, hget, h⟩ := bind_ok.1 h
  obtain ⟨rfl, rfl⟩ := getS_ok.1 hget
  by_cases hnm : (prog.get t).name = []
  · simp only [if_pos hnm] at h
    obtain ⟨_, s1, hset, h⟩ := bind_ok.1 h
    have e1 := setS_ok.1 hset
    obtain ⟨_, _, hget, h⟩ := bind_ok.1 h
    obtain ⟨rfl, rfl⟩ := getS_ok.1 hget
    have i1 : InvI prog isType s1 := by
      rw [e1]
      refine ⟨?_⟩
      intro n e l
      obtain ⟨a, d⟩ := hi.types n e l
      exact ⟨a, d.imp _root_.id (fun ⟨a, k, hk, b⟩ => ⟨a, k, Nat.le_succ_of_le hk, b⟩)⟩
    have p1 : PostI prog isType s s1 := by
      refine ⟨i1, ?_, ?_⟩ <;> rw [e1]
      · exact ⟨fun _ e l => ⟨e, l, rfl⟩, Nat.le_succ _⟩
      · intro n e l; exact .inr l
    obtain ⟨p2, st⟩ := inTable_good (id := id) hd hg ⟨hsh, htm⟩ i1 (n := unknownInput (s.unknownInputs + 1))
      (.inr ⟨hnm, _, by rw [e1]; exact Nat.le_refl _, rfl⟩) (by
        intro _
        cases hl : lookup s1.inTypes (unknownInput (s.unknownInputs + 1)) with
        | none => rfl
        | some e =>
          rw [e1] at hl
          obtain ⟨⟨fs, hf⟩, h | ⟨_, k, hk, hn⟩⟩ := hi.types _ e hl
          · exact absurd h.2.symm (inputName_ne hd ⟨⟨fs, hf.1⟩, h.1⟩ _)
          · have := unknownInput_inj hn
            omega) h
    exact ⟨p1.trans _ _ p2, st⟩
  · simp only [if_neg hnm] at h
    obtain ⟨_, _, hget, h⟩ := bind_ok.1 h
    obtain ⟨rfl, rfl⟩ := getS_ok.1 hget
    exact inTable_good hd hg ⟨hsh, htm⟩ hi (.inl ⟨hnm, rfl⟩) (fun h => absurd h hnm) h

theorem checkInput_good (hd : Distinct prog) : ∀ fuel, GoodI prog isType (checkInput prog isType fuel) := by
  intro fuel
  induction fuel with
  | zero => intro t id s x s' _ h; cases h
  | succ fuel ih =>
    intro t id s x s' hi h
    change checkInputBody prog isType (checkInput prog isType fuel) t id s = .ok x s' at h
    unfold checkInputBody at h
    cases hsh : (prog.get t).shape with
    | scalar k =>
      rw [hsh] at h; dsimp only at h
      cases he : enumIndex prog t with
      | some i =>
        rw [he] at h
        obtain ⟨rfl, rfl⟩ := pure_ok.1 h
        exact ⟨.refl _ _ hi, .enum hsh he⟩
      | none =>
        rw [he] at h; dsimp only at h
        by_cases hc : (id && !validIDKind k) = true
        · rw [if_pos hc] at h; exact (fail_ok.1 h).elim
        · rw [if_neg hc] at h
          obtain ⟨rfl, rfl⟩ := pure_ok.1 h
          refine ⟨.refl _ _ hi, .scalar hsh he ?_⟩
          intro hid
          rw [hid] at hc
          simpa using hc
    | ptr e =>
      rw [hsh] at h; dsimp only at h
      cases hf : isFileHeader (prog.get e) with
      | true =>
        rw [hf, if_pos rfl] at h
        obtain ⟨rfl, rfl⟩ := pure_ok.1 h
        exact ⟨.refl _ _ hi, .file hsh hf⟩
      | false =>
        rw [hf, if_neg (by simp)] at h
        obtain ⟨y, s1, h1, h⟩ := bind_ok.1 h
        obtain ⟨rfl, rfl⟩ := pure_ok.1 h
        obtain ⟨p, st⟩ := ih _ _ _ _ _ hi h1
        exact ⟨p, .ptr hsh hf st⟩
    | array n e =>
      rw [hsh] at h; dsimp only at h
      obtain ⟨y, s1, h1, h⟩ := bind_ok.1 h
      obtain ⟨rfl, rfl⟩ := pure_ok.1 h
      obtain ⟨p, st⟩ := ih _ _ _ _ _ hi h1
      exact ⟨p, .array hsh st⟩
    | slice e =>
      rw [hsh] at h; dsimp only at h
      obtain ⟨y, s1, h1, h⟩ := bind_ok.1 h
      obtain ⟨rfl, rfl⟩ := pure_ok.1 h
      obtain ⟨p, st⟩ := ih _ _ _ _ _ hi h1
      exact ⟨p, .slice hsh st⟩
    | struct fields => rw [hsh] at h; exact checkInStruct_good hd ih hsh hi h
    | iface => rw [hsh] at h; exact (fail_ok.1 h).elim
    | func sig => rw [hsh] at h; exact (fail_ok.1 h).elim
    | other => rw [hsh] at h; exact (fail_ok.1 h).elim

/-! ## Parameters of functions -/

/-- arguments found so far: those of the parameters before `i`, and of the first `j` fields of parameter `i` -/
structure AccA (prog : Program F) (s : InSt) (tys : List Ty) (done : Bytes → Prop) (acc : List ArgField) : Prop where
  sound : ∀ a ∈ acc, ∃ t fs, tys[a.inputIdx]? = some t ∧ ¬ IsCtxParam prog t ∧ (prog.get t).shape = .struct fs ∧
    FieldIn prog s fs a.key a.goFieldIdx a.input
  complete : ∀ n, done n → ∃ a ∈ acc, a.key = n
  unique : ∀ a ∈ acc, ∀ b ∈ acc, a.key = b.key → a = b

theorem AccA.mono {s s' : InSt} {tys : List Ty} {d : Bytes → Prop} {acc : List ArgField} (h : AccA prog s tys d acc) (he : ExtI s s') :
    AccA prog s' tys d acc := by
  refine ⟨?_, h.complete, h.unique⟩
  intro a ha
  obtain ⟨t, fs, h1, h2, h3, h4⟩ := h.sound a ha
  exact ⟨t, fs, h1, h2, h3, fieldIn_mono he h4⟩

theorem AccA.weaken {s : InSt} {tys : List Ty} {d d' : Bytes → Prop} {acc : List ArgField} (h : AccA prog s tys d acc)
    (hd : ∀ n, d' n → d n) : AccA prog s tys d' acc := ⟨h.sound, fun n hn => h.complete n (hd n hn), h.unique⟩

theorem argFieldsOf_good {chk : Ty → Bool → M InSt Input} (hg : GoodI prog isType chk) {tys : List Ty} {t : Ty} {k : Nat}
    (ht : tys[k]? = some t) (hctx : ¬ IsCtxParam prog t) {fields : List GoField} (hsh : (prog.get t).shape = .struct fields)
    {d : Bytes → Prop} :
    ∀ (fs : List GoField) (i : Nat) (acc : List ArgField) (s : InSt) (r : List ArgField) (s' : InSt),
    fields.drop i = fs → InvI prog isType s → AccA prog s tys (fun n => d n ∨ FieldsUpTo fields i n) acc →
    argFieldsOf chk k i fs acc s = .ok r s' →
    PostI prog isType s s' ∧ AccA prog s' tys (fun n => d n ∨ FieldsUpTo fields fields.length n) r := by
  intro fs
  induction fs with
  | nil =>
    intro i acc s r s' hd hi ha h
    obtain ⟨rfl, rfl⟩ := pure_ok.1 h
    refine ⟨.refl _ _ hi, ha.weaken ?_⟩
    rintro n (h | ⟨j, gf, id, hj, h1, h2, h3⟩)
    · exact .inl h
    · exact .inr ⟨j, gf, id, Nat.lt_of_lt_of_le hj (List.drop_eq_nil_iff.1 hd), h1, h2, h3⟩
  | cons f fs ih =>
    intro i acc s r s' hd hi ha h
    obtain ⟨hf, hd'⟩ := drop_step hd
    simp only [argFieldsOf] at h
    cases hem : f.embedded with
    | true =>
      rw [hem, if_pos rfl] at h
      refine ih (i + 1) acc s r s' hd' hi (ha.weaken ?_) h
      rintro n (h | hn)
      · exact .inl h
      · rcases hn.step hf with h | ⟨h, _⟩
        · exact .inr h
        · rw [hem] at h; cases h
    | false =>
      rw [hem, if_neg (by simp)] at h
      cases hn : fieldName f.name f.tag with
      | err => rw [hn] at h; exact (fail_ok.1 h).elim
      | ignored =>
        rw [hn] at h; dsimp only at h
        refine ih (i + 1) acc s r s' hd' hi (ha.weaken ?_) h
        rintro n (h | hn')
        · exact .inl h
        · rcases hn'.step hf with h | ⟨_, id, h⟩
          · exact .inr h
          · rw [hn] at h; cases h
      | named ql isID =>
        rw [hn] at h; dsimp only at h
        obtain ⟨x, s1, h1, h⟩ := bind_ok.1 h
        obtain ⟨p1, st⟩ := hg _ _ _ _ _ hi h1
        have hm : ∀ a : ArgField, a ∈ (⟨ql, k, i, x⟩ :: acc.filter (fun g => ¬ g.key = ql) : List ArgField) ↔
            a = ⟨ql, k, i, x⟩ ∨ (a ∈ acc ∧ a.key ≠ ql) := by intro a; simp
        obtain ⟨p2, a2⟩ := ih (i + 1) _ s1 r s' hd' p1.inv (by
          refine ⟨?_, ?_, ?_⟩
          · intro g hg'
            rcases (hm g).1 hg' with rfl | ⟨hg', _⟩
            · exact ⟨t, fields, ht, hctx, hsh, f, isID, hf, hem, hn, st⟩
            · exact (ha.mono p1.ext).sound g hg'
          · intro n hn'
            have : (d n ∨ FieldsUpTo fields i n) ∨ n = ql := by
              rcases hn' with h | hn'
              · exact .inl (.inl h)
              · rcases hn'.step hf with h | ⟨_, id, h⟩
                · exact .inl (.inr h)
                · rw [hn] at h; injection h with h1 h2; exact .inr h1.symm
            rcases this with h | rfl
            · obtain ⟨g, hg', hk⟩ := ha.complete n h
              by_cases e : g.key = ql
              · exact ⟨_, (hm _).2 (.inl rfl), by rw [← hk, e]⟩
              · exact ⟨g, (hm _).2 (.inr ⟨hg', e⟩), hk⟩
            · exact ⟨_, (hm _).2 (.inl rfl), rfl⟩
          · intro a ha' b hb he
            rcases (hm a).1 ha' with rfl | ⟨h1, h2⟩
            · rcases (hm b).1 hb with rfl | ⟨h3, h4⟩
              · rfl
              · exact (h4 he.symm).elim
            · rcases (hm b).1 hb with rfl | ⟨h3, h4⟩
              · exact (h2 he).elim
              · exact ha.unique a h1 b h3 he) h
        exact ⟨p1.trans _ _ p2, a2⟩

/-- names of arguments given by the parameters below `i` -/
def ParamsUpTo (prog : Program F) (tys : List Ty) (i : Nat) (n : Bytes) : Prop :=
  ∃ j t fs, j < i ∧ tys[j]? = some t ∧ ¬ IsCtxParam prog t ∧ (prog.get t).shape = .struct fs ∧ FieldsUpTo fs fs.length n

theorem insOf_good {chk : Ty → Bool → M InSt Input} (hg : GoodI prog isType chk) {tys : List Ty} :
    ∀ (ts : List Ty) (i : Nat) (ins : List (BaseInput F)) (acc : List ArgField) (s : InSt) (r : List (BaseInput F) × List ArgField)
    (s' : InSt), tys.drop i = ts → InvI prog isType s → ins.length = i → i ≤ tys.length →
    (∀ (j : Nat) t, j < i → tys[j]? = some t → (IsCtxParam prog t ∧ ins[j]? = some .ctx) ∨
      (¬ IsCtxParam prog t ∧ (∃ fs, (prog.get t).shape = .struct fs) ∧ ins[j]? = some (.struct (prog.zero t)))) →
    AccA prog s tys (ParamsUpTo prog tys i) acc → insOf prog chk i ts ins acc s = .ok r s' →
    PostI prog isType s s' ∧ ParamsOf prog s' tys r.1 r.2 := by
  intro ts
  induction ts with
  | nil =>
    intro i ins acc s r s' hd hi hlen hle hk ha h
    obtain ⟨rfl, rfl⟩ := pure_ok.1 h
    have : i = tys.length := Nat.le_antisymm hle (List.drop_eq_nil_iff.1 hd)
    subst this
    refine ⟨.refl _ _ hi, hlen, ?_, ha.sound, ?_, ha.unique⟩
    · intro j t ht
      exact hk j t (List.getElem?_eq_some_iff.1 ht).1 ht
    · intro j t fs n ht hc hsh hx
      obtain ⟨l, gf, id, h1, h2, h3⟩ := hx
      exact ha.complete n ⟨j, t, fs, (List.getElem?_eq_some_iff.1 ht).1, ht, hc, hsh, l, gf, id, (List.getElem?_eq_some_iff.1 h1).1, h1, h2, h3⟩
  | cons t ts ih =>
    intro i ins acc s r s' hd hi hlen hle hk ha h
    obtain ⟨ht, hd'⟩ := drop_step hd
    have hle' : i + 1 ≤ tys.length := (List.getElem?_eq_some_iff.1 ht).1
    have kind : ∀ x : BaseInput F, ((IsCtxParam prog t ∧ x = .ctx) ∨ (¬ IsCtxParam prog t ∧ (∃ fs, (prog.get t).shape = .struct fs) ∧
        x = .struct (prog.zero t))) → ∀ (j : Nat) u, j < i + 1 → tys[j]? = some u → (IsCtxParam prog u ∧ (ins ++ [x])[j]? = some .ctx) ∨
        (¬ IsCtxParam prog u ∧ (∃ fs, (prog.get u).shape = .struct fs) ∧ (ins ++ [x])[j]? = some (.struct (prog.zero u))) := by
      intro x hx j u hj hu
      rcases Nat.lt_or_ge j i with hlt | hge
      · rw [List.getElem?_append_left (by omega)]
        exact hk j u hlt hu
      · have : j = i := by omega
        subst this
        rw [ht] at hu; injection hu with hu; subst hu
        have : (ins ++ [x])[j]? = some x := by rw [← hlen]; simp
        rw [this]
        rcases hx with ⟨a, rfl⟩ | ⟨a, b, rfl⟩
        · exact .inl ⟨a, rfl⟩
        · exact .inr ⟨a, b, rfl⟩
    simp only [insOf] at h
    by_cases hctx : IsCtxParam prog t
    · have hb : isCtxPtr prog t = true := by
        obtain ⟨e, he, hc⟩ := hctx
        unfold isCtxPtr
        rw [he]; exact hc
      rw [hb, if_pos rfl] at h
      refine ih (i + 1) _ acc s r s' hd' hi (by simp [hlen]) hle' (kind _ (.inl ⟨hctx, rfl⟩)) (ha.weaken ?_) h
      rintro n ⟨j, u, fs, hj, hu, hc, hsh, hx⟩
      rcases Nat.lt_or_ge j i with hlt | hge
      · exact ⟨j, u, fs, hlt, hu, hc, hsh, hx⟩
      · have : j = i := by omega
        subst this
        rw [ht] at hu; injection hu with hu; subst hu
        exact absurd hctx hc
    · have hb : ¬ isCtxPtr prog t = true := by
        intro hb
        unfold isCtxPtr at hb
        cases hsh : (prog.get t).shape <;> rw [hsh] at hb <;> try (cases hb)
        exact hctx ⟨_, hsh, hb⟩
      rw [if_neg hb] at h
      cases hcv : isCtx (prog.get t) with
      | true => rw [hcv, if_pos rfl] at h; exact (fail_ok.1 h).elim
      | false =>
      rw [hcv, if_neg (by simp)] at h
      cases hsh : (prog.get t).shape with
      | struct fields =>
        rw [hsh] at h; dsimp only at h
        obtain ⟨acc1, s1, h1, h⟩ := bind_ok.1 h
        obtain ⟨p1, a1⟩ := argFieldsOf_good hg ht hctx hsh (d := ParamsUpTo prog tys i) fields 0 acc s acc1 s1 (by simp) hi
          (ha.weaken (by rintro n (h | ⟨j, _, _, hj, _⟩); exact h; omega)) h1
        obtain ⟨p2, q⟩ := ih (i + 1) _ acc1 s1 r s' hd' p1.inv (by simp [hlen]) hle' (kind _ (.inr ⟨hctx, ⟨fields, hsh⟩, rfl⟩))
          (a1.weaken (by
            rintro n ⟨j, u, fs, hj, hu, hc, hsh', hx⟩
            rcases Nat.lt_or_ge j i with hlt | hge
            · exact .inl ⟨j, u, fs, hlt, hu, hc, hsh', hx⟩
            · have : j = i := by omega
              subst this
              rw [ht] at hu; injection hu with hu; subst hu
              rw [hsh] at hsh'; injection hsh' with e; subst e
              exact .inr hx)) h
        exact ⟨p1.trans _ _ p2, q⟩
      | _ => rw [hsh] at h; exact (fail_ok.1 h).elim

/-- the parameters of a function that arguments can go to: all but the receiver -/
def paramTypes (sig : Sig) (isTypeMethod : Bool) : List Ty := if isTypeMethod then sig.ins.drop 1 else sig.ins

theorem checkFunctionIns_good {chk : Ty → Bool → M InSt Input} (hg : GoodI prog isType chk) {sig : Sig} {b : Bool} {s s' : InSt}
    {r : List (BaseInput F) × List ArgField} (hi : InvI prog isType s) (h : checkFunctionIns prog chk sig b s = .ok r s') :
    PostI prog isType s s' ∧ ParamsOf prog s' (paramTypes sig b) r.1 r.2 := by
  refine insOf_good hg _ 0 [] [] s r s' (by simp [paramTypes]) hi rfl (Nat.zero_le _) (fun _ _ h => (by omega)) ?_ h
  exact ⟨fun a ha => (by cases ha), fun n hn => (by obtain ⟨j, _, _, hj, _⟩ := hn; omega), fun a ha => (by cases ha)⟩

theorem paramsOf_mono {s s' : InSt} (h : ExtI s s') {tys : List Ty} {ins : List (BaseInput F)} {args : List ArgField}
    (hp : ParamsOf prog s tys ins args) : ParamsOf prog s' tys ins args := by
  refine ⟨hp.length, hp.kind, ?_, hp.complete, hp.unique⟩
  intro a ha
  obtain ⟨t, fs, h1, h2, h3, h4⟩ := hp.sound a ha
  exact ⟨t, fs, h1, h2, h3, fieldIn_mono h h4⟩

theorem allIns_good {chk : Ty → Bool → M InSt Input} (hg : GoodI prog isType chk) :
    ∀ (ms before : List MethodRec) (acc : List (List (BaseInput F) × List ArgField)) (s : InSt) r s', InvI prog isType s →
    acc.length = before.length →
    (∀ (i : Nat) m, before[i]? = some m → ∃ r, acc[i]? = some r ∧ ParamsOf prog s (paramTypes m.sig m.isTypeMethod) r.1 r.2) →
    allIns prog chk ms acc s = .ok r s' → PostI prog isType s s' ∧
    ∀ (i : Nat) m, (before ++ ms)[i]? = some m → ∃ x, r[i]? = some x ∧ ParamsOf prog s' (paramTypes m.sig m.isTypeMethod) x.1 x.2 := by
  intro ms
  induction ms with
  | nil =>
    intro before acc s r s' hi hl hb h
    obtain ⟨rfl, rfl⟩ := pure_ok.1 h
    rw [List.append_nil]
    exact ⟨.refl _ _ hi, hb⟩
  | cons m ms ih =>
    intro before acc s r s' hi hl hb h
    simp only [allIns] at h
    obtain ⟨x, s1, h1, h⟩ := bind_ok.1 h
    obtain ⟨p1, hp⟩ := checkFunctionIns_good hg hi h1
    obtain ⟨p2, q⟩ := ih (before ++ [m]) (acc ++ [x]) s1 r s' p1.inv (by simp [hl]) (by
      intro i m' hm'
      rcases Nat.lt_or_ge i before.length with hlt | hge
      · rw [List.getElem?_append_left hlt] at hm'
        obtain ⟨y, hy, hyp⟩ := hb i m' hm'
        exact ⟨y, by rw [List.getElem?_append_left (by omega)]; exact hy, paramsOf_mono p1.ext hyp⟩
      · have : i < (before ++ [m]).length := (List.getElem?_eq_some_iff.1 hm').1
        have e : i = before.length := by simp at this; omega
        subst e
        rw [List.getElem?_append_right (Nat.le_refl _)] at hm'
        simp at hm'; subst hm'
        refine ⟨x, ?_, hp⟩
        rw [← hl]; simp) h
    rw [List.append_assoc] at q
    exact ⟨p1.trans _ _ p2, q⟩

theorem dirIns_good {chk : Ty → Bool → M InSt Input} (hg : GoodI prog isType chk) :
    ∀ (ds : List (DirDecl V)) (acc : List (DirectiveDef F V)) (s : InSt) r s', InvI prog isType s →
    dirIns prog chk ds acc s = .ok r s' → PostI prog isType s s' ∧
    ∀ x ∈ r, (x ∈ acc) ∨ ∃ d ∈ ds, x.name = d.name ∧ x.where_ = d.where_ ∧ x.func = d.func ∧ x.method.outNr = d.outNr ∧
      x.method.isTypeMethod = false ∧ x.method.errorOutNr = none ∧ ParamsOf prog s' d.sig.ins x.method.ins x.method.inFields := by
  intro ds
  induction ds with
  | nil =>
    intro acc s r s' hi h
    obtain ⟨rfl, rfl⟩ := pure_ok.1 h
    exact ⟨.refl _ _ hi, fun x hx => .inl hx⟩
  | cons d ds ih =>
    intro acc s r s' hi h
    simp only [dirIns] at h
    obtain ⟨x, s1, h1, h⟩ := bind_ok.1 h
    obtain ⟨p1, hp⟩ := checkFunctionIns_good hg hi h1
    obtain ⟨p2, q⟩ := ih _ s1 r s' p1.inv h
    refine ⟨p1.trans _ _ p2, ?_⟩
    intro y hy
    rcases q y hy with h | ⟨d', hd', h⟩
    · rcases List.mem_append.1 h with h | h
      · exact .inl h
      · rw [List.mem_singleton] at h; subst h
        exact .inr ⟨d, List.mem_cons_self .., rfl, rfl, rfl, rfl, rfl, rfl, paramsOf_mono p2.ext hp⟩
    · exact .inr ⟨d', List.mem_cons_of_mem _ hd', h⟩

end
end TypeWalk
end Yarql
