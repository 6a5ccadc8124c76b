import Verif.Proofs.TypeWalkLink
import Verif.Proofs.TypeWalkGen
import Verif.Spec.Reflects

/-!
# The schema of `Parse` mirrors the Go types
-/

namespace Yarql
namespace TypeWalk
open GoTypes Naming Reflects

variable {F V W : Type}

/-- the steps of a `Parse` that succeeded -/
theorem parse_steps {prog : Program F} {fuel : Nat} {d : Decl V} {schema : Schema F V} (h : parse prog fuel d = .ok schema) :
    ∃ q m inj s ms i dirs i', walkRoots prog fuel d ⟨[], [], 0, []⟩ = .ok (q, m, inj) s ∧
      allIns prog (checkInput prog (fun n => (lookup s.types n).isSome) fuel) s.methods [] ⟨[], 0⟩ = .ok ms i ∧
      dirIns prog (checkInput prog (fun n => (lookup s.types n).isSome) fuel) d.directives [] i = .ok dirs i' ∧
      assemble prog d q m inj s ms i' dirs = some schema := by
  unfold parse at h
  cases hr : walkRoots prog fuel d ⟨[], [], 0, []⟩ with
  | err e => rw [hr] at h; cases h
  | panic => rw [hr] at h; cases h
  | oof => rw [hr] at h; cases h
  | ok a s =>
  obtain ⟨q, m, inj⟩ := a
  rw [hr] at h; dsimp only at h
  cases ha : allIns prog (checkInput prog (fun n => (lookup s.types n).isSome) fuel) s.methods [] ⟨[], 0⟩ with
  | err e => rw [ha] at h; cases h
  | panic => rw [ha] at h; cases h
  | oof => rw [ha] at h; cases h
  | ok ms i =>
  rw [ha] at h; dsimp only at h
  cases hdi : dirIns prog (checkInput prog (fun n => (lookup s.types n).isSome) fuel) d.directives [] i with
  | err e => rw [hdi] at h; cases h
  | panic => rw [hdi] at h; cases h
  | oof => rw [hdi] at h; cases h
  | ok dirs i' =>
  rw [hdi] at h; dsimp only at h
  cases has : assemble prog d q m inj s ms i' dirs with
  | none => rw [has] at h; cases h
  | some sc =>
  rw [has] at h
  injection h with h; subst h
  exact ⟨q, m, inj, s, ms, i, dirs, i', rfl, ha, hdi, has⟩

theorem allIns_length {prog : Program F} {chk : Ty → Bool → M InSt Input} : ∀ (ms : List MethodRec) acc (s : InSt) r s',
    allIns prog chk ms acc s = .ok r s' → r.length = acc.length + ms.length := by
  intro ms
  induction ms with
  | nil => intro acc s r s' h; obtain ⟨e, _⟩ := pure_ok.1 h; subst e; rfl
  | cons m ms ih =>
    intro acc s r s' h
    obtain ⟨x, s1, _, h⟩ := bind_ok.1 h
    rw [ih _ _ _ _ h]
    simp only [List.length_append, List.length_cons, List.length_nil]
    omega

theorem dirIns_all {prog : Program F} {chk : Ty → Bool → M InSt Input} : ∀ (ds : List (DirDecl V)) acc (s : InSt) r s',
    dirIns prog chk ds acc s = .ok r s' → (∀ x ∈ acc, x ∈ r) ∧ ∀ e ∈ ds, ∃ x ∈ r, x.name = e.name ∧ x.where_ = e.where_ ∧ x.func = e.func := by
  intro ds
  induction ds with
  | nil => intro acc s r s' h; obtain ⟨e, _⟩ := pure_ok.1 h; subst e; exact ⟨fun x hx => hx, fun e he => (by cases he)⟩
  | cons d ds ih =>
    intro acc s r s' h
    obtain ⟨x, s1, _, h⟩ := bind_ok.1 h
    obtain ⟨h1, h2⟩ := ih _ _ _ _ h
    refine ⟨fun y hy => h1 y (List.mem_append_left _ hy), ?_⟩
    intro e he
    rcases List.mem_cons.1 he with rfl | he
    · exact ⟨_, h1 _ (List.mem_append_right _ (List.mem_singleton.2 rfl)), rfl, rfl, rfl⟩
    · exact h2 e he

theorem lookup_mapFst {K A : Type} [DecidableEq K] {l : List K} {k : K} (h : k ∈ l) (f : K → A) :
    lookup (l.map (fun x => (x, f x))) k = some (f k) := by
  unfold lookup
  induction l with
  | nil => cases h
  | cons x l ih =>
    by_cases e : x = k
    · subst e; simp
    · rw [List.map_cons, List.find?_cons_of_neg (by simpa using e)]
      exact ih ((List.mem_cons.1 h).resolve_left (fun h => e h.symm))

/-! ## Keys -/

def NodupKeys (s : St) : Prop := (s.types.map (·.1)).Nodup ∧ (s.interfaces.map (·.1)).Nodup

theorem nodup_steps (prog : Program F) (R : Ty → Prop) : Steps prog R (fun s s' => NodupKeys s → NodupKeys s') where
  refl _ h := h
  trans _ _ _ h1 h2 h := h2 (h1 h)
  setType _ _ _ _ _ _ h := ⟨nodup_mapSet h.1, h.2⟩
  setIface _ _ _ _ _ _ h := ⟨h.1, nodup_mapSet h.2⟩
  addMethod _ _ h := h
  unknown _ h := h

/-! ## Reachable -/

/-- all entries come from `R` -/
def SrcIn (R : Ty → Prop) (s : St) : Prop :=
  (∀ n e, lookup s.types n = some e → R e.src) ∧ (∀ n e, lookup s.interfaces n = some e → R e.src)

theorem src_steps (prog : Program F) (R : Ty → Prop) : Steps prog R (fun s s' => SrcIn R s → SrcIn R s') where
  refl _ h := h
  trans _ _ _ h1 h2 h := h2 (h1 h)
  setType s t n fs impls hR h := by
    refine ⟨fun m e l => ?_, h.2⟩
    by_cases hm : m = n
    · subst hm; rw [lookup_mapSet_self] at l; injection l with l; subst l; exact hR
    · rw [lookup_mapSet_ne hm] at l; exact h.1 m e l
  setIface s t n fs impls hR h := by
    refine ⟨h.1, fun m e l => ?_⟩
    by_cases hm : m = n
    · subst hm; rw [lookup_mapSet_self] at l; injection l with l; subst l; exact hR
    · rw [lookup_mapSet_ne hm] at l; exact h.2 m e l
  addMethod _ _ h := h
  unknown _ h := h

theorem reach_closed (prog : Program F) (d : Decl V) : Closed prog (Reach prog d) where
  child t u h hc R hR hr := hR.child t u (h R hR hr) hc
  array t n e h a b R hR hr := hR.array t n e (h R hR hr) a b
  slice t e h a b R hR hr := hR.slice t e (h R hR hr) a b
  ptr t e h a b R hR hr := hR.ptr t e (h R hR hr) a b
  impl t us u h a b c e R hR hr := hR.impl t us u (h R hR hr) a b c e
  implements t fs u h a b c R hR hr := hR.implements t fs u (h R hR hr) a b c

theorem walkRoots_inj {prog : Program F} {fuel : Nat} {d : Decl V} {q m : Bytes} {inj : Option (WObj × WObj)} {s s' : St} {x : Inject V}
    (h : walkRoots prog fuel d s = .ok (q, m, inj) s') (hx : d.inject = some x) : ∃ o f, inj = some (o, f) := by
  unfold walkRoots at h
  obtain ⟨o1, s1, h1, h⟩ := bind_ok.1 h
  cases o1 with
  | objRef n1 gn1 gp1 =>
    dsimp only at h
    obtain ⟨o2, s2, h2, h⟩ := bind_ok.1 h
    cases o2 with
    | objRef n2 gn2 gp2 =>
      dsimp only at h
      obtain ⟨_, _, hget, h⟩ := bind_ok.1 h
      obtain ⟨rfl, rfl⟩ := getS_ok.1 hget
      cases l1 : lookup s2.types n1 with
      | none => rw [l1] at h; exact (panic_ok.1 h).elim
      | some e1 =>
      cases l2 : lookup s2.types n2 with
      | none => rw [l1, l2] at h; exact (panic_ok.1 h).elim
      | some e2 =>
      rw [l1, l2] at h; dsimp only at h
      by_cases hr : d.noEqualCheck = false ∧ e1.pkg ++ e1.goName = e2.pkg ++ e2.goName
      · rw [if_pos hr] at h; exact (fail_ok.1 h).elim
      rw [if_neg hr, hx] at h
      dsimp only at h
      obtain ⟨o3, s3, h3, h⟩ := bind_ok.1 h
      obtain ⟨o4, s4, h4, h⟩ := bind_ok.1 h
      obtain ⟨e, _⟩ := pure_ok.1 h
      injection e with e3 e4; injection e4 with e4 e5
      exact ⟨o3, o4, e5.symm⟩
    | _ => exact (fail_ok.1 h).elim
  | _ => exact (fail_ok.1 h).elim

section
variable {prog : Program F} {d : Decl V} {s : St}

theorem stands_closed (ht : ∀ n e, lookup s.types n = some e → EntryOf prog s e) (hi : ∀ n e, lookup s.interfaces n = some e → IEntryOf prog s e) :
    Closed prog (fun t => ∃ id o, Stands prog s t id o) where
  child t u h hc := by
    obtain ⟨id, o, h⟩ := h
    have key : isTime (prog.get t) = false → ((∃ fs, (prog.get t).shape = .struct fs) ∨ (prog.get t).shape = .iface) → ∃ id o, Stands prog s u id o := by
      intro htm hsh
      have no : ∀ sh : Shape, (prog.get t).shape = sh → (∀ fs, sh ≠ .struct fs) → sh ≠ .iface → False := by
        intro sh e h1 h2
        subst e
        rcases hsh with ⟨fs, h⟩ | h
        · exact h1 fs h
        · exact h2 h
      cases h with
      | time a => rw [a] at htm; cases htm
      | struct a b c _ => obtain ⟨hF, _⟩ := ht _ _ b; rw [c] at hF; exact hF.seen u hc
      | iface a b c l e => obtain ⟨hF, _⟩ := hi _ _ l; rw [e] at hF; exact hF.seen u hc
      | array a b c => exact (no _ b (by simp) (by simp)).elim
      | slice a b c => exact (no _ b (by simp) (by simp)).elim
      | ptr a b c => exact (no _ b (by simp) (by simp)).elim
      | enum a b c => exact (no _ b (by simp) (by simp)).elim
      | data a b c _ => exact (no _ b (by simp) (by simp)).elim
    cases hc with
    | field a => exact key a.2 (.inl ⟨_, a.1⟩)
    | func a => exact key a.2 (.inl ⟨_, a.1⟩)
    | method a => exact key a.1 a.2
  array t n e h htm hsh := by
    obtain ⟨id, o, h⟩ := h
    cases h with
    | time a => rw [a] at htm; cases htm
    | struct a => rw [a.1] at hsh; cases hsh
    | iface a => rw [a] at hsh; cases hsh
    | array a b c => rw [b] at hsh; injection hsh with h1 h2; subst h2; exact ⟨_, _, c⟩
    | slice a b c => rw [b] at hsh; cases hsh
    | ptr a b c => rw [b] at hsh; cases hsh
    | enum a b c => rw [b] at hsh; cases hsh
    | data a b c _ => rw [b] at hsh; cases hsh
  slice t e h htm hsh := by
    obtain ⟨id, o, h⟩ := h
    cases h with
    | time a => rw [a] at htm; cases htm
    | struct a => rw [a.1] at hsh; cases hsh
    | iface a => rw [a] at hsh; cases hsh
    | array a b c => rw [b] at hsh; cases hsh
    | slice a b c => rw [b] at hsh; injection hsh with h2; subst h2; exact ⟨_, _, c⟩
    | ptr a b c => rw [b] at hsh; cases hsh
    | enum a b c => rw [b] at hsh; cases hsh
    | data a b c _ => rw [b] at hsh; cases hsh
  ptr t e h htm hsh := by
    obtain ⟨id, o, h⟩ := h
    cases h with
    | time a => rw [a] at htm; cases htm
    | struct a => rw [a.1] at hsh; cases hsh
    | iface a => rw [a] at hsh; cases hsh
    | array a b c => rw [b] at hsh; cases hsh
    | slice a b c => rw [b] at hsh; cases hsh
    | ptr a b c => rw [b] at hsh; injection hsh with h2; subst h2; exact ⟨_, _, c⟩
    | enum a b c => rw [b] at hsh; cases hsh
    | data a b c _ => rw [b] at hsh; cases hsh
  impl t us u h htm hsh him hu := by
    obtain ⟨id, o, h⟩ := h
    cases h with
    | time a => rw [a] at htm; cases htm
    | struct a => rw [a.1] at hsh; cases hsh
    | iface a b c l e =>
      obtain ⟨_, us', h1, _, h3⟩ := hi _ _ l
      rw [e, him] at h1; injection h1 with h1; subst h1
      cases hut : isTime (prog.get u) with
      | true => exact ⟨false, _, .time hut⟩
      | false =>
        obtain ⟨k, _, hk⟩ := h3 u hu hut
        exact ⟨_, _, hk⟩
    | array a b c => rw [b] at hsh; cases hsh
    | slice a b c => rw [b] at hsh; cases hsh
    | ptr a b c => rw [b] at hsh; cases hsh
    | enum a b c => rw [b] at hsh; cases hsh
    | data a b c _ => rw [b] at hsh; cases hsh
  implements t fs u h hst hn hu := by
    obtain ⟨id, o, h⟩ := h
    cases h with
    | time a => have := hst.2; rw [a] at this; cases this
    | struct a b c _ =>
      obtain ⟨_, h2, _⟩ := ht _ _ b
      rw [c] at h2
      obtain ⟨o, ho, _⟩ := h2 hn u hu
      exact ⟨_, _, ho⟩
    | iface a => have := hst.1; rw [a] at this; cases this
    | array a b c => have := hst.1; rw [b] at this; cases this
    | slice a b c => have := hst.1; rw [b] at this; cases this
    | ptr a b c => have := hst.1; rw [b] at this; cases this
    | enum a b c => have := hst.1; rw [b] at this; cases this
    | data a b c _ => have := hst.1; rw [b] at this; cases this

end

/-! ## From the tables to the schema -/

/-- the names the tables give -/
def namesOf (s : St) (i : InSt) : Names :=
  ⟨fun n => (lookup s.types n).map (·.src), fun n => (lookup s.interfaces n).map (·.src), fun n => (lookup i.inTypes n).map (·.src)⟩

section
variable {prog : Program F} {d : Decl V} {s : St} {i : InSt} {ms : List (List (BaseInput F) × List ArgField)}

theorem objOf_of {t id o} (h : Stands prog s t id o) : ObjOf prog (namesOf s i) t id (finObj ms o) := by
  induction h with
  | time a => exact .time a
  | struct a b c e => exact .struct a (by simp [namesOf, b, c])
  | iface a b c l e => exact .iface a b (by simp [namesOf, l, e])
  | array a b _ ih => exact .array a b ih
  | slice a b _ ih => exact .slice a b ih
  | ptr a b _ ih => exact .ptr a b ih
  | enum a b c => exact .enum a b c
  | data a b c e => exact .data a b c e

theorem inputOf_of {t id x} (h : StandsIn prog i t id x) : InputOf prog (namesOf s i) t id x := by
  induction h with
  | enum a b => exact .enum a b
  | scalar a b c => exact .scalar a b c
  | file a b => exact .file a b
  | ptr a b _ ih => exact .ptr a b ih
  | array a _ ih => exact .array a ih
  | slice a _ ih => exact .slice a ih
  | time a b => exact .time a b
  | struct a b c => exact .struct a (by simp [namesOf, b, c])

theorem inField_of {fs key j x} (h : FieldIn prog i fs key j x) : Reflects.InField prog (namesOf s i) fs key j x := by
  obtain ⟨gf, id, h1, h2, h3, h4⟩ := h
  exact ⟨gf, id, h1, h2, h3, inputOf_of h4⟩

theorem params_of {tys ins args} (h : ParamsOf prog i tys ins args) : Params prog (namesOf s i) tys ins args := by
  refine ⟨h.length, h.kind, ?_, h.complete, h.unique⟩
  intro a ha
  obtain ⟨t, fs, h1, h2, h3, h4⟩ := h.sound a ha
  exact ⟨t, fs, h1, h2, h3, inField_of h4⟩

variable {Par : List Ty → Method F → Prop}

/-- what is asked of the inputs of the functions found -/
def ParOK (s : St) (ms : List (List (BaseInput F) × List ArgField)) (Par : List Ty → Method F → Prop) : Prop :=
  ∀ (j : Nat) r, s.methods[j]? = some r → ∃ x, ms[j]? = some x ∧
    ∀ outNr en, Par (paramTypes r.sig r.isTypeMethod) ⟨r.isTypeMethod, x.1, x.2, outNr, en⟩

theorem funcObj_of (hp : ParOK s ms Par) {nm sig b tag o} (h : FuncOf prog s nm sig b tag o) :
    FuncObj prog (namesOf s i) Par sig b tag (finObj ms o) := by
  obtain ⟨idx, outNr, en, out, ty, id, h1, h2, h3, h4, h5, h6, h7, h8, h9, h10⟩ := h
  obtain ⟨x, hx, hpar⟩ := hp _ _ h2
  subst h1
  refine ⟨⟨b, x.1, x.2, outNr, en⟩, finObj ms out, ty, id, ?_, rfl, h9, hpar outNr en, h3, h5, h6, objOf_of h4, h7, h8, h10⟩
  simp only [finObj, hx]

theorem fieldObj_of (hp : ParOK s ms Par) {t f} (h : FieldOf prog s t f) :
    FieldObj prog (namesOf s i) Par t (finField (V := V) ms f) := by
  cases h with
  | plain a b c d e g => exact .plain a b c d e (objOf_of g)
  | func a b c d e g => exact .func a b c d e (funcObj_of hp g)
  | method a b c => exact .method a b (funcObj_of hp c)

theorem fieldsFrom_of (hp : ParOK s ms Par) {t fs} (h : FieldsOf prog s t fs) (hidden : Field F V → Prop) :
    FieldsFrom prog (namesOf s i) Par t hidden (fs.map (finField (V := V) ms)) := by
  refine ⟨?_, ?_, ?_, ?_⟩
  · intro g hg
    obtain ⟨f, hf, rfl⟩ := List.mem_map.1 hg
    exact (h.sound f hf).1
  · intro g hg
    obtain ⟨f, hf, rfl⟩ := List.mem_map.1 hg
    exact .inr ⟨rfl, rfl, fieldObj_of hp (h.sound f hf).2⟩
  · intro n hn
    obtain ⟨f, hf, hk⟩ := h.complete n hn
    exact ⟨_, List.mem_map.2 ⟨f, hf, rfl⟩, hk⟩
  · intro g hg g' hg' hk
    obtain ⟨f, hf, rfl⟩ := List.mem_map.1 hg
    obtain ⟨f', hf', rfl⟩ := List.mem_map.1 hg'
    rw [h.unique f hf f' hf' hk]

/-- adding a hidden field -/
theorem fieldsFrom_hidden {N : Names} {t : Ty} {hidden : Field F V → Prop} {td : TypeDef F V} {nm : Bytes} {v : V} {o : Obj F}
    (h : FieldsFrom prog N Par t hidden td.fields) (hh : hidden ⟨Parser.fnv1 nm, nm, true, 0, some v, o⟩) :
    FieldsFrom prog N Par t hidden (addHidden td nm v o).fields := by
  unfold addHidden
  refine ⟨?_, ?_, ?_, ?_⟩
  · intro f hf
    rcases List.mem_cons.1 hf with rfl | hf
    · rfl
    · exact h.key f (List.mem_filter.1 hf).1
  · intro f hf
    rcases List.mem_cons.1 hf with rfl | hf
    · exact .inl ⟨rfl, hh⟩
    · exact h.sound f (List.mem_filter.1 hf).1
  · intro n hn
    obtain ⟨f, hf, hk⟩ := h.complete n hn
    by_cases e : f.key = Parser.fnv1 nm
    · exact ⟨_, List.mem_cons_self .., e.symm.trans hk⟩
    · exact ⟨f, List.mem_cons_of_mem _ (List.mem_filter.2 ⟨hf, by simpa using e⟩), hk⟩
  · intro f hf g hg hk
    rcases List.mem_cons.1 hf with rfl | hf
    · rcases List.mem_cons.1 hg with rfl | hg
      · rfl
      · have := (List.mem_filter.1 hg).2
        simp at this
        exact absurd hk.symm this
    · rcases List.mem_cons.1 hg with rfl | hg
      · have := (List.mem_filter.1 hf).2
        simp at this
        exact absurd hk this
      · exact h.unique f (List.mem_filter.1 hf).1 g (List.mem_filter.1 hg).1 hk

theorem finalType_name {d : Decl V} {q : Bytes} {inj : Option (WObj × WObj)} {n : Bytes} {e : Entry} :
    (finalType d q inj ms n e).typeName = n ∧ (finalType d q inj ms n e).goTypeName = e.goName ∧
    (finalType d q inj ms n e).goPkgPath = e.pkg ∧ (finalType d q inj ms n e).implementations = e.impls := by
  rcases finalType_cases d q inj ms n e with h | ⟨_, _, _, _, _, h⟩ <;> rw [h] <;> exact ⟨rfl, rfl, rfl, rfl⟩

theorem mirrors_of {fuel : Nat} {q m : Bytes} {inj : Option (WObj × WObj)} {dirs : List (DirectiveDef F V)} {schema : Schema F V} (hnc : NoClash prog)
    (hw : walkRoots prog fuel d ⟨[], [], 0, []⟩ = .ok (q, m, inj) s) (hp : ParOK s ms Par)
    (heq : assemble prog d q m inj s ms i dirs = some schema) : Mirrors prog (namesOf s i) Par d schema := by
  have hinv0 : Inv prog ⟨[], [], 0, []⟩ := ⟨fun n e l => (by cases l), fun n e l => (by cases l)⟩
  obtain ⟨p1, ⟨eq, lq, sq⟩, ⟨em, lm, sm⟩, hinj⟩ := walkRoots_good hnc hinv0 hw
  have hty : ∀ n e, lookup s.types n = some e → EntryOf prog s e := fun n e l =>
    (p1.done.types n e l).elim id (fun h => (by cases h))
  have hif : ∀ n e, lookup s.interfaces n = some e → IEntryOf prog s e := fun n e l =>
    (p1.done.interfaces n e l).elim id (fun h => (by cases h))
  have hnd := walkRoots_keeps (nodup_steps prog (Reach prog d)) (reach_closed prog d) (fun t hr R hR h => h t hr) hw
    ⟨List.nodup_nil, List.nodup_nil⟩
  have hsrc := walkRoots_keeps (src_steps prog (Reach prog d)) (reach_closed prog d) (fun t hr R hR h => h t hr) hw
    ⟨fun n e l => (by cases l), fun n e l => (by cases l)⟩
  have hroots : ∀ t, Root prog d t → ∃ id o, Stands prog s t id o := by
    intro t hr
    have stands_of : ∀ n e, lookup s.types n = some e → ∃ id o, Stands prog s e.src id o := by
      intro n e l
      obtain ⟨⟨fs, hst⟩, _, _, hn⟩ := p1.inv.types n e l
      refine ⟨_, _, .struct hst l rfl ?_⟩
      intro hne
      rcases hn with h | h
      · exact h.2
      · exact (hne h.1).elim
    cases hr with
    | query => rw [← sq]; exact stands_of _ _ lq
    | mutation => rw [← sm]; exact stands_of _ _ lm
    | schema hx =>
      obtain ⟨o, f, rfl⟩ := walkRoots_inj hw hx
      obtain ⟨x', hx', h1, _⟩ := hinj o f rfl
      rw [hx] at hx'; injection hx' with hx'; subst hx'
      exact ⟨_, _, h1⟩
    | type hx hu =>
      obtain ⟨o, f, rfl⟩ := walkRoots_inj hw hx
      obtain ⟨x', hx', _, h2⟩ := hinj o f rfl
      rw [hx] at hx'; injection hx' with hx'; subst hx'
      exact FuncOf.result h2 hu
  have hall : ∀ t, Reach prog d t → ∃ id o, Stands prog s t id o := fun t h => h _ (stands_closed hty hif) hroots
  unfold assemble at heq
  rw [lq, lm] at heq
  dsimp only at heq
  injection heq with heq
  have hlt : ∀ n, lookup schema.types n = (lookup s.types n).map (finalType d q inj ms n) := by
    intro n; rw [← heq]; exact lookup_map (finalType d q inj ms) s.types n
  have hli : ∀ n, lookup schema.interfaces n = (lookup s.interfaces n).map (finIface ms n) := by
    intro n; rw [← heq]; exact lookup_map (finIface ms) s.interfaces n
  have hrq : schema.rootQuery = finalType d q inj ms q eq := by rw [← heq]
  have hrm : schema.rootMethod = finalType d q inj ms m em := by rw [← heq]
  have hN : ∀ n t, (namesOf s i).types n = some t → ∃ e, lookup s.types n = some e ∧ e.src = t := fun n t h =>
    Option.map_eq_some_iff.1 h
  have hNi : ∀ n t, (namesOf s i).ifaces n = some t → ∃ e, lookup s.interfaces n = some e ∧ e.src = t := fun n t h =>
    Option.map_eq_some_iff.1 h
  refine ⟨?_, ?_, ?_, ?_, ?_, ?_, ?_, ?_, ?_, ?_, ?_, ?_, ?_, ?_, ?_, ?_⟩
  · intro n; rw [hlt]; simp [namesOf]
  · intro n; rw [hli]; simp [namesOf]
  · rw [← heq]; simp only [List.map_map]; exact hnd.1
  · rw [← heq]; simp only [List.map_map]; exact hnd.2
  · intro n t h
    obtain ⟨e, l, rfl⟩ := hN n t h
    obtain ⟨_, _, _, hn⟩ := p1.inv.types n e l
    exact hn.imp id (fun ⟨a, k, _, b⟩ => ⟨a, k, b⟩)
  · intro n t h
    obtain ⟨e, l, rfl⟩ := hNi n t h
    obtain ⟨hsh, _, _, hn, hne⟩ := p1.inv.interfaces n e l
    exact ⟨hne, hn⟩
  · intro n t h
    obtain ⟨e, l, rfl⟩ := hN n t h
    exact ⟨hsrc.1 n e l, (p1.inv.types n e l).1⟩
  · intro n t h
    obtain ⟨e, l, rfl⟩ := hNi n t h
    exact ⟨hsrc.2 n e l, (p1.inv.interfaces n e l).1⟩
  · intro t fs hr hst
    obtain ⟨id, o, h⟩ := hall t hr
    cases h with
    | time a => have := hst.2; rw [a] at this; cases this
    | struct a b c _ => exact ⟨_, (congrArg (Option.map Entry.src) b).trans (congrArg some c)⟩
    | iface a => have := hst.1; rw [a] at this; cases this
    | array a b c => have := hst.1; rw [b] at this; cases this
    | slice a b c => have := hst.1; rw [b] at this; cases this
    | ptr a b c => have := hst.1; rw [b] at this; cases this
    | enum a b c => have := hst.1; rw [b] at this; cases this
    | data a b c _ => have := hst.1; rw [b] at this; cases this
  · intro t hr htm hsh
    obtain ⟨id, o, h⟩ := hall t hr
    cases h with
    | time a => rw [a] at htm; cases htm
    | struct a b c _ => have := a.1; rw [hsh] at this; cases this
    | iface a b c l e => exact ⟨_, (congrArg (Option.map IEntry.src) l).trans (congrArg some e)⟩
    | array a b c => rw [b] at hsh; cases hsh
    | slice a b c => rw [b] at hsh; cases hsh
    | ptr a b c => rw [b] at hsh; cases hsh
    | enum a b c => rw [b] at hsh; cases hsh
    | data a b c _ => rw [b] at hsh; cases hsh
  · intro n t td h lt
    obtain ⟨e, l, rfl⟩ := hN n t h
    rw [hlt, l] at lt
    simp only [Option.map_some, Option.some.injEq] at lt
    obtain ⟨_, hpk, hgn, _⟩ := p1.inv.types n e l
    obtain ⟨hF, hI1, hI2⟩ := hty n e l
    obtain ⟨a1, a2, a3, a4⟩ := finalType_name (d := d) (q := q) (inj := inj) (n := n) (e := e) (ms := ms)
    subst lt
    refine ⟨a1, a2.trans hgn, a3.trans hpk, ?_, ?_, ?_⟩
    · rcases finalType_cases d q inj ms n e with h' | ⟨o, f, x, hi, hx, h'⟩
      · rw [h']; exact fieldsFrom_of hp hF _
      · have hnq : (finalType d q inj ms n e).typeName = schema.rootQuery.typeName := by
          rw [a1, hrq, (finalType_name (d := d) (q := q) (inj := inj) (n := q) (e := eq) (ms := ms)).1]
          by_cases hnq : n = q
          · exact hnq
          · exfalso
            have h1 : finalType d q inj ms n e = finType ms n e := by unfold finalType; rw [if_neg hnq]
            rw [h1] at h'
            have h2 : (finType (V := V) ms n e).fields = (addHidden (addHidden (finType ms n e) b%"__schema" x.schemaValue (finObj ms o))
              b%"__type" x.typeValue (finObj ms f)).fields := congrArg TypeDef.fields h'
            have h3 : ∀ f ∈ (finType (V := V) ms n e).fields, f.hidden = false := by
              intro f hf
              obtain ⟨g, _, rfl⟩ := List.mem_map.1 hf
              rfl
            have := h3 ⟨Parser.fnv1 b%"__type", b%"__type", true, 0, some x.typeValue, finObj ms f⟩ (by
              rw [h2]; exact List.mem_cons_self ..)
            cases this
        obtain ⟨x', hx', hs1, hs2⟩ := hinj o f hi
        rw [hx] at hx'; injection hx' with hx'; subst hx'
        have hfields : ∀ hid, FieldsFrom prog (namesOf s i) Par e.src hid (finType (V := V) ms n e).fields := fun hid =>
          fieldsFrom_of hp hF hid
        have hgoal : ∀ hid : Field F V → Prop, (∀ f, Injected prog (namesOf s i) Par d f → hid f) →
            FieldsFrom prog (namesOf s i) Par e.src hid (finalType d q inj ms n e).fields := by
          intro hid hh
          rw [h']
          exact fieldsFrom_hidden (fieldsFrom_hidden (hfields hid) (hh _ (.schema hx rfl rfl (objOf_of hs1))))
            (hh _ (.type hx rfl rfl (funcObj_of hp hs2)))
        exact hgoal _ (fun f hf => ⟨hnq, hf⟩)
    · intro k hk
      rw [a4] at hk
      obtain ⟨u, hu, gn, gp, hst⟩ := hI2 k hk
      refine ⟨u, hu, ?_⟩
      cases objOf_of (i := i) (ms := ms) hst with
      | iface _ _ h => exact h
    · intro hne u hu htm hsh
      obtain ⟨o, ho, hin⟩ := hI1 hne u hu
      rw [a4]
      cases ho with
      | time a => rw [a] at htm; cases htm
      | struct a b c _ => have := a.1; rw [hsh] at this; cases this
      | iface a b c l e => exact ⟨_, hin _ _ _ rfl, by simp only [namesOf, l, Option.map_some, e]⟩
      | array a b c => rw [b] at hsh; cases hsh
      | slice a b c => rw [b] at hsh; cases hsh
      | ptr a b c => rw [b] at hsh; cases hsh
      | enum a b c => rw [b] at hsh; cases hsh
      | data a b c _ => rw [b] at hsh; cases hsh
  · intro n t dd h lt
    obtain ⟨e, l, rfl⟩ := hNi n t h
    rw [hli, l] at lt
    simp only [Option.map_some, Option.some.injEq] at lt
    subst lt
    obtain ⟨hF, us, h1, h2, h3⟩ := hif n e l
    refine ⟨rfl, fieldsFrom_of hp hF _, us, h1, ?_, ?_⟩
    · intro k hk
      obtain ⟨u, hu, ⟨hun, hui⟩, hst⟩ := h2 k hk
      obtain ⟨n1, n2⟩ := stands_objRef hst
      refine ⟨u, hu, n1.symm, n2.symm, hun, hui, ?_⟩
      cases objOf_of (i := i) (ms := ms) hst with
      | struct _ h => exact h
    · intro u hu htm
      obtain ⟨k, hk, hst⟩ := h3 u hu htm
      refine ⟨k, hk, ?_⟩
      cases objOf_of (i := i) (ms := ms) hst with
      | struct _ h => exact h
  · have hn : schema.rootQuery.typeName = q := by rw [hrq]; exact finalType_name.1
    refine ⟨?_, ?_, ?_⟩
    · rw [hn]; simp only [namesOf, lq, Option.map_some, sq]
    · rw [hn, hlt, lq, hrq]; rfl
    · rw [← heq]
  · have hn : schema.rootMethod.typeName = m := by rw [hrm]; exact finalType_name.1
    refine ⟨?_, ?_, ?_⟩
    · rw [hn]; simp only [namesOf, lm, Option.map_some, sm]
    · rw [hn, hlt, lm, hrm]; rfl
    · rw [← heq]
  · rw [← heq]
  · rw [← heq]

theorem mirrorsInputs_of {fuel : Nat} {q m : Bytes} {inj : Option (WObj × WObj)} {i0 : InSt} {dirs : List (DirectiveDef F V)} {schema : Schema F V}
    {isType : Bytes → Bool} (hd : Distinct prog)
    (ha : allIns prog (checkInput prog isType fuel) s.methods [] ⟨[], 0⟩ = .ok ms i0)
    (hdi : dirIns prog (checkInput prog isType fuel) d.directives [] i0 = .ok dirs i)
    (heq : assemble prog d q m inj s ms i dirs = some schema) : MirrorsInputs prog (namesOf s i) d schema ∧
      ParOK s ms (fun tys m => Params prog (namesOf s i) tys m.ins m.inFields) := by
  have hg := checkInput_good (isType := isType) hd fuel
  obtain ⟨p2, hms⟩ := allIns_good hg s.methods [] [] ⟨[], 0⟩ ms i0 ⟨fun n e l => (by cases l)⟩ rfl (fun _ _ h => (by cases h)) ha
  obtain ⟨p3, hdirs⟩ := dirIns_good hg d.directives [] i0 dirs i p2.inv hdi
  obtain ⟨_, hall⟩ := dirIns_all d.directives [] i0 dirs i hdi
  have hin : ∀ n e, lookup i.inTypes n = some e → InFieldsOf prog i e.src e.fields := by
    intro n e l
    rcases (p2.trans _ _ p3).done n e l with h | h
    · exact h
    · cases h
  unfold assemble at heq
  cases lq : lookup s.types q with
  | none => rw [lq] at heq; cases heq
  | some eq =>
  cases lm : lookup s.types m with
  | none => rw [lq, lm] at heq; cases heq
  | some em =>
  rw [lq, lm] at heq
  dsimp only at heq
  injection heq with heq
  have hlin : ∀ n, lookup schema.inTypes n = (lookup i.inTypes n).map (fun e => ⟨e.fields, prog.zero e.src⟩) := by
    intro n
    rw [← heq]
    exact lookup_map (fun _ e => (⟨e.fields, prog.zero e.src⟩ : InStruct F)) i.inTypes n
  refine ⟨⟨?_, ?_, ?_, ?_, ?_⟩, ?_⟩
  · intro n; rw [hlin]; simp [namesOf]
  · intro n t h
    obtain ⟨e, l, rfl⟩ := Option.map_eq_some_iff.1 h
    exact (p3.inv.types n e l).1
  · intro n t x h lx
    obtain ⟨e, l, rfl⟩ := Option.map_eq_some_iff.1 h
    rw [hlin, l] at lx
    simp only [Option.map_some, Option.some.injEq] at lx
    subst lx
    have hI := hin n e l
    refine ⟨rfl, ?_, hI.complete, hI.unique⟩
    intro f hf
    obtain ⟨fs, h1, h2⟩ := hI.sound f hf
    exact ⟨fs, h1, inField_of h2⟩
  · intro loc table x hl hx
    have hxd : x ∈ dirs ∧ x.where_.contains loc = true := by
      rw [← heq] at hl
      simp only [dirTables] at hl
      unfold lookup at hl
      rw [Option.map_eq_some_iff] at hl
      obtain ⟨p, hp, rfl⟩ := hl
      obtain ⟨l, _, rfl⟩ := List.mem_map.1 (List.mem_of_find?_eq_some hp)
      have e := List.find?_some hp
      simp only [decide_eq_true_eq] at e
      subst e
      have := List.mem_filter.1 hx
      exact ⟨this.1, this.2⟩
    refine ⟨by simpa using hxd.2, ?_⟩
    rcases hdirs x hxd.1 with h | ⟨e, he, h1, h2, h3, h4, h5, h6, h7⟩
    · cases h
    · exact ⟨e, he, h1, h2, h3, h4, h5, h6, params_of h7⟩
  · intro e he loc hloc
    obtain ⟨x, hx, h1, h2, h3⟩ := hall e he
    have hmem : loc ∈ (dirs.flatMap (·.where_)).eraseDups := by
      rw [List.mem_eraseDups]
      exact List.mem_flatMap.2 ⟨x, hx, by rw [h2]; exact hloc⟩
    refine ⟨dirs.filter (fun d => d.where_.contains loc), ?_, x, List.mem_filter.2 ⟨hx, ?_⟩, h1, h3⟩
    · rw [← heq]
      exact lookup_mapFst hmem _
    · rw [h2]; simpa using hloc
  · intro j r hj
    obtain ⟨x, hx, hp⟩ := hms j r hj
    exact ⟨x, hx, fun _ _ => params_of (paramsOf_mono p3.ext hp)⟩

end
end TypeWalk
end Yarql
