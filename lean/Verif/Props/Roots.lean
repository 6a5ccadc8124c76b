import Verif.Props.TypeList
import Verif.Props.TypeWalk
import Verif.Props.Introspect
import Verif.Props.Globals

/-!
# The introspection of a schema made by `Parse`

C69: the two root types are different. With it, the assumptions of C35 and C67 hold for every schema `Parse` returns whose object
types and interfaces have different names.
-/

namespace Yarql
namespace Roots
open TypeWalk GoTypes Reflects Naming Introspect TypeList

variable {F V : Type}

/-! ## C69 -/

theorem walkRoots_differ {prog : Program F} (hnc : NoClash prog) {fuel : Nat} {d : Decl V} {s s' : St} {q m : Bytes}
    {inj : Option (WObj × WObj)} (hi : Inv prog s) (h : walkRoots prog fuel d s = .ok (q, m, inj) s') (he : d.noEqualCheck = false) :
    (prog.get d.queries).pkg ++ (prog.get d.queries).name ≠ (prog.get d.methods).pkg ++ (prog.get d.methods).name := by
  have hg := check_good hnc fuel
  unfold walkRoots at h
  obtain ⟨o1, s1, h1, h⟩ := bind_ok.1 h
  obtain ⟨p1, st1⟩ := hg _ _ _ _ _ hi h1
  have hx1 : ∃ n gn gp e, o1 = .objRef n gn gp ∧ lookup s1.types n = some e ∧ e.src = d.queries := by
    cases st1 with
    | struct a b c d => exact ⟨_, _, _, _, rfl, b, c⟩
    | _ => exact (fail_ok.1 h).elim
  obtain ⟨n1, gn1, gp1, e1, rfl, l1, src1⟩ := hx1
  dsimp only at h
  obtain ⟨o2, s2, h2, h⟩ := bind_ok.1 h
  obtain ⟨p2, st2⟩ := hg _ _ _ _ _ p1.inv h2
  have hx2 : ∃ n gn gp e, o2 = .objRef n gn gp ∧ lookup s2.types n = some e ∧ e.src = d.methods := by
    cases st2 with
    | struct a b c d => exact ⟨_, _, _, _, rfl, b, c⟩
    | _ => exact (fail_ok.1 h).elim
  obtain ⟨n2, gn2, gp2, e2, rfl, l2, src2⟩ := hx2
  dsimp only at h
  obtain ⟨_, _, hget, h⟩ := bind_ok.1 h
  obtain ⟨rfl, rfl⟩ := getS_ok.1 hget
  obtain ⟨e1', l1', src1'⟩ := p2.ext.types _ _ l1
  rw [l1', l2] at h; dsimp only at h
  obtain ⟨_, a1, a2, _⟩ := p2.inv.types _ _ l1'
  obtain ⟨_, b1, b2, _⟩ := p2.inv.types _ _ l2
  rw [src1', src1] at a1 a2
  rw [src2] at b1 b2
  by_cases hr : d.noEqualCheck = false ∧ e1'.pkg ++ e1'.goName = e2.pkg ++ e2.goName
  · rw [if_pos hr] at h; exact (fail_ok.1 h).elim
  · intro hc
    exact hr ⟨he, by rw [a1, a2, b1, b2]; exact hc⟩

/-- **C69.** A schema that `Parse` returns has two different root types: the Go types of queries and methods are different, and so
are the names of the root types in the schema. -/
theorem C69_roots_differ (prog : Program F) (fuel : Nat) (d : Decl V) (schema : Schema F V) (hnc : NoClash prog) (he : d.noEqualCheck = false)
    (h : parse prog fuel d = .ok schema) : d.queries ≠ d.methods ∧ schema.rootQuery.typeName ≠ schema.rootMethod.typeName := by
  have hne : d.queries ≠ d.methods := by
    obtain ⟨q, m, inj, s, ms, i, dirs, i', hw, ha, hdi, heq⟩ := parse_steps h
    intro e
    have := walkRoots_differ hnc ⟨fun n e l => (by cases l), fun n e l => (by cases l)⟩ hw he
    rw [e] at this
    exact this rfl
  refine ⟨hne, fun e => hne ?_⟩
  obtain ⟨N, hN⟩ := C48_registered_partial prog fuel d schema hnc h
  have h1 := hN.query.1
  rw [e, hN.mutation.1] at h1
  injection h1 with h1
  exact h1.symm

/-! ## The tables of a schema made by `Parse` -/

theorem mirrors_own {prog : Program F} {N : Names} {Par : List Ty → Method F → Prop} {d : Decl V} {schema : Schema F V}
    (h : Mirrors prog N Par d schema) (hin : (schema.inTypes.map (·.1)).Nodup) : OwnNames schema where
  types n td hm := by
    have hl := lookup_of_mem hm h.typesOnce
    obtain ⟨t, ht⟩ := Option.isSome_iff_exists.1 (show (N.types n).isSome = true by rw [h.typeNames, hl]; rfl)
    exact (h.typeDef n t td ht hl).1
  interfaces n td hm := by
    have hl := lookup_of_mem hm h.ifacesOnce
    obtain ⟨t, ht⟩ := Option.isSome_iff_exists.1 (show (N.ifaces n).isSome = true by rw [h.ifaceNames, hl]; rfl)
    exact (h.ifaceDef n t td ht hl).1
  typesOnce := h.typesOnce
  interfacesOnce := h.ifacesOnce
  inputsOnce := hin

theorem parse_inputsOnce {prog : Program F} {fuel : Nat} {d : Decl V} {schema : Schema F V} (h : parse prog fuel d = .ok schema) :
    (schema.inTypes.map (·.1)).Nodup := by
  obtain ⟨q, m, inj, s, ms, i, dirs, i', hw, ha, hdi, heq⟩ := parse_steps h
  have k1 := allIns_keepI (checkInput_keepI fuel) _ _ _ _ _ ha
  have k2 := dirIns_keepI (checkInput_keepI fuel) _ _ _ _ _ hdi
  have := (k1.trans k2).once .nil
  unfold assemble at heq
  split at heq
  · injection heq with heq
    subst heq
    rw [List.map_map]
    exact this
  · cases heq

theorem mirrors_closed {prog : Program F} {N : Names} {Par : List Ty → Method F → Prop} {d : Decl V} {schema : Schema F V}
    (h : Mirrors prog N Par d schema) : Closed schema where
  types n td hm i hi := by
    have hl := lookup_of_mem hm h.typesOnce
    obtain ⟨t, ht⟩ := Option.isSome_iff_exists.1 (show (N.types n).isSome = true by rw [h.typeNames, hl]; rfl)
    obtain ⟨u, -, hu⟩ := (h.typeDef n t td ht hl).2.2.2.2.1 i hi
    rw [← h.ifaceNames, hu]; rfl
  interfaces n td hm i hi := by
    have hl := lookup_of_mem hm h.ifacesOnce
    obtain ⟨t, ht⟩ := Option.isSome_iff_exists.1 (show (N.ifaces n).isSome = true by rw [h.ifaceNames, hl]; rfl)
    obtain ⟨-, -, us, -, h1, -⟩ := h.ifaceDef n t td ht hl
    obtain ⟨u, -, -, -, -, -, hu⟩ := h1 i hi
    rw [← h.typeNames, hu]; rfl

theorem mirrors_tables {prog : Program F} {N : Names} {Par : List Ty → Method F → Prop} {d : Decl V} {schema : Schema F V}
    (h : Mirrors prog N Par d schema) (hr : schema.rootQuery.typeName ≠ schema.rootMethod.typeName)
    (hk : ∀ n, ¬ (Shown schema n .object ∧ Shown schema n .interface)) : Tables schema where
  typeName n td hl := by
    obtain ⟨t, ht⟩ := Option.isSome_iff_exists.1 (show (N.types n).isSome = true by rw [h.typeNames, hl]; rfl)
    exact (h.typeDef n t td ht hl).1
  ifaceName n td hl := by
    obtain ⟨t, ht⟩ := Option.isSome_iff_exists.1 (show (N.ifaces n).isSome = true by rw [h.ifaceNames, hl]; rfl)
    exact (h.ifaceDef n t td ht hl).1
  query := h.query.2.1
  mutation := h.mutation.2.1
  roots := hr
  disjoint n td e h1 h2 := hk n ⟨.object (by rw [h1]; rfl), .interface (by rw [h2]; rfl)⟩
  visible n td hl f hf := by
    obtain ⟨t, ht⟩ := Option.isSome_iff_exists.1 (show (N.ifaces n).isSome = true by rw [h.ifaceNames, hl]; rfl)
    obtain ⟨-, hF, -⟩ := h.ifaceDef n t td ht hl
    rcases hF.sound f hf with ⟨-, hx⟩ | ⟨hx, -⟩
    · exact hx.elim
    · exact hx

/-! ## No request for the fields of a type crashes -/

theorem objOf_total {prog : Program F} {N : Names} {Par : List Ty → Method F → Prop} {d : Decl V} {schema : Schema F V}
    (h : Mirrors prog N Par d schema) {t : Ty} {id : Bool} {o : Obj F} (ho : ObjOf prog N t id o) : (objToQLType schema o).isSome = true := by
  induction ho with
  | time _ => rfl
  | struct _ hn =>
    simp only [objToQLType, Option.isSome_map]
    rw [← h.typeNames, hn]; rfl
  | iface _ _ hn =>
    simp only [objToQLType, Option.isSome_map]
    rw [← h.ifaceNames, hn]; rfl
  | array _ _ _ ih => simp only [objToQLType, Option.isSome_map]; exact ih
  | slice _ _ _ ih => simp only [objToQLType, Option.isSome_map]; exact ih
  | ptr _ _ _ ih => simp only [objToQLType, Option.isSome_map]; exact ih
  | @enum t id k i _ hs he =>
    simp only [objToQLType, Option.isSome_map, h.enums]
    unfold enumIndex at he
    rw [hs] at he; dsimp only at he
    split at he
    · cases he
    · rw [List.getElem?_eq_getElem (List.findIdx?_eq_some_iff_getElem.1 he).1]; rfl
  | data _ _ _ _ => rfl

theorem funcObj_total {prog : Program F} {N : Names} {Par : List Ty → Method F → Prop} {d : Decl V} {schema : Schema F V}
    (h : Mirrors prog N Par d schema) {sig : Sig} {b tag : Bool} {o : Obj F} (ho : FuncObj prog N Par sig b tag o) : (objToQLType schema o).isSome = true := by
  obtain ⟨m, out, ty, id, rfl, -, -, -, -, -, -, ho, -⟩ := ho
  simp only [objToQLType, Option.isSome_map]
  exact objOf_total h ho

theorem fieldObj_total {prog : Program F} {N : Names} {Par : List Ty → Method F → Prop} {d : Decl V} {schema : Schema F V}
    (h : Mirrors prog N Par d schema) {t : Ty} {f : Field F V} (ho : FieldObj prog N Par t f) : (objToQLType schema f.obj).isSome = true := by
  cases ho with
  | plain _ _ _ _ _ ho => exact objOf_total h ho
  | func _ _ _ _ _ ho => exact funcObj_total h ho
  | method _ _ ho => exact funcObj_total h ho

theorem fieldsFrom_total {prog : Program F} {N : Names} {Par : List Ty → Method F → Prop} {d : Decl V} {schema : Schema F V}
    (h : Mirrors prog N Par d schema) {t : Ty} {hid : Field F V → Prop} {fs : List (Field F V)} (hF : FieldsFrom prog N Par t hid fs) :
    (computeFields schema fs).isSome = true := by
  unfold computeFields
  rw [Option.isSome_map]
  refine mapM_isSome _ _ (fun f hf => ?_)
  rw [List.mem_filter] at hf
  unfold describe
  rw [Option.isSome_map]
  rcases hF.sound f hf.1 with ⟨hh, -⟩ | ⟨-, -, hx⟩
  · rw [hh] at hf; exact absurd hf.2 (by decide)
  · exact fieldObj_total h hx

/-- the request is about a type of the schema -/
def Exists (s : Schema F V) : Ask → Prop
  | .object n => (lookup s.types n).isSome = true
  | .iface n => (lookup s.interfaces n).isSome = true
  | _ => True

theorem fields_total {prog : Program F} {N : Names} {Par : List Ty → Method F → Prop} {d : Decl V} {schema : Schema F V}
    (h : Mirrors prog N Par d schema) (memo : Memo) (a : Ask) (ha : Exists schema a) : (fields schema memo a).isSome = true := by
  have obj : ∀ n td, lookup schema.types n = some td → (computeFields schema td.fields).isSome = true := fun n td hl => by
    obtain ⟨t, ht⟩ := Option.isSome_iff_exists.1 (show (N.types n).isSome = true by rw [h.typeNames, hl]; rfl)
    exact fieldsFrom_total h (h.typeDef n t td ht hl).2.2.2.1
  cases a with
  | query =>
    simp only [fields]
    split
    · rfl
    · rw [Option.isSome_map]; exact obj _ _ h.query.2.1
  | mutation =>
    simp only [fields]
    split
    · rfl
    · rw [Option.isSome_map]; exact obj _ _ h.mutation.2.1
  | object n =>
    obtain ⟨td, hl⟩ := Option.isSome_iff_exists.1 (show (lookup schema.types n).isSome = true from ha)
    simp only [fields, hl, Option.bind_some]
    split
    · rfl
    · rw [Option.isSome_map]; exact obj _ _ hl
  | iface n =>
    obtain ⟨td, hl⟩ := Option.isSome_iff_exists.1 (show (lookup schema.interfaces n).isSome = true from ha)
    simp only [fields, hl, Option.bind_some]
    split
    · rfl
    · rw [Option.isSome_map]
      obtain ⟨t, ht⟩ := Option.isSome_iff_exists.1 (show (N.ifaces n).isSome = true by rw [h.ifaceNames, hl]; rfl)
      obtain ⟨-, hF, -⟩ := h.ifaceDef n t td ht hl
      have : computeIfaceFields schema td.fields = computeFields schema td.fields := by
        unfold computeFields computeIfaceFields
        rw [List.filter_eq_self.2 (fun f hf => by
          rcases hF.sound f hf with ⟨-, hx⟩ | ⟨hx, -⟩
          · exact hx.elim
          · simp [hx])]
      rw [this]
      exact fieldsFrom_total h hF

theorem asks_total {prog : Program F} {N : Names} {Par : List Ty → Method F → Prop} {d : Decl V} {schema : Schema F V}
    (h : Mirrors prog N Par d schema) (past : List Ask) (hp : ∀ a ∈ past, Exists schema a) (memo : Memo) : (asks schema memo past).isSome = true := by
  induction past generalizing memo with
  | nil => rfl
  | cons a past ih =>
    obtain ⟨r, hr⟩ := Option.isSome_iff_exists.1 (fields_total h memo a (hp a (List.mem_cons_self ..)))
    simp only [asks, hr, Option.bind_some]
    exact ih (fun b hb => hp b (List.mem_cons_of_mem _ hb)) _

/-- **C35** for schemas made by `Parse`: whatever types of the schema were asked for before, the request for the fields of a type
is answered, with exactly its visible fields; for the root query type, if the fields of the mutation type were not asked for before.
Missing besides that: schemas in which an object type and an interface share a name. -/
theorem C35_parsed_partial (prog : Program F) (fuel : Nat) (d : Decl V) (schema : Schema F V) (hnc : NoClash prog) (he : d.noEqualCheck = false)
    (h : parse prog fuel d = .ok schema) (hk : ∀ n, ¬ (Shown schema n .object ∧ Shown schema n .interface))
    (past : List Ask) (hp : ∀ a ∈ past, Exists schema a) (a : Ask) (ha : Exists schema a) (hq : aboutQuery schema a → ∀ b ∈ past, b ≠ .mutation) :
    ∃ memo r memo' fs, asks schema emptyMemo past = some memo ∧ fields schema memo a = some (r, memo') ∧
      target schema a = some fs ∧ Lists schema fs r := by
  obtain ⟨N, hN⟩ := C48_registered_partial prog fuel d schema hnc h
  have ht := mirrors_tables hN (C69_roots_differ prog fuel d schema hnc he h).2 hk
  obtain ⟨memo, hm⟩ := Option.isSome_iff_exists.1 (asks_total hN past hp emptyMemo)
  obtain ⟨⟨r, memo'⟩, hr⟩ := Option.isSome_iff_exists.1 (fields_total hN memo a ha)
  obtain ⟨fs, h1, h2⟩ := C35_fields_partial schema ht past memo hm a r memo' hr hq
  exact ⟨memo, r, memo', fs, hm, hr, h1, h2⟩

/-! ## C67 for schemas made by `Parse` -/

/-- **C67** for schemas made by `Parse`: the list exists, and it shows an object type for exactly the reachable structs, an interface
for exactly the reachable interfaces (`Mirrors` says what `N.types` and `N.ifaces` are), the enums that were registered, and the
seven scalars. Missing: that each is shown once, for which see `C67_by_name_partial`. -/
theorem C67_parsed (prog : Program F) (fuel : Nat) (d : Decl V) (schema : Schema F V) (hnc : NoClash prog) (h : parse prog fuel d = .ok schema) :
    ∃ N, Mirrors prog N (fun _ _ => True) d schema ∧ OwnNames schema ∧ Closed schema ∧ (∃ l, AllTypes schema l) ∧ ∀ l, AllTypes schema l →
      (∀ n, (∃ t ∈ l, t.name = n ∧ t.kind = .object) ↔ ∃ t, N.types n = some t) ∧
      (∀ n, (∃ t ∈ l, t.name = n ∧ t.kind = .interface) ↔ ∃ t, N.ifaces n = some t) ∧
      (∀ n, (∃ t ∈ l, t.name = n ∧ t.kind = .enum) ↔ ∃ e ∈ prog.enums, e.typeName = n) ∧
      (∀ n, (∃ t ∈ l, t.name = n ∧ t.kind = .scalar) ↔ n ∈ [b%"Int", b%"Float", b%"String", b%"Boolean", b%"ID", b%"Time", b%"File"]) := by
  obtain ⟨N, hN⟩ := C48_registered_partial prog fuel d schema hnc h
  have ho := mirrors_own hN (parse_inputsOnce h)
  have hc := mirrors_closed hN
  refine ⟨N, hN, ho, hc, C67_exists schema hc, fun l hl => ?_⟩
  have hs := (C67_names schema ho l hl).1
  refine ⟨fun n => (hs n .object).trans ?_, fun n => (hs n .interface).trans ?_, fun n => (hs n .enum).trans ?_, fun n => (hs n .scalar).trans ?_⟩
  · constructor
    · rintro ⟨h⟩; exact Option.isSome_iff_exists.1 (by rw [hN.typeNames]; assumption)
    · rintro ⟨t, ht⟩; exact .object (by rw [← hN.typeNames, ht]; rfl)
  · constructor
    · intro hsh; cases hsh with | interface h => exact Option.isSome_iff_exists.1 (by rw [hN.ifaceNames]; assumption)
    · rintro ⟨t, ht⟩; exact .interface (by rw [← hN.ifaceNames, ht]; rfl)
  · rw [← hN.enums]
    constructor
    · intro hsh; cases hsh with | enum e he hn => exact ⟨e, he, hn⟩
    · rintro ⟨e, he, hn⟩; exact .enum e he hn
  · constructor
    · intro hsh; cases hsh with | scalar h => exact h
    · exact .scalar

/-! ## C66 -/

theorem lists_names {s : Schema F V} {fs : List (Field F V)} {r : List QField} (h : Lists s fs r) (f : Bytes) :
    f ∈ r.map (·.name) ↔ ∃ x ∈ fs, x.hidden = false ∧ x.qlFieldName = f := by
  obtain ⟨-, l, hp, hl⟩ := h
  rw [(hp.map _).mem_iff, List.mem_map]
  constructor
  · rintro ⟨q, hq, rfl⟩
    obtain ⟨x, hx, hd⟩ := mem_pointwise_right hl hq
    rw [List.mem_filter] at hx
    exact ⟨x, hx.1, by simpa using hx.2, hd.1.symm⟩
  · rintro ⟨x, hx, hh, rfl⟩
    obtain ⟨q, hq, hd⟩ := mem_pointwise_left hl (List.mem_filter.2 ⟨hx, by simp [hh]⟩)
    exact ⟨q, hq, hd.1⟩

theorem find_none_iff (fs have_ : List Bytes) : fs.find? (fun f => !have_.any (fun g => g = f)) = none ↔ ∀ f ∈ fs, f ∈ have_ := by
  rw [List.find?_eq_none]
  constructor
  · intro h f hf
    have := h f hf
    simp only [Bool.not_eq_true', Bool.not_eq_false, List.any_eq_true, decide_eq_true_eq] at this
    obtain ⟨x, hx, rfl⟩ := this
    exact hx
  · intro h f hf
    simp only [Bool.not_eq_true', Bool.not_eq_false, List.any_eq_true, decide_eq_true_eq]
    exact ⟨f, h f hf, rfl⟩

/-- the errors of `HasFields` for an answer that describes `kind` and `fields` -/
theorem hasFields_spec (t : TType) (fs : List Bytes) : hasFields (some t) fs = none ↔
    (t.kind = b%"OBJECT" ∨ t.kind = b%"INTERFACE") ∧ ∀ f ∈ fs, f ∈ t.fields := by
  unfold hasFields
  dsimp only
  by_cases hk : t.kind ≠ b%"OBJECT" ∧ t.kind ≠ b%"INTERFACE"
  · rw [if_pos hk]
    simp only [reduceCtorEq, false_iff]
    rintro ⟨h | h, -⟩
    · exact hk.1 h
    · exact hk.2 h
  · rw [if_neg hk]
    have hk' : t.kind = b%"OBJECT" ∨ t.kind = b%"INTERFACE" := by
      by_cases h1 : t.kind = b%"OBJECT"
      · exact .inl h1
      · by_cases h2 : t.kind = b%"INTERFACE"
        · exact .inr h2
        · exact absurd ⟨h1, h2⟩ hk
    rw [← find_none_iff]
    cases hf : fs.find? (fun f => !t.fields.any (fun g => g = f)) with
    | none => simp [hk']
    | some f => simp

theorem onlyHasFields_spec (t : TType) (fs : List Bytes) : onlyHasFields (some t) fs = none ↔
    (t.kind = b%"OBJECT" ∨ t.kind = b%"INTERFACE") ∧ ∀ f, f ∈ fs ↔ f ∈ t.fields := by
  have h0 : onlyHasFields (some t) fs = none ↔ hasFields (some t) fs = none ∧ ∀ f ∈ t.fields, f ∈ fs := by
    unfold onlyHasFields hasFields
    dsimp only
    by_cases hk : t.kind ≠ b%"OBJECT" ∧ t.kind ≠ b%"INTERFACE"
    · rw [if_pos hk, if_pos hk]; simp
    · rw [if_neg hk, if_neg hk]
      cases hf : fs.find? (fun f => !t.fields.any (fun g => g = f)) with
      | some f => simp
      | none =>
        dsimp only
        have he : t.fields.find? (fun g => !fs.any (fun f => g = f)) = t.fields.find? (fun g => !fs.any (fun f => f = g)) := by
          congr 1; funext g; congr 2; funext f; exact decide_eq_decide.2 eq_comm
        rw [he, ← find_none_iff]
        cases hg : t.fields.find? (fun g => !fs.any (fun f => f = g)) with
        | none => simp
        | some g => simp
  rw [h0, hasFields_spec]
  constructor
  · rintro ⟨⟨a, b⟩, c⟩; exact ⟨a, fun f => ⟨b f, c f⟩⟩
  · rintro ⟨a, b⟩; exact ⟨⟨a, fun f => (b f).1⟩, fun f => (b f).2⟩

/-- the name of a kind in the GraphQL specification (§4.2.2, `__TypeKind`) -/
inductive KindName : TypeKind → Bytes → Prop
  | scalar : KindName .scalar b%"SCALAR"
  | object : KindName .object b%"OBJECT"
  | interface : KindName .interface b%"INTERFACE"
  | enum : KindName .enum b%"ENUM"
  | inputObject : KindName .inputObject b%"INPUT_OBJECT"

/-- `r` is what the tester must know about the type of the name `n` -/
structure Knows (s : Schema F V) (n : Bytes) (r : Option TType) : Prop where
  hasType : hasType r = true ↔ ∃ k, Shown s n k
  kind : ∀ k, Shown s n k → KindName k (typeKind r)
  noKind : (¬ ∃ k, Shown s n k) → typeKind r = []
  hasFields : ∀ fs, hasFields r fs = none ↔ (Shown s n .object ∨ Shown s n .interface) ∧ ∀ f ∈ fs, HasField s n f
  onlyHasFields : ∀ fs, onlyHasFields r fs = none ↔ (Shown s n .object ∨ Shown s n .interface) ∧ ∀ f, f ∈ fs ↔ HasField s n f

theorem text_name (k : TypeKind) : KindName k k.text := by cases k <;> constructor

theorem text_inj {k k' : TypeKind} (h : k.text = k'.text) : k = k' := by
  revert h; cases k <;> cases k' <;> decide

theorem knows_none {s : Schema F V} {n : Bytes} (h : ¬ ∃ k, Shown s n k) : Knows s n none where
  hasType := by simp [TypeList.hasType, h]
  kind k hk := absurd ⟨k, hk⟩ h
  noKind _ := rfl
  hasFields fs := by
    simp only [TypeList.hasFields, reduceCtorEq, false_iff]
    rintro ⟨h' | h', -⟩ <;> exact h ⟨_, h'⟩
  onlyHasFields fs := by
    simp only [TypeList.onlyHasFields, reduceCtorEq, false_iff]
    rintro ⟨h' | h', -⟩ <;> exact h ⟨_, h'⟩

theorem knows_some {s : Schema F V} (hu : Unambiguous s) {n : Bytes} {k : TypeKind} (hs : Shown s n k) {fs : List Bytes}
    (hf : k = .object ∨ k = .interface → ∀ f, f ∈ fs ↔ HasField s n f) : Knows s n (some ⟨k.text, fs⟩) := by
  have kind : (k.text = b%"OBJECT" ∨ k.text = b%"INTERFACE") ↔ Shown s n .object ∨ Shown s n .interface := by
    constructor
    · rintro (h | h)
      · exact .inl (text_inj (k' := .object) h ▸ hs)
      · exact .inr (text_inj (k' := .interface) h ▸ hs)
    · rintro (h | h)
      · exact .inl (hu.kinds _ _ _ hs h ▸ rfl)
      · exact .inr (hu.kinds _ _ _ hs h ▸ rfl)
  have back : Shown s n .object ∨ Shown s n .interface → k = .object ∨ k = .interface := by
    rintro (h | h)
    · exact .inl (hu.kinds _ _ _ hs h)
    · exact .inr (hu.kinds _ _ _ hs h)
  refine ⟨?_, ?_, ?_, fun gs => ?_, fun gs => ?_⟩
  · simp only [TypeList.hasType, Option.isSome_some, true_iff]; exact ⟨k, hs⟩
  · intro k' hk'; rw [hu.kinds _ _ _ hk' hs]; exact text_name k
  · intro h; exact absurd ⟨k, hs⟩ h
  · rw [hasFields_spec]
    dsimp only
    rw [kind]
    exact and_congr_right (fun h => by simp only [hf (back h)])
  · rw [onlyHasFields_spec]
    dsimp only
    rw [kind]
    exact and_congr_right (fun h => by simp only [hf (back h)])

/-- **C66.** `tester.HasType`, `TypeKind`, `HasFields` and `OnlyHasFields` tell what the schema has, whatever introspection was done
before: a type exists iff the schema shows it, with its kind; `HasFields` returns nil iff it is an object type or interface with all
the given visible fields, `OnlyHasFields` iff those are all. Missing: types that share a name (the answer then depends on the order of
Go's maps, `C67_refuted`) and the root query type after a request for the fields of the mutation type (`C66_refuted`). -/
theorem C66_tester_partial (prog : Program F) (fuel : Nat) (d : Decl V) (schema : Schema F V) (hnc : NoClash prog) (he : d.noEqualCheck = false)
    (h : parse prog fuel d = .ok schema) (hu : Unambiguous schema) (l : List QType) (hl : AllTypes schema l)
    (past : List Ask) (hp : ∀ a ∈ past, Exists schema a) (n : Bytes) (hq : n = schema.rootQuery.typeName → ∀ b ∈ past, b ≠ .mutation) :
    ∃ memo r memo', asks schema emptyMemo past = some memo ∧ testerType schema l memo n = some (r, memo') ∧ Knows schema n r := by
  obtain ⟨N, hN, ho, hc, -, -⟩ := C67_parsed prog fuel d schema hnc h
  have hk : ∀ n, ¬ (Shown schema n .object ∧ Shown schema n .interface) := fun n hh => by cases hu.kinds n _ _ hh.1 hh.2
  obtain ⟨hnd, hby, -⟩ := C67_by_name_partial schema ho hu l hl
  have hnames := (C67_names schema ho l hl).1
  obtain ⟨memo, hm⟩ := Option.isSome_iff_exists.1 (asks_total hN past hp emptyMemo)
  cases hg : getTypeByName l n with
  | none =>
    refine ⟨memo, none, memo, hm, by unfold testerType; rw [hg], knows_none ?_⟩
    rintro ⟨k, hs⟩
    obtain ⟨t, ht, hn, -⟩ := (hnames n k).2 hs
    rw [(hby n t).2 ⟨ht, hn⟩] at hg
    cases hg
  | some t =>
    obtain ⟨ht, hn⟩ := (hby n t).1 hg
    have hshown : Shown schema n t.kind := (hnames n t.kind).1 ⟨t, ht, hn, rfl⟩
    have hC := C67_content schema ho hc l hl t ht
    have ask : ∀ a, t.fields = some a → Exists schema a → (aboutQuery schema a → n = schema.rootQuery.typeName) →
        (∀ fs, target schema a = some fs → ∀ f, (∃ x ∈ fs, x.hidden = false ∧ x.qlFieldName = f) ↔ HasField schema n f) →
        ∃ memo r memo', asks schema emptyMemo past = some memo ∧ testerType schema l memo n = some (r, memo') ∧ Knows schema n r := by
      intro a hf ha hab htgt
      obtain ⟨memo₁, r, memo', fs, hm₁, hr, h1, h2⟩ := C35_parsed_partial prog fuel d schema hnc he h hk past hp a ha (fun hh => hq (hab hh))
      rw [hm] at hm₁; injection hm₁ with e; subst e
      refine ⟨memo, some ⟨t.kind.text, r.map (·.name)⟩, memo', hm, by unfold testerType; rw [hg]; dsimp only; rw [hf]; dsimp only; rw [hr]; rfl, ?_⟩
      exact knows_some hu hshown (fun _ f => (lists_names h2 f).trans (htgt fs h1 f))
    have nofields : t.fields = none → (t.kind = .object ∨ t.kind = .interface → False) →
        ∃ memo r memo', asks schema emptyMemo past = some memo ∧ testerType schema l memo n = some (r, memo') ∧ Knows schema n r := by
      intro hf hnk
      exact ⟨memo, some ⟨t.kind.text, []⟩, memo, hm, by unfold testerType; rw [hg]; dsimp only; rw [hf],
        knows_some hu hshown (fun hh => (hnk hh).elim)⟩
    cases hC with
    | object n' dd hd =>
      have hn' : n' = n := hn
      subst hn'
      refine ask _ rfl (show (lookup schema.types n').isSome = true by rw [hd]; rfl) (fun hh => hh) ?_
      intro fs hfs f
      have : (lookup schema.types n').map (·.fields) = some fs := hfs
      rw [hd] at this; injection this with this; subst this
      constructor
      · rintro ⟨x, hx⟩; exact .inl ⟨dd, hd, x, hx⟩
      · rintro (⟨d', hd', x, hx⟩ | ⟨d', hd', -⟩)
        · rw [hd] at hd'; injection hd' with e; subst e; exact ⟨x, hx⟩
        · exact absurd ⟨.object (by rw [hd]; rfl), .interface (by rw [hd']; rfl)⟩ (hk n')
    | interface n' dd hd _ =>
      have hn' : n' = n := hn
      subst hn'
      refine ask _ rfl (show (lookup schema.interfaces n').isSome = true by rw [hd]; rfl) (fun hh => hh.elim) ?_
      intro fs hfs f
      have : (lookup schema.interfaces n').map (·.fields) = some fs := hfs
      rw [hd] at this; injection this with this; subst this
      constructor
      · rintro ⟨x, hx⟩; exact .inr ⟨dd, hd, x, hx⟩
      · rintro (⟨d', hd', -⟩ | ⟨d', hd', x, hx⟩)
        · exact absurd ⟨.object (by rw [hd']; rfl), .interface (by rw [hd]; rfl)⟩ (hk n')
        · rw [hd] at hd'; injection hd' with e; subst e; exact ⟨x, hx⟩
    | input n' _ fs _ _ _ => exact nofields rfl (fun h => by rcases h with h | h <;> cases h)
    | enum e vs _ _ _ => exact nofields rfl (fun h => by rcases h with h | h <;> cases h)
    | scalar n' => exact nofields rfl (fun h => by rcases h with h | h <;> cases h)

/-! ## Interfaces and possible types -/

section
open Globals
variable (T : Types) (c : List Call) (isError : Ty → Bool) (zero : Ty → InVal F) (enums : List (EnumDef F))

/-- **C67** (links). After any calls of `Implements` and `TypeRename`, the object types and interfaces of the list refer to each other:
an object type names an interface exactly if the interface has it among its possible types, which is the case exactly if the struct was
registered for it. Missing: interfaces of different packages with one name. -/
theorem C67_links_partial (fuel : Nat) (d : Decl V) (schema : Schema F V) (hnc : NoClash (progAfter T c isError zero enums))
    (hI : ∀ i j, (T.get i).shape = .iface → (T.get j).shape = .iface → (T.get i).name ≠ [] → (T.get i).name = (T.get j).name → i = j)
    (hT : ∀ t, isTime (T.get t) = true → (T.get t).shape ≠ .iface)
    (hp : parse (progAfter T c isError zero enums) fuel d = .ok schema) (l : List QType) (hl : AllTypes schema l)
    (tx ty : QType) (hx : tx ∈ l) (hy : ty ∈ l) (kx : tx.kind = .object) (ky : ty.kind = .interface) :
    ∃ N t i ps, N.types tx.name = some t ∧ N.ifaces ty.name = some i ∧ Mirrors (progAfter T c isError zero enums) N (fun _ _ => True) d schema ∧
      ty.possibleTypes = some (some ps) ∧ (ty.name ∈ tx.interfaces ↔ tx.name ∈ ps) ∧ (tx.name ∈ ps ↔ Made T c i t) := by
  obtain ⟨N, hN, h1, h2⟩ := C64_schema_partial T c isError zero enums fuel d schema hnc hI hp
  have ho := mirrors_own hN (parse_inputsOnce hp)
  have hc := mirrors_closed hN
  have cx := C67_content schema ho hc l hl tx hx
  have cy := C67_content schema ho hc l hl ty hy
  cases cx with
  | object n td hn =>
    cases cy with
    | interface m dd hm _ =>
      obtain ⟨t, ht⟩ := Option.isSome_iff_exists.1 (show (N.types n).isSome = true by rw [hN.typeNames, hn]; rfl)
      obtain ⟨i, hi⟩ := Option.isSome_iff_exists.1 (show (N.ifaces m).isSome = true by rw [hN.ifaceNames, hm]; rfl)
      obtain ⟨-, fs, hst⟩ := hN.typeReached n t ht
      have htt : isTime (T.get t) = false := hst.2
      have hit : isTime (T.get i) = false := by
        cases hh : isTime (T.get i) with
        | false => rfl
        | true => exact absurd (hN.ifaceReached m i hi).2 (hT i hh)
      have hps : n ∈ dd.implementations.map (·.typeName) ↔ Made T c i t := by
        rw [← h1 m i dd t hi hm htt, List.mem_map]
        constructor
        · rintro ⟨k, hk, e⟩; exact ⟨k, hk, e ▸ ht⟩
        · rintro ⟨k, hk, e⟩
          refine ⟨k, hk, ?_⟩
          obtain ⟨-, -, us, -, g1, -⟩ := hN.ifaceDef m i dd hi hm
          obtain ⟨u, -, -, -, hne, -, hu⟩ := g1 k hk
          rw [e] at hu; injection hu with hu; subst hu
          rcases hN.typeName _ _ e with ⟨-, e1⟩ | ⟨e1, -⟩
          · rcases hN.typeName _ _ ht with ⟨-, e2⟩ | ⟨e2, -⟩
            · rw [e1, e2]
            · exact absurd e2 hne
          · exact absurd e1 hne
      have hms : m ∈ td.implementations ↔ Made T c i t := by
        have same : ∀ k, N.ifaces k = some i → k = m := fun k hk => by rw [(hN.ifaceName k i hk).2, (hN.ifaceName m i hi).2]
        by_cases hne : (T.get t).name = []
        · constructor
          · intro hm'
            obtain ⟨u, hu, -⟩ := (hN.typeDef n t td ht hn).2.2.2.2.1 m hm'
            obtain ⟨t', e', q, _, _, hP⟩ := (inv_run T c).back _ u hu
            have e0 : (T.get t').name = (T.get t).name := e'
            exact absurd (e0.trans hne) hP.tname
          · rintro ⟨_, _, _, hP⟩
            exact absurd hne hP.tname
        · rw [← h2 n t td i ht hn hne hit]
          constructor
          · intro hm'; exact ⟨m, hm', hi⟩
          · rintro ⟨k, hk, e⟩; exact same k e ▸ hk
      exact ⟨N, t, i, _, ht, hi, hN, rfl, hms.trans hps.symm, hps⟩
    | _ => cases ky
  | _ => cases kx

end

/-! ## Concrete schemas -/

theorem unambiguous_of_nodup (s : Schema F V)
    (h : (s.types.map (·.1) ++ s.inTypes.map (·.1) ++ s.enums.map (·.typeName) ++ scalarNames ++ s.interfaces.map (·.1)).Nodup) : Unambiguous s := by
  rw [List.nodup_append, List.nodup_append, List.nodup_append, List.nodup_append] at h
  obtain ⟨⟨⟨⟨-, -, h1⟩, he, h2⟩, -, h3⟩, -, h4⟩ := h
  have t : ∀ {n}, (lookup s.types n).isSome = true → n ∈ s.types.map (·.1) := fun h => by
    obtain ⟨a, ha⟩ := lookup_isSome_iff.1 h; exact List.mem_map_of_mem (f := (·.1)) ha
  have i : ∀ {n}, (lookup s.interfaces n).isSome = true → n ∈ s.interfaces.map (·.1) := fun h => by
    obtain ⟨a, ha⟩ := lookup_isSome_iff.1 h; exact List.mem_map_of_mem (f := (·.1)) ha
  have p : ∀ {n}, (lookup s.inTypes n).isSome = true → n ∈ s.inTypes.map (·.1) := fun h => by
    obtain ⟨a, ha⟩ := lookup_isSome_iff.1 h; exact List.mem_map_of_mem (f := (·.1)) ha
  have m : ∀ {n} e, e ∈ s.enums → e.typeName = n → n ∈ s.enums.map (·.typeName) := fun e he h => h ▸ List.mem_map_of_mem he
  have c : ∀ {n}, n ∈ [b%"Int", b%"Float", b%"String", b%"Boolean", b%"ID", b%"Time", b%"File"] → n ∈ scalarNames := fun h => (scalarNames_mem _).2 h
  have app : ∀ {a : Bytes} {l m : List Bytes}, a ∈ l ∨ a ∈ m → a ∈ l ++ m := List.mem_append.2
  refine ⟨fun n k k' hk hk' => ?_, he⟩
  cases hk with
  | object a =>
    cases hk' with
    | object b => rfl
    | interface b => exact absurd rfl (h4 n (app (.inl (app (.inl (app (.inl (t a))))))) n (i b))
    | input b => exact absurd rfl (h1 n (t a) n (p b))
    | enum e b b' => exact absurd rfl (h2 n (app (.inl (t a))) n (m e b b'))
    | scalar b => exact absurd rfl (h3 n (app (.inl (app (.inl (t a))))) n (c b))
  | interface a =>
    cases hk' with
    | object b => exact absurd rfl (h4 n (app (.inl (app (.inl (app (.inl (t b))))))) n (i a))
    | interface b => rfl
    | input b => exact absurd rfl (h4 n (app (.inl (app (.inl (app (.inr (p b))))))) n (i a))
    | enum e b b' => exact absurd rfl (h4 n (app (.inl (app (.inr (m e b b'))))) n (i a))
    | scalar b => exact absurd rfl (h4 n (app (.inr (c b))) n (i a))
  | input a =>
    cases hk' with
    | object b => exact absurd rfl (h1 n (t b) n (p a))
    | interface b => exact absurd rfl (h4 n (app (.inl (app (.inl (app (.inr (p a))))))) n (i b))
    | input b => rfl
    | enum e b b' => exact absurd rfl (h2 n (app (.inr (p a))) n (m e b b'))
    | scalar b => exact absurd rfl (h3 n (app (.inl (app (.inr (p a))))) n (c b))
  | enum e a a' =>
    cases hk' with
    | object b => exact absurd rfl (h2 n (app (.inl (t b))) n (m e a a'))
    | interface b => exact absurd rfl (h4 n (app (.inl (app (.inr (m e a a'))))) n (i b))
    | input b => exact absurd rfl (h2 n (app (.inr (p b))) n (m e a a'))
    | enum e b b' => rfl
    | scalar b => exact absurd rfl (h3 n (app (.inr (m e a a'))) n (c b))
  | scalar a =>
    cases hk' with
    | object b => exact absurd rfl (h3 n (app (.inl (app (.inl (t b))))) n (c a))
    | interface b => exact absurd rfl (h4 n (app (.inr (c a))) n (i b))
    | input b => exact absurd rfl (h3 n (app (.inl (app (.inr (p b))))) n (c a))
    | enum e b b' => exact absurd rfl (h3 n (app (.inr (m e b b'))) n (c a))
    | scalar b => rfl

/-- a list `getAllQLTypes` can return, if it returns -/
def listOf (s : Schema F V) : List QType := sortBy QType.name ((entries s).getD [])

/-- another one -/
def listOf' (s : Schema F V) : List QType := sortBy QType.name ((entries s).getD []).reverse

theorem listOf_all (s : Schema F V) (h : (entries s).isSome = true) : AllTypes s (listOf s) ∧ AllTypes s (listOf' s) := by
  obtain ⟨es, hes⟩ := Option.isSome_iff_exists.1 h
  have e : (entries s).getD [] = es := by rw [hes]; rfl
  refine ⟨⟨⟨es, hes, ?_⟩, sortBy_sorted _ _⟩, ⟨⟨es, hes, ?_⟩, sortBy_sorted _ _⟩⟩
  · unfold listOf; rw [e]; exact sortBy_perm _ _
  · unfold listOf'; rw [e]; exact (sortBy_perm _ _).trans es.reverse_perm

open GoDemo in
theorem goSchema_unambiguous : Unambiguous goSchema := unambiguous_of_nodup _ (by decide +kernel)

open GoDemo in
theorem goSchema_list : AllTypes goSchema (listOf goSchema) := (listOf_all goSchema (by decide +kernel)).1

open GoDemo in
/-- Non-vacuity of C66, C67 and C69: the program of `Spec/GoDemo.lean`. -/
example : parse prog 10 decl = .ok goSchema ∧ NoClash prog ∧ decl.noEqualCheck = false ∧ Unambiguous goSchema ∧ AllTypes goSchema (listOf goSchema) ∧
    goSchema.rootQuery.typeName = b%"User" ∧ goSchema.rootMethod.typeName = b%"M" ∧
    (listOf goSchema).map (fun t => (t.name, t.kind)) = [(b%"Animal", .interface), (b%"Boolean", .scalar), (b%"Dog", .object), (b%"File", .scalar),
      (b%"Float", .scalar), (b%"ID", .scalar), (b%"Int", .scalar), (b%"M", .object), (b%"String", .scalar), (b%"Time", .scalar), (b%"User", .object)] :=
  ⟨parse_ok, distinct.noClash, rfl, goSchema_unambiguous, goSchema_list, by decide +kernel, by decide +kernel, by decide +kernel⟩

open GoDemo in
/-- **C66 refuted**: after `{__schema{mutationType{fields{name}}}}`, `tester.HasFields` misses a field that the root query type has. -/
theorem C66_refuted : (asks goSchema emptyMemo [.mutation]).bind (fun memo => (testerType goSchema (listOf goSchema) memo b%"User").map (fun x =>
      hasFields x.1 [b%"name"])) = some (some (.missing b%"name")) ∧
    (asks goSchema emptyMemo []).bind (fun memo => (testerType goSchema (listOf goSchema) memo b%"User").map (fun x => hasFields x.1 [b%"name"])) = some none := by
  decide +kernel

open Globals.Registered in
/-- Non-vacuity of `C67_links_partial`: `Dog`, renamed to `Hond`, and `Animal`. -/
example := C67_links_partial types calls (fun t => t = 9) GoDemo.zero [] 10 GoDemo.decl schema noClash ifacesApart
  (fun t h1 h2 => by
    rcases iface_cases (t := t) h2 with rfl | rfl
    · revert h1; decide +kernel
    · revert h1; decide +kernel) parse_ok (listOf schema) (listOf_all schema (by decide +kernel)).1

open Globals.Registered in
example : ((listOf schema).filter (fun t => t.kind = .object ∨ t.kind = .interface)).map (fun t => (t.name, t.interfaces, t.possibleTypes)) =
    [(b%"Animal", [], some (some [b%"Hond"])), (b%"Hond", [b%"Animal"], none), (b%"M", [], none), (b%"User", [], none)] := by decide +kernel

namespace TwoNames
open GoDemo Demo

/--
```go
package main
type Q struct { When Time; Name string }
type Time struct { Hour int64 }           // not time.Time
```
-/
def prog : Program Unit where
  get := fun
    | 0 => ⟨b%"Q", b%"main", .struct [fld b%"When" 2, fld b%"Name" 1], []⟩
    | 1 => basic b%"string" .string
    | 2 => ⟨b%"Time", b%"main", .struct [fld b%"Hour" 3], []⟩
    | 3 => basic b%"int64" (.int .w64)
    | 4 => ⟨b%"M", b%"main", .struct [], []⟩
    | 5 => ⟨b%"cQ", b%"a/b", .struct [fld b%"Name" 1], []⟩
    | 6 => ⟨b%"Q", b%"a/bc", .struct [fld b%"Name" 1], []⟩
    | 7 => anon (.struct [fld b%"Name" 1])
    | 8 => anon (.struct [fld b%"Hour" 3])
    | _ => anon .other
  implements := fun _ _ => false
  isError := fun _ => false
  zero := fun _ => .scalar (.bool false)
  renamed := fun _ => none
  implMap := fun _ => none
  structImpl := fun _ => []
  enums := []

def decl (q m : Ty) : Decl D where
  queries := q
  methods := m
  queryValue := .struct []
  methodValue := .struct []
  inject := none
  noEqualCheck := false
  maxDepth := 60
  directives := []

theorem accepts : (toOption (parse prog 10 (decl 0 4))).isSome = true := by decide +kernel

def schema : Schema Unit D := (toOption (parse prog 10 (decl 0 4))).get accepts

theorem parse_ok : parse prog 10 (decl 0 4) = .ok schema := of_toOption _ _

def failure {F V : Type} : TypeWalk.Parsed F V → Option WErr
  | .err e => some e
  | _ => none

end TwoNames

open TwoNames in
/-- **C67 refuted for types that share a name.** `Parse` accepts a struct named `Time`. The name is then listed twice, and whether
`__type(name: "Time")` answers with the scalar or with the struct depends on the order in which Go ranges over its maps. -/
theorem C67_refuted : ∃ l l', parse TwoNames.prog 10 (TwoNames.decl 0 4) = .ok TwoNames.schema ∧ AllTypes TwoNames.schema l ∧ AllTypes TwoNames.schema l' ∧
    (getTypeByName l b%"Time").map (·.kind) = some .scalar ∧ (getTypeByName l' b%"Time").map (·.kind) = some .object := by
  have h := listOf_all TwoNames.schema (by decide +kernel)
  exact ⟨_, _, TwoNames.parse_ok, h.1, h.2, by decide +kernel, by decide +kernel⟩

open TwoNames in
/-- **C69, the converse is false**: `Parse` takes different root types for one type if their package paths and names concatenate to the
same text, or if both are unnamed. -/
theorem C69_refuted_converse :
    failure (parse TwoNames.prog 10 (TwoNames.decl 5 6)) = some .sameRoots ∧ failure (parse TwoNames.prog 10 (TwoNames.decl 7 8)) = some .sameRoots := by
  decide +kernel

end Roots
end Yarql
