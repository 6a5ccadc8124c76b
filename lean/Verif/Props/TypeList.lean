import Verif.Spec.TypeList
import Verif.Props.Introspect
import Verif.Props.Globals

/-!
# Properties of the introspection lists and of the tester package

C66 the functions of `tester`; C67 `__schema { types }` and `__type`; C68 `__schema { directives }`.
-/

namespace Yarql
namespace TypeList
open Introspect

variable {F V : Type}

/-! ## C67 -/

theorem mem_of_lookup {K A : Type} [DecidableEq K] {l : List (K × A)} {k : K} {a : A} (h : lookup l k = some a) : (k, a) ∈ l := by
  unfold lookup at h
  obtain ⟨e, he, rfl⟩ := Option.map_eq_some_iff.1 h
  have h1 := List.find?_some he
  have h2 := List.mem_of_find?_eq_some he
  have : e.1 = k := of_decide_eq_true h1
  exact this ▸ h2

theorem lookup_of_mem {K A : Type} [DecidableEq K] {l : List (K × A)} {k : K} {a : A} (h : (k, a) ∈ l) (hn : (l.map (·.1)).Nodup) :
    lookup l k = some a := by
  induction l with
  | nil => cases h
  | cons e l ih =>
    rw [List.map_cons, List.nodup_cons] at hn
    unfold lookup
    rw [List.find?_cons]
    rcases List.mem_cons.1 h with rfl | h
    · simp
    · have hne : e.1 ≠ k := fun e' => hn.1 (e' ▸ List.mem_map_of_mem (f := (·.1)) h)
      simp only [hne, decide_false]
      exact ih h hn.2

theorem lookup_isSome_iff {K A : Type} [DecidableEq K] {l : List (K × A)} {k : K} : (lookup l k).isSome = true ↔ ∃ a, (k, a) ∈ l := by
  constructor
  · intro h
    obtain ⟨a, ha⟩ := Option.isSome_iff_exists.1 h
    exact ⟨a, mem_of_lookup ha⟩
  · rintro ⟨a, ha⟩
    unfold lookup
    rw [Option.isSome_map, List.find?_isSome]
    exact ⟨_, ha, by simp⟩

theorem mem_pointwise_left {A B : Type} {R : A → B → Prop} {l : List A} {m : List B} (h : Pointwise R l m) {a : A} (ha : a ∈ l) : ∃ b ∈ m, R a b := by
  induction h with
  | nil => cases ha
  | cons h1 _ ih =>
    rcases List.mem_cons.1 ha with rfl | ha
    · exact ⟨_, List.mem_cons_self .., h1⟩
    · obtain ⟨b, hb, hr⟩ := ih ha
      exact ⟨b, List.mem_cons_of_mem _ hb, hr⟩

theorem mem_pointwise_right {A B : Type} {R : A → B → Prop} {l : List A} {m : List B} (h : Pointwise R l m) {b : B} (hb : b ∈ m) : ∃ a ∈ l, R a b := by
  induction h with
  | nil => cases hb
  | cons h1 _ ih =>
    rcases List.mem_cons.1 hb with rfl | hb
    · exact ⟨_, List.mem_cons_self .., h1⟩
    · obtain ⟨b, hb, hr⟩ := ih hb
      exact ⟨b, List.mem_cons_of_mem _ hb, hr⟩

theorem mapM_isSome {A B : Type} (f : A → Option B) (l : List A) (h : ∀ a ∈ l, (f a).isSome = true) : (l.mapM f).isSome = true := by
  induction l with
  | nil => rfl
  | cons a l ih =>
    rw [List.mapM_cons]
    obtain ⟨b, hb⟩ := Option.isSome_iff_exists.1 (h a (List.mem_cons_self ..))
    obtain ⟨m, hm⟩ := Option.isSome_iff_exists.1 (ih (fun x hx => h x (List.mem_cons_of_mem _ hx)))
    rw [hb, hm]; rfl

theorem pointwise_map_eq {A B C : Type} {f : A → C} {g : B → C} {l : List A} {m : List B} (h : Pointwise (fun a b => g b = f a) l m) :
    m.map g = l.map f := by
  induction h with
  | nil => rfl
  | cons h1 _ ih => rw [List.map_cons, List.map_cons, h1, ih]

theorem inputFieldsOf_spec (l : List InField) :
    (inputFieldsOf l).Pairwise (fun a b => bytesLe a.1 b.1 = true) ∧
    ∃ r, (inputFieldsOf l).Perm r ∧ Pointwise (fun (a : InField) x => x.1 = a.key ∧ InType a.input x.2) l r := by
  refine ⟨sortBy_sorted _ _, _, sortBy_perm _ _, ?_⟩
  induction l with
  | nil => exact .nil
  | cons a l ih => exact .cons ⟨rfl, (inType_of _).1⟩ ih

/-- an entry of the list comes from a table -/
inductive Origin (s : Schema F V) (t : QType) : Prop where
  | object (e) : e ∈ s.types → objectEntry s e = some t → Origin s t
  | input (e) : e ∈ s.inTypes → t = inputEntry e → Origin s t
  | enum (e) : e ∈ s.enums → t = enumEntry e → Origin s t
  | scalar (n) : n ∈ scalarNames → t = scalarEntry n → Origin s t
  | interface (e) : e ∈ s.interfaces → t = interfaceEntry s e → Origin s t

theorem mem_entries {s : Schema F V} {es : List QType} (h : entries s = some es) (t : QType) : t ∈ es ↔ Origin s t := by
  unfold entries at h
  obtain ⟨os, hos, rfl⟩ := Option.map_eq_some_iff.1 h
  have hp := mapM_option_forall₂ _ _ _ hos
  simp only [List.mem_append, List.mem_map]
  constructor
  · rintro ((((h | ⟨e, he, rfl⟩) | ⟨e, he, rfl⟩) | ⟨n, hn, rfl⟩) | ⟨e, he, rfl⟩)
    · obtain ⟨e, he, h⟩ := mem_pointwise_right hp h
      exact .object e he h
    · exact .input e he rfl
    · exact .enum e he rfl
    · exact .scalar n hn rfl
    · exact .interface e he rfl
  · rintro (⟨e, he, h⟩ | ⟨e, he, rfl⟩ | ⟨e, he, rfl⟩ | ⟨n, hn, rfl⟩ | ⟨e, he, rfl⟩)
    · obtain ⟨t', ht, h'⟩ := mem_pointwise_left hp he
      rw [h] at h'; injection h' with h'; subst h'
      exact .inl (.inl (.inl (.inl ht)))
    · exact .inl (.inl (.inl (.inr ⟨e, he, rfl⟩)))
    · exact .inl (.inl (.inr ⟨e, he, rfl⟩))
    · exact .inl (.inr ⟨n, hn, rfl⟩)
    · exact .inr ⟨e, he, rfl⟩

theorem mem_list {s : Schema F V} {l : List QType} (h : AllTypes s l) (t : QType) : t ∈ l ↔ Origin s t := by
  obtain ⟨es, hes, hp⟩ := h.perm
  rw [hp.mem_iff, mem_entries hes]

theorem scalarNames_mem (n : Bytes) : n ∈ scalarNames ↔ n ∈ [b%"Int", b%"Float", b%"String", b%"Boolean", b%"ID", b%"Time", b%"File"] := by
  simp only [scalarNames, List.mem_cons, List.not_mem_nil, or_false]
  constructor
  · rintro (h | h | h | h | h | h | h) <;> simp [h]
  · rintro (h | h | h | h | h | h | h) <;> simp [h]

theorem objectEntry_spec {s : Schema F V} (ho : OwnNames s) {n : Bytes} {d : TypeDef F V} (he : (n, d) ∈ s.types) {t : QType}
    (h : objectEntry s (n, d) = some t) : t = ⟨.object, n, some (.object n), d.implementations, none, none, none⟩ := by
  unfold objectEntry at h
  obtain ⟨is, his, rfl⟩ := Option.map_eq_some_iff.1 h
  have : is = d.implementations := by
    have hp := mapM_option_forall₂ _ _ _ his
    have := pointwise_map_eq (f := id) (g := id) (hp.imp (fun i b hb => by
      obtain ⟨dd, hd, rfl⟩ := Option.map_eq_some_iff.1 hb
      exact ho.interfaces _ _ (mem_of_lookup hd)))
    simpa using this
  rw [this, ho.types _ _ he]

theorem objectEntry_isSome {s : Schema F V} (e : Bytes × TypeDef F V) (h : ∀ i ∈ e.2.implementations, (lookup s.interfaces i).isSome = true) :
    (objectEntry s e).isSome = true := by
  unfold objectEntry
  rw [Option.isSome_map]
  exact mapM_isSome _ _ (fun i hi => by rw [Option.isSome_map]; exact h i hi)

/-- **C67** (the names). `__schema { types }` lists, in alphabetical order, exactly the object types, interfaces, input types and
enums of the schema and the seven scalars, each with its kind. -/
theorem C67_names (s : Schema F V) (ho : OwnNames s) (l : List QType) (h : AllTypes s l) :
    (∀ n k, (∃ t ∈ l, t.name = n ∧ t.kind = k) ↔ Shown s n k) ∧ l.Pairwise (fun a b => bytesLe a.name b.name = true) := by
  refine ⟨fun n k => ?_, h.sorted⟩
  constructor
  · rintro ⟨t, ht, rfl, rfl⟩
    rcases (mem_list h t).1 ht with ⟨⟨n, d⟩, he, h'⟩ | ⟨e, he, rfl⟩ | ⟨e, he, rfl⟩ | ⟨n, hn, rfl⟩ | ⟨e, he, rfl⟩
    · rw [objectEntry_spec ho he h']
      exact .object (lookup_isSome_iff.2 ⟨_, he⟩)
    · exact .input (lookup_isSome_iff.2 ⟨_, he⟩)
    · exact .enum e he rfl
    · exact .scalar ((scalarNames_mem n).1 hn)
    · refine .interface (lookup_isSome_iff.2 ⟨e.2, ?_⟩)
      show (e.2.typeName, e.2) ∈ _
      rw [ho.interfaces e.1 e.2 he]; exact he
  · intro hs
    cases hs with
    | object hl =>
      obtain ⟨d, hd⟩ := lookup_isSome_iff.1 hl
      obtain ⟨es, hes, -⟩ := h.perm
      unfold entries at hes
      obtain ⟨os, hos, -⟩ := Option.map_eq_some_iff.1 hes
      obtain ⟨t, -, ht⟩ := mem_pointwise_left (mapM_option_forall₂ _ _ _ hos) hd
      refine ⟨t, (mem_list h t).2 (.object _ hd ht), ?_⟩
      rw [objectEntry_spec ho hd ht]
      exact ⟨rfl, rfl⟩
    | interface hl =>
      obtain ⟨d, hd⟩ := lookup_isSome_iff.1 hl
      exact ⟨_, (mem_list h _).2 (.interface _ hd rfl), ho.interfaces _ _ hd, rfl⟩
    | input hl =>
      obtain ⟨d, hd⟩ := lookup_isSome_iff.1 hl
      exact ⟨_, (mem_list h _).2 (.input _ hd rfl), rfl, rfl⟩
    | enum e he hn => exact ⟨_, (mem_list h _).2 (.enum _ he rfl), hn, rfl⟩
    | scalar hn => exact ⟨_, (mem_list h _).2 (.scalar n ((scalarNames_mem n).2 hn) rfl), rfl, rfl⟩

/-- the references between types and interfaces lead somewhere -/
structure Closed (s : Schema F V) : Prop where
  types : ∀ n d, (n, d) ∈ s.types → ∀ i ∈ d.implementations, (lookup s.interfaces i).isSome = true
  interfaces : ∀ n d, (n, d) ∈ s.interfaces → ∀ i ∈ d.implementations, (lookup s.types i.typeName).isSome = true

/-- **C67** (the rest). What a listed type says about its interfaces, possible types, enum values and input fields is what the
schema has: all of them, in alphabetical order. -/
theorem C67_content (s : Schema F V) (ho : OwnNames s) (hc : Closed s) (l : List QType) (h : AllTypes s l) (t : QType) (ht : t ∈ l) : Content s t := by
  rcases (mem_list h t).1 ht with ⟨⟨n, d⟩, he, h'⟩ | ⟨⟨n, d⟩, he, rfl⟩ | ⟨e, he, rfl⟩ | ⟨n, hn, rfl⟩ | ⟨⟨n, d⟩, he, rfl⟩
  · rw [objectEntry_spec ho he h']
    exact .object n d (lookup_of_mem he ho.typesOnce)
  · exact .input n d _ (lookup_of_mem he ho.inputsOnce) (inputFieldsOf_spec _).1 (inputFieldsOf_spec _).2
  · exact .enum e _ he (sortBy_perm _ _) (sortBy_sorted id _)
  · exact .scalar n
  · have hn := ho.interfaces n d he
    have hm : d.implementations.mapM (fun i => (lookup s.types i.typeName).map (·.typeName)) = some (d.implementations.map (·.typeName)) := by
      obtain ⟨r, hr⟩ := Option.isSome_iff_exists.1 (mapM_isSome (fun i : Impl => (lookup s.types i.typeName).map (·.typeName)) d.implementations
        (fun i hi => by rw [Option.isSome_map]; exact hc.interfaces n d he i hi))
      rw [hr]
      congr 1
      have hp := mapM_option_forall₂ _ _ _ hr
      have := pointwise_map_eq (f := (fun i : Impl => i.typeName)) (g := id) (hp.imp (fun i b hb => by
        obtain ⟨dd, hd, rfl⟩ := Option.map_eq_some_iff.1 hb
        exact ho.types _ _ (mem_of_lookup hd)))
      simpa using this
    have := Content.interface n d (lookup_of_mem he ho.interfacesOnce) (hc.interfaces n d he)
    unfold interfaceEntry
    dsimp only
    rw [hm, hn]
    exact this

theorem C67_exists (s : Schema F V) (hc : Closed s) : ∃ l, AllTypes s l := by
  have : (s.types.mapM (objectEntry s)).isSome = true := mapM_isSome _ _ (fun e he => objectEntry_isSome e (hc.types e.1 e.2 he))
  obtain ⟨os, hos⟩ := Option.isSome_iff_exists.1 this
  exact ⟨_, ⟨_, by unfold entries; rw [hos]; rfl, sortBy_perm QType.name _⟩, sortBy_sorted _ _⟩

theorem entries_names {s : Schema F V} (ho : OwnNames s) {es : List QType} (h : entries s = some es) :
    es.map (·.name) = s.types.map (·.1) ++ s.inTypes.map (·.1) ++ s.enums.map (·.typeName) ++ scalarNames ++ s.interfaces.map (·.1) := by
  unfold entries at h
  obtain ⟨os, hos, rfl⟩ := Option.map_eq_some_iff.1 h
  have h1 : os.map (·.name) = s.types.map (·.1) := by
    have hp := mapM_option_forall₂ _ _ _ hos
    have : ∀ (ts : List (Bytes × TypeDef F V)) os, Pointwise (fun a b => objectEntry s a = some b) ts os → (∀ e ∈ ts, e ∈ s.types) →
        os.map (·.name) = ts.map (·.1) := by
      intro ts os hp
      induction hp with
      | nil => intro _; rfl
      | cons h1 _ ih =>
        intro hm
        rw [List.map_cons, List.map_cons, ih (fun e he => hm e (List.mem_cons_of_mem _ he)), objectEntry_spec ho (hm _ (List.mem_cons_self ..)) h1]
    exact this _ _ hp (fun _ h => h)
  have h2 : (s.interfaces.map (interfaceEntry s)).map (·.name) = s.interfaces.map (·.1) := by
    rw [List.map_map]
    exact List.map_congr_left (fun e he => ho.interfaces e.1 e.2 he)
  rw [List.map_append, List.map_append, List.map_append, List.map_append, h1, h2]
  simp only [List.map_map]
  have h3 : s.inTypes.map (QType.name ∘ inputEntry) = s.inTypes.map (·.1) := rfl
  have h4 : s.enums.map (QType.name ∘ enumEntry) = s.enums.map (·.typeName) := rfl
  have h5 : scalarNames.map (QType.name ∘ scalarEntry) = scalarNames := rfl
  exact congr (congrArg _ (congr (congrArg _ (congr (congrArg _ (congr (congrArg _ rfl) h3)) h4)) h5)) rfl

theorem shown_types {s : Schema F V} {n : Bytes} (h : n ∈ s.types.map (·.1)) : Shown s n .object := by
  obtain ⟨e, he, rfl⟩ := List.mem_map.1 h
  exact .object (lookup_isSome_iff.2 ⟨e.2, he⟩)

theorem shown_ifaces {s : Schema F V} {n : Bytes} (h : n ∈ s.interfaces.map (·.1)) : Shown s n .interface := by
  obtain ⟨e, he, rfl⟩ := List.mem_map.1 h
  exact .interface (lookup_isSome_iff.2 ⟨e.2, he⟩)

theorem shown_inputs {s : Schema F V} {n : Bytes} (h : n ∈ s.inTypes.map (·.1)) : Shown s n .inputObject := by
  obtain ⟨e, he, rfl⟩ := List.mem_map.1 h
  exact .input (lookup_isSome_iff.2 ⟨e.2, he⟩)

theorem shown_enums {s : Schema F V} {n : Bytes} (h : n ∈ s.enums.map (·.typeName)) : Shown s n .enum := by
  obtain ⟨e, he, rfl⟩ := List.mem_map.1 h
  exact .enum e he rfl

theorem shown_scalars {s : Schema F V} {n : Bytes} (h : n ∈ scalarNames) : Shown s n .scalar := .scalar ((scalarNames_mem n).1 h)

theorem names_nodup {s : Schema F V} (ho : OwnNames s) (hu : Unambiguous s) {l : List QType} (h : AllTypes s l) : (l.map (·.name)).Nodup := by
  obtain ⟨es, hes, hp⟩ := h.perm
  rw [(hp.map _).nodup_iff, entries_names ho hes]
  rw [List.nodup_append, List.nodup_append, List.nodup_append, List.nodup_append]
  have key : ∀ {n n' k k'}, k ≠ k' → Shown s n k → Shown s n' k' → n ≠ n' := fun hne h1 h2 e => hne (hu.kinds _ _ _ h1 (e ▸ h2))
  refine ⟨⟨⟨⟨ho.typesOnce, ho.inputsOnce, fun a ha b hb => key (by decide) (shown_types ha) (shown_inputs hb)⟩, hu.enums, fun a ha b hb => ?_⟩,
    by decide, fun a ha b hb => ?_⟩, ho.interfacesOnce, fun a ha b hb => ?_⟩
  · rcases List.mem_append.1 ha with ha | ha
    · exact key (by decide) (shown_types ha) (shown_enums hb)
    · exact key (by decide) (shown_inputs ha) (shown_enums hb)
  · rcases List.mem_append.1 ha with ha | ha
    · rcases List.mem_append.1 ha with ha | ha
      · exact key (by decide) (shown_types ha) (shown_scalars hb)
      · exact key (by decide) (shown_inputs ha) (shown_scalars hb)
    · exact key (by decide) (shown_enums ha) (shown_scalars hb)
  · rcases List.mem_append.1 ha with ha | ha
    · rcases List.mem_append.1 ha with ha | ha
      · rcases List.mem_append.1 ha with ha | ha
        · exact key (by decide) (shown_types ha) (shown_ifaces hb)
        · exact key (by decide) (shown_inputs ha) (shown_ifaces hb)
      · exact key (by decide) (shown_enums ha) (shown_ifaces hb)
    · exact key (by decide) (shown_scalars ha) (shown_ifaces hb)

theorem eq_of_name {l : List QType} (hn : (l.map (·.name)).Nodup) {t u : QType} (ht : t ∈ l) (hu : u ∈ l) (e : t.name = u.name) : t = u := by
  induction l with
  | nil => cases ht
  | cons a l ih =>
    rw [List.map_cons, List.nodup_cons] at hn
    rcases List.mem_cons.1 ht with rfl | ht' <;> rcases List.mem_cons.1 hu with rfl | hu'
    · rfl
    · exact absurd (e ▸ List.mem_map_of_mem (f := (·.name)) hu') hn.1
    · exact absurd (e ▸ List.mem_map_of_mem (f := (·.name)) ht') hn.1
    · exact ih hn.2 ht' hu'

theorem bytesLe_antisymm : ∀ a b : Bytes, bytesLe a b = true → bytesLe b a = true → a = b
  | [], [], _, _ => rfl
  | [], _ :: _, _, h => by simp [bytesLe] at h
  | _ :: _, [], h, _ => by simp [bytesLe] at h
  | a :: x, b :: y, h1, h2 => by
    simp only [bytesLe, Bool.or_eq_true, decide_eq_true_eq, Bool.and_eq_true, beq_iff_eq] at h1 h2
    rcases h1 with h1 | ⟨rfl, h1⟩
    · rcases h2 with h2 | ⟨rfl, h2⟩
      · exact absurd (UInt8.lt_trans h1 h2) (UInt8.lt_irrefl _)
      · exact absurd h1 (UInt8.lt_irrefl _)
    · rcases h2 with h2 | ⟨-, h2⟩
      · exact absurd h2 (UInt8.lt_irrefl _)
      · rw [bytesLe_antisymm x y h1 h2]

theorem eq_of_sorted_perm : ∀ (l m : List QType), l.Perm m → (l.map (·.name)).Nodup → l.Pairwise (fun a b => bytesLe a.name b.name = true) →
    m.Pairwise (fun a b => bytesLe a.name b.name = true) → l = m
  | [], m, hp, _, _, _ => (List.nil_perm.1 hp).symm
  | a :: l, [], hp, _, _, _ => by simpa using hp.length_eq
  | a :: l, b :: m, hp, hn, hl, hm => by
    have hab : a = b := by
      have ha : a ∈ b :: m := hp.mem_iff.1 (List.mem_cons_self ..)
      have hb : b ∈ a :: l := hp.mem_iff.2 (List.mem_cons_self ..)
      rcases List.mem_cons.1 ha with h | ha
      · exact h
      rcases List.mem_cons.1 hb with h | hb
      · exact h.symm
      refine eq_of_name hn (List.mem_cons_self ..) (List.mem_cons_of_mem _ hb) (bytesLe_antisymm _ _ ?_ ?_)
      · exact (List.pairwise_cons.1 hl).1 b hb
      · exact (List.pairwise_cons.1 hm).1 a ha
    subst hab
    rw [List.map_cons, List.nodup_cons] at hn
    rw [eq_of_sorted_perm l m (List.perm_cons _ |>.1 hp) hn.2 (List.pairwise_cons.1 hl).2 (List.pairwise_cons.1 hm).2]

/-- **C67** (one answer). If no two types of the schema share a name, every name is listed once, `__type(name:)` answers with the
listed type of that name, or null if there is none, and neither depends on the order in which Go ranges over the tables. -/
theorem C67_by_name_partial (s : Schema F V) (ho : OwnNames s) (hu : Unambiguous s) (l : List QType) (h : AllTypes s l) :
    (l.map (·.name)).Nodup ∧ (∀ n t, getTypeByName l n = some t ↔ t ∈ l ∧ t.name = n) ∧ (∀ l', AllTypes s l' → l' = l) := by
  have hn := names_nodup ho hu h
  refine ⟨hn, fun n t => ?_, fun l' h' => ?_⟩
  · unfold getTypeByName
    constructor
    · intro hf
      exact ⟨List.mem_reverse.1 (List.mem_of_find?_eq_some hf), of_decide_eq_true (List.find?_some hf :)⟩
    · rintro ⟨ht, rfl⟩
      have : (l.reverse.find? (fun u => u.name = t.name)).isSome = true := List.find?_isSome.2 ⟨t, List.mem_reverse.2 ht, by simp⟩
      obtain ⟨u, hu'⟩ := Option.isSome_iff_exists.1 this
      rw [hu']
      exact congrArg some (eq_of_name hn (List.mem_reverse.1 (List.mem_of_find?_eq_some hu')) ht (of_decide_eq_true (List.find?_some hu' :)))
  · obtain ⟨es, hes, hp⟩ := h.perm
    obtain ⟨es', hes', hp'⟩ := h'.perm
    rw [hes] at hes'; injection hes' with e; subst e
    exact eq_of_sorted_perm _ _ (hp'.trans hp.symm) (names_nodup ho hu h') h'.sorted h.sorted

end TypeList
end Yarql
