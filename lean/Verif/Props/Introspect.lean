import Verif.Spec.TypeNotation

/-!
# C35 (introspected fields), C36 (type notation), C42 (Copy), C52 (directive arguments)
-/

namespace Yarql
namespace Introspect

variable {F V : Type}

/-! ### C36 -/

/-- closing characters, outermost first -/
def closes : QT → Bytes
  | .named _ => []
  | .list t => c%']' :: closes t
  | .nonNull t => c%'!' :: closes t

/-- opening brackets and name -/
def opens : QT → Bytes
  | .named n => n
  | .list t => c%'[' :: opens t
  | .nonNull t => opens t

theorem typeNameLoop_eq (t : QT) (target suffix : Bytes) :
    typeNameLoop t target suffix = target ++ opens t ++ suffix ++ closes t := by
  induction t generalizing target suffix with
  | named n => simp [typeNameLoop, opens, closes]
  | list t ih => simp [typeNameLoop, opens, closes, ih]
  | nonNull t ih => simp [typeNameLoop, opens, closes, ih]

theorem print_eq (t : QT) : t.print = opens t ++ (closes t).reverse := by
  induction t with
  | named n => simp [QT.print, opens, closes]
  | list t ih => simp [QT.print, opens, closes, ih]
  | nonNull t ih => simp [QT.print, opens, closes, ih]

/-- the types `objToQLType` produces: bangs only directly on a name inside the type -/
inductive Shape : QT → Prop where
  | named (n : Bytes) : Shape (.named n)
  | list (t : QT) : Shape t → Shape (.list t)
  | elem (n : Bytes) : Shape (.list (.nonNull (.named n)))

theorem objToQLType_shape (s : Schema F V) (item : Obj F) (t : QT) (b : Bool) (h : objToQLType s item = some (t, b)) :
    Shape t ∧ (b = true → ∃ n, t = .named n) := by
  induction item generalizing t b with
  | undefined => cases h
  | array inner ih =>
    simp only [objToQLType, Option.map_eq_some_iff, Prod.mk.injEq] at h
    obtain ⟨⟨t', b'⟩, h1, rfl, rfl⟩ := h
    obtain ⟨h2, h3⟩ := ih _ _ h1
    refine ⟨?_, by simp⟩
    cases b' with
    | false => exact .list _ h2
    | true => obtain ⟨n, rfl⟩ := h3 rfl; exact .elem n
  | objRef n =>
    simp only [objToQLType, Option.map_eq_some_iff, Prod.mk.injEq] at h
    obtain ⟨d, -, rfl, rfl⟩ := h
    exact ⟨.named _, fun _ => ⟨_, rfl⟩⟩
  | data isID kind =>
    simp only [objToQLType, Option.some.injEq, Prod.mk.injEq] at h
    obtain ⟨rfl, rfl⟩ := h
    exact ⟨.named _, fun _ => ⟨_, rfl⟩⟩
  | ptr inner ih =>
    simp only [objToQLType, Option.map_eq_some_iff, Prod.mk.injEq] at h
    obtain ⟨⟨t', b'⟩, h1, rfl, rfl⟩ := h
    exact ⟨(ih _ _ h1).1, by simp⟩
  | method m out ih =>
    simp only [objToQLType, Option.map_eq_some_iff, Prod.mk.injEq] at h
    obtain ⟨⟨t', b'⟩, h1, rfl, rfl⟩ := h
    refine ⟨(ih _ _ h1).1, fun hb => (ih _ _ h1).2 ?_⟩
    simp only [Bool.and_eq_true] at hb
    exact hb.1
  | enum idx =>
    simp only [objToQLType, Option.map_eq_some_iff, Prod.mk.injEq] at h
    obtain ⟨d, -, rfl, rfl⟩ := h
    exact ⟨.named _, fun _ => ⟨_, rfl⟩⟩
  | time =>
    simp only [objToQLType, Option.some.injEq, Prod.mk.injEq] at h
    obtain ⟨rfl, rfl⟩ := h
    exact ⟨.named _, fun _ => ⟨_, rfl⟩⟩
  | interfaceRef n =>
    simp only [objToQLType, Option.map_eq_some_iff, Prod.mk.injEq] at h
    obtain ⟨d, -, rfl, rfl⟩ := h
    exact ⟨.named _, fun _ => ⟨_, rfl⟩⟩

theorem shape_closes {t : QT} (h : Shape t) :
    (¬ t.HasListOfNonNull ∧ ∃ k, closes t = List.replicate k c%']') ∨
    (t.HasListOfNonNull ∧ ∃ k, closes t = List.replicate (k + 1) c%']' ++ [c%'!']) := by
  induction h with
  | named n => exact .inl ⟨id, 0, rfl⟩
  | list t ht ih =>
    have hh : (QT.list t).HasListOfNonNull ↔ t.HasListOfNonNull := by
      cases ht <;> exact Iff.rfl
    rw [hh]
    rcases ih with ⟨h1, k, h2⟩ | ⟨h1, k, h2⟩
    · exact .inl ⟨h1, k + 1, by rw [closes, h2]; rfl⟩
    · exact .inr ⟨h1, k + 1, by rw [closes, h2]; rfl⟩
  | elem n => exact .inr ⟨trivial, 0, rfl⟩

/-- **C36** The text reported for a field's type is its GraphQL notation exactly when the type contains no list of
non-null elements; it is wrong for every type that does. -/
theorem C36_notation_iff (s : Schema F V) (item : Obj F) (t : QT) (b : Bool) (h : objToQLType s item = some (t, b)) :
    objToQlTypeName s item = some (wrap (t, b)).print ↔ ¬ t.HasListOfNonNull := by
  obtain ⟨hs, hb⟩ := objToQLType_shape s item t b h
  unfold objToQlTypeName
  rw [h]
  simp only [Option.map_some, Option.some.injEq, typeNameLoop_eq, List.nil_append, List.append_nil]
  rw [print_eq, List.append_cancel_left_eq]
  cases b with
  | true =>
    obtain ⟨n, rfl⟩ := hb rfl
    simp [wrap, closes, QT.HasListOfNonNull]
  | false =>
    simp only [wrap]
    rcases shape_closes hs with ⟨h1, k, h2⟩ | ⟨h1, k, h2⟩
    · rw [h2, List.reverse_replicate]; simp [h1]
    · rw [h2]
      constructor
      · intro he
        exfalso
        have := congrArg List.head? he
        simp [List.replicate_succ] at this
      · exact fun hn => absurd h1 hn

/-- **C36_partial** Types without lists of non-null elements are reported correctly. Missing: those with them,
where the text is wrong (`C36_notation_iff`, `C36_list_of_int_wrong`). -/
theorem C36_notation_partial (s : Schema F V) (item : Obj F) (t : QT) (b : Bool)
    (h : objToQLType s item = some (t, b)) (hn : ¬ t.HasListOfNonNull) :
    objToQlTypeName s item = some (wrap (t, b)).print := (C36_notation_iff s item t b h).2 hn

/-- `[]int` is reported as `[Int]!` instead of `[Int!]`, in every schema. -/
theorem C36_list_of_int_wrong (s : Schema F V) (w : Width) :
    objToQLType s (.array (.data false (.int w))) = some (.list (.nonNull (.named b%"Int")), false) ∧
    (QT.list (.nonNull (.named b%"Int"))).print = b%"[Int!]" ∧
    objToQlTypeName s (.array (.data false (.int w))) = some b%"[Int]!" := ⟨rfl, rfl, rfl⟩

/-- the notation of distinct types differs whenever names are free of `[`, `]`, `!`, so a wrong text really names
another type: `[Int]!` is the notation of a non-null list of nullable ints -/
example : (QT.nonNull (.list (.named b%"Int"))).print = b%"[Int]!" := rfl

/-- Non-vacuity: a method returning `*[]*string` is reported correctly. -/
example (s : Schema F V) (m : Method F) : objToQlTypeName s (.method m (.ptr (.array (.ptr (.data false .string))))) =
    some b%"[String]" := rfl

/-! ### C35 -/

theorem bytesLe_total : ∀ a b : Bytes, bytesLe a b = false → bytesLe b a = true
  | [], _, h => by cases h
  | _ :: _, [], _ => rfl
  | a :: x, b :: y, h => by
    have ih := bytesLe_total x y
    simp only [bytesLe, Bool.or_eq_true, Bool.and_eq_true, decide_eq_true_eq, beq_iff_eq, UInt8.lt_iff_toNat_lt,
      ← UInt8.toNat_inj, Bool.or_eq_false_iff, Bool.and_eq_false_iff, decide_eq_false_iff_not, beq_eq_false_iff_ne, ne_eq] at *
    obtain ⟨h1, h2⟩ := h
    by_cases hab : a.toNat = b.toNat
    · right
      refine ⟨hab.symm, ih ?_⟩
      rcases h2 with h2 | h2
      · exact absurd hab h2
      · exact h2
    · left; omega

theorem bytesLe_trans : ∀ a b c : Bytes, bytesLe a b = true → bytesLe b c = true → bytesLe a c = true
  | [], _, _, _, _ => rfl
  | _ :: _, [], _, h, _ => by cases h
  | _ :: _, _ :: _, [], _, h => by cases h
  | a :: x, b :: y, c :: z, h1, h2 => by
    have ih := bytesLe_trans x y z
    simp only [bytesLe, Bool.or_eq_true, Bool.and_eq_true, decide_eq_true_eq, beq_iff_eq, UInt8.lt_iff_toNat_lt,
      ← UInt8.toNat_inj] at *
    rcases h1 with h1 | ⟨h1, h1'⟩ <;> rcases h2 with h2 | ⟨h2, h2'⟩
    · left; omega
    · left; omega
    · left; omega
    · right; exact ⟨by omega, ih h1' h2'⟩

theorem insertBy_perm {A : Type} (name : A → Bytes) (x : A) (l : List A) : (insertBy name x l).Perm (x :: l) := by
  induction l with
  | nil => exact .refl _
  | cons y l ih =>
    simp only [insertBy]
    split
    · exact .refl _
    · exact (List.Perm.cons y ih).trans (.swap x y l)

theorem sortBy_perm {A : Type} (name : A → Bytes) (l : List A) : (sortBy name l).Perm l := by
  induction l with
  | nil => exact .refl _
  | cons x l ih => exact (insertBy_perm name x _).trans (ih.cons x)

theorem insertBy_sorted {A : Type} (name : A → Bytes) (x : A) (l : List A)
    (h : l.Pairwise (fun a b => bytesLe (name a) (name b) = true)) :
    (insertBy name x l).Pairwise (fun a b => bytesLe (name a) (name b) = true) := by
  induction l with
  | nil => exact List.pairwise_singleton _ _
  | cons y l ih =>
    obtain ⟨hy, hl⟩ := List.pairwise_cons.1 h
    simp only [insertBy]
    split
    · rename_i hxy
      refine List.pairwise_cons.2 ⟨?_, h⟩
      intro z hz
      rcases List.mem_cons.1 hz with rfl | hz
      · exact hxy
      · exact bytesLe_trans _ _ _ hxy (hy z hz)
    · rename_i hxy
      refine List.pairwise_cons.2 ⟨?_, ih hl⟩
      intro z hz
      rcases List.mem_cons.1 ((insertBy_perm name x l).mem_iff.1 hz) with rfl | hz
      · exact bytesLe_total _ _ (by simpa using hxy)
      · exact hy z hz

theorem sortBy_sorted {A : Type} (name : A → Bytes) (l : List A) :
    (sortBy name l).Pairwise (fun a b => bytesLe (name a) (name b) = true) := by
  induction l with
  | nil => exact .nil
  | cons x l ih => exact insertBy_sorted name x _ ih

theorem mapM_option_forall₂ {A B : Type} (f : A → Option B) (l : List A) (r : List B) (h : l.mapM f = some r) :
    Pointwise (fun a b => f a = some b) l r := by
  induction l generalizing r with
  | nil =>
    simp at h
    subst h; exact .nil
  | cons a l ih =>
    rw [List.mapM_cons] at h
    obtain ⟨x, hx, h⟩ := Option.bind_eq_some_iff.1 h
    obtain ⟨y, hy, h⟩ := Option.bind_eq_some_iff.1 h
    injection h with h
    subst h
    exact .cons hx (ih _ hy)

/-- the model's non-null flag is "cannot be nil" -/
theorem objToQLType_spec (s : Schema F V) (o : Obj F) (t : QT) (b : Bool) (h : objToQLType s o = some (t, b)) :
    BaseType s o t ∧ (b = true ↔ ¬ canBeNull o) := by
  induction o generalizing t b with
  | undefined => cases h
  | array inner ih =>
    simp only [objToQLType, Option.map_eq_some_iff, Prod.mk.injEq] at h
    obtain ⟨⟨t', b'⟩, h1, rfl, rfl⟩ := h
    obtain ⟨h2, h3⟩ := ih _ _ h1
    refine ⟨?_, by simp [canBeNull]⟩
    cases b' with
    | false => exact .listNullable _ _ h2 (Classical.not_not.1 (fun hn => by simp at h3; exact hn h3))
    | true => exact .listNonNull _ _ h2 (h3.1 rfl)
  | objRef n =>
    simp only [objToQLType, Option.map_eq_some_iff, Prod.mk.injEq] at h
    obtain ⟨d, h1, rfl, rfl⟩ := h
    exact ⟨.struct _ _ h1, by simp [canBeNull]⟩
  | data isID kind =>
    simp only [objToQLType, Option.some.injEq, Prod.mk.injEq] at h
    obtain ⟨rfl, rfl⟩ := h
    refine ⟨?_, by simp [canBeNull]⟩
    cases isID with
    | true => exact .id _
    | false =>
      cases kind with
      | bool => exact .bool
      | int w => exact .int w
      | uint w => exact .uint w
      | float32 => exact .float32
      | float64 => exact .float64
      | string => exact .string
  | ptr inner ih =>
    simp only [objToQLType, Option.map_eq_some_iff, Prod.mk.injEq] at h
    obtain ⟨⟨t', b'⟩, h1, rfl, rfl⟩ := h
    exact ⟨.ptr _ _ (ih _ _ h1).1, by simp [canBeNull]⟩
  | method m out ih =>
    simp only [objToQLType, Option.map_eq_some_iff, Prod.mk.injEq] at h
    obtain ⟨⟨t', b'⟩, h1, rfl, rfl⟩ := h
    obtain ⟨h2, h3⟩ := ih _ _ h1
    refine ⟨.method _ _ _ h2, ?_⟩
    simp only [canBeNull, Bool.and_eq_true, h3, not_or, Bool.not_eq_false]
    exact And.comm
  | enum idx =>
    simp only [objToQLType, Option.map_eq_some_iff, Prod.mk.injEq] at h
    obtain ⟨d, h1, rfl, rfl⟩ := h
    exact ⟨.enum _ _ h1, by simp [canBeNull]⟩
  | time =>
    simp only [objToQLType, Option.some.injEq, Prod.mk.injEq] at h
    obtain ⟨rfl, rfl⟩ := h
    exact ⟨.time, by simp [canBeNull]⟩
  | interfaceRef n =>
    simp only [objToQLType, Option.map_eq_some_iff, Prod.mk.injEq] at h
    obtain ⟨d, h1, rfl, rfl⟩ := h
    exact ⟨.iface _ _ h1, by simp [canBeNull]⟩

theorem fieldType_of (s : Schema F V) (o : Obj F) (r : QT × Bool) (h : objToQLType s o = some r) :
    FieldType s o (wrap r) := by
  obtain ⟨t, b⟩ := r
  obtain ⟨h1, h2⟩ := objToQLType_spec s o t b h
  cases b with
  | true => exact .inr ⟨h2.1 rfl, t, rfl, h1⟩
  | false => exact .inl ⟨Classical.not_not.1 (fun hn => by simp at h2; exact hn h2), h1⟩

theorem inType_of (i : Input) : InType i (wrap (inputToQLType i)) ∧ ∀ u, (inputToQLType i).1 ≠ .nonNull u := by
  induction i with
  | scalar k e isID =>
    cases isID with
    | true => exact ⟨.id _ _, fun u h => by cases h⟩
    | false =>
      refine ⟨?_, fun u h => by cases h⟩
      cases k with
      | bool => exact .bool e
      | int w => exact .int w e
      | uint w => exact .uint w e
      | float32 => exact .float32 e
      | float64 => exact .float64 e
      | string => exact .string e
  | time => exact ⟨.time, fun u h => by cases h⟩
  | file => exact ⟨.file, fun u h => by cases h⟩
  | ptr e ih =>
    obtain ⟨h1, h2⟩ := ih
    refine ⟨?_, h2⟩
    simp only [inputToQLType, wrap]
    generalize hr : inputToQLType e = r at *
    obtain ⟨t, b⟩ := r
    cases b with
    | true => exact .ptrNonNull _ _ h1
    | false => exact .ptrNullable _ _ h1 h2
  | slice e ih => exact ⟨.slice _ _ ih.1, fun u h => by cases h⟩
  | array n e ih => exact ⟨.array _ _ _ ih.1, fun u h => by cases h⟩
  | struct n => exact ⟨.struct n, fun u h => by cases h⟩

theorem getMethodArgs_spec (l : List ArgField) :
    (getMethodArgs l).Pairwise (fun a b => bytesLe a.1 b.1 = true) ∧
    ∃ r, (getMethodArgs l).Perm r ∧ Pointwise (fun (a : ArgField) x => x.1 = a.key ∧ InType a.input x.2) l r := by
  refine ⟨sortBy_sorted _ _, _, sortBy_perm _ _, ?_⟩
  induction l with
  | nil => exact .nil
  | cons a l ih => exact .cons ⟨rfl, (inType_of _).1⟩ ih

theorem describes_of (s : Schema F V) (f : Field F V) (q : QField) (h : describe s f = some q) : Describes s f q := by
  simp only [describe, Option.map_eq_some_iff] at h
  obtain ⟨r, hr, rfl⟩ := h
  refine ⟨rfl, fieldType_of s _ _ hr, ?_⟩
  cases hobj : f.obj with
  | method m out => exact getMethodArgs_spec m.inFields
  | _ => exact ⟨.nil, [], .refl _, .nil⟩

theorem computeFields_lists (s : Schema F V) (fs : List (Field F V)) (r : List QField)
    (h : computeFields s fs = some r) : Lists s fs r := by
  unfold computeFields at h
  rw [Option.map_eq_some_iff] at h
  obtain ⟨l, hl, rfl⟩ := h
  refine ⟨sortBy_sorted _ _, l, sortBy_perm _ _, ?_⟩
  exact (mapM_option_forall₂ _ _ _ hl).imp (fun a b h => describes_of s a b h)

/-- Well-formed tables, as `Parse` builds them: an entry is stored under its own name, the root types are in the
table, the two root types have different names, and no interface shares its name with an object type. Interface
fields are never hidden (only `injectQLTypes` hides fields, of the root query). -/
structure Tables (s : Schema F V) : Prop where
  typeName : ∀ n d, lookup s.types n = some d → d.typeName = n
  ifaceName : ∀ n d, lookup s.interfaces n = some d → d.typeName = n
  query : lookup s.types s.rootQuery.typeName = some s.rootQuery
  mutation : lookup s.types s.rootMethod.typeName = some s.rootMethod
  roots : s.rootQuery.typeName ≠ s.rootMethod.typeName
  disjoint : ∀ n d e, lookup s.types n = some d → lookup s.interfaces n = some e → False
  visible : ∀ n d, lookup s.interfaces n = some d → ∀ f ∈ d.fields, f.hidden = false

/-- the fields a request is about -/
def target (s : Schema F V) : Ask → Option (List (Field F V))
  | .query => some s.rootQuery.fields
  | .mutation => some s.rootMethod.fields
  | .object n => (lookup s.types n).map (·.fields)
  | .iface n => (lookup s.interfaces n).map (·.fields)

/-- does the request concern the root query type? -/
def aboutQuery (s : Schema F V) : Ask → Prop
  | .query => True
  | .mutation => False
  | .object n => n = s.rootQuery.typeName
  | .iface _ => False

/-- the memo is right except possibly for the root query -/
def Good (s : Schema F V) (q : Bool) (memo : Memo) : Prop :=
  ∀ k r, memo k = some r → (k = s.rootQuery.typeName → q = true) →
    (∀ d, lookup s.types k = some d → Lists s d.fields r) ∧
    (∀ d, lookup s.interfaces k = some d → Lists s d.fields r)

theorem computeIface_lists (s : Schema F V) (fs : List (Field F V)) (hv : ∀ f ∈ fs, f.hidden = false) (r : List QField)
    (h : computeIfaceFields s fs = some r) : Lists s fs r := by
  apply computeFields_lists
  unfold computeFields
  rw [List.filter_eq_self.2 (fun f hf => by simp [hv f hf])]
  exact h

theorem good_store (s : Schema F V) (ht : Tables s) (q : Bool) (memo : Memo) (hm : Good s q memo) (d : TypeDef F V)
    (n : Bytes) (hd : lookup s.types n = some d) (r : List QField) (hr : Lists s d.fields r) :
    Good s q (store memo n r) := by
  intro k r' hk hq
  unfold store at hk
  split at hk
  · rename_i hkn
    subst hkn
    injection hk with hk
    subst hk
    exact ⟨fun d' hd' => by rw [hd] at hd'; injection hd' with h; exact h ▸ hr,
      fun e he => (ht.disjoint _ _ _ hd he).elim⟩
  · exact hm k r' hk hq

/-- one request: the answer is right (unless it is about the root query and that entry is not trusted), and the memo
stays right; `q` tells whether the root query's entry is still trusted. -/
theorem fields_good (s : Schema F V) (ht : Tables s) (q : Bool) (memo : Memo) (hm : Good s q memo) (a : Ask)
    (r : List QField) (memo' : Memo) (h : fields s memo a = some (r, memo')) :
    ((aboutQuery s a → q = true) → ∃ fs, target s a = some fs ∧ Lists s fs r) ∧
    Good s (match a with | .mutation => false | _ => q) memo' := by
  have weaken : ∀ m, Good s q m → Good s false m := fun m hg k r hk hq => by
    refine hg k r hk (fun h => ?_)
    have := hq h
    cases this
  cases a with
  | query =>
    simp only [fields] at h
    split at h
    · rename_i r0 hk
      simp only [Option.some.injEq, Prod.mk.injEq] at h
      obtain ⟨rfl, rfl⟩ := h
      refine ⟨fun hq => ⟨_, rfl, ?_⟩, hm⟩
      exact (hm _ _ hk (fun _ => hq trivial)).1 _ ht.query
    · simp only [Option.map_eq_some_iff, Prod.mk.injEq] at h
      obtain ⟨r0, hc, rfl, rfl⟩ := h
      have hl := computeFields_lists _ _ _ hc
      exact ⟨fun _ => ⟨_, rfl, hl⟩, good_store s ht q memo hm _ _ ht.query _ hl⟩
  | mutation =>
    simp only [fields] at h
    split at h
    · rename_i r0 hk
      simp only [Option.some.injEq, Prod.mk.injEq] at h
      obtain ⟨rfl, rfl⟩ := h
      refine ⟨fun _ => ⟨_, rfl, ?_⟩, weaken _ hm⟩
      exact (hm _ _ hk (fun hh => absurd hh.symm ht.roots)).1 _ ht.mutation
    · simp only [Option.map_eq_some_iff, Prod.mk.injEq] at h
      obtain ⟨r0, hc, rfl, rfl⟩ := h
      have hl := computeFields_lists _ _ _ hc
      refine ⟨fun _ => ⟨_, rfl, hl⟩, ?_⟩
      intro k r' hk hq
      unfold store at hk
      split at hk
      · rename_i hkn
        have := hq hkn
        cases this
      · exact weaken _ hm k r' hk hq
  | object n =>
    simp only [fields, Option.bind_eq_some_iff] at h
    obtain ⟨d, hd, h⟩ := h
    have hn := ht.typeName _ _ hd
    split at h
    · rename_i r0 hk
      simp only [Option.some.injEq, Prod.mk.injEq] at h
      obtain ⟨rfl, rfl⟩ := h
      refine ⟨fun hq => ⟨d.fields, by simp only [target, hd, Option.map_some], ?_⟩, hm⟩
      rw [hn] at hk
      exact (hm _ _ hk (fun hh => hq hh)).1 _ hd
    · simp only [Option.map_eq_some_iff, Prod.mk.injEq] at h
      obtain ⟨r0, hc, rfl, h2⟩ := h
      have hl := computeFields_lists _ _ _ hc
      rw [hn] at h2
      subst h2
      exact ⟨fun _ => ⟨d.fields, by simp only [target, hd, Option.map_some], hl⟩, good_store s ht q memo hm _ _ hd _ hl⟩
  | iface n =>
    simp only [fields, Option.bind_eq_some_iff] at h
    obtain ⟨d, hd, h⟩ := h
    have hn := ht.ifaceName _ _ hd
    have hne : n ≠ s.rootQuery.typeName := fun he => ht.disjoint n _ _ (he ▸ ht.query) hd
    split at h
    · rename_i r0 hk
      simp only [Option.some.injEq, Prod.mk.injEq] at h
      obtain ⟨rfl, rfl⟩ := h
      refine ⟨fun hq => ⟨d.fields, by simp only [target, hd, Option.map_some], ?_⟩, hm⟩
      rw [hn] at hk
      exact (hm _ _ hk (fun hh => absurd hh hne)).2 _ hd
    · simp only [Option.map_eq_some_iff, Prod.mk.injEq] at h
      obtain ⟨r0, hc, rfl, rfl⟩ := h
      have hl := computeIface_lists _ _ (ht.visible _ _ hd) _ hc
      refine ⟨fun _ => ⟨d.fields, by simp only [target, hd, Option.map_some], hl⟩, ?_⟩
      intro k r' hk hq
      unfold store at hk
      split at hk
      · rename_i hkn
        rw [hn] at hkn
        subst hkn
        injection hk with hk
        subst hk
        exact ⟨fun d' hd' => (ht.disjoint _ _ _ hd' hd).elim, fun e he => by rw [hd] at he; injection he with h; exact h ▸ hl⟩
      · exact hm k r' hk hq

theorem asks_good (s : Schema F V) (ht : Tables s) (q : Bool) (memo memo' : Memo) (hm : Good s q memo)
    (past : List Ask) (h : asks s memo past = some memo') :
    Good s false memo' ∧ ((∀ a ∈ past, a ≠ .mutation) → Good s q memo') := by
  induction past generalizing memo q with
  | nil =>
    simp only [asks, Option.some.injEq] at h
    subst h
    refine ⟨fun k r hk hq => hm k r hk (fun hh => ?_), fun _ => hm⟩
    have := hq hh
    cases this
  | cons a past ih =>
    simp only [asks, Option.bind_eq_some_iff] at h
    obtain ⟨⟨r, memo₁⟩, h1, h2⟩ := h
    have hg := (fields_good s ht q memo hm a r memo₁ h1).2
    refine ⟨(ih _ memo₁ hg h2).1, fun hne => ?_⟩
    have ha := hne a (List.mem_cons_self ..)
    have hg' : Good s q memo₁ := by
      cases a with
      | mutation => exact absurd rfl ha
      | _ => exact hg
    exact (ih q memo₁ hg' h2).2 (fun b hb => hne b (List.mem_cons_of_mem _ hb))

/-- **C35_partial** For every history of introspection requests on a schema: a request for the fields of any type
other than the root query lists exactly the visible fields of that type; and so does a request for the root query,
provided the mutation type's fields were not asked for before. Missing: the root query after a request for the
mutation type's fields, where the answer is wrong (`C35_query_after_mutation_wrong`). -/
theorem C35_fields_partial (s : Schema F V) (ht : Tables s) (past : List Ask) (memo : Memo)
    (hp : asks s emptyMemo past = some memo) (a : Ask) (r : List QField) (memo' : Memo)
    (h : fields s memo a = some (r, memo')) (hq : aboutQuery s a → ∀ b ∈ past, b ≠ .mutation) :
    ∃ fs, target s a = some fs ∧ Lists s fs r := by
  have h0 : Good s true emptyMemo := fun k r hk => by cases hk
  obtain ⟨h1, h2⟩ := asks_good s ht true emptyMemo memo h0 past hp
  by_cases hab : aboutQuery s a
  · exact (fields_good s ht true memo (h2 (hq hab)) a r memo' h).1 (fun _ => rfl)
  · exact (fields_good s ht false memo h1 a r memo' h).1 (fun hh => absurd hh hab)

/-- a small schema: `Query { a: Int }`, `Mutation { b: Int }` -/
def demo : Schema Unit Unit :=
  let f (n : Bytes) (k : UInt32) : Field Unit Unit := ⟨k, n, false, 0, none, .data false (.int .w64)⟩
  let q : TypeDef Unit Unit := ⟨b%"Query", b%"Query", b%"p", [f b%"a" 1], []⟩
  let m : TypeDef Unit Unit := ⟨b%"Mutation", b%"Mutation", b%"p", [f b%"b" 1], []⟩
  ⟨[(b%"Query", q), (b%"Mutation", m)], [], [], q, m, (), (), 255, [], []⟩

/-- **C35** is false: after `{__schema{mutationType{fields{name}}}}` a request for the query type's fields is
answered with the mutation's fields. -/
theorem C35_query_after_mutation_wrong : ∃ memo memo' r,
    asks demo emptyMemo [.mutation] = some memo ∧ fields demo memo .query = some (r, memo') ∧
    r.map (·.name) = [b%"b"] ∧ ¬ Lists demo demo.rootQuery.fields r := by
  refine ⟨_, _, _, rfl, rfl, rfl, ?_⟩
  rintro ⟨-, l, hperm, hf⟩
  have hf : Pointwise (Describes demo) [⟨1, b%"a", false, 0, none, .data false (.int .w64)⟩] l := hf
  cases hf with
  | cons h1 h2 =>
    cases h2
    have := hperm.mem_iff.1 (List.mem_cons_self ..)
    rw [List.mem_singleton] at this
    rw [← this] at h1
    exact absurd h1.1 (by decide)

/-- Non-vacuity of C35_partial: the demo schema satisfies `Tables`. -/
example : Tables demo := by
  have look : ∀ n d, lookup demo.types n = some d → (n = b%"Query" ∧ d = demo.rootQuery) ∨ (n = b%"Mutation" ∧ d = demo.rootMethod) := by
    intro n d h
    simp only [lookup, demo, List.find?_cons] at h
    by_cases h1 : n = b%"Query"
    · subst h1; left; exact ⟨rfl, by simp at h; exact h.symm⟩
    · by_cases h2 : n = b%"Mutation"
      · subst h2; right
        exact ⟨rfl, by simp at h; exact h.symm⟩
      · exfalso
        have e1 : ¬ b%"Query" = n := fun h => h1 h.symm
        have e2 : ¬ b%"Mutation" = n := fun h => h2 h.symm
        simp [e1, e2] at h
  refine ⟨?_, ?_, rfl, rfl, by decide, ?_, ?_⟩
  · intro n d h
    rcases look n d h with ⟨rfl, rfl⟩ | ⟨rfl, rfl⟩ <;> rfl
  · intro n d h; cases h
  · intro n d e _ h; cases h
  · intro n d h; cases h

/-! ### C52: directive arguments in introspection -/

/-- **C52** is false: whatever arguments a directive declares, introspection shows it without arguments, although
calls accept (and need) them. -/
theorem C52_directive_args_missing (name : Bytes) (declared : List ArgField) :
    (parseDirective name declared).1.args = [] ∧ (parseDirective name declared).2 = declared := ⟨rfl, rfl⟩

/-- in particular the built-in `@skip(if: Boolean!)` -/
example : (parseDirective b%"skip" [⟨b%"if", 0, 0, .scalar .bool none false⟩]).1.args = [] ∧
    getMethodArgs (parseDirective b%"skip" [⟨b%"if", 0, 0, .scalar .bool none false⟩]).2 =
      [(b%"if", .nonNull (.named b%"Boolean"))] := ⟨rfl, rfl⟩

/-! ### C53: input objects reached through an argument -/

/-- **C53** is false: for every input type with at least one field, `__type(name:)` lists its fields but the same
type reached through an argument of that type lists none. -/
theorem C53_input_fields_missing (s : Schema F V) (n : Bytes) (d : InStruct F) (hd : lookup s.inTypes n = some d)
    (hne : d.fields ≠ []) :
    (wrap (inputToQLType (.struct n)) = .nonNull (.named n)) ∧
    (∃ r, inputFieldsByName s n = some r ∧ r.length = d.fields.length ∧ r ≠ inputFieldsByArg (.struct n)) ∧
    inputFieldsByArg (.struct n) = [] := by
  have hlen : (inputFieldsOf d.fields).length = d.fields.length := by
    rw [inputFieldsOf, (sortBy_perm _ _).length_eq, List.length_map]
  refine ⟨rfl, ⟨inputFieldsOf d.fields, by rw [inputFieldsByName, hd]; rfl, hlen, ?_⟩, rfl⟩
  intro h
  have h1 := congrArg List.length h
  have h0 : (inputFieldsByArg (.struct n)).length = 0 := rfl
  rw [h0, hlen] at h1
  exact hne (List.length_eq_zero_iff.1 h1)

/-- **C53** (by name) `__type(name:)` lists exactly the fields of the input type with their types, sorted. -/
theorem C53_input_fields_by_name (s : Schema F V) (n : Bytes) (d : InStruct F) (hd : lookup s.inTypes n = some d) :
    ∃ r l, inputFieldsByName s n = some r ∧ r.Pairwise (fun a b => bytesLe a.1 b.1 = true) ∧ r.Perm l ∧
      Pointwise (fun (a : InField) x => x.1 = a.key ∧ InType a.input x.2) d.fields l := by
  refine ⟨_, _, by rw [inputFieldsByName, hd]; rfl, sortBy_sorted _ _, sortBy_perm _ _, ?_⟩
  generalize d.fields = fs
  induction fs with
  | nil => exact .nil
  | cons a l ih => exact .cons ⟨rfl, (inType_of _).1⟩ ih

/-! ### C42: Copy -/

theorem copyInput_eq (i : Input) : copyInput i = i := by
  induction i with
  | scalar k e i => rfl
  | time => rfl
  | file => rfl
  | ptr e ih => rw [copyInput, ih]
  | slice e ih => rw [copyInput, ih]
  | array n e ih => rw [copyInput, ih]
  | struct n => rfl

theorem copyMethod_eq (m : Method F) : copyMethod m = m := by
  unfold copyMethod
  have h1 : m.ins.map copyBase = m.ins := by
    conv => rhs; rw [← List.map_id m.ins]
    apply List.map_congr_left
    intro i _
    cases i <;> rfl
  have h2 : m.inFields.map (fun a => (⟨a.key, a.inputIdx, a.goFieldIdx, copyInput a.input⟩ : ArgField)) = m.inFields := by
    conv => rhs; rw [← List.map_id m.inFields]
    apply List.map_congr_left
    intro i _
    rw [copyInput_eq]; rfl
  rw [h1, h2]

theorem copyObj_eq (o : Obj F) : copyObj o = o := by
  induction o with
  | array i ih => rw [copyObj, ih]
  | ptr i ih => rw [copyObj, ih]
  | method m o ih => rw [copyObj, ih, copyMethod_eq]
  | _ => rfl

/-- the field as the resolver and clients see it, with visibility forgotten -/
def reveal (f : Field F V) : Field F V := { f with hidden := false }

/-- **C42** A copy has the same types, interfaces, inputs, enums, directives, root values and depth limit as the
original, except that no field is hidden any more. -/
theorem C42_copy_reveals (s : Schema F V) :
    copySchema s =
      { s with
        types := s.types.map (fun e => (e.1, { e.2 with fields := e.2.fields.map reveal }))
        interfaces := s.interfaces.map (fun e => (e.1, { e.2 with fields := e.2.fields.map reveal }))
        rootQuery := { s.rootQuery with fields := s.rootQuery.fields.map reveal }
        rootMethod := { s.rootMethod with fields := s.rootMethod.fields.map reveal } } := by
  have hf : (copyField : Field F V → Field F V) = reveal := by
    funext f
    unfold copyField reveal
    rw [copyObj_eq]
  have hin : s.inTypes.map (fun e => (e.1, (⟨e.2.fields.map (fun f => ⟨f.key, f.goFieldIdx, copyInput f.input⟩), e.2.zero⟩ : InStruct F))) =
      s.inTypes := by
    conv => rhs; rw [← List.map_id s.inTypes]
    apply List.map_congr_left
    intro e _
    have : e.2.fields.map (fun f => (⟨f.key, f.goFieldIdx, copyInput f.input⟩ : InField)) = e.2.fields := by
      conv => rhs; rw [← List.map_id e.2.fields]
      apply List.map_congr_left
      intro f _
      rw [copyInput_eq]; rfl
    rw [this]; rfl
  have hen : s.enums.map (fun e => (⟨e.typeName, e.kind, e.entries.map (fun x => (x.1, x.2))⟩ : EnumDef F)) = s.enums := by
    conv => rhs; rw [← List.map_id s.enums]
    apply List.map_congr_left
    intro e _
    have : e.entries.map (fun x => (x.1, x.2)) = e.entries := List.map_id _
    rw [this]; rfl
  have hd : s.directives.map (fun e => (e.1, e.2.map (fun d => (⟨d.name, d.where_, copyMethod d.method, d.func⟩ : DirectiveDef F V)))) =
      s.directives := by
    conv => rhs; rw [← List.map_id s.directives]
    apply List.map_congr_left
    intro e _
    have : e.2.map (fun d => (⟨d.name, d.where_, copyMethod d.method, d.func⟩ : DirectiveDef F V)) = e.2 := by
      conv => rhs; rw [← List.map_id e.2]
      apply List.map_congr_left
      intro d _
      rw [copyMethod_eq]; rfl
    rw [this]; rfl
  unfold copySchema copyType copyIface
  rw [hf, hin, hen, hd]

/-- a schema whose query type has the hidden field `__type`, as every schema has after `Parse` -/
def demoHidden : Schema Unit Unit :=
  let q : TypeDef Unit Unit := { demo.rootQuery with fields := demo.rootQuery.fields ++ [⟨2, b%"__type", true, 0, some (), .data false .string⟩] }
  { demo with rootQuery := q, types := [(b%"Query", q), (b%"Mutation", demo.rootMethod)] }

/-- **C42** (introspection) is false: `__type(name: "Query")` on a copy lists the internal `__type` field, which the
original hides. (Below `__schema` a copy answers for its original: `Pool.C72_copy_lists_hidden`.) -/
theorem C42_copy_lists_hidden : ∃ r r' m m',
    fields demoHidden emptyMemo (.object b%"Query") = some (r, m) ∧
    fields (copySchema demoHidden) emptyMemo (.object b%"Query") = some (r', m') ∧
    r.map (·.name) = [b%"a"] ∧ r'.map (·.name) = [b%"__type", b%"a"] := by
  exact ⟨_, _, _, _, rfl, rfl, rfl, rfl⟩

/-- **C42** (cache rules) is false: a copy always has the default rule, so a rule set on the original is lost. -/
theorem C42_copy_cache_rule (cur n : Int) :
    copyCacheLen (setCacheRules cur n) = 300 ∧ (n ≠ 300 → copyCacheLen (setCacheRules cur n) ≠ setCacheRules cur n) :=
  ⟨rfl, fun h h' => h h'.symm⟩

/-- **C42** (enums) A copied enum loses its description in introspection (it becomes null) and keeps its name. -/
theorem C42_copy_enum_description (name : Bytes) : copyQL (enumQL name) = some ⟨some name, none⟩ ∧
    (enumQL name).description = some [] := ⟨rfl, rfl⟩

/-- **C42** (type descriptions) Copying the shown parts of any type keeps the name and always drops the description;
it fails only for a type with a description and no name (none is built by the library: list and non-null types have
neither). -/
theorem C42_copy_ql (q : EnumQL) :
    (q.name = none ∧ q.description ≠ none → copyQL q = none) ∧
    (¬ (q.name = none ∧ q.description ≠ none) → copyQL q = some ⟨q.name, none⟩) := by
  obtain ⟨n, d⟩ := q
  cases n <;> cases d <;> simp [copyQL]

end Introspect
end Yarql
