import Verif.Model.Naming
import Verif.Spec.Naming

/-!
# C32 (Go names map to GraphQL names) and C49 (resolver method naming)
-/

namespace Yarql
namespace Naming

open NameSpec

/-! ### helper facts about bytes -/

theorem toUpperFirst_fix {d : Byte} (h : d.toNat < 128) : d = toUpperFirst d ↔ ¬ Lower d := by
  unfold toUpperFirst Lower
  simp only [UInt8.le_iff_toNat_le, ← UInt8.toNat_inj, UInt8.reduceToNat]
  have := d.toNat_lt
  rw [if_neg (by omega)]
  by_cases hl : 97 ≤ d.toNat ∧ d.toNat ≤ 122
  · rw [if_pos hl, UInt8.toNat_sub_of_le _ _ (by simp only [UInt8.le_iff_toNat_le, UInt8.reduceToNat]; omega)]
    simp only [UInt8.reduceToNat]
    omega
  · rw [if_neg hl]; simp [hl]

theorem toLower1_spec {b : Byte} (h : b.toNat < 128) : ∃ l, toLower1 b = [l] ∧ LowerOf l b ∧ ¬ Upper l ∧ l.toNat < 128 := by
  unfold toLower1 LowerOf Upper
  simp only [UInt8.le_iff_toNat_le, UInt8.reduceToNat]
  rw [if_neg (by omega)]
  by_cases hu : 65 ≤ b.toNat ∧ b.toNat ≤ 90
  · rw [if_pos hu]
    have : (b + 32).toNat = b.toNat + 32 := by rw [UInt8.toNat_add]; simp only [UInt8.reduceToNat]; omega
    exact ⟨_, rfl, .inl ⟨hu, this⟩, by omega, by omega⟩
  · rw [if_neg hu]
    exact ⟨b, rfl, .inr ⟨hu, rfl⟩, hu, h⟩

theorem Word.lt {b : Byte} (h : Word b) : b.toNat < 128 := by
  unfold Word Letter Upper Lower Digit at h; omega

theorem validNameFrom_iff (i : Nat) (hi : 0 < i) (s : Bytes) : validNameFrom i s = true ↔ ∀ x ∈ s, Word x := by
  induction s generalizing i with
  | nil => simp [validNameFrom]
  | cons c r ih =>
    simp only [validNameFrom, Bool.and_eq_true, List.mem_cons, forall_eq_or_imp, ih (i + 1) (by omega)]
    refine and_congr ?_ Iff.rfl
    unfold validNameByte Word Letter Upper Lower Digit
    simp only [hi, decide_true, Bool.true_and, Bool.or_eq_true, Bool.and_eq_true, decide_eq_true_eq,
      UInt8.le_iff_toNat_le, UInt8.reduceToNat, beq_iff_eq, ← UInt8.toNat_inj]

/-! ### the properties -/

/-- **C32** (user supplied names) The name check accepts exactly the byte strings that are a letter followed by
letters, digits and underscores. -/
theorem C32_valid_name (s : Bytes) : validGraphQlName s = true ↔ Name s := by
  unfold validGraphQlName
  cases s with
  | nil => simp only [List.length_nil, if_true, Bool.false_eq_true, false_iff]; rintro ⟨⟩
  | cons c r =>
    simp only [List.length_cons, Nat.add_one_ne_zero, if_false, validNameFrom, Bool.and_eq_true]
    rw [validNameFrom_iff _ (by omega)]
    have : validNameByte 0 c = true ↔ Letter c := by
      unfold validNameByte Letter Upper Lower
      simp only [Nat.lt_irrefl, decide_false, Bool.false_and, Bool.or_false, Bool.or_eq_true, Bool.and_eq_true,
        decide_eq_true_eq, UInt8.le_iff_toNat_le, UInt8.reduceToNat]
    rw [this]
    exact ⟨fun ⟨a, b⟩ => ⟨c, r, a, b⟩, fun h => by cases h with | mk _ _ a b => exact ⟨a, b⟩⟩

/-- **C32** (mapping) A Go name starting with an ASCII character keeps every byte but possibly the first; the
first is lower-cased, unless the second byte is an ASCII character other than a lower-case letter, in which case
the name is unchanged. -/
theorem C32_format (b : Byte) (rest : Bytes) (hb : b.toNat < 128) :
    (∀ d r, rest = d :: r → d.toNat < 128 → ¬ Lower d → formatGoNameToQL (b :: rest) = b :: rest) ∧
    ((rest = [] ∨ ∃ d r, rest = d :: r ∧ Lower d) →
      ∃ l, LowerOf l b ∧ formatGoNameToQL (b :: rest) = l :: rest) := by
  obtain ⟨l, hl, hl2, -⟩ := toLower1_spec hb
  constructor
  · rintro d r rfl hd hn
    simp only [formatGoNameToQL]
    rw [if_pos ((toUpperFirst_fix hd).2 hn)]
  · rintro (rfl | ⟨d, r, rfl, hd⟩)
    · exact ⟨l, hl2, by simp only [formatGoNameToQL, hl]⟩
    · refine ⟨l, hl2, ?_⟩
      simp only [formatGoNameToQL]
      rw [if_neg (fun h => (toUpperFirst_fix (by unfold Lower at hd; omega)).1 h hd), hl]
      rfl

/-- both shapes at once, for names over ASCII words -/
theorem format_word (b : Byte) (rest : Bytes) (hb : b.toNat < 128) (hr : ∀ x ∈ rest, Word x) :
    ∃ l, (l = b ∨ LowerOf l b) ∧ formatGoNameToQL (b :: rest) = l :: rest ∧
      ((l = b ∧ ∃ d r, rest = d :: r ∧ ¬ Lower d) ∨ ¬ Upper l) := by
  obtain ⟨l, hl, hl2, hl3, -⟩ := toLower1_spec hb
  cases rest with
  | nil => exact ⟨l, .inr hl2, by simp only [formatGoNameToQL, hl], .inr hl3⟩
  | cons d r =>
    have hd := Word.lt (hr d (List.mem_cons_self ..))
    by_cases h : Lower d
    · refine ⟨l, .inr hl2, ?_, .inr hl3⟩
      simp only [formatGoNameToQL]
      rw [if_neg (fun h' => (toUpperFirst_fix hd).1 h' h), hl]
      rfl
    · refine ⟨b, .inl rfl, ?_, .inl ⟨rfl, d, r, rfl, h⟩⟩
      simp only [formatGoNameToQL]
      rw [if_pos ((toUpperFirst_fix hd).2 h)]

/-- **C32** (every exported Go field name becomes a valid GraphQL name) -/
theorem C32_exported_valid (s : Bytes) (h : Exported s) : Name (formatGoNameToQL s) := by
  cases h with
  | mk b rest hu hr =>
    obtain ⟨l, hl, he, -⟩ := format_word b rest (by unfold Upper at hu; omega) hr
    rw [he]
    refine ⟨l, rest, ?_, hr⟩
    rcases hl with rfl | hl
    · exact .inl hu
    · unfold LowerOf at hl
      unfold Letter Upper Lower at *
      rcases hl with hl | ⟨hl, rfl⟩ <;> omega

/-- **C32** (different exported Go fields get different GraphQL names) -/
theorem C32_exported_distinct (s t : Bytes) (hs : Exported s) (ht : Exported t)
    (h : formatGoNameToQL s = formatGoNameToQL t) : s = t := by
  cases hs with
  | mk b rest hu hr =>
  cases ht with
  | mk b' rest' hu' hr' =>
    obtain ⟨l, hl, he, hd⟩ := format_word b rest (by unfold Upper at hu; omega) hr
    obtain ⟨l', hl', he', hd'⟩ := format_word b' rest' (by unfold Upper at hu'; omega) hr'
    rw [he, he'] at h
    injection h with h1 h2
    subst h1; subst h2
    congr 1
    rw [← UInt8.toNat_inj]
    unfold LowerOf Upper at *
    rcases hl with rfl | ⟨_, hl⟩ | ⟨_, rfl⟩ <;> rcases hl' with rfl | ⟨_, hl'⟩ | ⟨_, hl'⟩ <;>
      first | rfl | omega | (rw [hl'])

/-- **C32** (idempotence) Formatting an already formatted name changes nothing. -/
theorem C32_idempotent (b : Byte) (rest : Bytes) (hb : b.toNat < 128) :
    formatGoNameToQL (formatGoNameToQL (b :: rest)) = formatGoNameToQL (b :: rest) := by
  obtain ⟨l, hl, hl2, hl3, hl4⟩ := toLower1_spec hb
  have hll : toLower1 l = [l] := by
    obtain ⟨m, hm, hm2, -⟩ := toLower1_spec hl4
    rcases hm2 with hm2 | ⟨_, rfl⟩
    · exact absurd hm2.1 hl3
    · exact hm
  cases rest with
  | nil => simp only [formatGoNameToQL, hl, hll]
  | cons d r =>
    simp only [formatGoNameToQL]
    by_cases h : d = toUpperFirst d
    · rw [if_pos h]; simp only [formatGoNameToQL]; rw [if_pos h]
    · rw [if_neg h, hl]
      simp only [List.cons_append, List.nil_append, formatGoNameToQL]
      rw [if_neg h, hll]; rfl

/-- Why idempotence asks for an ASCII first byte: the two bytes of `É` are treated separately and the first is
replaced by U+FFFD (`Énd` is mangled into a name nobody can query). -/
theorem C32_non_ascii_mangled : formatGoNameToQL [0xC3, 0x89, 110, 100] = [0xEF, 0xBF, 0xBD, 0x89, 110, 100] := by
  decide

/-- **C32** (tags) Without a `gq` tag, or with an empty one, the field gets its formatted Go name. -/
theorem C32_no_tag (goName : Bytes) (tag : Option Bytes) (h : tag = none ∨ tag = some []) :
    fieldName goName tag = .named (formatGoNameToQL goName) false := by
  rcases h with rfl | rfl <;> rfl

/-- a byte string without commas and without surrounding white space -/
def Plain (s : Bytes) : Prop := c%',' ∉ s ∧ (∀ b, s.head? = some b → isSpace b = false) ∧
  (∀ b, s.getLast? = some b → isSpace b = false)

theorem splitComma_plain : ∀ (s : Bytes), c%',' ∉ s → splitComma s = [s]
  | [], _ => rfl
  | b :: r, h => by
    have h1 : b ≠ c%',' := fun hb => h (hb ▸ List.mem_cons_self ..)
    have h2 : c%',' ∉ r := fun hr => h (List.mem_cons_of_mem _ hr)
    simp only [splitComma, h1, if_false, splitComma_plain r h2]

theorem splitComma_comma : ∀ (s t : Bytes), c%',' ∉ s → splitComma (s ++ c%',' :: t) = s :: splitComma t
  | [], t, _ => by simp [splitComma]
  | b :: r, t, h => by
    have h1 : b ≠ c%',' := fun hb => h (hb ▸ List.mem_cons_self ..)
    have h2 : c%',' ∉ r := fun hr => h (List.mem_cons_of_mem _ hr)
    simp only [List.cons_append, splitComma, h1, if_false, splitComma_comma r t h2]

theorem dropWhile_plain (s : Bytes) (h : ∀ b, s.head? = some b → isSpace b = false) :
    s.dropWhile isSpace = s := by
  cases s with
  | nil => rfl
  | cons b r => rw [List.dropWhile_cons, h b rfl]; rfl

theorem trimSpace_plain {s : Bytes} (h : Plain s) : trimSpace s = s := by
  unfold trimSpace
  rw [dropWhile_plain s h.2.1, dropWhile_plain _ (by rw [List.head?_reverse]; exact h.2.2), List.reverse_reverse]

theorem Name.plain {s : Bytes} (h : Name s) : Plain s := by
  cases h with
  | mk b rest hl hw =>
    have hall : ∀ x ∈ b :: rest, Word x := by
      intro x hx
      rcases List.mem_cons.1 hx with rfl | hx
      · exact .inl hl
      · exact hw x hx
    have hsp : ∀ x, Word x → isSpace x = false := by
      intro x hx
      unfold Word Letter Upper Lower Digit at hx
      unfold isSpace
      simp only [Bool.or_eq_false_iff, beq_eq_false_iff_ne, ne_eq, ← UInt8.toNat_inj, UInt8.reduceToNat]
      omega
    refine ⟨fun hc => ?_, fun x hx => hsp x (hall x (List.mem_of_head? hx)), fun x hx => hsp x (hall x (List.mem_of_getLast? hx))⟩
    have := hall _ hc
    unfold Word Letter Upper Lower Digit at this
    simp only [UInt8.reduceToNat] at this
    omega

/-- **C32** (tags) A tag consisting of a name gives exactly that name; `name,id` additionally marks the field as
an ID; a `-` hides the field, whatever modifiers follow. -/
theorem C32_tag_name (goName name : Bytes) (h : Name name) :
    fieldName goName (some name) = .named name false ∧
    fieldName goName (some (name ++ b%",id")) = .named name true ∧
    (∀ rest, fieldName goName (some (b%"-," ++ rest)) = .ignored) ∧
    fieldName goName (some b%"-") = .ignored := by
  have hp := Name.plain h
  have hv := (C32_valid_name name).2 h
  have hne : name ≠ [] := by rintro rfl; cases h
  have hnd : name ≠ b%"-" := by
    rintro rfl
    revert hv; decide
  refine ⟨?_, ?_, ?_, rfl⟩
  · unfold fieldName parseFieldTagGQ
    simp only [if_neg hne, splitComma_plain name hp.1, trimSpace_plain hp, if_neg hnd, hv, tagModifiers]
    simp [hne]
  · unfold fieldName parseFieldTagGQ
    have : name ++ b%",id" ≠ [] := by simp
    simp only [if_neg this]
    rw [show name ++ b%",id" = name ++ c%',' :: b%"id" from rfl, splitComma_comma name _ hp.1]
    have hs : splitComma b%"id" = [b%"id"] := by decide
    have ht : tagModifiers [b%"id"] = true := by decide
    simp only [trimSpace_plain hp, if_neg hnd, hv, hs, ht]
    simp [hne]
  · intro rest
    unfold fieldName parseFieldTagGQ
    simp only [List.cons_append, List.nil_append, List.cons_ne_nil, if_false]
    rw [show (c%'-' :: c%',' :: rest) = b%"-" ++ c%',' :: rest from rfl, splitComma_comma _ _ (by decide)]
    have : trimSpace b%"-" = b%"-" := by decide
    simp only [this, if_true]

/-- **C32** (tags) A tag name that is not a GraphQL name is rejected, and so is every modifier other than `id`. -/
theorem C32_tag_rejected (goName bad : Bytes) (hp : Plain bad) (hne : bad ≠ []) (hd : bad ≠ b%"-")
    (hb : ¬ Name bad) : fieldName goName (some bad) = .err ∧
    (∀ name m, Name name → Plain m → toLower m ≠ b%"id" →
      fieldName goName (some (name ++ c%',' :: m)) = .err) := by
  constructor
  · have hv : validGraphQlName bad = false := by
      rw [← Bool.not_eq_true, C32_valid_name]; exact hb
    unfold fieldName parseFieldTagGQ
    simp only [if_neg hne, splitComma_plain bad hp.1, trimSpace_plain hp, if_neg hd, hv, tagModifiers]
    simp [hne]
  · intro name m h hm hid
    have hnp := Name.plain h
    have hnd : name ≠ b%"-" := by
      rintro rfl
      have := (C32_valid_name _).2 h
      revert this; decide
    unfold fieldName parseFieldTagGQ
    have : name ++ c%',' :: m ≠ [] := by simp
    simp only [if_neg this, splitComma_comma name _ hnp.1, splitComma_plain m hm.1, trimSpace_plain hnp,
      if_neg hnd, tagModifiers, trimSpace_plain hm, if_neg hid, if_true]

theorem isSpace_iff (b : Byte) : isSpace b = true ↔ Blank b := by
  unfold isSpace Blank
  simp only [Bool.or_eq_true, beq_iff_eq, ← UInt8.toNat_inj, UInt8.reduceToNat]
  omega

theorem dropWhile_blank : ∀ (l s : Bytes), (∀ x ∈ l, Blank x) → (l ++ s).dropWhile isSpace = s.dropWhile isSpace
  | [], _, _ => rfl
  | b :: l, s, h => by
    rw [List.cons_append, List.dropWhile_cons, (isSpace_iff b).2 (h b (List.mem_cons_self ..)), if_pos rfl]
    exact dropWhile_blank l s fun x hx => h x (List.mem_cons_of_mem _ hx)

theorem dropWhile_split : ∀ s : Bytes, ∃ l, (∀ x ∈ l, Blank x) ∧ s = l ++ s.dropWhile isSpace ∧
    (∀ b, (s.dropWhile isSpace).head? = some b → isSpace b = false)
  | [] => ⟨[], by simp, rfl, by simp⟩
  | b :: r => by
    rw [List.dropWhile_cons]
    cases h : isSpace b with
    | false => exact ⟨[], by simp, rfl, fun c hc => by injection hc with hc; rw [← hc]; exact h⟩
    | true =>
      obtain ⟨l, h1, h2, h3⟩ := dropWhile_split r
      refine ⟨b :: l, ?_, ?_, h3⟩
      · intro x hx
        rcases List.mem_cons.1 hx with rfl | hx
        · exact (isSpace_iff x).1 h
        · exact h1 x hx
      · rw [if_pos rfl, List.cons_append, ← h2]

/-- white space on neither side -/
def Tight (s : Bytes) : Prop := (∀ b, s.head? = some b → isSpace b = false) ∧
  (∀ b, s.getLast? = some b → isSpace b = false)

theorem trimSpace_padded {core s : Bytes} (ht : Tight core) (h : Padded core s) : trimSpace s = core := by
  cases h with
  | mk l r hl hr =>
    unfold trimSpace
    rw [dropWhile_blank l _ hl]
    cases core with
    | nil =>
      have : r.dropWhile isSpace = [] := by
        have := dropWhile_blank r [] hr
        rw [List.append_nil] at this
        rw [this]; rfl
      rw [List.nil_append, this]; rfl
    | cons c core =>
      rw [dropWhile_plain ((c :: core) ++ r) (fun b hb => ht.1 b hb), List.reverse_append,
        dropWhile_blank _ _ (fun x hx => hr x (List.mem_reverse.1 hx)),
        dropWhile_plain _ (by rw [List.head?_reverse]; exact ht.2), List.reverse_reverse]

theorem padded_trim (s : Bytes) : Padded (trimSpace s) s ∧ Tight (trimSpace s) := by
  obtain ⟨l, hl, hs, hh⟩ := dropWhile_split s
  obtain ⟨r, hr, hs2, hh2⟩ := dropWhile_split (s.dropWhile isSpace).reverse
  have he : s.dropWhile isSpace = trimSpace s ++ r.reverse := by
    have := congrArg List.reverse hs2
    rw [List.reverse_reverse, List.reverse_append] at this
    exact this
  refine ⟨?_, ?_, ?_⟩
  · have := Padded.mk (core := trimSpace s) l r.reverse hl (fun x hx => hr x (List.mem_reverse.1 hx))
    rw [← he, ← hs] at this
    exact this
  · intro b hb
    apply hh b
    rw [he]
    cases h : trimSpace s with
    | nil => rw [h] at hb; cases hb
    | cons c t => rw [h] at hb; exact hb
  · intro b hb
    apply hh2 b
    unfold trimSpace at hb
    rw [List.getLast?_reverse] at hb
    exact hb

theorem trimSpace_iff {core : Bytes} (ht : Tight core) (s : Bytes) : trimSpace s = core ↔ Padded core s :=
  ⟨fun h => h ▸ (padded_trim s).1, trimSpace_padded ht⟩

theorem toLower_id (s : Bytes) : toLower s = b%"id" ↔ s = b%"id" ∨ s = b%"iD" ∨ s = b%"Id" ∨ s = b%"ID" := by
  constructor
  · intro h
    match s, h with
    | [], h => cases h
    | [_], h => exact absurd (congrArg List.length h) (by simp [toLower])
    | [x, y], h =>
      have hx : (if c%'A' ≤ x ∧ x ≤ c%'Z' then x + 32 else x) = c%'i' := by injection h
      have hy : (if c%'A' ≤ y ∧ y ≤ c%'Z' then y + 32 else y) = c%'d' := by
        injection h with _ h; injection h
      have key : ∀ (z c : Byte), 97 ≤ c.toNat → c.toNat ≤ 122 →
          (if c%'A' ≤ z ∧ z ≤ c%'Z' then z + 32 else z) = c → z = c ∨ z = c - 32 := by
        intro z c h1 h2 h
        by_cases hz : c%'A' ≤ z ∧ z ≤ c%'Z'
        · rw [if_pos hz] at h
          right
          rw [← h, UInt8.add_sub_cancel]
        · rw [if_neg hz] at h; exact .inl h
      rcases key x c%'i' (by decide) (by decide) hx with rfl | rfl <;>
        rcases key y c%'d' (by decide) (by decide) hy with rfl | rfl
      · exact .inl rfl
      · exact .inr (.inl rfl)
      · exact .inr (.inr (.inl rfl))
      · exact .inr (.inr (.inr rfl))
    | _ :: _ :: _ :: _, h => exact absurd (congrArg List.length h) (by simp [toLower])
  · rintro (rfl | rfl | rfl | rfl) <;> decide

theorem tight_id : Tight b%"id" ∧ Tight b%"iD" ∧ Tight b%"Id" ∧ Tight b%"ID" := by
  refine ⟨⟨?_, ?_⟩, ⟨?_, ?_⟩, ⟨?_, ?_⟩, ⟨?_, ?_⟩⟩ <;> (intro b hb; injection hb with hb; subst hb; rfl)

theorem tagModifiers_iff : ∀ mods : List Bytes, tagModifiers mods = true ↔ ∀ m ∈ mods, IdModifier m
  | [] => by simp [tagModifiers]
  | m :: rest => by
    have hm : toLower (trimSpace m) = b%"id" ↔ IdModifier m := by
      rw [toLower_id]
      unfold IdModifier
      rw [trimSpace_iff tight_id.1, trimSpace_iff tight_id.2.1, trimSpace_iff tight_id.2.2.1,
        trimSpace_iff tight_id.2.2.2]
    simp only [tagModifiers, List.mem_cons, forall_eq_or_imp]
    by_cases h : toLower (trimSpace m) = b%"id"
    · rw [if_pos h, tagModifiers_iff rest]
      exact ⟨fun hr => ⟨hm.1 h, hr⟩, fun hr => hr.2⟩
    · rw [if_neg h]
      exact ⟨fun hf => Bool.noConfusion hf, fun hr => absurd (hm.2 hr.1) h⟩

theorem splitComma_tagOf : ∀ (mods : List Bytes) (head : Bytes), c%',' ∉ head → (∀ m ∈ mods, c%',' ∉ m) →
    splitComma (tagOf head mods) = head :: mods
  | [], head, hh, _ => by
    unfold tagOf
    rw [List.flatMap_nil, List.append_nil, splitComma_plain head hh]
  | m :: rest, head, hh, hm => by
    have := splitComma_tagOf rest m (hm m (List.mem_cons_self ..)) fun x hx => hm x (List.mem_cons_of_mem _ hx)
    unfold tagOf at this ⊢
    rw [List.flatMap_cons, List.cons_append, splitComma_comma head _ hh, this]

/-- every tag is a first part and modifiers without commas -/
theorem tagOf_every : ∀ tag : Bytes, ∃ head mods, c%',' ∉ head ∧ (∀ m ∈ mods, c%',' ∉ m) ∧ tag = tagOf head mods
  | [] => ⟨[], [], by simp, by simp, rfl⟩
  | b :: r => by
    obtain ⟨head, mods, h1, h2, h3⟩ := tagOf_every r
    by_cases hb : b = c%','
    · refine ⟨[], head :: mods, by simp, ?_, ?_⟩
      · intro m hm
        rcases List.mem_cons.1 hm with rfl | hm
        · exact h1
        · exact h2 m hm
      · rw [hb, h3]; rfl
    · refine ⟨b :: head, mods, ?_, h2, ?_⟩
      · intro hc
        rcases List.mem_cons.1 hc with hc | hc
        · exact hb hc.symm
        · exact h1 hc
      · rw [h3]; rfl

theorem Name.tight {s : Bytes} (h : Name s) : Tight s := (Name.plain h).2

/-- **C32** (tags, in full) Every tag is a first part and modifiers separated by commas. It hides the field exactly
when the first part is a padded `-`; otherwise it is rejected exactly when some modifier is not a padded `id` (in any
case) or the first part is neither blank nor a padded GraphQL name; otherwise the field has that name, or its
formatted Go name when the first part is blank, and is an ID exactly when there is a modifier. -/
theorem C32_tag_exact (goName head : Bytes) (mods : List Bytes) (hh : c%',' ∉ head) (hm : ∀ m ∈ mods, c%',' ∉ m) :
    (Padded b%"-" head → fieldName goName (some (tagOf head mods)) = .ignored) ∧
    (¬ Padded b%"-" head → (∃ m ∈ mods, ¬ IdModifier m) → fieldName goName (some (tagOf head mods)) = .err) ∧
    ((∀ x ∈ head, Blank x) → (∀ m ∈ mods, IdModifier m) →
      fieldName goName (some (tagOf head mods)) = .named (formatGoNameToQL goName) (decide (mods ≠ []))) ∧
    (∀ name, Name name → Padded name head → (∀ m ∈ mods, IdModifier m) →
      fieldName goName (some (tagOf head mods)) = .named name (decide (mods ≠ []))) ∧
    (¬ Padded b%"-" head → (¬ ∀ x ∈ head, Blank x) → (¬ ∃ name, Name name ∧ Padded name head) →
      fieldName goName (some (tagOf head mods)) = .err) := by
  have hdash : Tight b%"-" := by constructor <;> (intro b hb; injection hb with hb; subst hb; rfl)
  have hbl : trimSpace head = [] ↔ ∀ x ∈ head, Blank x := by
    rw [trimSpace_iff ⟨by simp, by simp⟩]
    constructor
    · rintro ⟨l, r, hl, hr⟩ x hx
      rcases List.mem_append.1 hx with hx | hx
      · exact hl x hx
      · exact hr x hx
    · intro h
      have := Padded.mk (core := []) head [] h (by simp)
      simpa using this
  have hmods : (!mods.isEmpty) = decide (mods ≠ []) := by cases mods <;> rfl
  have key : fieldName goName (some (tagOf head mods)) =
      (if trimSpace head = b%"-" then .ignored
       else if tagModifiers mods = false then .err
       else if trimSpace head ≠ [] ∧ validGraphQlName (trimSpace head) = false then .err
       else .named (if trimSpace head = [] then formatGoNameToQL goName else trimSpace head) (decide (mods ≠ []))) := by
    unfold fieldName parseFieldTagGQ
    dsimp only
    by_cases he : tagOf head mods = []
    · rw [if_pos he]
      unfold tagOf at he
      rw [List.append_eq_nil_iff] at he
      obtain ⟨rfl, h2⟩ := he
      cases mods with
      | nil => rfl
      | cons m r => rw [List.flatMap_cons] at h2; cases h2
    · rw [if_neg he, splitComma_tagOf mods head hh hm]
      dsimp only
      rw [hmods]
      by_cases h1 : trimSpace head = b%"-"
      · rw [if_pos h1, if_pos h1]
      rw [if_neg h1, if_neg h1]
      by_cases h2 : tagModifiers mods = false
      · rw [if_pos h2, if_pos h2]
      rw [if_neg h2, if_neg h2]
      by_cases h3 : trimSpace head ≠ [] ∧ validGraphQlName (trimSpace head) = false
      · rw [if_pos h3, if_pos h3]
      rw [if_neg h3, if_neg h3]
      by_cases h4 : trimSpace head = []
      · rw [if_pos h4, if_pos h4]
      · rw [if_neg h4, if_neg h4]
  rw [key]
  refine ⟨fun h => ?_, fun h hx => ?_, fun hx ha => ?_, fun name hn hp ha => ?_, fun h hx ha => ?_⟩
  · rw [if_pos ((trimSpace_iff hdash head).2 h)]
  · rw [if_neg (fun e => h ((trimSpace_iff hdash head).1 e)), if_pos]
    obtain ⟨m, h1, h2⟩ := hx
    rw [← Bool.not_eq_true, tagModifiers_iff]
    exact fun hall => h2 (hall m h1)
  · rw [if_neg (by rw [hbl.2 hx]; decide), if_neg (by rw [(tagModifiers_iff mods).2 ha]; decide),
      if_neg (fun hc => hc.1 (hbl.2 hx)), if_pos (hbl.2 hx)]
  · have ht := trimSpace_padded (Name.tight hn) hp
    have hv := (C32_valid_name name).2 hn
    have hne : name ≠ [] := by rintro rfl; cases hn
    have hnd : name ≠ b%"-" := by rintro rfl; revert hv; decide
    rw [ht, if_neg hnd, if_neg (by rw [(tagModifiers_iff mods).2 ha]; decide), if_neg, if_neg hne]
    rintro ⟨_, hf⟩
    rw [hv] at hf
    cases hf
  · rw [if_neg (fun e => h ((trimSpace_iff hdash head).1 e))]
    have hv : trimSpace head ≠ [] ∧ validGraphQlName (trimSpace head) = false := by
      refine ⟨fun e => hx (hbl.1 e), ?_⟩
      rw [← Bool.not_eq_true, C32_valid_name]
      exact fun hn => ha ⟨_, hn, (padded_trim head).1⟩
    rw [if_pos hv]
    by_cases h2 : tagModifiers mods = false
    · rw [if_pos h2]
    · rw [if_neg h2]

/-- Non-vacuity of `C32_tag_exact`: a padded name and two modifiers in different cases, next to a wrong modifier. -/
example (goName : Bytes) : fieldName goName (some (b%" bar" ++ [9] ++ b%", iD ,ID")) = .named b%"bar" true ∧
    fieldName goName (some b%"bar,ID,ix") = .err := by
  have hw : ∀ x ∈ b%"ar", Word x := by unfold Word Letter Upper Lower Digit; decide
  have hn : Name b%"bar" := ⟨_, _, by unfold Letter Upper Lower; decide, hw⟩
  have hbar : Padded b%"bar" (b%" bar" ++ [9]) := ⟨b%" ", [9], by unfold Blank; decide, by unfold Blank; decide⟩
  have h1 : IdModifier b%" iD " := .inr (.inl ⟨b%" ", b%" ", by unfold Blank; decide, by unfold Blank; decide⟩)
  have h2 : IdModifier b%"ID" := .inr (.inr (.inr ⟨[], [], by simp, by simp⟩))
  have h3 : ¬ IdModifier b%"ix" := by
    intro h
    have := (tagModifiers_iff [b%"ix"]).2 (by simpa using h)
    revert this; decide
  constructor
  · have := (C32_tag_exact goName (b%" bar" ++ [9]) [b%" iD ", b%"ID"] (by decide) (by decide)).2.2.2.1 b%"bar" hn hbar
      (by intro m hm; simp only [List.mem_cons, List.not_mem_nil, or_false] at hm; rcases hm with rfl | rfl <;> assumption)
    exact this
  · have := (C32_tag_exact goName b%"bar" [b%"ID", b%"ix"] (by decide) (by decide)).2.1
      (fun h => by
        have := trimSpace_padded (core := b%"-") (by constructor <;> (intro b hb; injection hb with hb; subst hb; rfl)) h
        revert this; decide)
      ⟨b%"ix", by simp, h3⟩
    exact this

/-- Non-vacuity: typical names, tags and rejected tags. -/
example : formatGoNameToQL b%"FooBar" = b%"fooBar" ∧ formatGoNameToQL b%"ID" = b%"ID" ∧
    formatGoNameToQL b%"A" = b%"a" ∧ formatGoNameToQL b%"A1" = b%"A1" ∧ Exported b%"FooBar" ∧
    fieldName b%"Foo" (some b%" bar , ID") = .named b%"bar" true ∧
    fieldName b%"Foo" (some b%"1bar") = .err ∧ fieldName b%"Foo" (some b%"bar,foo") = .err := by
  refine ⟨by decide, by decide, by decide, by decide, ⟨_, _, ?_, ?_⟩, by decide, by decide, by decide⟩
  · unfold Upper; decide
  · unfold Word Letter Upper Lower Digit; decide

/-- **C49** A method of a type not named `Resolve…` is ignored; one named `Resolve` plus a lower-case ASCII letter
is ignored; one named `Resolve` plus another ASCII character is exposed under the formatted remainder. -/
theorem C49_method_naming (name : Bytes) :
    ((¬ ∃ rest, name = b%"Resolve" ++ rest) → methodName name = .ignored) ∧
    (∀ c rest, name = b%"Resolve" ++ c :: rest → Lower c → methodName name = .ignored) ∧
    (∀ c rest, name = b%"Resolve" ++ c :: rest → c.toNat < 128 → ¬ Lower c →
      methodName name = .exposed (formatGoNameToQL (c :: rest))) := by
  have key : ∀ c rest, name = b%"Resolve" ++ c :: rest → methodName name =
      if toUpperRuneFirst c ≠ c then .ignored else .exposed (formatGoNameToQL (c :: rest)) := by
    rintro c rest rfl
    unfold methodName
    rw [if_pos (List.prefix_append _ _)]
    rfl
  have up : ∀ c : Byte, c.toNat < 128 → toUpperRuneFirst c = toUpperFirst c := by
    intro c hc
    unfold toUpperRuneFirst toUpperFirst
    have : ¬ (0x80 : Byte) ≤ c := by rw [UInt8.le_iff_toNat_le]; simp only [UInt8.reduceToNat]; omega
    rw [if_neg this, if_neg this]
  refine ⟨fun h => ?_, fun c rest h hc => ?_, fun c rest h hlt hc => ?_⟩
  · unfold methodName
    rw [if_neg]
    rintro ⟨rest, hr⟩
    exact h ⟨rest, hr.symm⟩
  · have hlt : c.toNat < 128 := by unfold Lower at hc; omega
    rw [key c rest h, if_pos]
    rw [up c hlt]
    exact fun he => (toUpperFirst_fix hlt).1 he.symm hc
  · rw [key c rest h, if_neg]
    rw [up c hlt, Classical.not_not]
    exact ((toUpperFirst_fix hlt).2 hc).symm

/-- **C49** Two different exposed ASCII methods have different GraphQL names. -/
theorem C49_methods_distinct (r₁ r₂ : Bytes) (h₁ : Exported r₁) (h₂ : Exported r₂) (q : Bytes)
    (e₁ : methodName (b%"Resolve" ++ r₁) = .exposed q) (e₂ : methodName (b%"Resolve" ++ r₂) = .exposed q) :
    r₁ = r₂ := by
  have go : ∀ r, Exported r → methodName (b%"Resolve" ++ r) = .exposed (formatGoNameToQL r) := by
    intro r h
    cases h with
    | mk b rest hu hr =>
      unfold Upper at hu
      exact (C49_method_naming _).2.2 b rest rfl (by omega) (by unfold Lower; omega)
  rw [go _ h₁] at e₁
  rw [go _ h₂] at e₂
  injection e₁ with e₁
  injection e₂ with e₂
  exact C32_exported_distinct _ _ h₁ h₂ (e₁.trans e₂.symm)

/-- A type with a method called exactly `Resolve` crashes `Parse` (index out of range); no other method name does. -/
theorem C49_resolve_panics (name : Bytes) : methodName name = .panic ↔ name = b%"Resolve" := by
  constructor
  · unfold methodName
    by_cases h : b%"Resolve" <+: name
    · rw [if_pos h]
      obtain ⟨t, rfl⟩ := h
      cases t with
      | nil => intro _; rfl
      | cons c r =>
        intro h
        have : (b%"Resolve" ++ c :: r).drop 7 = c :: r := rfl
        rw [this] at h
        simp only at h
        split at h <;> cases h
    · rw [if_neg h]; intro h; cases h
  · rintro rfl; decide

example : methodName b%"ResolveFooBar" = .exposed b%"fooBar" ∧ methodName b%"Resolvefoo" = .ignored ∧
    methodName b%"Foo" = .ignored ∧ methodName b%"ResolveID" = .exposed b%"ID" := by decide

end Naming
end Yarql
