import Verif.Spec.Json
import Verif.Spec.Response
import Verif.Proofs.JsonString

/-! # Printing responses as JSON; a necessary condition on JSON texts -/

namespace Yarql
namespace Json
open Eval

/-- printable ASCII without quotes and backslashes -/
def Plain (t : Bytes) : Prop := ∀ b ∈ t, 0x20 ≤ b.toNat ∧ b.toNat < 0x7F ∧ b ≠ c%'"' ∧ b ≠ c%'\\'

theorem enc_ascii {b : Byte} (h : b.toNat < 0x80) : Utf8.enc b.toNat = [b] := by
  unfold Utf8.enc
  rw [if_pos h]
  simp

theorem plain_chars {t : Bytes} (h : Plain t) : JChars t (t.map (·.toNat)) := by
  induction t with
  | nil => exact .nil
  | cons b t ih =>
    obtain ⟨h1, h2, h3, h4⟩ := h b (by simp)
    have := JChars.unescaped (c := b.toNat) (r := t) (Or.inl (by omega)) h1 (fun e => h3 (UInt8.toNat_inj.1 e)) (fun e => h4 (UInt8.toNat_inj.1 e))
      (ih (fun b hb => h b (List.mem_cons_of_mem _ hb)))
    rw [enc_ascii (by omega)] at this
    exact this

theorem plain_string {t : Bytes} (h : Plain t) : JString ([c%'"'] ++ t ++ [c%'"']) (t.map (·.toNat)) := ⟨t, rfl, plain_chars h⟩

theorem Plain.append {a b : Bytes} (ha : Plain a) (hb : Plain b) : Plain (a ++ b) := by
  intro x hx
  rcases List.mem_append.1 hx with h | h
  · exact ha x h
  · exact hb x h

mutual
/-- response values that print as JSON: no missing values -/
inductive OutOK : Out → Prop where
  | null : OutOK .null
  | leaf {t} : JText t → OutOK (.leaf t)
  | list {xs} : ItemsOK xs → OutOK (.list xs)
  | obj {ms} : MembersOK ms → OutOK (.obj ms)
inductive ItemsOK : List Out → Prop where
  | nil : ItemsOK []
  | cons {x xs} : OutOK x → ItemsOK xs → ItemsOK (x :: xs)
inductive MembersOK : List (Bytes × Out) → Prop where
  | nil : MembersOK []
  | cons {k x ms} : Plain k → OutOK x → MembersOK ms → MembersOK ((k, x) :: ms)
end

theorem MembersOK.append {a b : List (Bytes × Out)} (ha : MembersOK a) (hb : MembersOK b) : MembersOK (a ++ b) := by
  induction a with
  | nil => exact hb
  | cons x xs ih => cases ha with | cons h1 h2 h3 => exact .cons h1 h2 (ih h3)

mutual
theorem print_json {o : Out} (h : OutOK o) : JText (print o) := by
  match h with
  | .null => exact .null
  | .leaf h => exact h
  | .list (xs := xs) h =>
    have := printItems_json h
    cases xs with
    | nil => exact .emptyArray
    | cons x xs =>
      unfold print
      exact .array (this (by simp))
  | .obj (ms := ms) h =>
    have := printMembers_json h
    cases ms with
    | nil => exact .emptyObject
    | cons x xs =>
      unfold print
      exact .object (this (by simp))
theorem printItems_json {xs : List Out} (h : ItemsOK xs) : xs ≠ [] → JElems (printItems true xs) := by
  match h with
  | .nil => intro h; exact absurd rfl h
  | .cons (x := x) (xs := xs) h1 h2 =>
    intro _
    have k1 := print_json h1
    have k2 := printItems_json h2
    cases xs with
    | nil =>
      simp only [printItems, if_true, List.nil_append, List.append_nil]
      exact .one k1
    | cons y ys =>
      have := JElems.cons k1 (k2 (by simp))
      simp only [printItems, if_true, List.nil_append, Bool.false_eq_true, if_false, List.append_assoc] at this ⊢
      exact this
theorem printMembers_json {xs : List (Bytes × Out)} (h : MembersOK xs) : xs ≠ [] → JMembers (printMembers true xs) := by
  match h with
  | .nil => intro h; exact absurd rfl h
  | .cons (k := k) (x := x) (ms := xs) hk h1 h2 =>
    intro _
    have k1 := print_json h1
    have k2 := printMembers_json h2
    cases xs with
    | nil =>
      have := JMembers.one (plain_string hk) k1
      simp only [printMembers, if_true, List.nil_append, List.append_nil, List.append_assoc, List.cons_append] at this ⊢
      exact this
    | cons y ys =>
      have := JMembers.cons (plain_string hk) k1 (k2 (by simp))
      obtain ⟨k', y⟩ := y
      simp only [printMembers, if_true, List.nil_append, List.append_assoc, List.cons_append, Bool.false_eq_true, if_false] at this ⊢
      exact this
end

/-! ## A colon is never followed by a comma or a closing brace -/

/-- scanner states: outside of strings (just after a colon?), inside, after a backslash -/
inductive Scan where
  | out (afterColon : Bool)
  | str
  | esc
deriving DecidableEq

def step : Scan → Byte → Option Scan
  | .out a, b =>
    if b = c%'"' then some .str
    else if b = c%':' then some (.out true)
    else if a = true ∧ (b = c%',' ∨ b = c%'}') then none
    else some (.out false)
  | .str, b => if b = c%'"' then some (.out false) else if b = c%'\\' then some .esc else some .str
  | .esc, _ => some .str

def scan : Scan → Bytes → Option Scan
  | s, [] => some s
  | s, b :: t => (step s b).bind (fun s => scan s t)

theorem scan_append (s : Scan) (a b : Bytes) : scan s (a ++ b) = (scan s a).bind (fun s => scan s b) := by
  induction a generalizing s with
  | nil => rfl
  | cons x a ih =>
    simp only [List.cons_append, scan]
    cases step s x with
    | none => rfl
    | some s => exact ih s

theorem scan_plain {t : Bytes} (h : ∀ b ∈ t, b ≠ c%'"' ∧ b ≠ c%'\\') : scan .str t = some .str := by
  induction t with
  | nil => rfl
  | cons b t ih =>
    have := h b (by simp)
    simp only [scan, step, if_neg this.1, if_neg this.2, Option.bind_some]
    exact ih (fun b hb => h b (List.mem_cons_of_mem _ hb))

theorem enc_bytes {c : Nat} (hs : Utf8.Scalar c) (h1 : c ≠ 0x22) (h2 : c ≠ 0x5C) : ∀ b ∈ Utf8.enc c, b ≠ c%'"' ∧ b ≠ c%'\\' := by
  intro b hb
  have ne : ∀ n : Nat, n < 256 → n ≠ 0x22 → n ≠ 0x5C → UInt8.ofNat n ≠ c%'"' ∧ UInt8.ofNat n ≠ c%'\\' := by
    intro n hn h1 h2
    constructor
    · intro e
      have := congrArg UInt8.toNat e
      rw [UInt8.toNat_ofNat', Nat.mod_eq_of_lt hn] at this
      exact h1 this
    · intro e
      have := congrArg UInt8.toNat e
      rw [UInt8.toNat_ofNat', Nat.mod_eq_of_lt hn] at this
      exact h2 this
  unfold Utf8.enc at hb
  have hlt : c < 0x110000 := by unfold Utf8.Scalar at hs; omega
  split at hb
  · rw [List.mem_singleton] at hb; subst hb; exact ne c (by omega) h1 h2
  · split at hb
    · simp only [List.mem_cons, List.not_mem_nil, or_false] at hb
      rcases hb with rfl | rfl <;> exact ne _ (by omega) (by omega) (by omega)
    · split at hb
      · simp only [List.mem_cons, List.not_mem_nil, or_false] at hb
        rcases hb with rfl | rfl | rfl <;> exact ne _ (by omega) (by omega) (by omega)
      · simp only [List.mem_cons, List.not_mem_nil, or_false] at hb
        rcases hb with rfl | rfl | rfl | rfl <;> exact ne _ (by omega) (by omega) (by omega)

theorem hexDigit_plain {b : Byte} {n : Nat} (h : hexDigit b = some n) : b ≠ c%'"' ∧ b ≠ c%'\\' := by
  constructor <;> (rintro rfl; revert h; decide +revert)

theorem hex4_plain {a b c d : Byte} {n : Nat} (h : hex4 a b c d = some n) : ∀ x ∈ [a, b, c, d], x ≠ c%'"' ∧ x ≠ c%'\\' := by
  unfold hex4 at h
  split at h
  · rename_i ha hb hc hd
    intro x hx
    simp only [List.mem_cons, List.not_mem_nil, or_false] at hx
    rcases hx with rfl | rfl | rfl | rfl
    · exact hexDigit_plain ha
    · exact hexDigit_plain hb
    · exact hexDigit_plain hc
    · exact hexDigit_plain hd
  · cases h

theorem scan_chars {t : Bytes} {cs : List Nat} (h : JChars t cs) : scan .str t = some .str := by
  have u : ∀ {h1 h2 h3 h4 : Byte} {n : Nat} {t : Bytes}, hex4 h1 h2 h3 h4 = some n → scan .str t = some .str →
      scan .str (c%'\\' :: c%'u' :: h1 :: h2 :: h3 :: h4 :: t) = some .str := by
    intro h1 h2 h3 h4 n t hh ht
    show scan .str (h1 :: h2 :: h3 :: h4 :: t) = some .str
    rw [show h1 :: h2 :: h3 :: h4 :: t = [h1, h2, h3, h4] ++ t from rfl, scan_append, scan_plain (hex4_plain hh)]
    exact ht
  induction h with
  | nil => rfl
  | unescaped h1 h2 h3 h4 _ ih => rw [scan_append, scan_plain (enc_bytes h1 h3 h4)]; exact ih
  | escape _ _ ih => exact ih
  | unicode h _ _ ih => exact u h ih
  | surrogates h1 h2 _ _ _ _ _ ih => exact u h1 (u h2 ih)

theorem scan_string {t : Bytes} {cs : List Nat} (h : JString t cs) (a : Bool) : scan (.out a) t = some (.out false) := by
  obtain ⟨body, rfl, h⟩ := h
  show scan .str (body ++ [c%'"']) = _
  rw [scan_append, scan_chars h]
  rfl

/-- the bytes of numbers -/
def numByte (b : Byte) : Prop := b ≠ c%'"' ∧ b ≠ c%':' ∧ b ≠ c%',' ∧ b ≠ c%'}'

theorem digit_num {b : Byte} (h : IsDigit b) : numByte b := by
  unfold IsDigit at h
  refine ⟨?_, ?_, ?_, ?_⟩ <;> (rintro rfl; revert h; decide)

theorem scan_num {t : Bytes} (h : ∀ b ∈ t, numByte b) (ht : t ≠ []) (a : Bool) : scan (.out a) t = some (.out false) := by
  induction t generalizing a with
  | nil => exact absurd rfl ht
  | cons b t ih =>
    obtain ⟨h1, h2, h3, h4⟩ := h b (by simp)
    simp only [scan, step, if_neg h1, if_neg h2]
    rw [if_neg (fun h => h.2.elim h3 h4)]
    cases t with
    | nil => rfl
    | cons c t => exact ih (fun b hb => h b (List.mem_cons_of_mem _ hb)) (by simp) false

theorem scan_number {t : Bytes} (h : JNumber t) (a : Bool) : scan (.out a) t = some (.out false) := by
  obtain ⟨sign, i, f, e, rfl, hs, hi, hf, he⟩ := h
  have digits : ∀ {ds}, JDigits ds → ∀ b ∈ ds, numByte b := fun h b hb => digit_num (h.2 b hb)
  refine scan_num ?_ ?_ a
  · intro b hb
    simp only [List.mem_append] at hb
    rcases hb with ((hb | hb) | hb) | hb
    · rcases hs with rfl | rfl
      · cases hb
      · rw [List.mem_singleton] at hb; subst hb; exact ⟨by decide, by decide, by decide, by decide⟩
    · exact digits hi.1 b hb
    · rcases hf with rfl | ⟨ds, rfl, hd⟩
      · cases hb
      · rcases List.mem_cons.1 hb with rfl | hb
        · exact ⟨by decide, by decide, by decide, by decide⟩
        · exact digits hd b hb
    · rcases he with rfl | ⟨x, sg, ds, rfl, hx, hsg, hd⟩
      · cases hb
      · rw [List.cons_append] at hb
        rcases List.mem_cons.1 hb with rfl | hb
        · rcases hx with rfl | rfl <;> exact ⟨by decide, by decide, by decide, by decide⟩
        · rcases List.mem_append.1 hb with hb | hb
          · rcases hsg with rfl | rfl | rfl
            · cases hb
            · rw [List.mem_singleton] at hb; subst hb; exact ⟨by decide, by decide, by decide, by decide⟩
            · rw [List.mem_singleton] at hb; subst hb; exact ⟨by decide, by decide, by decide, by decide⟩
          · exact digits hd b hb
  · have := hi.1.1
    cases i with
    | nil => exact absurd rfl this
    | cons b i => intro h; simp at h

mutual
theorem scan_text {t : Bytes} (h : JText t) : ∀ a, scan (.out a) t = some (.out false) := by
  match h with
  | .null => intro a; cases a <;> rfl
  | .true => intro a; cases a <;> rfl
  | .false => intro a; cases a <;> rfl
  | .number h => intro a; exact scan_number h a
  | .string h => intro a; exact scan_string h a
  | .emptyArray => intro a; cases a <;> rfl
  | .array h =>
    intro a
    have := scan_elems h
    rw [scan_append, scan_append, show scan (.out a) [c%'['] = some (.out false) by cases a <;> rfl, Option.bind_some, this]
    rfl
  | .emptyObject => intro a; cases a <;> rfl
  | .object h =>
    intro a
    have := scan_members h
    rw [scan_append, scan_append, show scan (.out a) [c%'{'] = some (.out false) by cases a <;> rfl, Option.bind_some, this]
    rfl
theorem scan_elems {t : Bytes} (h : JElems t) : scan (.out false) t = some (.out false) := by
  match h with
  | .one h => exact scan_text h false
  | .cons h1 h2 =>
    have k1 := scan_text h1 false
    have k2 := scan_elems h2
    rw [scan_append, scan_append, k1]
    exact k2
theorem scan_members {t : Bytes} (h : JMembers t) : scan (.out false) t = some (.out false) := by
  match h with
  | .one hk h1 =>
    have k1 := scan_text h1 true
    rw [scan_append, scan_append, scan_string hk]
    exact k1
  | .cons hk h1 h2 =>
    have k1 := scan_text h1 true
    have k2 := scan_members h2
    rw [scan_append, scan_append, scan_append, scan_append, scan_string hk]
    show ((scan (.out true) _).bind _).bind _ = _
    rw [k1]
    exact k2
end

/-- a text the scanner refuses is not JSON -/
theorem not_json {t : Bytes} (h : scan (.out false) t ≠ some (.out false)) : ¬ JText t := fun ht => h (scan_text ht false)

end Json
end Yarql
