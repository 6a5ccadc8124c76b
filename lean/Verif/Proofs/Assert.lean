import Verif.Spec.Assert
import Mathlib.Algebra.Order.Ring.Rat
import Mathlib.Data.List.Perm.Subperm

namespace Yarql
namespace Assert

/-! ## Strings -/

theorem before_nil {t : Bytes} : Before [] t ↔ t ≠ [] := by
  constructor
  · rintro (⟨c, r, rfl⟩ | ⟨p, a, b, s', t', h, -⟩)
    · simp
    · simp at h
  · intro h
    cases t with
    | nil => exact absurd rfl h
    | cons c r => exact Or.inl ⟨c, r, rfl⟩

theorem not_before_nil {s : Bytes} : ¬Before s [] := by
  rintro (⟨c, r, h⟩ | ⟨p, a, b, s', t', -, h, -⟩)
  · simp at h
  · simp at h

theorem before_cons {a b : UInt8} {s t : Bytes} : Before (a :: s) (b :: t) ↔ a < b ∨ (a = b ∧ Before s t) := by
  constructor
  · rintro (⟨c, r, h⟩ | ⟨p, x, y, s', t', h1, h2, h3⟩)
    · injection h with h1 h2
      exact Or.inr ⟨h1.symm, Or.inl ⟨c, r, h2⟩⟩
    · cases p with
      | nil =>
        injection h1 with h1 _
        injection h2 with h2 _
        rw [h1, h2]
        exact Or.inl h3
      | cons z p =>
        injection h1 with h1 h1'
        injection h2 with h2 h2'
        exact Or.inr ⟨h1.trans h2.symm, Or.inr ⟨p, x, y, s', t', h1', h2', h3⟩⟩
  · rintro (h | ⟨rfl, ⟨c, r, rfl⟩ | ⟨p, x, y, s', t', rfl, rfl, h3⟩⟩)
    · exact Or.inr ⟨[], a, b, s, t, rfl, rfl, h⟩
    · exact Or.inl ⟨c, r, rfl⟩
    · exact Or.inr ⟨a :: p, x, y, s', t', rfl, rfl, h3⟩

theorem strLt_iff (s t : Bytes) : strLt s t = true ↔ Before s t := by
  induction s generalizing t with
  | nil =>
    cases t with
    | nil => exact ⟨fun h => (nomatch h), fun h => absurd h not_before_nil⟩
    | cons b t => exact ⟨fun _ => before_nil.2 (by simp), fun _ => rfl⟩
  | cons a s ih =>
    cases t with
    | nil => exact ⟨fun h => (nomatch h), fun h => absurd h not_before_nil⟩
    | cons b t =>
      rw [before_cons, ← ih, strLt]
      by_cases h : a < b
      · simp [h]
      · by_cases h' : b < a
        · have : a ≠ b := fun e => by subst e; exact h h'
          simp [h, h', this]
        · have : a = b := UInt8.le_antisymm (UInt8.not_lt.1 h') (UInt8.not_lt.1 h)
          simp [this]

theorem before_irrefl (s : Bytes) : ¬Before s s := by
  induction s with
  | nil => exact not_before_nil
  | cons a s ih =>
    rw [before_cons]
    rintro (h | ⟨-, h⟩)
    · exact UInt8.lt_irrefl a h
    · exact ih h

theorem before_trans {s t u : Bytes} (h1 : Before s t) (h2 : Before t u) : Before s u := by
  induction s generalizing t u with
  | nil =>
    rw [before_nil] at *
    rintro rfl
    exact not_before_nil h2
  | cons a s ih =>
    cases t with
    | nil => exact absurd h1 not_before_nil
    | cons b t =>
      cases u with
      | nil => exact absurd h2 not_before_nil
      | cons c u =>
        rw [before_cons] at *
        rcases h1 with h1 | ⟨rfl, h1⟩
        · rcases h2 with h2 | ⟨rfl, h2⟩
          · exact Or.inl (UInt8.lt_trans h1 h2)
          · exact Or.inl h1
        · rcases h2 with h2 | ⟨rfl, h2⟩
          · exact Or.inl h2
          · exact Or.inr ⟨rfl, ih h1 h2⟩

theorem before_total (s t : Bytes) : Before s t ∨ s = t ∨ Before t s := by
  induction s generalizing t with
  | nil =>
    cases t with
    | nil => exact Or.inr (Or.inl rfl)
    | cons b t => exact Or.inl (before_nil.2 (by simp))
  | cons a s ih =>
    cases t with
    | nil => exact Or.inr (Or.inr (before_nil.2 (by simp)))
    | cons b t =>
      rw [before_cons, before_cons]
      by_cases h : a < b
      · exact Or.inl (Or.inl h)
      · by_cases h' : b < a
        · exact Or.inr (Or.inr (Or.inl h'))
        · have : a = b := UInt8.le_antisymm (UInt8.not_lt.1 h') (UInt8.not_lt.1 h)
          subst this
          rcases ih t with i | rfl | i
          · exact Or.inl (Or.inr ⟨rfl, i⟩)
          · exact Or.inr (Or.inl rfl)
          · exact Or.inr (Or.inr (Or.inr ⟨rfl, i⟩))

/-! ## Floats -/

theorem Fl.lt_irrefl (x : Fl) : Fl.lt x x = false := by
  cases x with
  | nan => rfl
  | fin q => simp [Fl.lt]
  | inf n => cases n <;> rfl

theorem Fl.lt_asymm {x y : Fl} (h : Fl.lt x y = true) : Fl.lt y x = false := by
  cases x <;> cases y <;> simp_all [Fl.lt]
  exact le_of_lt h

theorem Fl.eq_iff {x y : Fl} : Fl.eq x y = true ↔ x = y ∧ x ≠ .nan := by
  cases x <;> cases y <;> simp [Fl.eq]

theorem below_float {s t o p : Bool} {x y : Fl} : Below (.float s o x) (.float t p y) ↔ s = t ∧ Fl.lt x y = true := by
  constructor
  · intro h
    cases h with
    | finite h => exact ⟨rfl, by simp [Fl.lt, h]⟩
    | belowInf h h' => refine ⟨rfl, ?_⟩; cases x <;> simp_all [Fl.lt]
    | aboveInf h h' => refine ⟨rfl, ?_⟩; cases y <;> simp_all [Fl.lt]
  · rintro ⟨rfl, h⟩
    cases x with
    | nan => simp [Fl.lt] at h
    | fin q =>
      cases y with
      | nan => simp [Fl.lt] at h
      | fin r => exact .finite (by simpa [Fl.lt] using h)
      | inf n => cases n with
        | true => simp [Fl.lt] at h
        | false => exact .belowInf (by simp) (by simp)
    | inf n =>
      cases y with
      | nan => simp [Fl.lt] at h
      | fin r => cases n with
        | false => simp [Fl.lt] at h
        | true => exact .aboveInf (by simp) (by simp)
      | inf m =>
        cases n with
        | false => simp [Fl.lt] at h
        | true => cases m with
          | true => simp [Fl.lt] at h
          | false => exact .aboveInf (by simp) (by simp)

/-! ## `compare` -/

theorem three_greater {gt eq lt : Bool} : three gt eq lt = (.greater, true) ↔ gt = true := by cases gt <;> cases eq <;> cases lt <;> simp [three]
theorem three_equal {gt eq lt : Bool} : three gt eq lt = (.equal, true) ↔ gt = false ∧ eq = true := by cases gt <;> cases eq <;> cases lt <;> simp [three]
theorem three_less {gt eq lt : Bool} : three gt eq lt = (.less, true) ↔ gt = false ∧ eq = false ∧ lt = true := by
  cases gt <;> cases eq <;> cases lt <;> simp [three]

theorem kind_float {s t : Bool} {o p : Bool} {x y : Fl} : (Val.float s o x).kind = (Val.float t p y).kind ↔ s = t := by
  cases s <;> cases t <;> simp [Val.kind]

theorem compare_greater {a b : Val} (hk : a.kind = b.kind) : compare a b = (.greater, true) ↔ Below b a := by
  constructor
  · intro h
    unfold compare at h
    split at h
    · rw [three_greater] at h; injection hk with hk; subst hk; exact .int (by simpa using h)
    · rw [three_greater] at h; injection hk with hk; subst hk; exact .uint (by simpa using h)
    · rw [three_greater] at h; rw [kind_float] at hk; exact below_float.2 ⟨hk.symm, h⟩
    · rw [three_greater] at h; exact .string ((strLt_iff _ _).1 h)
    · injection h with h _; injection h
  · intro h
    cases h with
    | int h => exact three_greater.2 (by simpa using h)
    | uint h => exact three_greater.2 (by simpa using h)
    | finite h => exact three_greater.2 (by simpa [Fl.lt] using h)
    | belowInf h h' => exact three_greater.2 (below_float.1 (.belowInf (s := true) (o := true) (p := true) h h')).2
    | aboveInf h h' => exact three_greater.2 (below_float.1 (.aboveInf (s := true) (o := true) (p := true) h h')).2
    | string h => exact three_greater.2 ((strLt_iff _ _).2 h)

theorem compare_equal {a b : Val} (hk : a.kind = b.kind) : compare a b = (.equal, true) ↔ Level a b := by
  constructor
  · intro h
    unfold compare at h
    split at h
    · rw [three_equal] at h; injection hk with hk; subst hk; obtain ⟨-, h⟩ := h; have h := of_decide_eq_true h; subst h; exact .int
    · rw [three_equal] at h; injection hk with hk; subst hk; obtain ⟨-, h⟩ := h; have h := of_decide_eq_true h; subst h; exact .uint
    · rw [three_equal] at h; rw [kind_float] at hk; subst hk; obtain ⟨rfl, hn⟩ := Fl.eq_iff.1 h.2; exact .float hn
    · rw [three_equal] at h; obtain ⟨-, h⟩ := h; have h := of_decide_eq_true h; subst h; exact .string
    · injection h with _ h; injection h
  · intro h
    cases h with
    | int => exact three_equal.2 (by simp)
    | uint => exact three_equal.2 (by simp)
    | float h => exact three_equal.2 ⟨Fl.lt_irrefl _, Fl.eq_iff.2 ⟨rfl, h⟩⟩
    | string =>
      refine three_equal.2 ⟨?_, by simp⟩
      rw [← Bool.not_eq_true, strLt_iff]
      exact before_irrefl _

theorem compare_less {a b : Val} (hk : a.kind = b.kind) : compare a b = (.less, true) ↔ Below a b := by
  constructor
  · intro h
    unfold compare at h
    split at h
    · rw [three_less] at h; injection hk with hk; subst hk; exact .int (by simpa using h.2.2)
    · rw [three_less] at h; injection hk with hk; subst hk; exact .uint (by simpa using h.2.2)
    · rw [three_less] at h; rw [kind_float] at hk; exact below_float.2 ⟨hk, h.2.2⟩
    · rw [three_less] at h; exact .string ((strLt_iff _ _).1 h.2.2)
    · injection h with h _; injection h
  · intro h
    have fl : ∀ {x y : Fl}, Fl.lt x y = true → three (Fl.lt y x) (Fl.eq x y) (Fl.lt x y) = (.less, true) := by
      intro x y h
      refine three_less.2 ⟨Fl.lt_asymm h, ?_, h⟩
      rw [← Bool.not_eq_true, Fl.eq_iff]
      rintro ⟨rfl, -⟩
      rw [Fl.lt_irrefl] at h
      injection h
    cases h with
    | int h => exact three_less.2 (by simp; omega)
    | uint h => exact three_less.2 (by simp; omega)
    | finite h => exact fl (by simpa [Fl.lt] using h)
    | belowInf h h' => exact fl (below_float.1 (.belowInf (s := true) (o := true) (p := true) h h')).2
    | aboveInf h h' => exact fl (below_float.1 (.aboveInf (s := true) (o := true) (p := true) h h')).2
    | string h =>
      refine three_less.2 ⟨?_, ?_, (strLt_iff _ _).2 h⟩
      · rw [← Bool.not_eq_true, strLt_iff]; intro h'; exact before_irrefl _ (before_trans h h')
      · rw [decide_eq_false_iff_not]; rintro rfl; exact before_irrefl _ h

theorem below_kind {a b : Val} (h : Below a b) : a.kind = b.kind := by cases h <;> rfl
theorem level_kind {a b : Val} (h : Level a b) : a.kind = b.kind := by cases h <;> rfl

theorem two_values {a b : Val} {allowed : List CompareType} {r : Rel} {m : List Arg} :
    Passes (compareTwoValues a b allowed r m) ↔ a.kind = b.kind ∧ (compare a b).2 = true ∧ containsValue allowed (compare a b).1 = true := by
  unfold compareTwoValues Passes fail pass
  by_cases h1 : a.kind = b.kind
  · rw [if_neg (by simpa using h1)]
    cases h2 : (compare a b).2 with
    | false => simp
    | true =>
      cases h3 : containsValue allowed (compare a b).1 with
      | false => simp
      | true => simp [h1]
  · rw [if_pos h1]; simp [h1]

theorem two_values_cases (a b : Val) (allowed : List CompareType) (r : Rel) (m : List Arg) :
    Passes (compareTwoValues a b allowed r m) ∨ ∃ f, compareTwoValues a b allowed r m = some (false, [⟨f, m⟩]) := by
  unfold compareTwoValues Passes fail pass
  split
  · exact Or.inr ⟨_, rfl⟩
  · split
    · exact Or.inr ⟨_, rfl⟩
    · split
      · exact Or.inr ⟨_, rfl⟩
      · exact Or.inl rfl

theorem only_greater {a b : Val} {r : Rel} {m : List Arg} : Passes (compareTwoValues a b [.greater] r m) ↔ Below b a := by
  rw [two_values]
  constructor
  · rintro ⟨h1, h2, h3⟩
    rw [← compare_greater h1]
    revert h2 h3
    rcases compare a b with ⟨_ | _ | _, _ | _⟩ <;> simp [containsValue]
  · intro h
    have hk := (below_kind h).symm
    rw [← compare_greater hk] at h
    exact ⟨hk, by rw [h], by rw [h]; rfl⟩

theorem only_less {a b : Val} {r : Rel} {m : List Arg} : Passes (compareTwoValues a b [.less] r m) ↔ Below a b := by
  rw [two_values]
  constructor
  · rintro ⟨h1, h2, h3⟩
    rw [← compare_less h1]
    revert h2 h3
    rcases compare a b with ⟨_ | _ | _, _ | _⟩ <;> simp [containsValue]
  · intro h
    have hk := below_kind h
    rw [← compare_less hk] at h
    exact ⟨hk, by rw [h], by rw [h]; rfl⟩

theorem greater_or_equal {a b : Val} {r : Rel} {m : List Arg} : Passes (compareTwoValues a b [.greater, .equal] r m) ↔ Below b a ∨ Level a b := by
  rw [two_values]
  constructor
  · rintro ⟨h1, h2, h3⟩
    rw [← compare_greater h1, ← compare_equal h1]
    revert h2 h3
    rcases compare a b with ⟨_ | _ | _, _ | _⟩ <;> simp [containsValue]
  · rintro (h | h)
    · have hk := (below_kind h).symm
      rw [← compare_greater hk] at h
      exact ⟨hk, by rw [h], by rw [h]; rfl⟩
    · have hk := level_kind h
      rw [← compare_equal hk] at h
      exact ⟨hk, by rw [h], by rw [h]; rfl⟩

theorem less_or_equal {a b : Val} {r : Rel} {m : List Arg} : Passes (compareTwoValues a b [.less, .equal] r m) ↔ Below a b ∨ Level a b := by
  rw [two_values]
  constructor
  · rintro ⟨h1, h2, h3⟩
    rw [← compare_less h1, ← compare_equal h1]
    revert h2 h3
    rcases compare a b with ⟨_ | _ | _, _ | _⟩ <;> simp [containsValue]
  · rintro (h | h)
    · have hk := below_kind h
      rw [← compare_less hk] at h
      exact ⟨hk, by rw [h], by rw [h]; rfl⟩
    · have hk := level_kind h
      rw [← compare_equal hk] at h
      exact ⟨hk, by rw [h], by rw [h]; rfl⟩

/-! ## Tolerances -/

variable {round : Rat → Fl}

theorem toFloat_iff {v : Val} {x : Fl} : toFloat round v = some x ↔ Number round v x := by
  constructor
  · intro h
    unfold toFloat at h
    split at h
    · injection h with h; subst h; exact .int
    · injection h with h; subst h; exact .uint
    · injection h with h; subst h; exact .float
    · injection h
  · intro h
    cases h <;> rfl

/-- the condition `InDelta` tests -/
def outside (round : Rat → Fl) (x y delta : Fl) : Bool := Fl.lt (Fl.sub round x y) (Fl.neg delta) || Fl.lt delta (Fl.sub round x y)

theorem inDelta_iff {e a : Val} {delta : Fl} {m : List Arg} : Passes (InDelta round e a delta m) ↔
    ∃ x y, Number round e x ∧ Number round a y ∧ x ≠ .nan ∧ y ≠ .nan ∧ outside round x y delta = false := by
  constructor
  · intro h
    unfold InDelta Passes at h
    split at h
    · rename_i x y hx hy
      refine ⟨x, y, toFloat_iff.1 hx, toFloat_iff.1 hy, ?_⟩
      by_cases h1 : x = .nan
      · rw [if_pos h1] at h; cases h
      · rw [if_neg h1] at h
        by_cases h2 : y = .nan
        · rw [if_pos h2] at h; cases h
        · rw [if_neg h2] at h
          refine ⟨h1, h2, ?_⟩
          change (if outside round x y delta = true then _ else _) = _ at h
          cases ho : outside round x y delta with
          | false => rfl
          | true => rw [ho] at h; cases h
    · cases h
  · rintro ⟨x, y, hx, hy, h1, h2, h3⟩
    unfold InDelta Passes
    rw [toFloat_iff.2 hx, toFloat_iff.2 hy]
    dsimp only
    rw [if_neg h1, if_neg h2]
    change (if outside round x y delta = true then _ else _) = _
    rw [h3]
    rfl

theorem number_unique {v : Val} {x y : Fl} (h : Number round v x) (h' : Number round v y) : x = y := by
  have := (toFloat_iff.2 h).symm.trans (toFloat_iff.2 h')
  injection this

theorem inDelta_cases (e a : Val) (delta : Fl) (m : List Arg) :
    InDelta round e a delta m = some (true, []) ∨ ∃ f, InDelta round e a delta m = some (false, [⟨f, m⟩]) := by
  unfold InDelta fail pass
  split
  · split
    · exact Or.inr ⟨_, rfl⟩
    · split
      · exact Or.inr ⟨_, rfl⟩
      · split
        · exact Or.inr ⟨_, rfl⟩
        · exact Or.inl rfl
  · exact Or.inr ⟨_, rfl⟩

theorem inEpsilon_cases (e a : Val) (eps : Fl) (m : List Arg) :
    InEpsilon round e a eps m = some (true, []) ∨ ∃ r, InEpsilon round e a eps m = some (false, [r]) := by
  unfold InEpsilon fail pass
  split
  · exact Or.inr ⟨_, rfl⟩
  · split
    · exact Or.inr ⟨_, rfl⟩
    · split
      · exact Or.inr ⟨_, rfl⟩
      · exact Or.inl rfl

theorem overSlice_iff {one : Val → Val → Outcome} (h1 : ∀ a e, one a e = some (true, []) ∨ ∃ r, one a e = some (false, [r])) (as es : List Val) :
    overSlice one as es = some (true, []) ↔ as.length ≤ es.length ∧ ∀ p ∈ as.zip es, one p.1 p.2 = some (true, []) := by
  induction as generalizing es with
  | nil => simp [overSlice, pass]
  | cons a as ih =>
    cases es with
    | nil => simp [overSlice]
    | cons e es =>
      rw [overSlice]
      rcases h1 a e with h | ⟨r, h⟩
      · rw [h]
        simp [ih, h]
      · rw [h]
        simp [h]

/-- the loop panics if the elements of `actual` that have a counterpart pass and there are more -/
theorem overSlice_panics {one : Val → Val → Outcome} {as es : List Val} (hl : es.length < as.length)
    (h : ∀ p ∈ as.zip es, one p.1 p.2 = some (true, [])) : overSlice one as es = none := by
  induction as generalizing es with
  | nil => simp at hl
  | cons a as ih =>
    cases es with
    | nil => rfl
    | cons e es =>
      rw [overSlice, h (a, e) (by simp)]
      simp only [Option.bind_some, Bool.true_eq_false, if_false]
      exact ih (by simpa using hl) (fun p hp => h p (by simp [hp]))

theorem overMap_iff {delta : Fl} {m : List Arg} {e a : List (Key × Val)} (ks : List Key) :
    overMap round delta m e a ks = some (true, []) ↔
      ∀ k ∈ ks, ∃ v w, mapIndex e k = some v ∧ mapIndex a k = some w ∧ InDelta round v w delta m = some (true, []) := by
  induction ks with
  | nil => simp [overMap, pass]
  | cons k ks ih =>
    rw [overMap]
    cases h1 : mapIndex e k with
    | none => simp [h1, fail]
    | some v =>
      cases h2 : mapIndex a k with
      | none => simp [h2, fail]
      | some w =>
        rcases inDelta_cases (round := round) v w delta m with h | ⟨f, h⟩
        · simp [ih, h1, h2, h]
        · simp [h1, h2, h]

/-! ## Zeros -/

theorem isNil_iff (v : Val) : isNil v = true ↔ IsNil v := by
  constructor
  · intro h
    cases v with
    | nil => exact .nil
    | slice n l => change n = true at h; subst h; exact .slice
    | map n l => change n = true at h; subst h; exact .map
    | chan n k => change n = true at h; subst h; exact .chan
    | func n => change n = true at h; subst h; exact .func
    | ptr tgt => cases tgt with | none => exact .ptr | some w => cases h
    | _ => cases h
  · intro h
    cases h <;> rfl

theorem isZero_of {v : Val} (h : IsZero v) : isZero v = true := by
  induction h with
  | isNil h => cases h <;> rfl
  | @array l _ ih =>
    change allZero l = true
    induction l with
    | nil => rfl
    | cons x xs ihl =>
      rw [allZero, ih x (by simp), ihl (fun v hv => by rename_i h; exact h v (by simp [hv])) (fun v hv => ih v (by simp [hv]))]
      rfl
  | @struct l _ ih =>
    change allZero l = true
    induction l with
    | nil => rfl
    | cons x xs ihl =>
      rw [allZero, ih x (by simp), ihl (fun v hv => by rename_i h; exact h v (by simp [hv])) (fun v hv => ih v (by simp [hv]))]
      rfl
  | _ => rfl

mutual
theorem of_isZero : (v : Val) → isZero v = true → IsZero v
  | .nil, _ => .isNil .nil
  | .bool _ b, h => by cases b with | false => exact .bool | true => cases h
  | .int _ _ x, h => by have h := of_decide_eq_true h; subst h; exact .int
  | .uint _ _ x, h => by have h := of_decide_eq_true h; subst h; exact .uint
  | .float _ _ x, h => by obtain ⟨rfl, -⟩ := Fl.eq_iff.1 h; exact .float
  | .string _ s, h => by cases s with | nil => exact .string | cons _ _ => cases h
  | .slice n _, h => by change n = true at h; subst h; exact .isNil .slice
  | .array l, h => .array (of_allZero l h)
  | .map n _, h => by change n = true at h; subst h; exact .isNil .map
  | .struct l, h => .struct (of_allZero l h)
  | .ptr none, _ => .isNil .ptr
  | .ptr (some _), h => by cases h
  | .chan n _, h => by change n = true at h; subst h; exact .isNil .chan
  | .func n, h => by change n = true at h; subst h; exact .isNil .func
theorem of_allZero : (l : List Val) → allZero l = true → ∀ v ∈ l, IsZero v
  | [], _, _, hv => by cases hv
  | x :: xs, h, v, hv => by
    rw [allZero, Bool.and_eq_true] at h
    have h1 := of_isZero x h.1
    have h2 := of_allZero xs h.2
    rcases List.mem_cons.1 hv with e | hv
    · rw [e]; exact h1
    · exact h2 v hv
end

theorem isZero_iff (v : Val) : isZero v = true ↔ IsZero v := ⟨of_isZero v, isZero_of⟩

/-! ## Lines -/

theorem dropCR_reverse {l : Bytes} (h : l.getLast? ≠ some 13) : scan.dropCR l.reverse = l := by
  cases hl : l.reverse with
  | nil => rw [List.reverse_eq_nil_iff] at hl; subst hl; rfl
  | cons c r =>
    have e : l = r.reverse ++ [c] := by rw [← List.reverse_reverse l, hl]; simp
    subst e
    have hc : c ≠ 13 := by rintro rfl; simp at h
    unfold scan.dropCR
    split
    · rename_i heq; injection heq with h1 _; exact absurd h1 hc
    · simp

theorem dropCR_cr {l : Bytes} : scan.dropCR (l ++ [13]).reverse = l := by
  simp [scan.dropCR]

theorem scan_append {l line rest : Bytes} (h : 10 ∉ l) : scan line (l ++ rest) = scan (l.reverse ++ line) rest := by
  induction l generalizing line with
  | nil => rfl
  | cons c l ih =>
    have hc : c ≠ 10 := fun e => h (by simp [e])
    have hl : 10 ∉ l := fun e => h (by simp [e])
    rw [List.cons_append, scan, if_neg hc, ih hl]
    simp

theorem scan_lines {text : Bytes} {ls : List Bytes} (h : Lines text ls) (hl : ∀ l ∈ ls, l.length + 1 < maxToken) : scan [] text = ls := by
  induction h with
  | none => rfl
  | @last l h1 h2 h3 =>
    have := scan_append (line := []) (rest := []) h1
    rw [List.append_nil] at this
    rw [this, scan, if_neg (by simpa using h2), if_neg (by have := hl l (by simp); simp; omega), List.append_nil, dropCR_reverse h3]
  | @lastCR l h1 =>
    have h1' : 10 ∉ l ++ [13] := by simp [h1]
    have := scan_append (line := []) (rest := []) h1'
    rw [List.append_nil] at this
    rw [this, scan, if_neg (by simp), if_neg (by have := hl l (by simp); simp; omega), List.append_nil, dropCR_cr]
  | @line l rest ls h1 h3 _ ih =>
    rw [scan_append h1, scan, if_pos rfl, if_neg (by have := hl l (by simp); simp; omega), List.append_nil, dropCR_reverse h3,
      ih (fun x hx => hl x (by simp [hx]))]
  | @lineCR l rest ls h1 _ ih =>
    have h1' : 10 ∉ l ++ [13] := by simp [h1]
    have e : l ++ 13 :: 10 :: rest = (l ++ [13]) ++ 10 :: rest := by simp
    rw [e, scan_append h1', scan, if_pos rfl, if_neg (by have := hl l (by simp); simp; omega), List.append_nil, dropCR_cr,
      ih (fun x hx => hl x (by simp [hx]))]

/-- a line that is too long ends the text -/
theorem scan_long {l rest : Bytes} (h : 10 ∉ l) (hl : maxToken ≤ l.length) : scan [] (l ++ 10 :: rest) = [] := by
  rw [scan_append h, scan, if_pos rfl, if_pos (by simpa using hl)]

end Assert
end Yarql
