import Verif.Proofs.Assert
import Mathlib.Tactic.Linarith
import Mathlib.Algebra.Order.Floor.Ring
import Mathlib.Data.Rat.Floor
import Mathlib.Tactic.NormNum
import Mathlib.Algebra.Order.Field.Rat
import Mathlib.Algebra.Order.Field.Basic
import Mathlib.Data.List.Flatten

/-!
# The assertions of the assert package: C94, C95, C96, C97
-/

namespace Yarql
namespace Assert

/-- **C94.** `Greater`, `GreaterOrEqual`, `Less`, `LessOrEqual` pass exactly for two integers, floats or strings of one kind that are ordered so
(strings by bytes, nothing with a NaN); -/
theorem C94_order (a b : Val) (m : List Arg) :
    (Passes (Greater a b m) ↔ Below b a) ∧ (Passes (Less a b m) ↔ Below a b) ∧
    (Passes (GreaterOrEqual a b m) ↔ Below b a ∨ Level a b) ∧ (Passes (LessOrEqual a b m) ↔ Below a b ∨ Level a b) :=
  ⟨only_greater, only_less, greater_or_equal, less_or_equal⟩

/-- otherwise they fail with one report: they never panic, and never report when they pass. -/
theorem C94_reports (a b : Val) (m : List Arg) :
    (Passes (Greater a b m) ∨ Fails (Greater a b m)) ∧ (Passes (Less a b m) ∨ Fails (Less a b m)) ∧
    (Passes (GreaterOrEqual a b m) ∨ Fails (GreaterOrEqual a b m)) ∧ (Passes (LessOrEqual a b m) ∨ Fails (LessOrEqual a b m)) :=
  have h : ∀ allowed r, Passes (compareTwoValues a b allowed r [.list m]) ∨ Fails (compareTwoValues a b allowed r [.list m]) :=
    fun allowed r => (two_values_cases a b allowed r [.list m]).imp_right (fun ⟨f, h⟩ => ⟨⟨f, [.list m]⟩, h⟩)
  ⟨h _ _, h _ _, h _ _, h _ _⟩

/-- This is a strict order, -/
theorem C94_strict (a b c : Val) : ¬Below a a ∧ (Below a b → Below b c → Below a c) := by
  have ir : ∀ a, ¬Below a a := by
    intro a h
    have := (compare_greater (below_kind h)).2 h
    have := (compare_less (below_kind h)).2 h
    simp_all
  refine ⟨ir a, fun h1 h2 => ?_⟩
  cases h1 with
  | int h => cases h2 with | int h' => exact .int (by omega)
  | uint h => cases h2 with | uint h' => exact .uint (by omega)
  | string h => cases h2 with | string h' => exact .string (before_trans h h')
  | finite h =>
    cases h2 with
    | finite h' => exact .finite (lt_trans h h')
    | belowInf _ _ => exact .belowInf (by simp) (by simp)
  | belowInf h h' =>
    cases h2 with
    | belowInf _ h'' => exact absurd rfl h''
  | aboveInf h h' =>
    cases h2 with
    | finite _ => exact .aboveInf (by simp) (by simp)
    | belowInf _ _ => exact .aboveInf (by simp) (by simp)
    | aboveInf _ _ => exact absurd rfl h'

/-- total within each kind: of two such values exactly one of `Less`, equality and `Greater` holds. -/
theorem C94_total (a b : Val) (hk : a.kind = b.kind) (ha : Ordered a) (hb : Ordered b) :
    (Below a b ∧ ¬Level a b ∧ ¬Below b a) ∨ (¬Below a b ∧ Level a b ∧ ¬Below b a) ∨ (¬Below a b ∧ ¬Level a b ∧ Below b a) := by
  have tot : Below a b ∨ Level a b ∨ Below b a := by
    cases ha with
    | @int s o x =>
      cases hb with
      | @int s' o' y =>
        injection hk with hk; subst hk
        rcases Int.lt_trichotomy x y with h | rfl | h
        · exact Or.inl (.int h)
        · exact Or.inr (Or.inl .int)
        · exact Or.inr (Or.inr (.int h))
      | uint => cases hk
      | @float s' _ _ _ => cases s' <;> cases hk
      | string => cases hk
    | @uint s o x =>
      cases hb with
      | @uint s' o' y =>
        injection hk with hk; subst hk
        rcases Nat.lt_trichotomy x y with h | rfl | h
        · exact Or.inl (.uint h)
        · exact Or.inr (Or.inl .uint)
        · exact Or.inr (Or.inr (.uint h))
      | int => cases hk
      | @float s' _ _ _ => cases s' <;> cases hk
      | string => cases hk
    | @float s o x hn =>
      cases hb with
      | @float s' o' y hn' =>
        rw [kind_float] at hk; subst hk
        simp only [below_float, true_and]
        by_cases h : x = y
        · subst h; exact Or.inr (Or.inl (.float hn))
        · cases x with
          | nan => exact absurd rfl hn
          | fin p =>
            cases y with
            | nan => exact absurd rfl hn'
            | fin q =>
              rcases lt_trichotomy p q with h' | rfl | h'
              · exact Or.inl (by simpa [Fl.lt] using h')
              · exact absurd rfl h
              · exact Or.inr (Or.inr (by simpa [Fl.lt] using h'))
            | inf n => cases n <;> simp [Fl.lt]
          | inf n =>
            cases y with
            | nan => exact absurd rfl hn'
            | fin q => cases n <;> simp [Fl.lt]
            | inf m => cases n <;> cases m <;> simp_all [Fl.lt]
      | int => cases s <;> cases hk
      | uint => cases s <;> cases hk
      | string => cases s <;> cases hk
    | @string o x =>
      cases hb with
      | @string o' y =>
        rcases before_total x y with h | rfl | h
        · exact Or.inl (.string h)
        · exact Or.inr (Or.inl .string)
        · exact Or.inr (Or.inr (.string h))
      | int => cases hk
      | uint => cases hk
      | @float s' _ _ _ => cases s' <;> cases hk
  have e1 := compare_less hk
  have e2 := compare_equal hk
  have e3 := compare_greater hk
  rw [← e1, ← e2, ← e3] at tot ⊢
  rcases tot with h | h | h <;> simp [h]

/-- `Positive` and `Negative` pass exactly for what is greater, or less, than the zero of its type (for strings that is ""); -/
theorem C94_positive (e : Val) (m : List Arg) : (Passes (Positive e m) ↔ Pos e) ∧ (Passes (Negative e m) ↔ Neg e) := by
  have pos : ∀ z, zeroOf e = some z → (Passes (Positive e m) ↔ Below z e) ∧ (Passes (Negative e m) ↔ Below e z) := by
    intro z hz
    unfold Positive Negative
    rw [hz]
    exact ⟨only_greater, only_less⟩
  have no : ∀ z, zeroOf e = some z → (Passes (Positive e m) ↔ Pos e) ∧ (Passes (Negative e m) ↔ Neg e) := by
    intro z hz
    rw [(pos z hz).1, (pos z hz).2]
    constructor
    · constructor
      · intro h
        cases e <;> simp only [zeroOf, Option.some.injEq, reduceCtorEq] at hz <;> subst hz <;> cases h
        case int h => exact .int h
        case uint h => exact .uint h
        case finite h => exact .float h
        case belowInf h h' => exact .inf
        case string x h =>
          rw [before_nil] at h
          cases x with
          | nil => exact absurd rfl h
          | cons c r => exact .string
      · intro h
        cases h <;> injection hz with hz <;> subst hz
        · exact .int (by assumption)
        · exact .uint (by assumption)
        · exact .finite (by assumption)
        · exact .belowInf (by simp) (by simp)
        · exact .string (before_nil.2 (by simp))
    · constructor
      · intro h
        cases e <;> simp only [zeroOf, Option.some.injEq, reduceCtorEq] at hz <;> subst hz <;> cases h
        case int h => exact .int h
        case uint h => omega
        case finite h => exact .float h
        case aboveInf h h' => exact .inf
        case string h => exact absurd h not_before_nil
      · intro h
        cases h <;> injection hz with hz <;> subst hz
        · exact .int (by assumption)
        · exact .finite (by assumption)
        · exact .aboveInf (by simp) (by simp)
  cases hz : zeroOf e with
  | some z => exact no z hz
  | none =>
    cases e <;> first | cases hz | skip
    exact ⟨⟨fun h => (nomatch h), fun h => (nomatch h)⟩, ⟨fun h => (nomatch h), fun h => (nomatch h)⟩⟩

/-- of nil they do not fail but panic (refutation). -/
theorem C94_refuted_nil (m : List Arg) : Positive .nil m = none ∧ Negative .nil m = none := ⟨rfl, rfl⟩

/-- The message the user gave is not in a report of these assertions: they hand on their arguments as one list, which is then printed as a
list (`[%d is wrong 3]`, and `[]` if there is none), -/
theorem C94_message (a b : Val) (m : List Arg) (sprintf : Bytes → List Arg → Bytes) (plusV : Arg → Bytes) (r : Report)
    (h : Greater a b m = some (false, [r]) ∨ Less a b m = some (false, [r]) ∨ GreaterOrEqual a b m = some (false, [r]) ∨
      LessOrEqual a b m = some (false, [r]) ∨ Positive a m = some (false, [r]) ∨ Negative a m = some (false, [r])) :
    messageFromMsgAndArgs sprintf plusV r.msgAndArgs = some (plusV (.list m)) := by
  have key : ∀ a b allowed rel, compareTwoValues a b allowed rel [.list m] = some (false, [r]) → r.msgAndArgs = [.list m] := by
    intro a b allowed rel h
    rcases two_values_cases a b allowed rel [.list m] with h' | ⟨f, h'⟩
    · rw [h'] at h; simp at h
    · rw [h'] at h; simp at h; rw [← h]
  have e : r.msgAndArgs = [.list m] := by
    rcases h with h | h | h | h | h | h
    · exact key _ _ _ _ h
    · exact key _ _ _ _ h
    · exact key _ _ _ _ h
    · exact key _ _ _ _ h
    · obtain ⟨z, -, h⟩ := Option.bind_eq_some_iff.1 h; exact key _ _ _ _ h
    · obtain ⟨z, -, h⟩ := Option.bind_eq_some_iff.1 h; exact key _ _ _ _ h
  rw [e]
  rfl

/-! ## Tolerances -/

section
variable {round : Rat → Fl}

/-- **C95.** `InDelta` passes or fails with one report, and passes only for two numbers of predeclared types, neither of them NaN; -/
theorem C95_numbers (e a : Val) (delta : Fl) (m : List Arg) :
    (Passes (InDelta round e a delta m) ∨ Fails (InDelta round e a delta m)) ∧
    (Passes (InDelta round e a delta m) → ∃ x y, Number round e x ∧ Number round a y ∧ x ≠ .nan ∧ y ≠ .nan) :=
  ⟨(inDelta_cases e a delta m).imp_right (fun ⟨f, h⟩ => ⟨⟨f, m⟩, h⟩), fun h => let ⟨x, y, h1, h2, h3, h4, _⟩ := inDelta_iff.1 h; ⟨x, y, h1, h2, h3, h4⟩⟩

/-- it passes for two finite numbers that differ by `delta` or less, -/
theorem C95_close_passes (hr : Rounding round) (e a : Val) (p q d : Rat) (m : List Arg) (he : Number round e (.fin p)) (ha : Number round a (.fin q))
    (hd : Exact round d) (hd' : Exact round (-d)) (h1 : -d ≤ p - q) (h2 : p - q ≤ d) : Passes (InDelta round e a (.fin d) m) := by
  refine inDelta_iff.2 ⟨_, _, he, ha, by simp, by simp, ?_⟩
  have a1 := hr.monotone _ _ h1
  have a2 := hr.monotone _ _ h2
  rw [hd'] at a1
  rw [hd] at a2
  simp only [outside, Fl.sub, Fl.neg, a1, a2, Bool.or_self]

/-- and for no two that differ by the next larger `float64` or more; -/
theorem C95_passes_close (hr : Rounding round) (e a : Val) (p q d d' : Rat) (m : List Arg) (he : Number round e (.fin p)) (ha : Number round a (.fin q))
    (hd : Exact round d') (hd' : Exact round (-d')) (hlt : d < d') (h : Passes (InDelta round e a (.fin d) m)) : -d' < p - q ∧ p - q < d' := by
  obtain ⟨x, y, hx, hy, -, -, ho⟩ := inDelta_iff.1 h
  have ex := number_unique hx he
  have ey := number_unique hy ha
  subst ex ey
  simp only [outside, Fl.sub, Fl.neg, Bool.or_eq_false_iff] at ho
  obtain ⟨o1, o2⟩ := ho
  constructor
  · by_contra hc
    have a1 := hr.monotone _ _ (not_lt.1 hc)
    rw [hd'] at a1
    have hn := hr.number (p - q)
    cases hx : round (p - q) with
    | nan => exact hn hx
    | fin r =>
      rw [hx] at a1 o1
      simp only [Fl.lt, decide_eq_false_iff_not, not_lt] at a1 o1
      linarith
    | inf n => rw [hx] at a1 o1; cases n <;> simp [Fl.lt] at a1 o1
  · by_contra hc
    have a1 := hr.monotone _ _ (not_lt.1 hc)
    rw [hd] at a1
    have hn := hr.number (p - q)
    cases hx : round (p - q) with
    | nan => exact hn hx
    | fin r =>
      rw [hx] at a1 o2
      simp only [Fl.lt, decide_eq_false_iff_not, not_lt] at a1 o2
      linarith
    | inf n => rw [hx] at a1 o2; cases n <;> simp [Fl.lt] at a1 o2

/-- an infinite number is within a finite distance of no finite one. -/
theorem C95_infinite (e a : Val) (n : Bool) (q d : Rat) (m : List Arg) (he : Number round e (.inf n)) (ha : Number round a (.fin q)) :
    Fails (InDelta round e a (.fin d) m) ∧ Fails (InDelta round a e (.fin d) m) := by
  constructor
  · rcases (C95_numbers (round := round) e a (.fin d) m).1 with h | h
    · obtain ⟨x, y, hx, hy, -, -, ho⟩ := inDelta_iff.1 h
      rw [number_unique hx he, number_unique hy ha] at ho
      cases n <;> simp [outside, Fl.sub, Fl.lt, Fl.neg] at ho
    · exact h
  · rcases (C95_numbers (round := round) a e (.fin d) m).1 with h | h
    · obtain ⟨x, y, hx, hy, -, -, ho⟩ := inDelta_iff.1 h
      rw [number_unique hx ha, number_unique hy he] at ho
      cases n <;> simp [outside, Fl.sub, Fl.lt, Fl.neg] at ho
    · exact h

/-- With a `delta` that is NaN all numbers are close (refutation), -/
theorem C95_refuted_nan (e a : Val) (x y : Fl) (m : List Arg) (he : Number round e x) (ha : Number round a y) (hx : x ≠ .nan) (hy : y ≠ .nan) :
    Passes (InDelta round e a .nan m) := by
  refine inDelta_iff.2 ⟨x, y, he, ha, hx, hy, ?_⟩
  unfold outside
  cases Fl.sub round x y <;> rfl

/-- and so are two integers that are the same `float64`, even with a `delta` of 0 (refutation). -/
theorem C95_refuted_integers (s : Size) (i j : Int) (q : Rat) (m : List Arg) (hi : round i = .fin q) (hj : round j = .fin q) (h0 : round 0 = .fin 0) :
    Passes (InDelta round (.int s false i) (.int s false j) (.fin 0) m) := by
  refine inDelta_iff.2 ⟨_, _, .int, .int, by rw [hi]; simp, by rw [hj]; simp, ?_⟩
  rw [hi, hj]
  simp [outside, Fl.sub, Fl.neg, h0, Fl.lt]

/-- `InDeltaSlice` passes exactly if `actual` is not longer than `expected` and its elements are close to those at the same places of `expected`. -/
theorem C95_slice (n n' : Bool) (es as : List Val) (delta : Fl) (m : List Arg) :
    Passes (InDeltaSlice round (.slice n es) (.slice n' as) delta m) ↔
      as.length ≤ es.length ∧ ∀ p ∈ as.zip es, Passes (InDelta round p.1 p.2 delta m) :=
  overSlice_iff (fun a e => (inDelta_cases a e delta m).imp_right (fun ⟨f, h⟩ => ⟨⟨f, m⟩, h⟩)) as es

/-- So it passes for a part of what is expected, even for nothing (refutation), -/
theorem C95_refuted_part (n n' : Bool) (es : List Val) (delta : Fl) (m : List Arg) : Passes (InDeltaSlice round (.slice n es) (.slice n' []) delta m) := rfl

/-- and panics if there is more than expected (refutation). -/
theorem C95_refuted_longer (n n' : Bool) (es as : List Val) (delta : Fl) (m : List Arg) (hl : es.length < as.length)
    (h : ∀ p ∈ as.zip es, Passes (InDelta round p.1 p.2 delta m)) : InDeltaSlice round (.slice n es) (.slice n' as) delta m = none :=
  overSlice_panics hl h

theorem mem_mapIndex {l : List (Key × Val)} (hg : GoMap l) {k : Key} {v : Val} (hk : k ≠ .nan) : mapIndex l k = some v ↔ (k, v) ∈ l := by
  unfold mapIndex
  rw [if_neg hk]
  unfold GoMap at hg
  induction l with
  | nil => simp
  | cons x l ih =>
    rw [List.find?_cons]
    by_cases hx : x.1 = k
    · simp only [hx, decide_true, Option.map_some]
      have hn : x.1 ≠ .nan := by rw [hx]; exact hk
      simp only [List.map_cons, List.filter_cons, hn, ne_eq, not_false_eq_true, decide_true, if_true, List.nodup_cons] at hg
      constructor
      · intro h; injection h with h; subst h; rw [← hx]; simp
      · intro h
        rcases List.mem_cons.1 h with h | h
        · rw [← h]
        · exfalso
          apply hg.1
          rw [hx]
          simp only [List.mem_filter, List.mem_map, decide_eq_true_eq]
          exact ⟨⟨_, h, rfl⟩, hk⟩
    · simp only [hx, decide_false]
      have hg' : ((l.map (·.1)).filter (· ≠ .nan)).Nodup := by
        rw [List.map_cons, List.filter_cons] at hg
        split at hg
        · exact (List.nodup_cons.1 hg).2
        · exact hg
      rw [ih hg']
      constructor
      · exact fun h => List.mem_cons_of_mem _ h
      · intro h
        rcases List.mem_cons.1 h with h | h
        · exact absurd (by rw [← h]) hx
        · exact h

/-- `InDeltaMapValues` passes exactly if both maps have the same keys (none of which is a NaN) and close values. -/
theorem C95_map (n n' : Bool) (es as : List (Key × Val)) (he : GoMap es) (ha : GoMap as) (delta : Fl) (m : List Arg) :
    Passes (InDeltaMapValues round (.map n es) (.map n' as) delta m) ↔
      Key.nan ∉ es.map (·.1) ∧ Key.nan ∉ as.map (·.1) ∧ (∀ k, k ∈ es.map (·.1) ↔ k ∈ as.map (·.1)) ∧
      ∀ k v w, (k, v) ∈ es → (k, w) ∈ as → Passes (InDelta round v w delta m) := by
  have nofilter : ∀ l : List Key, Key.nan ∉ l → l.filter (· ≠ .nan) = l := by
    intro l hl
    rw [List.filter_eq_self]
    intro x hx
    simp only [ne_eq, decide_not, Bool.not_eq_eq_eq_not, Bool.not_true, decide_eq_false_iff_not]
    rintro rfl
    exact hl hx
  unfold InDeltaMapValues Passes
  dsimp only
  constructor
  · intro h
    by_cases hl : es.length = as.length
    · rw [if_neg (by simpa using hl), overMap_iff] at h
      have en : Key.nan ∉ es.map (·.1) := by
        intro hn
        obtain ⟨v, w, h1, -⟩ := h _ hn
        simp [mapIndex] at h1
      have sub : es.map (·.1) ⊆ (as.map (·.1)).filter (· ≠ .nan) := by
        intro k hk
        have hkn : k ≠ .nan := by rintro rfl; exact en hk
        obtain ⟨v, w, -, h2, -⟩ := h _ hk
        rw [mem_mapIndex ha hkn] at h2
        simp only [List.mem_filter, List.mem_map, ne_eq, decide_not, Bool.not_eq_eq_eq_not, Bool.not_true, decide_eq_false_iff_not]
        exact ⟨⟨_, h2, rfl⟩, hkn⟩
      have end' : (es.map (·.1)).Nodup := by have := he; unfold GoMap at this; rwa [nofilter _ en] at this
      have sp := List.subperm_of_subset end' sub
      have hle : ((as.map (·.1)).filter (· ≠ .nan)).length ≤ (es.map (·.1)).length := by
        refine le_trans (List.length_filter_le _ _) ?_
        simp [hl]
      have pm := sp.perm_of_length_le hle
      have an : Key.nan ∉ as.map (·.1) := by
        intro hn
        have h1 : ((as.map (·.1)).filter (· ≠ .nan)).length < (as.map (·.1)).length := by
          rw [List.length_filter_lt_length_iff_exists]
          exact ⟨_, hn, by simp⟩
        have := pm.length_eq
        rw [← this] at h1
        simp [hl] at h1
      rw [nofilter _ an] at pm
      refine ⟨en, an, fun k => pm.mem_iff, ?_⟩
      intro k v w hv hw
      have hk : k ∈ es.map (·.1) := List.mem_map.2 ⟨_, hv, rfl⟩
      have hkn : k ≠ .nan := by rintro rfl; exact en hk
      obtain ⟨v', w', h1, h2, h3⟩ := h _ hk
      rw [(mem_mapIndex he hkn).2 hv] at h1
      rw [(mem_mapIndex ha hkn).2 hw] at h2
      injection h1 with h1; injection h2 with h2
      subst h1 h2
      exact h3
    · rw [if_pos hl] at h
      cases h
  · rintro ⟨en, an, hk, hv⟩
    have e1 : (es.map (·.1)).Nodup := by have := he; unfold GoMap at this; rwa [nofilter _ en] at this
    have a1 : (as.map (·.1)).Nodup := by have := ha; unfold GoMap at this; rwa [nofilter _ an] at this
    have pm : (es.map (·.1)).Perm (as.map (·.1)) := (List.perm_ext_iff_of_nodup e1 a1).2 hk
    have hl : es.length = as.length := by simpa using pm.length_eq
    rw [if_neg (by simpa using hl), overMap_iff]
    intro k hk'
    have hkn : k ≠ .nan := by rintro rfl; exact en hk'
    obtain ⟨⟨_, v⟩, hv', rfl⟩ := List.mem_map.1 hk'
    obtain ⟨⟨_, w⟩, hw', h'⟩ := List.mem_map.1 ((hk _).1 hk')
    simp only at h' hkn ⊢
    subst h'
    exact ⟨v, w, (mem_mapIndex he hkn).2 hv', (mem_mapIndex ha hkn).2 hw', hv _ _ _ hv' hw'⟩

/-- `InEpsilon` passes for finite numbers whose difference is at most `d`, where `d` relative to the expected number (not 0) is at most `epsilon`. -/
theorem C95_epsilon (hr : Rounding round) (e a : Val) (p q d eps : Rat) (m : List Arg) (he : Number round e (.fin p)) (ha : Number round a (.fin q))
    (hp : p ≠ 0) (hd : Exact round d) (hd' : Exact round (-d)) (heps : Exact round eps) (h1 : -d ≤ p - q) (h2 : p - q ≤ d) (h3 : d / |p| ≤ eps) :
    Passes (InEpsilon round e a (.fin eps) m) := by
  have a1 := hr.monotone _ _ h1
  have a2 := hr.monotone _ _ h2
  rw [hd'] at a1
  rw [hd] at a2
  unfold InEpsilon Passes calcRelativeError
  rw [if_neg (by simp), toFloat_iff.2 he]
  dsimp only
  rw [if_neg (by simp), if_neg (by simpa using hp), toFloat_iff.2 ha]
  dsimp only
  rw [if_neg (by simp)]
  dsimp only [Fl.sub]
  have hn := hr.number (p - q)
  cases hx : round (p - q) with
  | nan => exact absurd hx hn
  | inf n => rw [hx] at a1 a2; cases n <;> simp [Fl.lt] at a1 a2
  | fin r =>
    rw [hx] at a1 a2
    simp only [Fl.lt, decide_eq_false_iff_not, not_lt] at a1 a2
    have er : (if r < 0 then -r else r) ≤ d := by split <;> linarith
    have ep : (if p < 0 then -p else p) = |p| := by
      split
      · rw [abs_of_neg (by assumption)]
      · rw [abs_of_nonneg (not_lt.1 (by assumption))]
    have h4 : (if r < 0 then -r else r) / |p| ≤ eps := le_trans (div_le_div_of_nonneg_right er (abs_nonneg p)) h3
    have h5 := hr.monotone _ _ h4
    rw [heps] at h5
    have h6 : Fl.lt (.fin eps) (Fl.div round (Fl.abs (.fin r)) (Fl.abs (.fin p))) = false := by
      unfold Fl.div Fl.abs
      dsimp only
      rw [ep]
      exact h5
    rw [h6]
    rfl

/-- It fails if the difference is at least `d`, where `d` relative to the expected number is at least a `float64` greater than `epsilon`; -/
theorem C95_epsilon_fails (hr : Rounding round) (e a : Val) (p q d eps eps' : Rat) (m : List Arg) (he : Number round e (.fin p)) (ha : Number round a (.fin q))
    (hp : p ≠ 0) (hd0 : 0 ≤ d) (hd : Exact round d) (hd' : Exact round (-d)) (heps : Exact round eps') (h1 : d ≤ p - q ∨ p - q ≤ -d) (h2 : eps' ≤ d / |p|)
    (h3 : eps < eps') : Fails (InEpsilon round e a (.fin eps) m) := by
  rcases inEpsilon_cases (round := round) e a (.fin eps) m with h | h
  · exfalso
    unfold InEpsilon calcRelativeError at h
    rw [if_neg (by simp), toFloat_iff.2 he] at h
    dsimp only at h
    rw [if_neg (by simp), if_neg (by simpa using hp), toFloat_iff.2 ha] at h
    dsimp only at h
    rw [if_neg (by simp)] at h
    dsimp only [Fl.sub] at h
    have ep : (if p < 0 then -p else p) = |p| := by
      split
      · rw [abs_of_neg (by assumption)]
      · rw [abs_of_nonneg (not_lt.1 (by assumption))]
    have hn := hr.number (p - q)
    have big : Fl.lt (.fin eps) (Fl.div round (Fl.abs (round (p - q))) (Fl.abs (.fin p))) = true := by
      cases hx : round (p - q) with
      | nan => exact absurd hx hn
      | inf n => rfl
      | fin r =>
        have er : d ≤ (if r < 0 then -r else r) := by
          rcases h1 with h1 | h1
          · have := hr.monotone _ _ h1
            rw [hd, hx] at this
            simp only [Fl.lt, decide_eq_false_iff_not, not_lt] at this
            split <;> linarith
          · have := hr.monotone _ _ h1
            rw [hd', hx] at this
            simp only [Fl.lt, decide_eq_false_iff_not, not_lt] at this
            split
            · linarith
            · linarith
        have h4 : eps' ≤ (if r < 0 then -r else r) / |p| := le_trans h2 (div_le_div_of_nonneg_right er (abs_nonneg p))
        have h5 := hr.monotone _ _ h4
        rw [heps] at h5
        unfold Fl.div Fl.abs
        dsimp only
        rw [ep]
        have hn' := hr.number ((if r < 0 then -r else r) / |p|)
        cases hy : round ((if r < 0 then -r else r) / |p|) with
        | nan => exact absurd hy hn'
        | inf n => rw [hy] at h5; cases n <;> simp [Fl.lt] at h5 ⊢
        | fin t =>
          rw [hy] at h5
          simp only [Fl.lt, decide_eq_false_iff_not, not_lt] at h5
          simp only [Fl.lt, decide_eq_true_eq]
          linarith
    rw [big] at h
    cases h
  · exact h

/-- never for an expected number that is 0. -/
theorem C95_epsilon_zero (e a : Val) (eps : Fl) (m : List Arg) (he : Number round e (.fin 0)) : Fails (InEpsilon round e a eps m) := by
  unfold InEpsilon calcRelativeError
  split
  · exact ⟨_, rfl⟩
  · rw [toFloat_iff.2 he]
    dsimp only
    rw [if_neg (by simp), if_pos rfl]
    exact ⟨_, rfl⟩

/-- Every finite number is within any relative error of an infinite one (refutation). -/
theorem C95_refuted_epsilon (e a : Val) (n : Bool) (q : Rat) (eps : Fl) (m : List Arg) (he : Number round e (.inf n)) (ha : Number round a (.fin q))
    (heps : eps ≠ .nan) : Passes (InEpsilon round e a eps m) := by
  unfold InEpsilon Passes calcRelativeError
  rw [if_neg heps, toFloat_iff.2 he]
  dsimp only
  rw [if_neg (by simp), if_neg (by simp), toFloat_iff.2 ha]
  dsimp only
  rw [if_neg (by simp)]
  dsimp only [Fl.sub, Fl.abs, Fl.div]
  cases eps <;> rfl

/-- `InEpsilonSlice` takes its arguments the other way round: it divides by the actual numbers. -/
theorem C95_epsilon_slice (n n' : Bool) (es as : List Val) (eps : Fl) (m : List Arg) :
    Passes (InEpsilonSlice round (.slice n es) (.slice n' as) eps m) ↔
      as.length ≤ es.length ∧ ∀ p ∈ as.zip es, Passes (InEpsilon round p.1 p.2 eps []) :=
  overSlice_iff (fun a e => inEpsilon_cases a e eps []) as es

end

/-- So two numbers may be within a relative error that as slices they are not (refutation): 2 and 1, with 3/4. -/
theorem C95_refuted_epsilon_slice :
    Passes (InEpsilon .fin (.int .plain false 2) (.int .plain false 1) (.fin (3/4)) []) ∧
    Fails (InEpsilonSlice .fin (.slice false [.int .plain false 2]) (.slice false [.int .plain false 1]) (.fin (3/4)) []) := by
  have r : Rounding .fin := ⟨fun _ => by simp, fun p q h => by simpa [Fl.lt] using h⟩
  refine ⟨C95_epsilon r _ _ 2 1 1 (3/4) [] .int .int (by norm_num) rfl rfl rfl (by norm_num) (by norm_num) (by norm_num), ⟨.relative, []⟩, ?_⟩
  have h : InEpsilon .fin (.int .plain false 1) (.int .plain false 2) (.fin (3/4)) [] = fail .relative [] := by
    unfold InEpsilon calcRelativeError
    rw [if_neg (by simp), show toFloat .fin (.int .plain false 1) = some (.fin 1) by rfl, show toFloat .fin (.int .plain false 2) = some (.fin 2) by rfl]
    dsimp only
    rw [if_neg (by simp), if_neg (by simp), if_neg (by simp)]
    dsimp only
    have : Fl.lt (.fin (3/4)) (Fl.div .fin (Fl.abs (Fl.sub .fin (.fin 1) (.fin 2))) (Fl.abs (.fin 1))) = true := by
      norm_num [Fl.sub, Fl.abs, Fl.div, Fl.lt]
    rw [this]
    rfl
  unfold InEpsilonSlice overSlice
  dsimp only
  rw [h]
  rfl

/-! ## Opposites -/

/-- **C96.** Of `Nil` and `NotNil`, `Empty` and `NotEmpty`, `Zero` and `NotZero`, `True` and `False` exactly one passes, and the other one fails
with one report; -/
theorem C96_opposites (v : Val) (b : Bool) (m : List Arg) :
    Opposite (Nil v m) (NotNil v m) ∧ Opposite (Empty v m) (NotEmpty v m) ∧ Opposite (Zero v m) (NotZero v m) ∧ Opposite (IsTrue b m) (IsFalse b m) := by
  refine ⟨?_, ?_, ?_, ?_⟩
  · unfold Nil NotNil
    cases isNil v
    · exact Or.inr ⟨⟨_, rfl⟩, rfl⟩
    · exact Or.inl ⟨rfl, ⟨_, rfl⟩⟩
  · unfold Empty NotEmpty
    cases isEmpty v
    · exact Or.inr ⟨⟨_, rfl⟩, rfl⟩
    · exact Or.inl ⟨rfl, ⟨_, rfl⟩⟩
  · unfold Zero NotZero
    cases untypedNil v <;> cases isZero v
    · exact Or.inr ⟨⟨_, rfl⟩, rfl⟩
    · exact Or.inl ⟨rfl, ⟨_, rfl⟩⟩
    · exact Or.inl ⟨rfl, ⟨_, rfl⟩⟩
    · exact Or.inl ⟨rfl, ⟨_, rfl⟩⟩
  · cases b
    · exact Or.inr ⟨⟨_, rfl⟩, rfl⟩
    · exact Or.inl ⟨rfl, ⟨_, rfl⟩⟩

/-- so it is with `Equal` and `NotEqual`, unless an argument is a function: then both fail. -/
theorem C96_equal (same : Val → Val → Bool) (a b : Val) (m : List Arg) :
    (a.kind ≠ .func → b.kind ≠ .func → Opposite (Equal same a b m) (NotEqual same a b m)) ∧
    (a.kind = .func ∨ b.kind = .func → Fails (Equal same a b m) ∧ Fails (NotEqual same a b m)) := by
  have fk : ∀ v : Val, isFunction v = decide (v.kind = .func) := by
    intro v
    cases v <;> try rfl
    rename_i s o x
    cases s <;> rfl
  have nk : ∀ v : Val, v.kind = .func → untypedNil v = false := by
    intro v h
    cases v <;> first | rfl | cases h
  constructor
  · intro ha hb
    have : invalidEqualArgs a b = false := by
      unfold invalidEqualArgs
      rw [fk, fk, decide_eq_false ha, decide_eq_false hb]
      split <;> rfl
    unfold Equal NotEqual
    rw [this]
    cases same a b
    · exact Or.inr ⟨⟨_, rfl⟩, rfl⟩
    · exact Or.inl ⟨rfl, ⟨_, rfl⟩⟩
  · intro h
    have : invalidEqualArgs a b = true := by
      unfold invalidEqualArgs
      rw [fk, fk]
      rcases h with h | h
      · rw [nk _ h]; simp [h]
      · rw [nk _ h]; simp [h]
    unfold Equal NotEqual
    rw [this]
    exact ⟨⟨_, rfl⟩, ⟨_, rfl⟩⟩

/-- `Nil` passes exactly for nil and nil slices, maps, channels, functions and pointers; `Zero` exactly for nil and the zero value of a type (a slice without
elements that is not nil is not); -/
theorem C96_nil_zero (v : Val) (m : List Arg) : (Passes (Nil v m) ↔ IsNil v) ∧ (Passes (Zero v m) ↔ IsZero v) := by
  rw [← isNil_iff, ← isZero_iff]
  constructor
  · unfold Nil
    cases isNil v
    · exact ⟨fun h => (nomatch h), fun h => (nomatch h)⟩
    · exact ⟨fun _ => rfl, fun _ => rfl⟩
  · unfold Zero
    cases hu : untypedNil v with
    | true =>
      cases v <;> first | cases hu | skip
      exact ⟨fun _ => rfl, fun _ => rfl⟩
    | false =>
      cases isZero v
      · exact ⟨fun h => (nomatch h), fun h => (nomatch h)⟩
      · exact ⟨fun _ => rfl, fun _ => rfl⟩

/-- `Empty` passes exactly for what its documentation lists; -/
theorem C96_empty (v : Val) (m : List Arg) : Passes (Empty v m) ↔ Nothing v := by
  have h : Passes (Empty v m) ↔ isEmpty v = true := by
    unfold Empty
    cases isEmpty v
    · exact ⟨fun h => (nomatch h), fun h => (nomatch h)⟩
    · exact ⟨fun _ => rfl, fun _ => rfl⟩
  rw [h]
  clear h
  constructor
  · intro h
    fun_induction isEmpty v with
    | case1 => exact .nil
    | case2 l => cases l with | nil => exact .array | cons _ _ => cases h
    | case3 n k => have h := of_decide_eq_true h; subst h; exact .chan
    | case4 n l => cases l with | nil => exact .map | cons _ _ => cases h
    | case5 n l => cases l with | nil => exact .slice | cons _ _ => cases h
    | case6 => exact .nilPtr
    | case7 v ih => exact .ptr (ih h)
    | case8 v h1 h2 h3 h4 h5 h6 h7 =>
      cases v with
      | nil => exact .nil
      | bool o b => cases b with | false => exact .bool | true => cases h
      | int s o x => have h := of_decide_eq_true h; subst h; exact .int
      | uint s o x => have h := of_decide_eq_true h; subst h; exact .uint
      | float s o x => obtain ⟨rfl, -⟩ := Fl.eq_iff.1 h; exact .float
      | string o s => cases s with | nil => exact .string | cons _ _ => cases h
      | struct l => exact .struct (of_allZero l h)
      | func n => cases n with | true => exact .func | false => cases h
      | slice n l => exact absurd rfl (h5 n l)
      | array l => exact absurd rfl (h2 l)
      | map n l => exact absurd rfl (h4 n l)
      | ptr tgt => cases tgt with | none => exact .nilPtr | some w => exact absurd rfl (h7 w)
      | chan n k => exact absurd rfl (h3 n k)
  · intro h
    induction h with
    | ptr _ ih => exact ih
    | @struct l h => exact isZero_of (.struct h)
    | _ => rfl

/-- what is nil is empty; what is zero is empty unless it is an array. -/
theorem C96_zero_empty_partial (v : Val) (hs : Sound v) (m : List Arg) :
    (Passes (Nil v m) → Passes (Empty v m)) ∧ (v.kind ≠ .array → Passes (Zero v m) → Passes (Empty v m)) := by
  rw [C96_empty, (C96_nil_zero v m).1, (C96_nil_zero v m).2]
  have nil : IsNil v → Nothing v := by
    intro h
    cases h with
    | nil => exact .nil
    | @slice l => change l = [] at hs; subst hs; exact .slice
    | @map l => change l = [] at hs; subst hs; exact .map
    | @chan n => change n = 0 at hs; subst hs; exact .chan
    | func => exact .func
    | ptr => exact .nilPtr
  refine ⟨nil, fun hk h => ?_⟩
  cases h with
  | bool => exact .bool
  | int => exact .int
  | uint => exact .uint
  | float => exact .float
  | string => exact .string
  | isNil h => exact nil h
  | array _ => exact absurd rfl hk
  | struct h => exact .struct h

/-- An array of zeros is zero, but not empty (refutation). -/
theorem C96_refuted_array (m : List Arg) : Passes (Zero (.array [.int .plain false 0]) m) ∧ Fails (Empty (.array [.int .plain false 0]) m) :=
  ⟨rfl, ⟨_, rfl⟩⟩

/-! ## The text of a report -/

theorem longest_aux (content : List (Bytes × Bytes)) (m : Nat) :
    let r := content.foldl (fun m v => if v.1.length > m then v.1.length else m) m
    (∀ c ∈ content, c.1.length ≤ r) ∧ m ≤ r ∧ (r = m ∨ ∃ c ∈ content, c.1.length = r) := by
  induction content generalizing m with
  | nil => simp
  | cons c cs ih =>
    dsimp only at ih ⊢
    rw [List.foldl_cons]
    obtain ⟨h1, h2, h3⟩ := ih (if c.1.length > m then c.1.length else m)
    refine ⟨?_, ?_, ?_⟩
    · intro x hx
      rcases List.mem_cons.1 hx with rfl | hx
      · refine le_trans ?_ h2
        split <;> omega
      · exact h1 x hx
    · refine le_trans ?_ h2
      split <;> omega
    · rcases h3 with h3 | ⟨x, hx, h3⟩
      · by_cases hc : c.1.length > m
        · rw [if_pos hc] at h3 ⊢
          exact Or.inr ⟨c, by simp, h3.symm⟩
        · rw [if_neg hc] at h3 ⊢
          exact Or.inl h3
      · exact Or.inr ⟨x, by simp [hx], h3⟩

theorem indentRest_eq (w : Nat) (l : Bytes) (ls : List Bytes) :
    l ++ indentRest w ls = List.intercalate ([10, 9] ++ List.replicate (w + 1) 32 ++ [9]) (l :: ls) := by
  induction ls generalizing l with
  | nil => simp [indentRest, List.intercalate]
  | cons x xs ih =>
    rw [indentRest, List.intercalate, List.intersperse_cons_cons, List.flatten_cons, List.flatten_cons]
    have := ih x
    rw [List.intercalate] at this
    rw [← this]
    simp

theorem sections_eq (w : Nat) (content : List (Bytes × Bytes)) (lines : List (Bytes × List Bytes))
    (h : List.Forall₂ (fun c s => c.1 = s.1 ∧ Lines c.2 s.2 ∧ ∀ l ∈ s.2, l.length + 1 < maxToken) content lines) :
    sections w content = layout w lines := by
  induction h with
  | nil => rfl
  | @cons c s cs ss h _ ih =>
    obtain ⟨h1, h2, h3⟩ := h
    rw [sections, ih, layout, layout, List.flatMap_cons, h1]
    have e : indentMessageLines c.2 w = List.intercalate ([10, 9] ++ List.replicate (w + 1) 32 ++ [9]) s.2 := by
      unfold indentMessageLines
      rw [scan_lines h2 h3]
      cases s.2 with
      | nil => rfl
      | cons l ls => exact indentRest_eq w l ls
    rw [e]
    simp

/-- **C97.** The text of a report consists of its sections in order, each with its label, filled up to the length of the longest one, and all its lines,
below each other, if none of them has 65535 bytes or more. -/
theorem C97_report_partial (content : List (Bytes × Bytes)) (lines : List (Bytes × List Bytes))
    (h : List.Forall₂ (fun c s => c.1 = s.1 ∧ Lines c.2 s.2 ∧ ∀ l ∈ s.2, l.length < 65535) content lines) :
    ∃ width, (∀ c ∈ content, c.1.length ≤ width) ∧ (content = [] ∨ ∃ c ∈ content, c.1.length = width) ∧
      labeledOutput content = layout width lines := by
  obtain ⟨h1, -, h3⟩ := longest_aux content 0
  refine ⟨longestLabel content, h1, ?_, ?_⟩
  · rcases h3 with h3 | h3
    · cases content with
      | nil => exact Or.inl rfl
      | cons c cs =>
        refine Or.inr ⟨c, by simp, ?_⟩
        have := h1 c (by simp)
        have h3' : longestLabel (c :: cs) = 0 := h3
        rw [h3'] at *
        rw [h3] at this
        omega
    · exact Or.inr h3
  · refine sections_eq _ _ _ (h.imp ?_)
    rintro c s ⟨a, b, d⟩
    exact ⟨a, b, fun l hl => by have := d l hl; unfold maxToken; omega⟩

/-- A line of 65536 bytes or more is left out, and so is everything behind it (refutation). -/
theorem C97_refuted_long_line (before long after : Bytes) (width : Nat) (h0 : 10 ∉ before) (hc : before.getLast? ≠ some 13) (hb : before.length < 65536)
    (h1 : 10 ∉ long) (hl : 65536 ≤ long.length) : indentMessageLines (before ++ 10 :: (long ++ 10 :: after)) width = before := by
  unfold indentMessageLines
  rw [scan_append h0, scan, if_pos rfl, if_neg (by unfold maxToken; simp; omega), List.append_nil, dropCR_reverse hc,
    scan_long h1 (by unfold maxToken; omega)]
  simp [indentRest]

/-! ## Examples -/

/-- `Greater(t, 2, 1)`, with a type of one's own -/
example : Passes (Greater (.int .plain true 2) (.int .plain false 1) []) := rfl
/-- `Less(t, "a", "ab")` -/
example : Passes (Less (.string false b%"a") (.string false b%"ab") []) := rfl
/-- `Greater(t, 2, int8(1))` fails: the kinds differ -/
example : Greater (.int .plain false 2) (.int .s8 false 1) [] = fail .notSameType [.list []] := rfl
/-- a NaN is neither above nor below nor equal -/
example (x : Fl) : Fails (GreaterOrEqual (.float false false .nan) (.float false false x) []) := by cases x <;> exact ⟨_, rfl⟩
/-- `Positive(t, "a")` passes -/
example : Passes (Positive (.string false b%"a") []) := rfl
/-- hypotheses of C94_total: two floats -/
example : (Val.float false false (.fin 1)).kind = (Val.float false true (.inf true)).kind ∧ Ordered (.float false false (.fin 1)) ∧
    Ordered (.float false true (.inf true)) := ⟨rfl, .float (by simp), .float (by simp)⟩
/-- C94_message: `Greater(t, 1, 2, "no")` -/
example : Greater (.int .plain false 1) (.int .plain false 2) [.str b%"no"] = some (false, [⟨.not .greater, [.list [.str b%"no"]]⟩]) := rfl

/-- exact arithmetic is a rounding, -/
theorem rounding_exact : Rounding .fin := ⟨fun _ => by simp, fun p q h => by simpa [Fl.lt] using h⟩

/-- and so is rounding to the even integer below (as `float64` does from 2^53 on, but for ties) -/
def toEven (q : Rat) : Fl := .fin (2 * (⌊q / 2⌋ : Int))

theorem rounding_even : Rounding toEven := by
  refine ⟨fun _ => by simp [toEven], fun p q h => ?_⟩
  simp only [toEven, Fl.lt, decide_eq_false_iff_not, not_lt]
  have : ⌊p / 2⌋ ≤ ⌊q / 2⌋ := Int.floor_le_floor (by linarith)
  have : ((⌊p / 2⌋ : Int) : Rat) ≤ ((⌊q / 2⌋ : Int) : Rat) := by exact_mod_cast this
  linarith

/-- `InDelta(t, 3, int8(4), 1)` passes -/
example : Passes (InDelta .fin (.int .plain false 3) (.int .s8 false 4) (.fin 1) []) :=
  C95_close_passes rounding_exact _ _ 3 4 1 [] .int .int rfl rfl (by norm_num) (by norm_num)
/-- C95_passes_close, rounding to even integers: 8 and 4 pass with 4, so they differ by less than 6 -/
example : (-6 : Rat) < 8 - 4 ∧ (8 - 4 : Rat) < 6 := by
  have e (k : Int) : toEven (2 * k) = .fin (2 * k) := by simp [toEven]
  have n8 : Number toEven (.float false false (.fin 8)) (.fin 8) := .float
  have n4 : Number toEven (.float false false (.fin 4)) (.fin 4) := .float
  have e4 : Exact toEven 4 := by have := e 2; norm_num at this; exact this
  have e4' : Exact toEven (-4) := by have := e (-2); norm_num at this; exact this
  have e6 : Exact toEven 6 := by have := e 3; norm_num at this; exact this
  have e6' : Exact toEven (-6) := by have := e (-3); norm_num at this; exact this
  exact C95_passes_close rounding_even _ _ 8 4 4 6 [] n8 n4 e6 e6' (by norm_num)
    (C95_close_passes rounding_even _ _ 8 4 4 [] n8 n4 e4 e4' (by norm_num) (by norm_num))
/-- two integers that are one `float64`, 2^53 + 1 and 2^53 -/
example : Passes (InDelta toEven (.int .s64 false 9007199254740993) (.int .s64 false 9007199254740992) (.fin 0) []) :=
  C95_refuted_integers .s64 _ _ 9007199254740992 [] (by norm_num [toEven]) (by norm_num [toEven]) (by norm_num [toEven])
/-- `InDelta(t, 1, 1000, math.NaN())` passes -/
example : Passes (InDelta .fin (.int .plain false 1) (.int .plain false 1000) .nan []) := C95_refuted_nan _ _ _ _ [] .int .int (by simp) (by simp)
/-- a type of one's own is not a number -/
example : InDelta .fin (.int .s64 true 1) (.int .s64 true 1) (.fin 0) [] = fail .notNumerical [] := rfl
/-- `InDeltaSlice` panics -/
example : InDeltaSlice .fin (.slice false []) (.slice false [.int .plain false 1]) (.fin 0) [] = none :=
  C95_refuted_longer false false [] _ _ [] (by simp) (by simp)
/-- hypotheses of C95_map: `map[float64]..` with two NaNs -/
example : GoMap [(.nan, .nil), (.str b%"a", .nil), (.nan, .nil)] := by unfold GoMap; decide +kernel
/-- C95_epsilon_fails: 3 is not within 1/4 of 2 -/
example : Fails (InEpsilon .fin (.int .plain false 2) (.int .plain false 3) (.fin (1/4)) []) :=
  C95_epsilon_fails rounding_exact _ _ 2 3 1 (1/4) (1/2) [] .int .int (by norm_num) (by norm_num) rfl rfl rfl (Or.inr (by norm_num)) (by norm_num) (by norm_num)
/-- a nil slice is nil, zero and empty; a slice without elements is empty only -/
example : Passes (Nil (.slice true []) []) ∧ Passes (Zero (.slice true []) []) ∧ Fails (Nil (.slice false []) []) ∧
    Fails (Zero (.slice false []) []) ∧ Passes (Empty (.slice false []) []) := ⟨rfl, rfl, ⟨_, rfl⟩, ⟨_, rfl⟩, rfl⟩
/-- C97_report_partial: two sections, one of them with two lines -/
example : ∃ width, labeledOutput [(b%"Error", [97, 10, 98]), (b%"Test", b%"T")] = layout width [(b%"Error", [b%"a", b%"b"]), (b%"Test", [b%"T"])] :=
  let ⟨width, _, _, h⟩ := C97_report_partial _ _ (.cons ⟨rfl, .line (l := [97]) (rest := [98]) (by decide) (by decide) (.last (by decide) (by decide) (by decide)), by decide⟩
    (.cons ⟨rfl, .last (by decide) (by decide) (by decide), by decide⟩ .nil))
  ⟨width, h⟩
/-- which looks like this -/
example : labeledOutput [(b%"Error", [97, 10, 98]), (b%"Test", b%"T")] =
    [9] ++ b%"Error:" ++ [9, 97, 10, 9] ++ b%"      " ++ [9, 98, 10, 9] ++ b%"Test: " ++ [9, 84, 10] := by decide +kernel

end Assert
end Yarql
