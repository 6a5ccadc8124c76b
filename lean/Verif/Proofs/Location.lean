import Verif.Model.Parser
import Verif.Spec.Location

namespace Yarql
namespace Location
open Parser

theorem column_snoc (p : Bytes) (b : Byte) :
    column (p ++ [b]) = if b = 13 ∨ b = 10 then 0 else column p + 1 := by
  unfold column
  rw [List.reverse_append]
  simp only [List.reverse_cons, List.reverse_nil, List.nil_append, List.cons_append, List.takeWhile_cons]
  by_cases h : b = 13 ∨ b = 10
  · rw [if_pos h]
    rcases h with rfl | rfl <;> rfl
  · rw [if_neg h]
    simp only [not_or] at h
    have : (b != 13 && b != 10) = true := by simp [h.1, h.2]
    rw [this]; rfl

theorem lineBreaks_snoc : ∀ (p : Bytes) (b : Byte), lineBreaks (p ++ [b]) =
    lineBreaks p + (if b = 13 ∨ (b = 10 ∧ p.getLast? ≠ some 13) then 1 else 0)
  | [], b => by
    by_cases h1 : b = 13
    · subst h1; rfl
    · by_cases h2 : b = 10
      · subst h2; rfl
      · simp [lineBreaks, h1, h2]
  | [x], b => by
    by_cases hx : x = 13
    · subst hx
      by_cases h1 : b = 13
      · subst h1; rfl
      · by_cases h2 : b = 10
        · subst h2; rfl
        · simp [lineBreaks, h1, h2]
    · have : ∀ r, lineBreaks (x :: r) = (if x = 13 ∨ x = 10 then 1 else 0) + lineBreaks r := by
        intro r
        rw [lineBreaks]
        intro r' h
        exact absurd h hx
      show lineBreaks (x :: [b]) = _
      rw [this, this]
      have h0 := lineBreaks_snoc [] b
      simp only [List.nil_append] at h0
      rw [h0]
      simp [hx, lineBreaks]
  | x :: y :: r, b => by
    by_cases hx : x = 13 ∧ y = 10
    · obtain ⟨rfl, rfl⟩ := hx
      have ih := lineBreaks_snoc r b
      show lineBreaks (13 :: 10 :: (r ++ [b])) = lineBreaks (13 :: 10 :: r) + _
      rw [lineBreaks, lineBreaks, ih]
      have : (13 :: 10 :: r : Bytes).getLast? ≠ some 13 ↔ r.getLast? ≠ some 13 := by
        cases r with
        | nil => simp
        | cons z r => simp [List.getLast?_cons_cons]
      simp only [this]
      omega
    · have : ∀ t, lineBreaks (x :: y :: t) = (if x = 13 ∨ x = 10 then 1 else 0) + lineBreaks (y :: t) := by
        intro t
        rw [lineBreaks]
        intro r' h1 h2
        simp only [List.cons.injEq] at h2
        exact absurd ⟨h1, h2.1⟩ hx
      have ih := lineBreaks_snoc (y :: r) b
      show lineBreaks (x :: y :: (r ++ [b])) = _
      rw [this, this, ← List.cons_append, ih, List.getLast?_cons_cons]
      omega

/-- The loop of `err`, started inside the text, ends with the specified location. -/
theorem locLoop_spec (charNr : Nat) : ∀ (rest pre : Bytes), pre.length ≤ charNr →
    locLoop charNr rest pre.length pre.getLast? (1 + lineBreaks pre) (column pre) =
      (1 + lineBreaks ((pre ++ rest).take charNr), column ((pre ++ rest).take charNr))
  | [], pre, h => by
    simp only [locLoop, List.append_nil]
    rw [List.take_of_length_le h]
  | b :: rest, pre, h => by
    unfold locLoop
    by_cases he : pre.length = charNr
    · have : (pre.length == charNr) = true := by simpa using he
      rw [if_pos this, ← he, List.take_left]
    · have : ¬ (pre.length == charNr) = true := by simpa using he
      rw [if_neg this]
      have ih := locLoop_spec charNr rest (pre ++ [b]) (by simp; omega)
      have e1 : pre ++ [b] ++ rest = pre ++ b :: rest := by simp
      have e2 : (pre ++ [b]).getLast? = some b := by simp
      have e3 : (pre ++ [b]).length = pre.length + 1 := by simp
      rw [e1, e2, e3] at ih
      rw [← ih, column_snoc, lineBreaks_snoc]
      by_cases h1 : b = 10
      · subst h1
        by_cases h2 : pre.getLast? = some 13
        · have hcol : column pre = 0 := by
            obtain ⟨ys, rfl⟩ := List.getLast?_eq_some_iff.mp h2
            rw [column_snoc]; simp
          have hpos : 0 < pre.length := by
            cases pre with
            | nil => simp at h2
            | cons => simp
          simp [h2, hcol, hpos]
        · have hcond : (column pre == 0 && decide (pre.length > 0) && pre.getLast? == some 13) = false := by
            have : (pre.getLast? == some 13) = false := by simpa using h2
            rw [this, Bool.and_false]
          simp [h2, hcond]
          rw [Nat.add_assoc]
      · by_cases h2 : b = 13
        · subst h2
          simp
          rw [Nat.add_assoc]
        · simp [h1, h2]

theorem err_location (msg : Bytes) (cfg : PCfg) (s : PS) :
    err msg cfg s = .ok true { s with errs := s.errs ++
      [⟨msg, 1 + lineBreaks (cfg.query.take s.charNr), column (cfg.query.take s.charNr)⟩] } := by
  have := locLoop_spec s.charNr cfg.query [] (Nat.zero_le _)
  simp only [List.length_nil, List.getLast?_nil, List.nil_append] at this
  unfold err
  have h0 : lineBreaks [] = 0 := rfl
  have h1 : column [] = 0 := rfl
  rw [h0, h1] at this
  simp only [Nat.add_zero] at this
  rw [this]

end Location
end Yarql
