import Verif.Proofs.ParserName
import Verif.Spec.Grammar

/-! # Ignored tokens: exact specification -/

namespace Yarql
namespace Parser
open Grammar

/-- first characters of ignored text -/
def IgnStart (c : Byte) : Prop := Blank c ∨ c = c%'#'

/-- `rest` starts with a token (or is empty). -/
def TokStart (rest : Bytes) : Prop := ∀ c r, rest = c :: r → ¬ IgnStart c

theorem TokStart.not_lf {rest : Bytes} (h : TokStart rest) : ∀ r, rest ≠ c%'\n' :: r := by
  rintro r rfl
  exact h _ _ rfl (Or.inl (by simp [Blank]))

theorem Ignored.append {a b : Bytes} (ha : Ignored a) (hb : Ignored b) : Ignored (a ++ b) := by
  induction ha with
  | nil => exact hb
  | blank h _ ih => exact Ignored.blank h ih
  | comment h1 h2 _ ih =>
    have := Ignored.comment h1 h2 ih
    simpa using this

theorem drop_succ_of {q : Bytes} {n : Nat} {c : Byte} {t : Bytes} (h : q.drop n = c :: t) : q.drop (n + 1) = t := by
  rw [← List.drop_drop, h]; rfl

theorem get_of_drop {q : Bytes} {n : Nat} {c : Byte} {t : Bytes} (h : q.drop n = c :: t) : q[n]? = some c := by
  have : (q.drop n)[0]? = some c := by rw [h]; rfl
  simpa using this

theorem get_of_drop_nil {q : Bytes} {n : Nat} (h : q.drop n = []) : q[n]? = none := by
  rw [List.drop_eq_nil_iff] at h
  simpa using h

theorem drop_add {q : Bytes} {n : Nat} {a t : Bytes} (h : q.drop n = a ++ t) : q.drop (n + a.length) = t := by
  rw [← List.drop_drop, h]; simp

/-- Where a comment ends: on its line end (the LF of a CRLF), or at the end of the input. -/
theorem parseComment_exact {b cfg} : ∀ (fuel : Nat) (s : PS) (body t : Bytes),
    cfg.query.length - s.charNr < fuel → cfg.query.drop s.charNr = body ++ t → (∀ x ∈ body, ¬ LineEnd x) →
    (t = [] ∨ ∃ c t', t = c :: t' ∧ LineEnd c) →
    wp b (parseComment fuel) cfg s (fun _ s' =>
      (t = [] ∧ s' = { s with charNr := s.charNr + body.length }) ∨
      (∃ c t', t = c :: t' ∧ ((s' = { s with charNr := s.charNr + body.length } ∧
          ∀ t'', ¬ (c = c%'\r' ∧ t' = c%'\n' :: t'')) ∨
        ∃ t'', c = c%'\r' ∧ t' = c%'\n' :: t'' ∧ s' = { s with charNr := s.charNr + body.length + 1 })))
  | 0, s, body, t, hf, h, hb, ht => by omega
  | fuel + 1, s, body, t, hf, h, hb, ht => by
    unfold parseComment isLineTerminator
    wps
    cases body with
    | nil =>
      simp only [List.nil_append] at h
      rcases ht with rfl | ⟨c, t', rfl, hc⟩
      · rw [get_of_drop_nil h]
        exact Or.inl ⟨rfl, rfl⟩
      · rw [get_of_drop h]
        simp only [Option.isNone_some, Bool.false_eq_true, if_false]
        rcases hc with rfl | rfl
        · simp only [beq_self_eq_true, if_true]
          exact Or.inr ⟨_, t', rfl, Or.inl ⟨rfl, by intro t'' hh; exact absurd hh.1 (by decide)⟩⟩
        · have h1 : ((13 : UInt8) == 10) = false := by decide
          simp only [h1, Bool.false_eq_true, if_false, beq_self_eq_true, if_true]
          have h2 := drop_succ_of h
          cases t' with
          | nil =>
            rw [get_of_drop_nil h2]
            simp only [show ((none : Option Byte) == some 10) = false by decide, Bool.false_eq_true, if_false]
            exact Or.inr ⟨_, _, rfl, Or.inl ⟨rfl, by intro t'' hh; exact absurd hh.2 (by simp)⟩⟩
          | cons d t'' =>
            rw [get_of_drop h2]
            by_cases hd : d = 10
            · subst hd
              simp only [beq_self_eq_true, if_true]
              exact Or.inr ⟨_, _, rfl, Or.inr ⟨t'', rfl, rfl, rfl⟩⟩
            · have : (some d == some (10 : Byte)) = false := by simpa using hd
              simp only [this, Bool.false_eq_true, if_false]
              exact Or.inr ⟨_, _, rfl, Or.inl ⟨rfl, by
                intro t3 hh
                have := hh.2
                simp at this
                exact hd this.1⟩⟩
    | cons x body =>
      simp only [List.cons_append] at h
      rw [get_of_drop h]
      have hx := hb x (by simp)
      simp only [Option.isNone_some, Bool.false_eq_true, if_false]
      have h1 : (x == 10) = false := by
        simp only [beq_eq_false_iff_ne]; intro e; exact hx (Or.inl e)
      have h2 : (x == 13) = false := by
        simp only [beq_eq_false_iff_ne]; intro e; exact hx (Or.inr e)
      simp only [h1, h2, Bool.false_eq_true, if_false]
      have hlt := query_lt (get_of_drop h)
      refine wp_mono (parseComment_exact fuel { s with charNr := s.charNr + 1 } body t (by simp; omega)
        (by simpa using drop_succ_of h) (fun y hy => hb y (by simp [hy])) ht) ?_
      intro _ s' hs
      simp only [List.length_cons]
      have e : s.charNr + 1 + body.length = s.charNr + (body.length + 1) := by omega
      simpa only [e] using hs

/-- One ignored token. -/
theorem isIgnoredToken_exact {b cfg s c t rest} (hq : cfg.query.drop s.charNr = (c :: t) ++ rest)
    (hi : Ignored (c :: t)) (hr : ∀ r, rest ≠ c%'\n' :: r) :
    wp b (isIgnoredToken c) cfg s (fun r s' => r = true ∧ ∃ p, s' = { s with charNr := p } ∧ s.charNr ≤ p ∧
      (∃ ign, cfg.query.drop p = ign ++ rest ∧ Ignored ign) ∧
      ∃ ign, cfg.query.drop (p + 1) = ign ++ rest ∧ Ignored ign ∧ p < cfg.query.length) := by
  have hlt := query_lt (get_of_drop hq)
  have hget := get_of_drop hq
  have hdrop1 : cfg.query.drop (s.charNr + 1) = t ++ rest := drop_succ_of hq
  cases hi with
  | blank hb ht =>
    rcases hb with rfl | rfl | rfl | rfl | rfl
    · unfold isIgnoredToken isComment isLineTerminator
      wps
      simp
      exact ⟨s.charNr, rfl, Nat.le_refl _, ⟨_, hq, Ignored.blank (by simp [Blank]) ht⟩, _, hdrop1, ht, hlt⟩
    · unfold isIgnoredToken isComment isLineTerminator
      wps
      simp
      exact ⟨s.charNr, rfl, Nat.le_refl _, ⟨_, hq, Ignored.blank (by simp [Blank]) ht⟩, _, hdrop1, ht, hlt⟩
    · unfold isIgnoredToken isComment isLineTerminator
      wps
      simp [hget]
      exact ⟨s.charNr, rfl, Nat.le_refl _, ⟨_, hq, Ignored.blank (by simp [Blank]) ht⟩, _, hdrop1, ht, hlt⟩
    · unfold isIgnoredToken isComment isLineTerminator
      wps
      simp only [hget, show ((13 : UInt8) == 32 || (13 : UInt8) == 9) = false by decide, Bool.false_eq_true, if_false,
        show ((13 : UInt8) == 10) = false by decide, beq_self_eq_true, if_true]
      by_cases hn : cfg.query[s.charNr + 1]? = some 10
      · simp only [hn, beq_self_eq_true, if_true]
        refine ⟨trivial, s.charNr + 1, rfl, by omega, ⟨_, hdrop1, ht⟩, ?_⟩
        have hl2 := query_lt hn
        cases t with
        | nil =>
          simp only [List.nil_append] at hdrop1
          cases rest with
          | nil => rw [get_of_drop_nil hdrop1] at hn; cases hn
          | cons d r =>
            rw [get_of_drop hdrop1] at hn
            injection hn with hn
            subst hn
            exact absurd rfl (hr _)
        | cons d t =>
          rw [get_of_drop hdrop1] at hn
          injection hn with hn
          subst hn
          refine ⟨t, drop_succ_of hdrop1, ?_, hl2⟩
          cases ht with
          | blank _ h => exact h
      · have : (cfg.query[s.charNr + 1]? == some 10) = false := by simpa using hn
        simp only [this, Bool.false_eq_true, if_false]
        exact ⟨trivial, s.charNr, rfl, Nat.le_refl _, ⟨_, hq, Ignored.blank (by simp [Blank]) ht⟩, _, hdrop1, ht, hlt⟩
    · unfold isIgnoredToken isComment isLineTerminator
      wps
      simp [hget]
      exact ⟨s.charNr, rfl, Nat.le_refl _, ⟨_, hq, Ignored.blank (by simp [Blank]) ht⟩, _, hdrop1, ht, hlt⟩
  | comment hb hc ht =>
    rename_i body d t
    unfold isIgnoredToken isComment isLineTerminator
    wps
    simp only [hget, show ((35 : UInt8) == 32 || (35 : UInt8) == 9) = false by decide, Bool.false_eq_true, if_false,
        show ((35 : UInt8) == 10) = false by decide, show ((35 : UInt8) == 13) = false by decide, beq_self_eq_true, if_true]
    have hhash : ∀ x ∈ (c%'#' :: body), ¬ LineEnd x := by
      intro x hx
      rcases List.mem_cons.mp hx with rfl | hx
      · simp [LineEnd]
      · exact hb x hx
    refine wp_mono (parseComment_exact (cfg.query.length + 2) s (c%'#' :: body) (d :: (t ++ rest)) (by omega)
      (by simpa using hq) hhash (Or.inr ⟨d, _, rfl, hc⟩)) ?_
    intro _ s' hs
    refine ⟨trivial, ?_⟩
    have hd : cfg.query.drop (s.charNr + (body.length + 1)) = d :: (t ++ rest) := by
      have := drop_add (a := c%'#' :: body) (t := d :: (t ++ rest)) (by simpa using hq)
      simpa using this
    have hdb : Blank d := by rcases hc with rfl | rfl <;> simp [Blank]
    rcases hs with ⟨h, _⟩ | ⟨c', t', h, ⟨rfl, _⟩ | ⟨t'', rfl, rfl, rfl⟩⟩
    · simp at h
    · refine ⟨_, rfl, by omega, ⟨d :: t, ?_, Ignored.blank hdb ht⟩, t, ?_, ht, ?_⟩
      · simpa using hd
      · simpa using drop_succ_of hd
      · simpa using query_lt (get_of_drop hd)
    · injection h with h1 h2
      subst h1
      have hd2 := drop_succ_of hd
      cases t with
      | nil =>
        simp only [List.nil_append] at h2
        exact absurd h2 (hr _)
      | cons e t =>
        simp only [List.cons_append, List.cons.injEq] at h2
        obtain ⟨rfl, h3⟩ := h2
        have ht' : Ignored t := by
          cases ht with
          | blank _ h => exact h
        refine ⟨_, rfl, by omega, ⟨c%'\n' :: t, ?_, ht⟩, t, ?_, ht', ?_⟩
        · simpa using hd2
        · simpa using drop_succ_of hd2
        · simpa using query_lt (get_of_drop hd2)

theorem isIgnoredToken_no {b cfg s c} (hq : cfg.query[s.charNr]? = some c) (hc : ¬ IgnStart c) :
    wp b (isIgnoredToken c) cfg s (fun r s' => r = false ∧ s' = s) := by
  simp only [IgnStart, Blank, not_or] at hc
  obtain ⟨⟨h1, h2, h3, h4, h5⟩, h6⟩ := hc
  unfold isIgnoredToken isComment isLineTerminator
  wps
  simp [hq, h1, h2, h3, h4, h5, h6]

theorem mightIgnoreLoop_exact {b cfg} : ∀ (fuel : Nat) (s : PS) (ign rest : Bytes),
    cfg.query.length - s.charNr < fuel → cfg.query.drop s.charNr = ign ++ rest → Ignored ign → TokStart rest →
    wp b (mightIgnoreLoop fuel) cfg s (fun r s' => r = rest.head? ∧ ∃ p, s' = { s with charNr := p } ∧
      cfg.query.drop p = rest)
  | 0, s, ign, rest, hf, h, hi, hr => by omega
  | fuel + 1, s, ign, rest, hf, h, hi, hr => by
    unfold mightIgnoreLoop
    wps
    cases ign with
    | nil =>
      cases rest with
      | nil =>
        rw [get_of_drop_nil h]
        exact ⟨rfl, s.charNr, rfl, h⟩
      | cons c r =>
        rw [get_of_drop h]
        simp only
        wps
        refine wp_mono (isIgnoredToken_no (get_of_drop h) (hr c r rfl)) ?_
        rintro _ _ ⟨rfl, rfl⟩
        simp only [Bool.false_eq_true, if_false]
        exact ⟨rfl, _, rfl, h⟩
    | cons c t =>
      rw [get_of_drop h]
      simp only
      wps
      refine wp_mono (isIgnoredToken_exact h hi hr.not_lf) ?_
      rintro _ _ ⟨rfl, p, rfl, hp, _, ign', hd, hi', hl⟩
      simp only [if_true]
      refine wp_mono (mightIgnoreLoop_exact fuel _ ign' rest (by simp; omega) hd hi' hr) ?_
      rintro _ _ ⟨rfl, p', rfl, h'⟩
      exact ⟨rfl, p', rfl, h'⟩

/-- Ignored text is skipped exactly. -/
theorem mightIgnore_exact {b cfg s ign rest} (h : cfg.query.drop s.charNr = ign ++ rest) (hi : Ignored ign)
    (hr : TokStart rest) :
    wp b mightIgnore cfg s (fun r s' => r = rest.head? ∧ ∃ p, s' = { s with charNr := p } ∧ cfg.query.drop p = rest) := by
  unfold mightIgnore
  wps
  exact mightIgnoreLoop_exact _ _ ign rest (by omega) h hi hr

/-- Ignored text followed by an unclosed comment. -/
theorem mightIgnoreLoop_unclosed {b cfg} : ∀ (fuel : Nat) (s : PS) (ign body : Bytes),
    cfg.query.length - s.charNr < fuel → cfg.query.drop s.charNr = ign ++ c%'#' :: body → Ignored ign →
    (∀ x ∈ body, ¬ LineEnd x) →
    wp b (mightIgnoreLoop fuel) cfg s (fun r s' => r = none ∧ ∃ p, s' = { s with charNr := p } ∧ cfg.query.drop p = [])
  | 0, s, ign, body, hf, h, hi, hr => by omega
  | fuel + 1, s, ign, body, hf, h, hi, hr => by
    unfold mightIgnoreLoop
    wps
    cases ign with
    | nil =>
      simp only [List.nil_append] at h
      have hget := get_of_drop h
      rw [hget]
      simp only
      unfold isIgnoredToken isComment isLineTerminator
      wps
      simp only [hget, show ((35 : UInt8) == 32 || (35 : UInt8) == 9) = false by decide, Bool.false_eq_true, if_false,
        show ((35 : UInt8) == 10) = false by decide, show ((35 : UInt8) == 13) = false by decide, beq_self_eq_true, if_true]
      have hhash : ∀ x ∈ (c%'#' :: body), ¬ LineEnd x := by
        intro x hx
        rcases List.mem_cons.mp hx with rfl | hx
        · simp [LineEnd]
        · exact hr x hx
      refine wp_mono (parseComment_exact (cfg.query.length + 2) s (c%'#' :: body) [] (by omega)
        (by simpa using h) hhash (Or.inl rfl)) ?_
      rintro _ s' (⟨_, rfl⟩ | ⟨c, t', h, _⟩)
      · have hl := query_lt hget
        have hd : cfg.query.drop (s.charNr + (body.length + 1)) = [] := by
          have := drop_add (a := c%'#' :: body) (t := []) (by simpa using h)
          simpa using this
        have hd' : cfg.query.drop (s.charNr + (body.length + 1) + 1) = [] := by
          rw [← List.drop_drop, hd]; rfl
        refine wp_mono (mightIgnoreLoop_exact fuel _ [] [] (by simp; omega) (by simpa using hd') Ignored.nil
          (by intro c r hh; cases hh)) ?_
        rintro _ _ ⟨rfl, p', rfl, h'⟩
        exact ⟨rfl, p', rfl, h'⟩
      · cases h
    | cons c t =>
      rw [get_of_drop h]
      simp only
      wps
      refine wp_mono (isIgnoredToken_exact h hi (by intro r hh; simp at hh)) ?_
      rintro _ _ ⟨rfl, p, rfl, hp, _, ign', hd, hi', hl⟩
      simp only [if_true]
      refine wp_mono (mightIgnoreLoop_unclosed fuel _ ign' body (by simp; omega) hd hi' hr) ?_
      rintro _ _ ⟨rfl, p', rfl, h'⟩
      exact ⟨rfl, p', rfl, h'⟩

/-- After the last token the end of the input is reached. -/
theorem mightIgnore_trailing {b cfg s t} (h : cfg.query.drop s.charNr = t) (ht : Trailing t) :
    wp b mightIgnore cfg s (fun r s' => r = none ∧ ∃ p, s' = { s with charNr := p } ∧ cfg.query.drop p = []) := by
  cases ht with
  | plain hi =>
    refine wp_mono (mightIgnore_exact (rest := []) (by simpa using h) hi (by intro c r hh; cases hh)) ?_
    rintro _ _ ⟨rfl, h'⟩
    exact ⟨rfl, h'⟩
  | comment hi hb =>
    unfold mightIgnore
    wps
    exact mightIgnoreLoop_unclosed _ _ _ _ (by omega) h hi hb

end Parser
end Yarql
