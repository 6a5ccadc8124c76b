import Verif.Spec.Patch
import Verif.Proofs.Decimal

/-!
# A unified diff can be read in one way only
-/

namespace Yarql
namespace Patch

theorem split_at {c : Byte} : ∀ {x y : Bytes} {u v : Bytes}, c ∉ x → c ∉ y → x ++ c :: u = y ++ c :: v → x = y ∧ u = v
  | [], [], u, v, _, _, h => ⟨rfl, by injection h⟩
  | [], d :: y, u, v, _, hy, h => by
    injection h with h1 h2
    exact absurd (by rw [h1]; simp) hy
  | d :: x, [], u, v, hx, _, h => by
    injection h with h1 h2
    exact absurd (by rw [← h1]; simp) hx
  | d :: x, e :: y, u, v, hx, hy, h => by
    injection h with h1 h2
    obtain ⟨e1, e2⟩ := split_at (fun h => hx (by simp [h])) (fun h => hy (by simp [h])) h2
    exact ⟨by rw [h1, e1], e2⟩

theorem Line.split {l l' u v : Bytes} (h : Line l) (h' : Line l') (e : l ++ u = l' ++ v) : l = l' ∧ u = v := by
  obtain ⟨x, e1, hx⟩ := h
  obtain ⟨y, e2, hy⟩ := h'
  rw [e1, e2, List.append_assoc, List.append_assoc] at e
  obtain ⟨e3, e4⟩ := split_at hx hy e
  exact ⟨by rw [e1, e2, e3], e4⟩

theorem lines_unique : ∀ {ls ls' : List Bytes}, (∀ l ∈ ls, Line l) → (∀ l ∈ ls', Line l) → ls.flatten = ls'.flatten → ls = ls'
  | [], [], _, _, _ => rfl
  | [], l :: ls, _, h, e => by
    obtain ⟨x, hx, -⟩ := h l (by simp)
    rw [hx] at e
    simp at e
  | l :: ls, [], h, _, e => by
    obtain ⟨x, hx, -⟩ := h l (by simp)
    rw [hx] at e
    simp at e
  | l :: ls, l' :: ls', h, h', e => by
    rw [List.flatten_cons, List.flatten_cons] at e
    obtain ⟨e1, e2⟩ := Line.split (h l (by simp)) (h' l' (by simp)) e
    rw [e1, lines_unique (fun l hl => h l (by simp [hl])) (fun l hl => h' l (by simp [hl])) e2]

/-- what comes after the lines of a hunk -/
def After (u : Bytes) : Prop := u = [] ∨ u.head? = some c%'@'

theorem body_unique : ∀ {old new : List Bytes} {kept : Nat} {t : Bytes}, Body old new kept t → ∀ {new' : List Bytes} {kept' : Nat} {t' u u' : Bytes}, Body old new' kept' t' →
    (∀ l ∈ old, Line l) → (∀ l ∈ new, Line l) → (∀ l ∈ new', Line l) → After u → After u' → t ++ u = t' ++ u' → new = new' ∧ kept = kept' ∧ u = u' := by
  intro old new kept t h
  induction h with
  | nil =>
    intro new' kept' t' u u' h' _ _ _ hu hu' e
    cases h' with
    | nil => exact ⟨rfl, rfl, e⟩
    | new =>
      rw [List.nil_append] at e
      rcases hu with hu | hu
      · rw [hu] at e; cases e
      · rw [e] at hu; simp at hu
  | both hb ih =>
    intro new' kept' t' u u' h' ho hn hn' hu hu' e
    cases h' with
    | both hb' =>
      rw [List.cons_append, List.cons_append, List.append_assoc, List.append_assoc] at e
      injection e with _ e
      obtain ⟨-, e⟩ := Line.split (ho _ (by simp)) (ho _ (by simp)) e
      obtain ⟨e1, e2, e3⟩ := ih hb' (fun l h => ho l (by simp [h])) (fun l h => hn l (by simp [h])) (fun l h => hn' l (by simp [h])) hu hu' e
      exact ⟨by rw [e1], by rw [e2], e3⟩
    | old => injection e with e; exact absurd e (by decide)
    | new => injection e with e; exact absurd e (by decide)
  | old hb ih =>
    intro new' kept' t' u u' h' ho hn hn' hu hu' e
    cases h' with
    | both => injection e with e; exact absurd e (by decide)
    | old hb' =>
      rw [List.cons_append, List.cons_append, List.append_assoc, List.append_assoc] at e
      injection e with _ e
      obtain ⟨-, e⟩ := Line.split (ho _ (by simp)) (ho _ (by simp)) e
      exact ih hb' (fun l h => ho l (by simp [h])) hn hn' hu hu' e
    | new => injection e with e; exact absurd e (by decide)
  | new hb ih =>
    intro new' kept' t' u u' h' ho hn hn' hu hu' e
    cases h' with
    | nil =>
      rw [List.nil_append] at e
      rcases hu' with hu' | hu'
      · rw [hu'] at e; cases e
      · rw [← e] at hu'; simp at hu'
    | both => injection e with e; exact absurd e (by decide)
    | old => injection e with e; exact absurd e (by decide)
    | new hb' =>
      rw [List.cons_append, List.cons_append, List.append_assoc, List.append_assoc] at e
      injection e with _ e
      obtain ⟨el, e⟩ := Line.split (hn _ (by simp)) (hn' _ (by simp)) e
      obtain ⟨e1, e2, e3⟩ := ih hb' ho (fun l h => hn l (by simp [h])) (fun l h => hn' l (by simp [h])) hu hu' e
      exact ⟨by rw [el, e1], e2, e3⟩

theorem natDigits_without {n : Nat} {c : Byte} (h : c.toNat < 48) : c ∉ natDigits n := by
  intro hc
  have := natDigits_digits n c hc
  omega

theorem range_blank {s n : Nat} {r : Bytes} (h : Range s n r) : c%' ' ∉ r := by
  cases h with
  | one => exact natDigits_without (by decide)
  | none => simp [natDigits_without (c := c%' ') (by decide)]
  | many => simp [natDigits_without (c := c%' ') (by decide)]

theorem range_unique {s n s' n' : Nat} {r : Bytes} (h : Range s n r) (h' : Range s' n' r) : s = s' ∧ n = n' := by
  have comma : ∀ k, c%',' ∉ natDigits k := fun k => natDigits_without (by decide)
  have two : ∀ {x y u v : Nat}, natDigits x ++ b%"," ++ natDigits u = natDigits y ++ b%"," ++ natDigits v → x = y ∧ u = v := by
    intro x y u v e
    rw [List.append_assoc, List.append_assoc] at e
    obtain ⟨e1, e2⟩ := split_at (comma _) (comma _) e
    exact ⟨natDigits_injective e1, natDigits_injective e2⟩
  have zero : ∀ x, natDigits x ++ b%",0" = natDigits x ++ b%"," ++ natDigits 0 := fun x => by rw [List.append_assoc]; rfl
  have no : ∀ {x y u : Nat}, natDigits x ≠ natDigits y ++ b%"," ++ natDigits u := by
    intro x y u e
    refine comma x ?_
    rw [e]
    simp
  generalize hr : r = r' at h'
  cases h with
  | one =>
    cases h' with
    | one => exact ⟨by have := natDigits_injective hr; omega, rfl⟩
    | none => rw [zero] at hr; exact absurd hr no
    | many => exact absurd hr no
  | none =>
    rw [zero] at hr
    cases h' with
    | one => exact absurd hr.symm no
    | none => rw [zero] at hr; exact ⟨(two hr).1, rfl⟩
    | many h => have := (two hr).2; omega
  | many h =>
    cases h' with
    | one => exact absurd hr.symm no
    | none => rw [zero] at hr; have := (two hr).2; omega
    | many => have := two hr; exact ⟨by omega, this.2⟩

theorem hunks_after {p q kept : Nat} {a b : List Bytes} {t : Bytes} (h : Hunks p q a b kept t) : After t := by
  cases h with
  | done => exact Or.inl rfl
  | hunk => exact Or.inr rfl

theorem hunks_unique {p q : Nat} {a b : List Bytes} {kept : Nat} {text : Bytes} (h : Hunks p q a b kept text) : ∀ {q' : Nat} {b' : List Bytes} {kept' : Nat},
    Hunks p q' a b' kept' text → (∀ l ∈ a, Line l) → (∀ l ∈ b, Line l) → (∀ l ∈ b', Line l) → b = b' ∧ kept = kept' := by
  induction h with
  | done =>
    intro q' b' kept' h' _ _ _
    generalize ht : ([] : Bytes) = t at h'
    cases h' with
    | done => exact ⟨rfl, rfl⟩
    | hunk => simp at ht
  | @hunk p q same old new a b r1 r2 body text kept kept' h1 h2 h3 h4 ih =>
    intro q' b' k' h' hl hn hn'
    generalize ht : (b%"@@ -" ++ r1 ++ b%" +" ++ r2 ++ b%" @@\n" ++ body ++ text) = t at h'
    generalize ha : same ++ old ++ a = a' at h'
    cases h' with
    | done => simp at ht
    | @hunk _ _ same' old' new' a' b' r1' r2' body' text' kept1 kept2 h1' h2' h3' h4' =>
      simp only [List.append_assoc] at ht
      obtain ⟨e1, ht1⟩ := split_at (range_blank h1) (range_blank h1') (List.append_cancel_left ht)
      have ht2 := (List.cons.inj ht1).2
      obtain ⟨-, ht3⟩ := split_at (range_blank h2) (range_blank h2') ht2
      have ht4 : body ++ text = body' ++ text' := (List.cons.inj (List.cons.inj (List.cons.inj ht3).2).2).2
      clear ht ht1 ht2 ht3
      subst e1
      obtain ⟨l1, l2⟩ := range_unique h1 h1'
      rw [List.append_assoc, List.append_assoc] at ha
      obtain ⟨e1, ha1⟩ := List.append_inj ha (by omega)
      obtain ⟨e2, ha2⟩ := List.append_inj ha1 l2
      clear ha ha1
      subst e1
      subst e2
      subst ha2
      obtain ⟨e1, e2, e3⟩ := body_unique h3 h3' (fun l h => hl l (by simp [h])) (fun l h => hn l (by simp [h])) (fun l h => hn' l (by simp [h])) (hunks_after h4) (hunks_after h4') ht4
      subst e3
      obtain ⟨e4, e5⟩ := ih h4' (fun l h => hl l (by simp [h])) (fun l h => hn l (by simp [h])) (fun l h => hn' l (by simp [h]))
      exact ⟨by rw [e1, e4], by rw [e2, e5]⟩

theorem unifiedDiff_unique {a b b' : List Bytes} {kept kept' : Nat} {text : Bytes} (h : UnifiedDiff a b kept text) (h' : UnifiedDiff a b' kept' text)
    (hl : ∀ l ∈ a, Line l) (hn : ∀ l ∈ b, Line l) (hn' : ∀ l ∈ b', Line l) : b = b' ∧ kept = kept' := by
  generalize ht : text = t at h'
  cases h with
  | same e =>
    cases h' with
    | same e' => exact ⟨e.symm.trans e', rfl⟩
    | hunks => cases ht
  | hunks h0 h =>
    cases h' with
    | same => cases ht
    | hunks h0' h' =>
      have := List.append_cancel_left ht
      subst this
      exact hunks_unique h h' hl hn hn'

end Patch
end Yarql
