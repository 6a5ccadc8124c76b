import Verif.Proofs.DiffText

/-!
# The diff of two lists of lines that are the same
-/

namespace Yarql
namespace Diff
open Patch

/-- how many lines just before line `i` are indexed -/
def lead (a : List Bytes) : Nat → Nat
  | 0 => 0
  | i + 1 => match a[i]? with
    | some x => if popular a x then 0 else lead a i + 1
    | none => 0

theorem indicesFrom_ge {s : Bytes} {xs : List Bytes} {i j : Nat} (h : j ∈ indicesFrom s xs i) : i ≤ j := by
  obtain ⟨t, h1, -⟩ := mem_indicesFrom.1 h
  omega

theorem indicesFrom_ascending {s : Bytes} : ∀ {xs : List Bytes} {i : Nat}, (indicesFrom s xs i).Pairwise (· < ·)
  | [], _ => by unfold indicesFrom; exact .nil
  | x :: xs, i => by
    unfold indicesFrom
    split
    · exact .cons (fun j h => indicesFrom_ge h) indicesFrom_ascending
    · exact indicesFrom_ascending

section
variable {a : List Bytes}

theorem before_le {f : Nat → Nat} {i : Nat} (hf : ∀ j, f j ≤ lead a i ∧ f j ≤ lead a (j + 1)) : ∀ j, before f j ≤ lead a i ∧ before f j ≤ lead a j
  | 0 => ⟨Nat.zero_le _, Nat.zero_le _⟩
  | j + 1 => hf j

theorem lead_succ {x : Bytes} {i : Nat} (hx : a[i]? = some x) (hp : popular a x = false) : lead a (i + 1) = lead a i + 1 := by
  show (match a[i]? with | some x => if popular a x then 0 else lead a i + 1 | none => 0) = _
  rw [hx]
  simp [hp]

theorem scanRow_same {i : Nat} {x : Bytes} (hx : a[i]? = some x) (hp : popular a x = false) {f : Nat → Nat}
    (hf : ∀ j, f j ≤ lead a i ∧ f j ≤ lead a (j + 1)) (hd : before f i = lead a i) :
    ∀ (js : List Nat) (new : Nat → Nat) (best : Match), (∀ j ∈ js, a[j]? = some x) → js.Pairwise (· < ·) →
      (i ∈ js ∨ (lead a (i + 1) ≤ best.size ∧ new i = lead a (i + 1))) → (∀ t, t ≤ i → lead a t ≤ best.size) → best.a = best.b →
      (∀ j, new j ≤ lead a (i + 1) ∧ new j ≤ lead a (j + 1)) →
      (∀ j, (scanRow 0 a.length i f js new best).1 j ≤ lead a (i + 1) ∧ (scanRow 0 a.length i f js new best).1 j ≤ lead a (j + 1)) ∧
      (scanRow 0 a.length i f js new best).1 i = lead a (i + 1) ∧
      (∀ t, t ≤ i + 1 → lead a t ≤ (scanRow 0 a.length i f js new best).2.size) ∧
      (scanRow 0 a.length i f js new best).2.a = (scanRow 0 a.length i f js new best).2.b
  | [], new, best, _, _, h1, h2, h3, h4 => by
    unfold scanRow
    rcases h1 with h | ⟨h, h'⟩
    · cases h
    · refine ⟨h4, h', fun t ht => ?_, h3⟩
      rcases Nat.lt_succ_iff_lt_or_eq.1 (Nat.lt_succ_of_le ht) with ht | rfl
      · exact h2 t (by omega)
      · exact h
  | j :: js, new, best, hj, hs, h1, h2, h3, h4 => by
    unfold scanRow
    have hjx : a[j]? = some x := hj j (by simp)
    have hjn : j < a.length := by
      obtain ⟨h, -⟩ := List.getElem?_eq_some_iff.1 hjx
      exact h
    rw [if_neg (Nat.not_lt_zero _), if_neg (by omega)]
    dsimp only
    have e1 := lead_succ hx hp
    have e2 := lead_succ hjx hp
    obtain ⟨b1, b2⟩ := before_le hf j
    cases hs with
    | cons hs1 hs2 =>
      have hjs : ∀ j ∈ js, a[j]? = some x := fun y hy => hj y (List.mem_cons_of_mem _ hy)
      have hnew : ∀ y, (fun y => if y = j then before f j + 1 else new y) y ≤ lead a (i + 1) ∧ (fun y => if y = j then before f j + 1 else new y) y ≤ lead a (y + 1) := by
        intro y
        dsimp only
        by_cases hy : y = j
        · subst hy
          rw [if_pos rfl]
          omega
        · rw [if_neg hy]
          exact h4 y
      by_cases hji : j = i
      · subst hji
        refine scanRow_same hx hp hf hd js _ _ hjs hs2 (Or.inr ⟨?_, ?_⟩) ?_ ?_ hnew
        · split <;> (try dsimp only) <;> omega
        · rw [if_pos rfl]
          omega
        · intro t ht
          have := h2 t ht
          split <;> (try dsimp only) <;> omega
        · split <;> (try dsimp only) <;> omega
      · have hno : ¬ before f j + 1 > best.size := by
          rcases h1 with h | ⟨h, -⟩
          · rcases List.mem_cons.1 h with h | h
            · exact absurd h.symm hji
            · have := hs1 i h
              have := h2 (j + 1) (by omega)
              omega
          · omega
        rw [if_neg hno]
        refine scanRow_same hx hp hf hd js _ _ hjs hs2 ?_ h2 h3 hnew
        rcases h1 with h | ⟨h, h'⟩
        · rcases List.mem_cons.1 h with h | h
          · exact absurd h.symm hji
          · exact Or.inl h
        · refine Or.inr ⟨h, ?_⟩
          rw [if_neg (fun e => hji e.symm)]
          exact h'

theorem scan_same : ∀ (n i : Nat) (f : Nat → Nat) (best : Match), i + n = a.length → (∀ j, f j ≤ lead a i ∧ f j ≤ lead a (j + 1)) → before f i = lead a i →
    (∀ t, t ≤ i → lead a t ≤ best.size) → best.a = best.b → ∀ r, scan (newMatcher a a) 0 a.length n i f best = some r → r.a = r.b
  | 0, i, f, best, _, _, _, _, h, r, hr => by
    unfold scan at hr
    injection hr with hr
    rw [← hr]
    exact h
  | n + 1, i, f, best, hi, hf, hd, h2, h3, r, hr => by
    unfold scan at hr
    obtain ⟨x, hx⟩ : ∃ x, a[i]? = some x := ⟨a[i]'(by omega), List.getElem?_eq_getElem _⟩
    rw [show (newMatcher a a).a = a from rfl, hx] at hr
    dsimp only at hr
    rw [show (newMatcher a a).b2j x = if popular a x then [] else indicesFrom x a 0 from rfl] at hr
    by_cases hp : popular a x = true
    · rw [if_pos hp] at hr
      have e : lead a (i + 1) = 0 := by
        show (match a[i]? with | some x => if popular a x then 0 else lead a i + 1 | none => 0) = _
        rw [hx]
        simp [hp]
      unfold scanRow at hr
      dsimp only at hr
      refine scan_same n (i + 1) _ _ (by omega) (fun j => ⟨Nat.zero_le _, Nat.zero_le _⟩) e.symm (fun t ht => ?_) h3 r hr
      rcases Nat.lt_succ_iff_lt_or_eq.1 (Nat.lt_succ_of_le ht) with ht | rfl
      · exact h2 t (by omega)
      · rw [e]
        exact Nat.zero_le _
    · have hp' : popular a x = false := by simpa using hp
      rw [if_neg hp] at hr
      obtain ⟨k1, k2, k3, k4⟩ := scanRow_same hx hp' hf hd (indicesFrom x a 0) (fun _ => 0) best
        (fun j hj => by obtain ⟨t, e1, e2⟩ := mem_indicesFrom.1 hj; rw [e1, Nat.zero_add]; exact e2) indicesFrom_ascending
        (Or.inl (mem_indicesFrom.2 ⟨i, by omega, hx⟩)) h2 h3 (fun j => ⟨Nat.zero_le _, Nat.zero_le _⟩)
      exact scan_same n (i + 1) _ _ (by omega) k1 k2 k3 k4 r hr

theorem extendLeft_same : ∀ (p s : Nat), p ≤ a.length → extendLeft (newMatcher a a) false 0 0 p ⟨p, p, s⟩ = some ⟨0, 0, p + s⟩
  | 0, s, _ => by
    unfold extendLeft
    rw [Nat.zero_add]
  | p + 1, s, hp => by
    unfold extendLeft
    rw [if_pos ⟨by dsimp only; omega, by dsimp only; omega⟩]
    obtain ⟨x, hx⟩ : ∃ x, a[p]? = some x := ⟨a[p]'(by omega), List.getElem?_eq_getElem _⟩
    dsimp only [newMatcher]
    rw [Nat.add_sub_cancel, hx]
    dsimp only
    refine (if_pos ⟨rfl, rfl⟩).trans ?_
    have := extendLeft_same p (s + 1) (by omega)
    rw [show p + (s + 1) = p + 1 + s by omega] at this
    exact this

theorem extendRight_same : ∀ (n s : Nat), s ≤ a.length → a.length ≤ s + n → extendRight (newMatcher a a) false a.length a.length n ⟨0, 0, s⟩ = some ⟨0, 0, a.length⟩
  | 0, s, h1, h2 => by
    unfold extendRight
    rw [show s = a.length by omega]
  | n + 1, s, h1, h2 => by
    unfold extendRight
    by_cases hs : s < a.length
    · rw [if_pos ⟨by dsimp only; omega, by dsimp only; omega⟩]
      obtain ⟨x, hx⟩ : ∃ x, a[s]? = some x := ⟨a[s]'(by omega), List.getElem?_eq_getElem _⟩
      dsimp only [newMatcher]
      rw [Nat.zero_add, hx]
      dsimp only
      refine (if_pos ⟨rfl, rfl⟩).trans ?_
      exact extendRight_same n (s + 1) (by omega) (by omega)
    · rw [if_neg (by dsimp only; omega), show s = a.length by omega]

theorem findLongestMatch_same : findLongestMatch (newMatcher a a) 0 a.length 0 a.length = some ⟨0, 0, a.length⟩ := by
  obtain ⟨r, e, h⟩ := scan_ok (m := newMatcher a a) (alo := 0) (ahi := a.length) (blo := 0) (bhi := a.length) (newMatcher_indexed a a) (Nat.le_refl _) (a.length - 0) 0 (fun _ => 0) ⟨0, 0, 0⟩
    (show 0 + (a.length - 0) = a.length by omega) (Nat.le_refl _) (fun j => Or.inl rfl) ⟨Nat.le_refl _, Nat.zero_le _, Nat.le_refl _, Nat.zero_le _, Run.zero⟩
  have hd : r.a = r.b := scan_same (a := a) a.length 0 (fun _ => 0) ⟨0, 0, 0⟩ (by omega) (fun j => ⟨Nat.zero_le _, Nat.zero_le _⟩) rfl
    (fun t ht => by rw [Nat.le_zero.1 ht]; exact Nat.le_refl _) rfl r (by rw [Nat.sub_zero] at e; exact e)
  obtain ⟨p, q, s⟩ := r
  dsimp only at hd
  subst hd
  have hl := h.ahi
  dsimp only at hl
  unfold findLongestMatch
  rw [e]
  show (extendLeft (newMatcher a a) false 0 0 p ⟨p, p, s⟩ >>= _) = _
  rw [extendLeft_same p s (by omega)]
  show (extendRight (newMatcher a a) false a.length a.length a.length ⟨0, 0, p + s⟩ >>= _) = _
  rw [extendRight_same a.length (p + s) hl (by omega)]
  show (extendLeft (newMatcher a a) true 0 0 0 ⟨0, 0, a.length⟩ >>= _) = _
  unfold extendLeft
  show extendRight (newMatcher a a) true a.length a.length a.length ⟨0, 0, a.length⟩ = _
  cases hn : a.length with
  | zero => rfl
  | succ n =>
    unfold extendRight
    rw [if_neg (by dsimp only; omega)]

theorem unifiedDiff_same (fuel : Nat) : unifiedDiff a a (fuel + 1) = some [] := by
  have hb : matchBlocks (newMatcher a a) (fuel + 1) 0 a.length 0 a.length = some (if a.length > 0 then [⟨0, 0, a.length⟩] else []) := by
    unfold matchBlocks
    rw [findLongestMatch_same]
    dsimp only [Option.bind_some]
    by_cases h : a.length > 0
    · rw [if_pos h, if_pos h, if_neg (by omega), if_neg (by omega)]
      rfl
    · rw [if_neg h, if_neg h]
  have ho : getOpCodes (newMatcher a a) (fuel + 1) = some (if a.length > 0 then [⟨.equal, 0, a.length, 0, a.length⟩] else []) := by
    unfold getOpCodes getMatchingBlocks
    rw [show (newMatcher a a).a = a from rfl, show (newMatcher a a).b = a from rfl, hb]
    by_cases h : a.length > 0
    · rw [if_pos h, if_pos h]
      simp [collapse, opCodes, h]
    · rw [if_neg h, if_neg h]
      have e : a.length = 0 := by omega
      simp [collapse, opCodes, e]
  have hg : getGroupedOpCodes (newMatcher a a) (fuel + 1) 1 = some [] := by
    unfold getGroupedOpCodes
    rw [ho]
    by_cases h : a.length > 0
    · rw [if_pos h]
      simp [fixFirst, fixLast, groupLoop]
      omega
    · rw [if_neg h]
      rfl
  unfold unifiedDiff
  rw [hg]
  rfl

end

/-! ### Lines -/

theorem endLast_flatten : ∀ (ls : List Bytes), ls ≠ [] → (endLast ls).flatten = ls.flatten ++ [c%'\n']
  | [], h => absurd rfl h
  | [l], _ => by simp [endLast]
  | l :: l' :: ls, _ => by
    show l ++ (endLast (l' :: ls)).flatten = _
    rw [endLast_flatten (l' :: ls) (by simp)]
    simp

theorem splitAfter_ne_nil : ∀ (s : Bytes), splitAfter s ≠ []
  | [] => by simp [splitAfter]
  | c :: cs => by
    unfold splitAfter
    split
    · simp
    · split <;> simp

theorem splitAfter_flatten : ∀ (s : Bytes), (splitAfter s).flatten = s
  | [] => by simp [splitAfter]
  | c :: cs => by
    unfold splitAfter
    have ih := splitAfter_flatten cs
    split
    · simp [ih]
    · split
      · rename_i h
        exact absurd h (splitAfter_ne_nil cs)
      · rename_i l ls h
        rw [h] at ih
        simp at ih
        simp [ih]

theorem splitLines_flatten (s : Bytes) : (splitLines s).flatten = s ++ [c%'\n'] := by
  unfold splitLines
  rw [endLast_flatten _ (splitAfter_ne_nil s), splitAfter_flatten]

theorem splitLines_injective {s t : Bytes} (h : splitLines s = splitLines t) : s = t := by
  have := congrArg List.flatten h
  rw [splitLines_flatten, splitLines_flatten] at this
  exact List.append_cancel_right this

theorem splitLines_nil : splitLines [] = [[c%'\n']] := rfl

theorem splitLines_newline (s : Bytes) : splitLines (c%'\n' :: s) = [c%'\n'] :: splitLines s := by
  unfold splitLines
  rw [show splitAfter (c%'\n' :: s) = [c%'\n'] :: splitAfter s by conv => lhs; unfold splitAfter; rw [if_pos rfl]]
  cases h : splitAfter s with
  | nil => exact absurd h (splitAfter_ne_nil s)
  | cons l ls => rfl

theorem splitLines_char {c : Byte} (hc : c ≠ c%'\n') (s : Bytes) : ∃ l ls, splitLines s = l :: ls ∧ splitLines (c :: s) = (c :: l) :: ls := by
  unfold splitLines
  conv => rhs; intro l; rhs; intro ls; rhs; lhs; unfold splitAfter
  simp only [if_neg hc]
  cases h : splitAfter s with
  | nil => exact absurd h (splitAfter_ne_nil s)
  | cons l ls =>
    cases ls with
    | nil => exact ⟨_, _, rfl, rfl⟩
    | cons l' ls => exact ⟨_, _, rfl, rfl⟩

/-- every line ends in a newline, the only one of the line -/
theorem splitLines_lines : ∀ (s : Bytes), ∀ line ∈ splitLines s, ∃ x, line = x ++ [c%'\n'] ∧ c%'\n' ∉ x
  | [] => by
    rw [splitLines_nil]
    intro line h
    simp at h
    exact ⟨[], by simp [h], by simp⟩
  | c :: s => by
    have ih := splitLines_lines s
    by_cases hc : c = c%'\n'
    · subst hc
      rw [splitLines_newline]
      intro line h
      rcases List.mem_cons.1 h with rfl | h
      · exact ⟨[], rfl, by simp⟩
      · exact ih line h
    · obtain ⟨l, ls, h1, h2⟩ := splitLines_char hc s
      rw [h2]
      rw [h1] at ih
      intro line h
      rcases List.mem_cons.1 h with rfl | h
      · obtain ⟨x, e, hx⟩ := ih l (by simp)
        exact ⟨c :: x, by rw [e]; rfl, by simp [hx]; exact fun h => hc h.symm⟩
      · exact ih line (List.mem_cons_of_mem _ h)

theorem splitLines_length : ∀ (s : Bytes), (splitLines s).length = s.count c%'\n' + 1
  | [] => rfl
  | c :: s => by
    have ih := splitLines_length s
    by_cases hc : c = c%'\n'
    · subst hc
      rw [splitLines_newline, List.length_cons, ih, List.count_cons_self]
    · obtain ⟨l, ls, h1, h2⟩ := splitLines_char hc s
      rw [h2, List.length_cons, List.count_cons_of_ne (fun h => hc h), ← ih, h1, List.length_cons]

end Diff
end Yarql
