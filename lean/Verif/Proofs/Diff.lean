import Verif.Model.Diff
import Verif.Spec.Patch

/-!
# The diff of two lists of lines: matching blocks
-/

namespace Yarql
namespace Diff

/-- `a[p:p+k] == b[q:q+k]` -/
def Run (a b : List Bytes) (p q k : Nat) : Prop := ∀ t, t < k → ∃ x, a[p + t]? = some x ∧ b[q + t]? = some x

theorem Run.zero {a b : List Bytes} {p q : Nat} : Run a b p q 0 := fun t h => absurd h (Nat.not_lt_zero t)

theorem Run.snoc {a b : List Bytes} {p q k : Nat} {x : Bytes} (h : Run a b p q k) (ha : a[p + k]? = some x) (hb : b[q + k]? = some x) : Run a b p q (k + 1) := by
  intro t ht
  rcases Nat.lt_succ_iff_lt_or_eq.1 ht with ht | rfl
  · exact h t ht
  · exact ⟨x, ha, hb⟩

theorem Run.cons {a b : List Bytes} {p q k : Nat} {x : Bytes} (h : Run a b (p + 1) (q + 1) k) (ha : a[p]? = some x) (hb : b[q]? = some x) : Run a b p q (k + 1) := by
  intro t ht
  cases t with
  | zero => exact ⟨x, ha, hb⟩
  | succ t =>
    obtain ⟨y, h1, h2⟩ := h t (by omega)
    exact ⟨y, by rw [← h1]; congr 1; omega, by rw [← h2]; congr 1; omega⟩

theorem Run.append {a b : List Bytes} {p q k l : Nat} (h : Run a b p q k) (h' : Run a b (p + k) (q + k) l) : Run a b p q (k + l) := by
  intro t ht
  by_cases hk : t < k
  · exact h t hk
  · obtain ⟨y, h1, h2⟩ := h' (t - k) (by omega)
    exact ⟨y, by rw [← h1]; congr 1; omega, by rw [← h2]; congr 1; omega⟩

theorem Run.sub {a b : List Bytes} {p q k : Nat} (h : Run a b p q k) {s l : Nat} (hl : s + l ≤ k) : Run a b (p + s) (q + s) l := by
  intro t ht
  obtain ⟨y, h1, h2⟩ := h (s + t) (by omega)
  exact ⟨y, by rw [← h1]; congr 1; omega, by rw [← h2]; congr 1; omega⟩

/-- a match within the two ranges -/
structure Block (m : Matcher) (alo ahi blo bhi : Nat) (x : Match) : Prop where
  alo : alo ≤ x.a
  ahi : x.a + x.size ≤ ahi
  blo : blo ≤ x.b
  bhi : x.b + x.size ≤ bhi
  run : Run m.a m.b x.a x.b x.size

/-- the index of the second sequence is right -/
def Indexed (m : Matcher) : Prop := ∀ s j, j ∈ m.b2j s → m.b[j]? = some s

theorem mem_indicesFrom {s : Bytes} : ∀ {xs : List Bytes} {i j : Nat}, j ∈ indicesFrom s xs i ↔ ∃ t, j = i + t ∧ xs[t]? = some s
  | [], i, j => by simp [indicesFrom]
  | x :: xs, i, j => by
    unfold indicesFrom
    have ih := mem_indicesFrom (s := s) (xs := xs) (i := i + 1) (j := j)
    constructor
    · intro h
      split at h
      · rename_i hx
        rcases List.mem_cons.1 h with rfl | h
        · exact ⟨0, rfl, by simp [hx]⟩
        · obtain ⟨t, h1, h2⟩ := ih.1 h
          exact ⟨t + 1, by omega, by simpa using h2⟩
      · obtain ⟨t, h1, h2⟩ := ih.1 h
        exact ⟨t + 1, by omega, by simpa using h2⟩
    · rintro ⟨t, h1, h2⟩
      cases t with
      | zero =>
        simp only [List.getElem?_cons_zero, Option.some.injEq] at h2
        rw [if_pos h2, h1]
        simp
      | succ t =>
        have hm := ih.2 ⟨t, by omega, by simpa using h2⟩
        split
        · exact List.mem_cons_of_mem _ hm
        · exact hm

theorem newMatcher_indexed (a b : List Bytes) : Indexed (newMatcher a b) := by
  intro s j h
  unfold newMatcher at h ⊢
  dsimp only at h ⊢
  split at h
  · cases h
  · obtain ⟨t, h1, h2⟩ := mem_indicesFrom.1 h
    rw [h1, Nat.zero_add]
    exact h2

section
variable {m : Matcher} {alo ahi blo bhi : Nat}

/-- what `j2len` knows before round `i` -/
def Known (m : Matcher) (alo blo bhi i : Nat) (f : Nat → Nat) : Prop :=
  ∀ j, f j = 0 ∨ ∃ p q, p + f j = i ∧ q + f j = j + 1 ∧ alo ≤ p ∧ blo ≤ q ∧ j < bhi ∧ Run m.a m.b p q (f j)

theorem scanRow_ok (hm : Indexed m) {i : Nat} {x : Bytes} (hx : m.a[i]? = some x) (hlo : alo ≤ i) (hi : i < ahi) {f : Nat → Nat} (hf : Known m alo blo bhi i f) :
    ∀ (js : List Nat) (new : Nat → Nat) (best : Match), (∀ j ∈ js, j ∈ m.b2j x) → Known m alo blo bhi (i + 1) new → Block m alo ahi blo bhi best →
      Known m alo blo bhi (i + 1) (scanRow blo bhi i f js new best).1 ∧ Block m alo ahi blo bhi (scanRow blo bhi i f js new best).2
  | [], new, best, _, h1, h2 => by unfold scanRow; exact ⟨h1, h2⟩
  | j :: js, new, best, hj, h1, h2 => by
    unfold scanRow
    have hjs : ∀ j ∈ js, j ∈ m.b2j x := fun y hy => hj y (List.mem_cons_of_mem _ hy)
    split
    · exact scanRow_ok hm hx hlo hi hf js new best hjs h1 h2
    · split
      · exact ⟨h1, h2⟩
      · rename_i hjlo hjhi
        have hb : m.b[j]? = some x := hm x j (hj j (by simp))
        have key : ∃ p q, p + (before f j + 1) = i + 1 ∧ q + (before f j + 1) = j + 1 ∧ alo ≤ p ∧ blo ≤ q ∧ j < bhi ∧ Run m.a m.b p q (before f j + 1) := by
          have triv : before f j = 0 → ∃ p q, p + (before f j + 1) = i + 1 ∧ q + (before f j + 1) = j + 1 ∧ alo ≤ p ∧ blo ≤ q ∧ j < bhi ∧ Run m.a m.b p q (before f j + 1) := by
            intro h0
            rw [h0]
            exact ⟨i, j, rfl, rfl, hlo, by omega, by omega, Run.zero.snoc hx hb⟩
          cases j with
          | zero => exact triv rfl
          | succ j =>
            rcases hf j with h0 | ⟨p, q, k1, k2, k3, k4, k5, k6⟩
            · exact triv h0
            · exact ⟨p, q, by show p + (f j + 1) = _; omega, by show q + (f j + 1) = _; omega, k3, k4, by omega,
                k6.snoc (by rw [k1]; exact hx) (by rw [k2]; exact hb)⟩
        obtain ⟨p, q, k1, k2, k3, k4, k5, k6⟩ := key
        dsimp only
        refine scanRow_ok hm hx hlo hi hf js _ _ hjs ?_ ?_
        · intro y
          dsimp only
          by_cases hy : y = j
          · subst hy
            rw [if_pos rfl]
            exact Or.inr ⟨p, q, k1, k2, k3, k4, k5, k6⟩
          · rw [if_neg hy]
            exact h1 y
        · split
          · have e1 : i + 1 - (before f j + 1) = p := by omega
            have e2 : j + 1 - (before f j + 1) = q := by omega
            rw [e1, e2]
            exact ⟨k3, by dsimp only; omega, k4, by dsimp only; omega, k6⟩
          · exact h2

theorem scan_ok (hm : Indexed m) (hahi : ahi ≤ m.a.length) : ∀ (n i : Nat) (f : Nat → Nat) (best : Match), i + n = ahi → alo ≤ i → Known m alo blo bhi i f →
    Block m alo ahi blo bhi best → ∃ r, scan m blo bhi n i f best = some r ∧ Block m alo ahi blo bhi r
  | 0, i, f, best, _, _, _, h => ⟨best, rfl, h⟩
  | n + 1, i, f, best, hi, hlo, hf, h => by
    unfold scan
    obtain ⟨x, hx⟩ : ∃ x, m.a[i]? = some x := ⟨m.a[i]'(by omega), List.getElem?_eq_getElem _⟩
    rw [hx]
    dsimp only
    obtain ⟨h1, h2⟩ := scanRow_ok hm hx hlo (by omega) hf (m.b2j x) (fun _ => 0) best (fun j h => h) (fun j => Or.inl rfl) h
    exact scan_ok hm hahi n (i + 1) _ _ (by omega) (by omega) h1 h2

theorem extendLeft_ok (junk : Bool) (hahi : ahi ≤ m.a.length) (hbhi : bhi ≤ m.b.length) : ∀ (n : Nat) (best : Match), Block m alo ahi blo bhi best →
    ∃ r, extendLeft m junk alo blo n best = some r ∧ Block m alo ahi blo bhi r ∧ best.size ≤ r.size
  | 0, best, h => ⟨best, rfl, h, Nat.le_refl _⟩
  | n + 1, best, h => by
    unfold extendLeft
    split
    · rename_i hc
      have h1 := h.ahi
      have h2 := h.bhi
      obtain ⟨y, hy⟩ : ∃ y, m.b[best.b - 1]? = some y := ⟨m.b[best.b - 1]'(by omega), List.getElem?_eq_getElem _⟩
      obtain ⟨x, hx⟩ : ∃ x, m.a[best.a - 1]? = some x := ⟨m.a[best.a - 1]'(by omega), List.getElem?_eq_getElem _⟩
      rw [hy, hx]
      dsimp only
      split
      · rename_i he
        have hb : Block m alo ahi blo bhi ⟨best.a - 1, best.b - 1, best.size + 1⟩ := by
          refine ⟨by dsimp only; omega, by dsimp only; omega, by dsimp only; omega, by dsimp only; omega, ?_⟩
          dsimp only
          have := h.run
          have e1 : best.a - 1 + 1 = best.a := by omega
          have e2 : best.b - 1 + 1 = best.b := by omega
          rw [← e1, ← e2] at this
          exact this.cons hx (by rw [hy, he.2])
        obtain ⟨r, k1, k2, k3⟩ := extendLeft_ok junk hahi hbhi n _ hb
        exact ⟨r, k1, k2, by dsimp only at k3; omega⟩
      · exact ⟨best, rfl, h, Nat.le_refl _⟩
    · exact ⟨best, rfl, h, Nat.le_refl _⟩

theorem extendRight_ok (junk : Bool) (hahi : ahi ≤ m.a.length) (hbhi : bhi ≤ m.b.length) : ∀ (n : Nat) (best : Match), Block m alo ahi blo bhi best →
    ∃ r, extendRight m junk ahi bhi n best = some r ∧ Block m alo ahi blo bhi r ∧ best.size ≤ r.size
  | 0, best, h => ⟨best, rfl, h, Nat.le_refl _⟩
  | n + 1, best, h => by
    unfold extendRight
    split
    · rename_i hc
      obtain ⟨y, hy⟩ : ∃ y, m.b[best.b + best.size]? = some y := ⟨m.b[best.b + best.size]'(by omega), List.getElem?_eq_getElem _⟩
      obtain ⟨x, hx⟩ : ∃ x, m.a[best.a + best.size]? = some x := ⟨m.a[best.a + best.size]'(by omega), List.getElem?_eq_getElem _⟩
      rw [hy, hx]
      dsimp only
      split
      · rename_i he
        have hb : Block m alo ahi blo bhi ⟨best.a, best.b, best.size + 1⟩ :=
          ⟨h.alo, by dsimp only; omega, h.blo, by dsimp only; omega, h.run.snoc hx (by rw [hy, he.2])⟩
        obtain ⟨r, k1, k2, k3⟩ := extendRight_ok junk hahi hbhi n _ hb
        exact ⟨r, k1, k2, by dsimp only at k3; omega⟩
      · exact ⟨best, rfl, h, Nat.le_refl _⟩
    · exact ⟨best, rfl, h, Nat.le_refl _⟩

theorem findLongestMatch_ok (hm : Indexed m) (hahi : ahi ≤ m.a.length) (hbhi : bhi ≤ m.b.length) (ha : alo ≤ ahi) (hb : blo ≤ bhi) :
    ∃ x, findLongestMatch m alo ahi blo bhi = some x ∧ Block m alo ahi blo bhi x := by
  obtain ⟨r0, e0, h0⟩ := scan_ok (alo := alo) (blo := blo) (bhi := bhi) hm hahi (ahi - alo) alo (fun _ => 0) ⟨alo, blo, 0⟩ (by omega) (Nat.le_refl _) (fun j => Or.inl rfl)
    ⟨Nat.le_refl _, ha, Nat.le_refl _, hb, Run.zero⟩
  obtain ⟨r1, e1, h1, -⟩ := extendLeft_ok false hahi hbhi r0.a r0 h0
  obtain ⟨r2, e2, h2, -⟩ := extendRight_ok false hahi hbhi ahi r1 h1
  obtain ⟨r3, e3, h3, -⟩ := extendLeft_ok true hahi hbhi r2.a r2 h2
  obtain ⟨r4, e4, h4, -⟩ := extendRight_ok true hahi hbhi ahi r3 h3
  refine ⟨r4, ?_, h4⟩
  unfold findLongestMatch
  rw [e0]
  show (extendLeft m false alo blo r0.a r0 >>= _) = _
  rw [e1]
  show (extendRight m false ahi bhi ahi r1 >>= _) = _
  rw [e2]
  show (extendLeft m true alo blo r2.a r2 >>= _) = _
  rw [e3]
  exact e4

/-- blocks in order, between `(p, q)` and `(ahi, bhi)` -/
inductive Chain (m : Matcher) (ahi bhi : Nat) : Nat → Nat → List Match → Prop where
  | nil {p q} : p ≤ ahi → q ≤ bhi → Chain m ahi bhi p q []
  | cons {p q x xs} : p ≤ x.a → q ≤ x.b → Run m.a m.b x.a x.b x.size → Chain m ahi bhi (x.a + x.size) (x.b + x.size) xs → Chain m ahi bhi p q (x :: xs)

theorem Chain.append {p q p' q' : Nat} {xs ys : List Match} (h : Chain m ahi bhi p q xs) (h' : Chain m p' q' ahi bhi ys) : Chain m p' q' p q (xs ++ ys) := by
  induction h with
  | nil h1 h2 =>
    cases h' with
    | nil h3 h4 => exact .nil (Nat.le_trans h1 h3) (Nat.le_trans h2 h4)
    | cons h3 h4 h5 h6 => exact .cons (Nat.le_trans h1 h3) (Nat.le_trans h2 h4) h5 h6
  | cons h1 h2 h3 _ ih => exact .cons h1 h2 h3 ih

theorem Chain.weaken {p q p' q' : Nat} {xs : List Match} (h : Chain m ahi bhi p q xs) (hp : p' ≤ p) (hq : q' ≤ q) : Chain m ahi bhi p' q' xs := by
  cases h with
  | nil h1 h2 => exact .nil (Nat.le_trans hp h1) (Nat.le_trans hq h2)
  | cons h1 h2 h3 h4 => exact .cons (Nat.le_trans hp h1) (Nat.le_trans hq h2) h3 h4

theorem matchBlocks_ok (hm : Indexed m) : ∀ (fuel alo ahi blo bhi : Nat), ahi ≤ m.a.length → bhi ≤ m.b.length → alo ≤ ahi → blo ≤ bhi → ahi - alo < fuel →
    ∃ xs, matchBlocks m fuel alo ahi blo bhi = some xs ∧ Chain m ahi bhi alo blo xs
  | 0, _, _, _, _, _, _, _, _, h => absurd h (Nat.not_lt_zero _)
  | fuel + 1, alo, ahi, blo, bhi, h1, h2, h3, h4, hf => by
    obtain ⟨x, hx, hb⟩ := findLongestMatch_ok (alo := alo) (blo := blo) hm h1 h2 h3 h4
    unfold matchBlocks
    rw [hx]
    dsimp only [Option.bind_some]
    by_cases hs : x.size > 0
    · rw [if_pos hs]
      have b1 := hb.alo
      have b2 := hb.ahi
      have b3 := hb.blo
      have b4 := hb.bhi
      have hl : ∃ l, (if alo < x.a ∧ blo < x.b then matchBlocks m fuel alo x.a blo x.b else some []) = some l ∧ Chain m x.a x.b alo blo l := by
        split
        · exact matchBlocks_ok hm fuel alo x.a blo x.b (by omega) (by omega) b1 b3 (by omega)
        · exact ⟨[], rfl, .nil b1 b3⟩
      have hr : ∃ l, (if x.a + x.size < ahi ∧ x.b + x.size < bhi then matchBlocks m fuel (x.a + x.size) ahi (x.b + x.size) bhi else some []) = some l ∧
          Chain m ahi bhi (x.a + x.size) (x.b + x.size) l := by
        split
        · exact matchBlocks_ok hm fuel (x.a + x.size) ahi (x.b + x.size) bhi h1 h2 b2 b4 (by omega)
        · exact ⟨[], rfl, .nil b2 b4⟩
      obtain ⟨l, l1, l2⟩ := hl
      obtain ⟨r, r1, r2⟩ := hr
      rw [l1, r1]
      exact ⟨l ++ x :: r, rfl, l2.append (.cons (Nat.le_refl _) (Nat.le_refl _) hb.run r2)⟩
    · rw [if_neg hs]
      exact ⟨[], rfl, .nil h3 h4⟩

theorem collapse_ok : ∀ (xs : List Match) (cur : Match) (p q : Nat), p ≤ cur.a → q ≤ cur.b → Run m.a m.b cur.a cur.b cur.size →
    Chain m ahi bhi (cur.a + cur.size) (cur.b + cur.size) xs → Chain m ahi bhi p q (collapse cur xs)
  | [], cur, p, q, h1, h2, h3, h4 => by
    unfold collapse
    split
    · exact .cons h1 h2 h3 h4
    · exact h4.weaken (by omega) (by omega)
  | x :: xs, cur, p, q, h1, h2, h3, h4 => by
    unfold collapse
    cases h4 with
    | cons k1 k2 k3 k4 =>
      split
      · rename_i he
        refine collapse_ok xs _ p q h1 h2 ?_ ?_
        · exact h3.append (by rw [he.1, he.2]; exact k3)
        · dsimp only
          rw [← Nat.add_assoc, ← Nat.add_assoc, he.1, he.2]
          exact k4
      · split
        · exact .cons h1 h2 h3 (collapse_ok xs x _ _ k1 k2 k3 k4)
        · exact collapse_ok xs x p q (by omega) (by omega) k3 k4

end

/-- `GetMatchingBlocks`: blocks in order, the last being empty at the end of both sequences -/
theorem getMatchingBlocks_ok {m : Matcher} (hm : Indexed m) {fuel : Nat} (hf : m.a.length < fuel) :
    ∃ xs, getMatchingBlocks m fuel = some (xs ++ [⟨m.a.length, m.b.length, 0⟩]) ∧ Chain m m.a.length m.b.length 0 0 xs := by
  obtain ⟨xs, h1, h2⟩ := matchBlocks_ok hm fuel 0 m.a.length 0 m.b.length (Nat.le_refl _) (Nat.le_refl _) (Nat.zero_le _) (Nat.zero_le _) (by omega)
  refine ⟨collapse ⟨0, 0, 0⟩ xs, ?_, collapse_ok xs ⟨0, 0, 0⟩ 0 0 (Nat.le_refl _) (Nat.le_refl _) Run.zero h2⟩
  unfold getMatchingBlocks
  rw [h1]
  rfl

end Diff
end Yarql
