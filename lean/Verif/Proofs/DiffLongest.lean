import Verif.Proofs.DiffSame

/-!
# The match that is found is the longest, if no line is left out of the index
-/

namespace Yarql
namespace Diff

section
variable {m : Matcher} {alo ahi blo bhi : Nat}

/-- the match `x` is to be preferred to (or is) the run of `k` lines at `(p, q)` -/
def Prefer (x : Match) (p q k : Nat) : Prop := k < x.size ∨ (k = x.size ∧ (x.a < p ∨ (x.a = p ∧ x.b ≤ q)))

/-- all places where a line occurs are in the index, in order -/
structure Full (m : Matcher) : Prop where
  mem : ∀ s j, m.b[j]? = some s → j ∈ m.b2j s
  ascending : ∀ s, (m.b2j s).Pairwise (· < ·)
  junk : ∀ s, m.bJunk s = false

/-- `f j` is not too small: runs that end before `(i, j + 1)` -/
def Bound (m : Matcher) (alo blo bhi i : Nat) (f : Nat → Nat) : Prop :=
  ∀ p q k, alo ≤ p → blo ≤ q → 0 < k → p + k = i → q + k ≤ bhi → Run m.a m.b p q k → k ≤ f (q + k - 1)

theorem Run.last {a b : List Bytes} {p q k : Nat} (h : Run a b p q (k + 1)) : ∃ x, a[p + k]? = some x ∧ b[q + k]? = some x := h k (Nat.lt_succ_self k)

theorem Run.init {a b : List Bytes} {p q k : Nat} (h : Run a b p q (k + 1)) : Run a b p q k := fun t ht => h t (by omega)

/-- runs that end in row `i` at a place that is not among `js` -/
structure Row (m : Matcher) (alo blo bhi i : Nat) (js : List Nat) (new : Nat → Nat) (best : Match) : Prop where
  bound : ∀ p q k, alo ≤ p → blo ≤ q → p + (k + 1) = i + 1 → q + (k + 1) ≤ bhi → Run m.a m.b p q (k + 1) → q + k ∉ js → k + 1 ≤ new (q + k)
  prefer : ∀ p q k, alo ≤ p → blo ≤ q → p + (k + 1) = i + 1 → q + (k + 1) ≤ bhi → Run m.a m.b p q (k + 1) → q + k ∉ js → Prefer best p q (k + 1)
  old : ∀ p q k, alo ≤ p → blo ≤ q → p + k ≤ i → q + k ≤ bhi → Run m.a m.b p q k → Prefer best p q k
  ends : best.a + best.size ≤ i + 1
  here : best.a + best.size = i + 1 → ∀ j ∈ js, best.b + best.size ≤ j

theorem scanRow_longest {i : Nat} {x : Bytes} (hx : m.a[i]? = some x) {f : Nat → Nat} (hf : Bound m alo blo bhi i f) (hK : Known m alo blo bhi i f) :
    ∀ (js : List Nat) (new : Nat → Nat) (best : Match), js.Pairwise (· < ·) → (∀ j ∈ js, m.b[j]? = some x) → Row m alo blo bhi i js new best →
      Row m alo blo bhi i [] (scanRow blo bhi i f js new best).1 (scanRow blo bhi i f js new best).2
  | [], new, best, _, _, h => by unfold scanRow; exact h
  | j :: js, new, best, hs, hj, h => by
    unfold scanRow
    cases hs with
    | cons hs1 hs2 =>
      have hjs : ∀ j ∈ js, m.b[j]? = some x := fun y hy => hj y (List.mem_cons_of_mem _ hy)
      by_cases h1 : j < blo
      · rw [if_pos h1]
        refine scanRow_longest hx hf hK js new best hs2 hjs ⟨?_, ?_, h.old, h.ends, fun e y hy => h.here e y (List.mem_cons_of_mem _ hy)⟩
        · intro p q k k1 k2 k3 k4 k5 k6
          refine h.bound p q k k1 k2 k3 k4 k5 (fun hm => ?_)
          rcases List.mem_cons.1 hm with hm | hm
          · omega
          · exact k6 hm
        · intro p q k k1 k2 k3 k4 k5 k6
          refine h.prefer p q k k1 k2 k3 k4 k5 (fun hm => ?_)
          rcases List.mem_cons.1 hm with hm | hm
          · omega
          · exact k6 hm
      · rw [if_neg h1]
        by_cases h2 : j ≥ bhi
        · rw [if_pos h2]
          refine ⟨?_, ?_, h.old, h.ends, fun e y hy => nomatch hy⟩
          · intro p q k k1 k2 k3 k4 k5 _
            refine h.bound p q k k1 k2 k3 k4 k5 (fun hm => ?_)
            rcases List.mem_cons.1 hm with hm | hm
            · omega
            · have := hs1 _ hm
              omega
          · intro p q k k1 k2 k3 k4 k5 _
            refine h.prefer p q k k1 k2 k3 k4 k5 (fun hm => ?_)
            rcases List.mem_cons.1 hm with hm | hm
            · omega
            · have := hs1 _ hm
              omega
        · rw [if_neg h2]
          dsimp only
          -- what ends at `(i, j)` is no longer than `before f j + 1`
          have hk : ∀ p q k, alo ≤ p → blo ≤ q → p + (k + 1) = i + 1 → Run m.a m.b p q (k + 1) → q + k = j → k + 1 ≤ before f j + 1 := by
            intro p q k k1 k2 k3 k5 k6
            cases k with
            | zero => omega
            | succ k =>
              have := hf p q (k + 1) k1 k2 (by omega) (by omega) (by omega) k5.init
              rw [← k6]
              show k + 1 + 1 ≤ f (q + k) + 1
              rw [show q + (k + 1) - 1 = q + k by omega] at this
              omega
          have ho := h.ends
          have hb : before f j ≤ i ∧ before f j ≤ j := by
            cases j with
            | zero => exact ⟨Nat.zero_le _, Nat.zero_le _⟩
            | succ j =>
              show f j ≤ i ∧ f j ≤ j + 1
              rcases hK j with e | ⟨p, q, e1, e2, -⟩ <;> omega
          refine scanRow_longest hx hf hK js _ _ hs2 hjs ⟨?_, ?_, ?_, ?_, ?_⟩
          · intro p q k k1 k2 k3 k4 k5 k6
            by_cases e : q + k = j
            · rw [if_pos e]
              exact hk p q k k1 k2 k3 k5 e
            · rw [if_neg e]
              refine h.bound p q k k1 k2 k3 k4 k5 (fun hm => ?_)
              rcases List.mem_cons.1 hm with hm | hm
              · exact e hm
              · exact k6 hm
          · intro p q k k1 k2 k3 k4 k5 k6
            by_cases e : q + k = j
            · have hle := hk p q k k1 k2 k3 k5 e
              split
              · unfold Prefer
                dsimp only
                omega
              · rename_i hn
                unfold Prefer
                by_cases hlt : k + 1 < best.size
                · exact Or.inl hlt
                · refine Or.inr ⟨by omega, ?_⟩
                  by_cases hend : best.a + best.size = i + 1
                  · have := h.here hend j (by simp)
                    omega
                  · omega
            · have hp := h.prefer p q k k1 k2 k3 k4 k5 (fun hm => by
                rcases List.mem_cons.1 hm with hm | hm
                · exact e hm
                · exact k6 hm)
              split
              · rename_i hn
                unfold Prefer at hp ⊢
                dsimp only
                omega
              · exact hp
          · intro p q k k1 k2 k3 k4 k5
            have hp := h.old p q k k1 k2 k3 k4 k5
            split
            · unfold Prefer at hp ⊢
              dsimp only
              omega
            · exact hp
          · split
            · dsimp only
              omega
            · exact ho
          · intro e y hy
            have hy1 := hs1 y hy
            split at e
            · rw [if_pos (by assumption)]
              dsimp only at e ⊢
              omega
            · rw [if_neg (by assumption)]
              exact h.here e y (List.mem_cons_of_mem _ hy)

theorem scan_longest (hm : Indexed m) (hfull : Full m) (hahi : ahi ≤ m.a.length) : ∀ (n i : Nat) (f : Nat → Nat) (best : Match), i + n = ahi → alo ≤ i →
    Known m alo blo bhi i f → Bound m alo blo bhi i f → Block m alo ahi blo bhi best → best.a + best.size ≤ i →
    (∀ p q k, alo ≤ p → blo ≤ q → p + k ≤ i → q + k ≤ bhi → Run m.a m.b p q k → Prefer best p q k) →
    ∀ r, scan m blo bhi n i f best = some r → ∀ p q k, alo ≤ p → blo ≤ q → p + k ≤ ahi → q + k ≤ bhi → Run m.a m.b p q k → Prefer r p q k
  | 0, i, f, best, hi, _, _, _, _, _, h, r, hr => by
    unfold scan at hr
    injection hr with hr
    rw [← hr, ← hi]
    exact h
  | n + 1, i, f, best, hi, hlo, hf, hB, hb, he, h, r, hr => by
    unfold scan at hr
    obtain ⟨x, hx⟩ : ∃ x, m.a[i]? = some x := ⟨m.a[i]'(by omega), List.getElem?_eq_getElem _⟩
    rw [hx] at hr
    dsimp only at hr
    obtain ⟨h1, h2⟩ := scanRow_ok hm hx hlo (by omega : i < ahi) hf (m.b2j x) (fun _ => 0) best (fun j h => h) (fun j => Or.inl rfl) hb
    have hrow : Row m alo blo bhi i (m.b2j x) (fun _ => 0) best := by
      have none : ∀ p q k, p + (k + 1) = i + 1 → Run m.a m.b p q (k + 1) → q + k ∈ m.b2j x := by
        intro p q k k1 k2
        obtain ⟨y, y1, y2⟩ := k2.last
        rw [show p + k = i by omega, hx] at y1
        injection y1 with y1
        exact hfull.mem x _ (by rw [y2, y1])
      exact ⟨fun p q k _ _ k3 _ k5 k6 => absurd (none p q k k3 k5) k6, fun p q k _ _ k3 _ k5 k6 => absurd (none p q k k3 k5) k6, h, by omega, fun e => by omega⟩
    have hrow' := scanRow_longest hx hB hf (m.b2j x) (fun _ => 0) best (hfull.ascending x) (fun j hj => hm x j hj) hrow
    generalize scanRow blo bhi i f (m.b2j x) (fun _ => 0) best = res at *
    refine scan_longest hm hfull hahi n (i + 1) res.1 res.2 (by omega) (by omega) h1 ?_ h2 hrow'.ends ?_ r hr
    · intro p q k k1 k2 k3 k4 k5 k6
      cases k with
      | zero => omega
      | succ k => exact hrow'.bound p q k k1 k2 k4 k5 k6 (fun h => nomatch h)
    · intro p q k k1 k2 k3 k4 k5
      by_cases hle : p + k ≤ i
      · exact hrow'.old p q k k1 k2 hle k4 k5
      · cases k with
        | zero =>
          unfold Prefer
          have := hrow'.old i q 0 hlo k2 (Nat.le_refl _) (by omega) Run.zero
          unfold Prefer at this
          omega
        | succ k => exact hrow'.prefer p q k k1 k2 (by omega) k4 k5 (fun h => nomatch h)

theorem extendLeft_max (hahi : ahi ≤ m.a.length) (hbhi : bhi ≤ m.b.length) {x : Match} (hb : Block m alo ahi blo bhi x)
    (hmax : ∀ p q k, alo ≤ p → blo ≤ q → p + k ≤ ahi → q + k ≤ bhi → Run m.a m.b p q k → Prefer x p q k) (junk : Bool) (n : Nat) : extendLeft m junk alo blo n x = some x := by
  cases n with
  | zero => rfl
  | succ n =>
    unfold extendLeft
    split
    · rename_i hc
      have h1 := hb.ahi
      have h2 := hb.bhi
      obtain ⟨y, hy⟩ : ∃ y, m.b[x.b - 1]? = some y := ⟨m.b[x.b - 1]'(by omega), List.getElem?_eq_getElem _⟩
      obtain ⟨z, hz⟩ : ∃ z, m.a[x.a - 1]? = some z := ⟨m.a[x.a - 1]'(by omega), List.getElem?_eq_getElem _⟩
      rw [hy, hz]
      dsimp only
      split
      · rename_i he
        have hrun : Run m.a m.b (x.a - 1) (x.b - 1) (x.size + 1) := by
          have := hb.run
          rw [← show x.a - 1 + 1 = x.a by omega, ← show x.b - 1 + 1 = x.b by omega] at this
          exact this.cons hz (by rw [hy, he.2])
        have := hmax (x.a - 1) (x.b - 1) (x.size + 1) (by omega) (by omega) (by omega) (by omega) hrun
        unfold Prefer at this
        omega
      · rfl
    · rfl

theorem extendRight_max (hahi : ahi ≤ m.a.length) (hbhi : bhi ≤ m.b.length) {x : Match} (hb : Block m alo ahi blo bhi x)
    (hmax : ∀ p q k, alo ≤ p → blo ≤ q → p + k ≤ ahi → q + k ≤ bhi → Run m.a m.b p q k → Prefer x p q k) (junk : Bool) (n : Nat) : extendRight m junk ahi bhi n x = some x := by
  cases n with
  | zero => rfl
  | succ n =>
    unfold extendRight
    split
    · rename_i hc
      obtain ⟨y, hy⟩ : ∃ y, m.b[x.b + x.size]? = some y := ⟨m.b[x.b + x.size]'(by omega), List.getElem?_eq_getElem _⟩
      obtain ⟨z, hz⟩ : ∃ z, m.a[x.a + x.size]? = some z := ⟨m.a[x.a + x.size]'(by omega), List.getElem?_eq_getElem _⟩
      rw [hy, hz]
      dsimp only
      split
      · rename_i he
        have := hmax x.a x.b (x.size + 1) hb.alo hb.blo (by omega) (by omega) (hb.run.snoc hz (by rw [hy, he.2]))
        unfold Prefer at this
        omega
      · rfl
    · rfl

theorem findLongestMatch_longest (hm : Indexed m) (hfull : Full m) (hahi : ahi ≤ m.a.length) (hbhi : bhi ≤ m.b.length) (ha : alo ≤ ahi) (hb : blo ≤ bhi) :
    ∃ x, findLongestMatch m alo ahi blo bhi = some x ∧ Block m alo ahi blo bhi x ∧
      ∀ p q k, alo ≤ p → blo ≤ q → p + k ≤ ahi → q + k ≤ bhi → Run m.a m.b p q k → Prefer x p q k := by
  have hb0 : Block m alo ahi blo bhi ⟨alo, blo, 0⟩ := ⟨Nat.le_refl _, ha, Nat.le_refl _, hb, Run.zero⟩
  obtain ⟨r, e, h⟩ := scan_ok (alo := alo) (blo := blo) (bhi := bhi) hm hahi (ahi - alo) alo (fun _ => 0) ⟨alo, blo, 0⟩ (by omega) (Nat.le_refl _) (fun j => Or.inl rfl) hb0
  have hmax := scan_longest (alo := alo) (blo := blo) (bhi := bhi) hm hfull hahi (ahi - alo) alo (fun _ => 0) ⟨alo, blo, 0⟩ (by omega) (Nat.le_refl _) (fun j => Or.inl rfl)
    (fun p q k k1 _ k3 k4 => by omega) hb0 (Nat.le_refl _) (fun p q k k1 k2 k3 _ _ => by unfold Prefer; dsimp only; omega) r e
  refine ⟨r, ?_, h, hmax⟩
  unfold findLongestMatch
  rw [e]
  show (extendLeft m false alo blo r.a r >>= _) = _
  rw [extendLeft_max hahi hbhi h hmax]
  show (extendRight m false ahi bhi ahi r >>= _) = _
  rw [extendRight_max hahi hbhi h hmax]
  show (extendLeft m true alo blo r.a r >>= _) = _
  rw [extendLeft_max hahi hbhi h hmax]
  show extendRight m true ahi bhi ahi r = _
  exact extendRight_max hahi hbhi h hmax true ahi

end

theorem newMatcher_full (a : List Bytes) {b : List Bytes} (h : ∀ s, popular b s = false) : Full (newMatcher a b) := by
  refine ⟨fun s j hj => ?_, fun s => ?_, fun s => rfl⟩
  · show j ∈ if popular b s then [] else indicesFrom s b 0
    rw [h s]
    exact mem_indicesFrom.2 ⟨j, by omega, hj⟩
  · show (if popular b s then [] else indicesFrom s b 0).Pairwise (· < ·)
    rw [h s]
    exact indicesFrom_ascending

end Diff
end Yarql
