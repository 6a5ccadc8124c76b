import Verif.Proofs.Diff

/-!
# The diff of two lists of lines: the codes tile both lists, the text is a unified diff
-/

namespace Yarql
namespace Diff
open Patch

/-- `xs[i:j]` -/
def seg (xs : List Bytes) (i j : Nat) : List Bytes := (xs.take j).drop i

theorem seg_length {xs : List Bytes} {i j : Nat} (hj : j ≤ xs.length) : (seg xs i j).length = j - i := by
  unfold seg
  rw [List.length_drop, List.length_take]
  omega

theorem seg_self {xs : List Bytes} {i : Nat} : seg xs i i = [] := by
  unfold seg
  apply List.drop_eq_nil_of_le
  rw [List.length_take]
  omega

theorem seg_append {xs : List Bytes} {i k j : Nat} (h1 : i ≤ k) (h2 : k ≤ j) (hj : j ≤ xs.length) : seg xs i k ++ seg xs k j = seg xs i j := by
  unfold seg
  have e : xs.take j = xs.take k ++ (xs.take j).drop k := by
    conv => lhs; rw [← List.take_append_drop k (xs.take j)]
    rw [List.take_take, Nat.min_eq_left h2]
  conv => rhs; rw [e]
  rw [List.drop_append_of_le_length]
  rw [List.length_take]
  omega

theorem seg_drop {xs : List Bytes} {i k : Nat} (h1 : i ≤ k) (hk : k ≤ xs.length) : seg xs i k ++ xs.drop k = xs.drop i := by
  have := seg_append h1 hk (Nat.le_refl xs.length)
  unfold seg at *
  rw [List.take_length] at this
  exact this

theorem seg_get {xs : List Bytes} {i j t : Nat} (h : i + t < j) : (seg xs i j)[t]? = xs[i + t]? := by
  unfold seg
  rw [List.getElem?_drop, List.getElem?_take, if_pos h]

theorem Run.seg {a b : List Bytes} {p q k : Nat} (h : Run a b p q k) (ha : p + k ≤ a.length) (hb : q + k ≤ b.length) : seg a p (p + k) = seg b q (q + k) := by
  apply List.ext_getElem?
  intro t
  by_cases ht : t < k
  · rw [seg_get (by omega), seg_get (by omega)]
    obtain ⟨x, h1, h2⟩ := h t ht
    rw [h1, h2]
  · rw [List.getElem?_eq_none, List.getElem?_eq_none]
    · rw [seg_length hb]; omega
    · rw [seg_length ha]; omega

section
variable {a b : List Bytes}

/-- a code that says what is so -/
structure Good (a b : List Bytes) (c : OpCode) : Prop where
  li : c.i1 ≤ c.i2
  lj : c.j1 ≤ c.j2
  la : c.i2 ≤ a.length
  lb : c.j2 ≤ b.length
  equal : c.tag = .equal → c.i2 - c.i1 = c.j2 - c.j1 ∧ Run a b c.i1 c.j1 (c.i2 - c.i1)
  delete : c.tag = .delete → c.j1 = c.j2
  insert : c.tag = .insert → c.i1 = c.i2

/-- codes that lead from one place to another without a gap -/
inductive Path (a b : List Bytes) : Nat → Nat → List OpCode → Nat → Nat → Prop where
  | nil {i j} : Path a b i j [] i j
  | cons {i j c cs i' j'} : c.i1 = i → c.j1 = j → Good a b c → Path a b c.i2 c.j2 cs i' j' → Path a b i j (c :: cs) i' j'

theorem Path.append {i j i' j' i'' j'' : Nat} {xs ys : List OpCode} (h : Path a b i j xs i' j') (h' : Path a b i' j' ys i'' j'') : Path a b i j (xs ++ ys) i'' j'' := by
  induction h with
  | nil => exact h'
  | cons h1 h2 h3 _ ih => exact .cons h1 h2 h3 (ih h')

theorem Path.single {c : OpCode} (h : Good a b c) : Path a b c.i1 c.j1 [c] c.i2 c.j2 := .cons rfl rfl h .nil

theorem Path.le {i j i' j' : Nat} {xs : List OpCode} (h : Path a b i j xs i' j') : i ≤ i' ∧ j ≤ j' ∧ (xs ≠ [] → i' ≤ a.length ∧ j' ≤ b.length) := by
  induction h with
  | nil => exact ⟨Nat.le_refl _, Nat.le_refl _, fun h => absurd rfl h⟩
  | @cons i j c cs i' j' h1 h2 h3 h4 ih =>
    have := h3.li
    have := h3.lj
    refine ⟨by omega, by omega, fun _ => ?_⟩
    cases cs with
    | nil => cases h4; exact ⟨h3.la, h3.lb⟩
    | cons => exact ih.2.2 (by simp)

theorem opCodes_ok {m : Matcher} (ha : m.a = a) (hb : m.b = b) : ∀ (xs : List Match) (i j : Nat), Chain m a.length b.length i j xs →
    Path a b i j (opCodes i j (xs ++ [⟨a.length, b.length, 0⟩])) a.length b.length := by
  have step : ∀ {i j p q : Nat}, i ≤ p → j ≤ q → p ≤ a.length → q ≤ b.length →
      Path a b i j (if i < p ∧ j < q then [⟨.replace, i, p, j, q⟩] else if i < p then [⟨.delete, i, p, j, q⟩] else if j < q then [⟨.insert, i, p, j, q⟩] else []) p q := by
    intro i j p q hi hj hp hq
    split
    · exact Path.single (c := ⟨.replace, i, p, j, q⟩) ⟨hi, hj, hp, hq, (fun h => nomatch h), (fun h => nomatch h), (fun h => nomatch h)⟩
    · split
      · exact Path.single (c := ⟨.delete, i, p, j, q⟩) ⟨hi, hj, hp, hq, (fun h => nomatch h), fun _ => by dsimp only; omega, (fun h => nomatch h)⟩
      · split
        · exact Path.single (c := ⟨.insert, i, p, j, q⟩) ⟨hi, hj, hp, hq, (fun h => nomatch h), (fun h => nomatch h), fun _ => by dsimp only; omega⟩
        · have e1 : i = p := by omega
          have e2 : j = q := by omega
          rw [e1, e2]
          exact .nil
  intro xs
  induction xs with
  | nil =>
    intro i j h
    cases h with
    | nil h1 h2 =>
      show Path a b i j (opCodes i j [⟨a.length, b.length, 0⟩]) _ _
      unfold opCodes opCodes
      rw [if_neg (Nat.lt_irrefl 0), List.append_nil, List.append_nil]
      exact step h1 h2 (Nat.le_refl _) (Nat.le_refl _)
  | cons x xs ih =>
    intro i j h
    cases h with
    | cons h1 h2 h3 h4 =>
      have hle : x.a + x.size ≤ a.length ∧ x.b + x.size ≤ b.length := by
        clear ih
        generalize x.a + x.size = u at h4
        generalize x.b + x.size = v at h4
        induction h4 with
        | nil h1 h2 => exact ⟨h1, h2⟩
        | cons h1 h2 _ _ ih => omega
      show Path a b i j (opCodes i j (x :: (xs ++ _))) _ _
      unfold opCodes
      refine ((step h1 h2 (by omega) (by omega)).append ?_).append (ih _ _ h4)
      split
      · refine Path.single (c := ⟨.equal, x.a, x.a + x.size, x.b, x.b + x.size⟩) ⟨by dsimp only; omega, by dsimp only; omega, hle.1, hle.2, fun _ => ?_, fun h => (nomatch h), fun h => (nomatch h)⟩
        dsimp only
        rw [ha, hb] at h3
        exact ⟨by omega, by rw [Nat.add_sub_cancel_left]; exact h3⟩
      · have e : x.size = 0 := by omega
        rw [e]
        exact .nil

/-! ### The lines of a hunk -/

theorem slice_seg {xs : List Bytes} {i j : Nat} (h : i ≤ j) (hj : j ≤ xs.length) : slice xs i j = some (seg xs i j) := by
  unfold slice
  rw [if_pos ⟨h, hj⟩]
  rfl

theorem body_append {o n o' n' : List Bytes} {t t' : Bytes} {k k' : Nat} (h : Body o n k t) (h' : Body o' n' k' t') : Body (o ++ o') (n ++ n') (k + k') (t ++ t') := by
  induction h with
  | nil => rw [Nat.zero_add]; exact h'
  | both _ ih => rw [Nat.add_right_comm]; simpa [List.append_assoc] using Body.both ih
  | old _ ih => simpa [List.append_assoc] using Body.old ih
  | new _ ih => simpa [List.append_assoc] using Body.new ih

theorem body_both : ∀ (l : List Bytes), Body l l l.length (marked c%' ' l)
  | [] => .nil
  | x :: l => by simpa [marked] using Body.both (line := x) (body_both l)

theorem body_old : ∀ (l : List Bytes), Body l [] 0 (marked c%'-' l)
  | [] => .nil
  | x :: l => by simpa [marked] using Body.old (line := x) (body_old l)

theorem body_new : ∀ (l : List Bytes), Body [] l 0 (marked c%'+' l)
  | [] => .nil
  | x :: l => by simpa [marked] using Body.new (line := x) (body_new l)

theorem Good.seg {c : OpCode} (h : Good a b c) (ht : c.tag = .equal) : seg a c.i1 c.i2 = seg b c.j1 c.j2 := by
  obtain ⟨e, hr⟩ := h.equal ht
  have h1 := h.li
  have h2 := h.lj
  have h3 := h.la
  have h4 := h.lb
  have := Run.seg hr (by omega) (by omega)
  rw [show c.i1 + (c.i2 - c.i1) = c.i2 by omega, show c.j1 + (c.i2 - c.i1) = c.j2 by omega] at this
  exact this

/-- the lines a code keeps -/
def keptOf (c : OpCode) : Nat := if c.tag = .equal then c.i2 - c.i1 else 0

def keptAll (cs : List OpCode) : Nat := (cs.map keptOf).sum

theorem keptAll_append (cs ds : List OpCode) : keptAll (cs ++ ds) = keptAll cs + keptAll ds := by
  unfold keptAll
  rw [List.map_append, List.sum_append]

theorem keptAll_cons (c : OpCode) (cs : List OpCode) : keptAll (c :: cs) = keptOf c + keptAll cs := by
  unfold keptAll
  rw [List.map_cons, List.sum_cons]

theorem keptAll_nil : keptAll [] = 0 := rfl

theorem keptOf_equal {c : OpCode} (h : c.tag = .equal) : keptOf c = c.i2 - c.i1 := by
  unfold keptOf
  rw [if_pos h]

theorem keptOf_mk {t : Tag} {i1 i2 j1 j2 : Nat} (h : t = .equal) : keptOf ⟨t, i1, i2, j1, j2⟩ = i2 - i1 := keptOf_equal h

theorem writeCode_ok {c : OpCode} (h : Good a b c) : ∃ t, writeCode a b c = some t ∧ Body (seg a c.i1 c.i2) (seg b c.j1 c.j2) (keptOf c) t := by
  unfold writeCode
  rw [slice_seg h.li h.la, slice_seg h.lj h.lb]
  have kinds : c.tag = .equal ∨ c.tag = .replace ∨ c.tag = .delete ∨ c.tag = .insert := by cases c.tag <;> simp
  rcases kinds with k | k | k | k
  · have e : keptOf c = (seg b c.j1 c.j2).length := by
      rw [keptOf_equal k, seg_length h.lb]
      exact (h.equal k).1
    rw [if_pos k, h.seg k, e]
    exact ⟨_, rfl, body_both _⟩
  all_goals
    have e0 : keptOf c = 0 := by
      unfold keptOf
      rw [k]
      rfl
    rw [e0]
  · rw [k]
    exact ⟨_, rfl, by simpa using body_append (body_old (seg a c.i1 c.i2)) (body_new (seg b c.j1 c.j2))⟩
  · have e := h.delete k
    rw [k, e, seg_self]
    exact ⟨_, rfl, by simpa using body_old (seg a c.i1 c.i2)⟩
  · have e := h.insert k
    rw [k, e, seg_self]
    exact ⟨_, rfl, by simpa using body_new (seg b c.j1 c.j2)⟩

theorem writeCodes_ok : ∀ {i j i' j' : Nat} {g : List OpCode}, Path a b i j g i' j' → ∃ t, writeCodes a b g = some t ∧ Body (seg a i i') (seg b j j') (keptAll g) t := by
  intro i j i' j' g h
  induction h with
  | nil => exact ⟨[], rfl, by rw [seg_self, seg_self]; exact .nil⟩
  | @cons i j c cs i' j' h1 h2 h3 h4 ih =>
    obtain ⟨t, e, ht⟩ := writeCode_ok h3
    obtain ⟨u, e', hu⟩ := ih
    have k3 := h3.li
    have k4 := h3.lj
    have k5 := h4.le
    have hl : i' ≤ a.length ∧ j' ≤ b.length := by
      cases cs with
      | nil => cases h4; exact ⟨h3.la, h3.lb⟩
      | cons => exact k5.2.2 (by simp)
    refine ⟨t ++ u, ?_, ?_⟩
    · unfold writeCodes
      rw [e, e']
      rfl
    · have := body_append ht hu
      rw [← keptAll_cons, seg_append k3 k5.1 hl.1, seg_append k4 k5.2.1 hl.2, h1, h2] at this
      exact this

theorem formatRange_ok {i j : Nat} (h : i ≤ j) : Range i (j - i) (formatRange i j) := by
  unfold formatRange
  split
  · rename_i e
    rw [e]
    exact .one
  · split
    · rename_i e
      rw [e]
      have : natDigits i ++ [c%','] ++ natDigits 0 = natDigits i ++ b%",0" := by
        rw [List.append_assoc]
        congr 1
      rw [this]
      exact .none
    · exact .many (by omega)

theorem path_ends {i j i' j' : Nat} {g : List OpCode} (h : Path a b i j g i' j') (hne : g ≠ []) :
    ∃ first last, g.head? = some first ∧ g.getLast? = some last ∧ first.i1 = i ∧ first.j1 = j ∧ last.i2 = i' ∧ last.j2 = j' := by
  induction h with
  | nil => exact absurd rfl hne
  | @cons i j c cs i' j' h1 h2 h3 h4 ih =>
    refine ⟨c, ?_⟩
    cases cs with
    | nil => cases h4; exact ⟨c, rfl, rfl, h1, h2, rfl, rfl⟩
    | cons d ds =>
      obtain ⟨first, last, k1, k2, k3, k4, k5, k6⟩ := ih (by simp)
      exact ⟨last, rfl, by rw [List.getLast?_cons_cons]; exact k2, h1, h2, k5, k6⟩

/-- lines left out between hunks -/
structure Skip (a b : List Bytes) (p q i j : Nat) : Prop where
  li : p ≤ i
  lj : q ≤ j
  eq : i - p = j - q
  run : Run a b p q (i - p)

theorem Skip.refl {p q : Nat} : Skip a b p q p q := ⟨Nat.le_refl _, Nat.le_refl _, by omega, by rw [Nat.sub_self]; exact Run.zero⟩

theorem Skip.seg {p q i j : Nat} (h : Skip a b p q i j) (hi : i ≤ a.length) (hj : j ≤ b.length) : seg a p i = seg b q j := by
  have h1 := h.li
  have h2 := h.lj
  have h3 := h.eq
  have := Run.seg h.run (by omega) (by omega)
  rw [show p + (i - p) = i by omega, show q + (i - p) = j by omega] at this
  exact this

theorem writeGroup_ok {p q i j i' j' : Nat} {g : List OpCode} (hne : g ≠ []) (hs : Skip a b p q i j) (hg : Path a b i j g i' j') {text : Bytes}
    {kept : Nat} (ht : Hunks i' j' (a.drop i') (b.drop j') kept text) :
    ∃ x, x ≠ [] ∧ writeGroup a b g = some x ∧ Hunks p q (a.drop p) (b.drop q) (i - p + keptAll g + kept) (x ++ text) := by
  obtain ⟨first, last, k1, k2, k3, k4, k5, k6⟩ := path_ends hg hne
  obtain ⟨body, e, hb⟩ := writeCodes_ok hg
  have hl := hg.le
  obtain ⟨la, lb⟩ := hl.2.2 hne
  refine ⟨b%"@@ -" ++ formatRange i i' ++ b%" +" ++ formatRange j j' ++ b%" @@\n" ++ body, ?_, ?_, ?_⟩
  rotate_left
  · unfold writeGroup
    rw [k1, k2]
    dsimp only
    rw [e, k3, k4, k5, k6]
    rfl
  · have s1 := hs.li
    have s2 := hs.lj
    have sk := hs.seg (by omega) (by omega)
    have n1 : (seg a p i).length = i - p := seg_length (by omega)
    have n2 : (seg a i i').length = i' - i := seg_length la
    have n3 : (seg b j j').length = j' - j := seg_length lb
    have sq := hs.eq
    have := Hunks.hunk (p := p) (q := q) (same := seg a p i) (old := seg a i i') (new := seg b j j') (a := a.drop i') (b := b.drop j')
      (r1 := formatRange i i') (r2 := formatRange j j') (body := body) (text := text)
      (by rw [n1, n2, show p + (i - p) = i by omega]; exact formatRange_ok hl.1)
      (by rw [n1, n3, show q + (i - p) = j by omega]; exact formatRange_ok hl.2.1) hb
      (by rw [n1, n2, n3, show p + (i - p) + (i' - i) = i' by omega, show q + (i - p) + (j' - j) = j' by omega]; exact ht)
    rw [List.append_assoc (seg a p i), seg_drop hl.1 la, seg_drop s1 (by omega)] at this
    rw [n1, sk, List.append_assoc (seg b q j), seg_drop hl.2.1 lb, seg_drop s2 (by omega)] at this
    exact this
  · intro h
    have := congrArg List.length h
    simp at this

theorem Skip.drop {p q i j : Nat} (h : Skip a b p q i j) (hi : i ≤ a.length) (hj : j ≤ b.length) (e : a.drop i = b.drop j) : a.drop p = b.drop q := by
  rw [← seg_drop h.li hi, ← seg_drop h.lj hj, h.seg hi hj, e]

theorem Skip.code {p q : Nat} {c : OpCode} (h : Skip a b p q c.i1 c.j1) (hc : Good a b c) (ht : c.tag = .equal) : Skip a b p q c.i2 c.j2 := by
  have h1 := h.li
  have h2 := h.lj
  have h3 := h.eq
  have h4 := hc.li
  have h5 := hc.lj
  obtain ⟨h6, h7⟩ := hc.equal ht
  refine ⟨by omega, by omega, by omega, ?_⟩
  have := h.run.append (l := c.i2 - c.i1) (by rw [show p + (c.i1 - p) = c.i1 by omega, show q + (c.i1 - p) = c.j1 by omega]; exact h7)
  rw [show c.i1 - p + (c.i2 - c.i1) = c.i2 - p by omega] at this
  exact this

/-- the first `n` lines of an equal code -/
theorem Good.front {c : OpCode} (h : Good a b c) (ht : c.tag = .equal) (n : Nat) : Good a b ⟨c.tag, c.i1, min c.i2 (c.i1 + n), c.j1, min c.j2 (c.j1 + n)⟩ := by
  have h1 := h.li
  have h2 := h.lj
  have h3 := h.la
  have h4 := h.lb
  obtain ⟨h5, h6⟩ := h.equal ht
  refine ⟨by dsimp only; omega, by dsimp only; omega, by dsimp only; omega, by dsimp only; omega, fun _ => ?_, fun k => ?_, fun k => ?_⟩
  · dsimp only
    exact ⟨by omega, h6.sub (s := 0) (by omega)⟩
  · dsimp only at k
    rw [ht] at k
    cases k
  · dsimp only at k
    rw [ht] at k
    cases k

/-- the last `n` lines of an equal code -/
theorem Good.back {c : OpCode} (h : Good a b c) (ht : c.tag = .equal) (n : Nat) : Good a b ⟨c.tag, max c.i1 (c.i2 - n), c.i2, max c.j1 (c.j2 - n), c.j2⟩ := by
  have h1 := h.li
  have h2 := h.lj
  have h3 := h.la
  have h4 := h.lb
  obtain ⟨h5, h6⟩ := h.equal ht
  refine ⟨by dsimp only; omega, by dsimp only; omega, by dsimp only; omega, by dsimp only; omega, fun _ => ?_, fun k => ?_, fun k => ?_⟩
  · dsimp only
    refine ⟨by omega, ?_⟩
    have := h6.sub (s := max c.i1 (c.i2 - n) - c.i1) (l := c.i2 - max c.i1 (c.i2 - n)) (by omega)
    rw [show c.i1 + (max c.i1 (c.i2 - n) - c.i1) = max c.i1 (c.i2 - n) by omega,
      show c.j1 + (max c.i1 (c.i2 - n) - c.i1) = max c.j1 (c.j2 - n) by omega] at this
    exact this
  · dsimp only at k
    rw [ht] at k
    cases k
  · dsimp only at k
    rw [ht] at k
    cases k

theorem groupLoop_ok (n : Nat) : ∀ (cs group : List OpCode) (p q gi gj i j e f : Nat), Skip a b p q gi gj → Path a b gi gj group i j → Path a b i j cs e f →
    e ≤ a.length → f ≤ b.length → a.drop e = b.drop f →
    ∃ text, writeGroups a b (groupLoop n group cs) = some text ∧ Hunks p q (a.drop p) (b.drop q) (gi - p + keptAll group + keptAll cs + (a.length - e)) text ∧ (groupLoop n group cs = [] ↔ text = [])
  | [], group, p, q, gi, gj, i, j, e, f, hs, hg, hc, he, hf, hd => by
    cases hc
    unfold groupLoop
    split
    · rename_i h
      have hne : group ≠ [] := by
        intro e
        rw [e] at h
        exact absurd h.1 (Nat.not_lt_zero _)
      have hdone : Hunks i j (a.drop i) (b.drop j) (a.length - i) [] := by
        rw [← List.length_drop, hd]
        exact .done
      obtain ⟨x, hx, e, hh⟩ := writeGroup_ok hne hs hg hdone
      refine ⟨x ++ [], ?_, hh, ?_⟩
      · unfold writeGroups writeGroups
        rw [e]
        rfl
      · rw [List.append_nil]
        exact ⟨fun h => (nomatch h), fun h => absurd h hx⟩
    · rename_i h
      refine ⟨[], rfl, ?_, by simp⟩
      have hk : Skip a b p q i j ∧ gi - p + keptAll group = i - p := by
        cases hg with
        | nil => exact ⟨hs, rfl⟩
        | @cons _ _ c cs _ _ h1 h2 h3 h4 =>
          cases h4 with
          | nil =>
            have ht : c.tag = .equal := by
              simpa using h
            subst h1
            subst h2
            refine ⟨hs.code h3 ht, ?_⟩
            rw [keptAll_cons, keptOf_equal ht, keptAll_nil]
            have := hs.li
            have := h3.li
            omega
          | cons => simp at h
      have hpi := hk.1.li
      have hl : gi - p + keptAll group + keptAll [] + (a.length - i) = (b.drop q).length := by
        rw [hk.2, keptAll_nil, ← hk.1.drop he hf hd, List.length_drop]
        omega
      rw [hl, hk.1.drop he hf hd]
      exact .done
  | c :: cs, group, p, q, gi, gj, i, j, e, f, hs, hg, hc, he, hf, hd => by
    cases hc with
    | cons h1 h2 h3 h4 =>
      unfold groupLoop
      split
      · rename_i hk
        obtain ⟨ht, hn⟩ := hk
        have hfront := h3.front ht n
        have hback := h3.back ht n
        have k1 := h3.li
        have k2 := h3.lj
        have k3 := h3.la
        have k4 := h3.lb
        obtain ⟨k5, k6⟩ := h3.equal ht
        have hskip : Skip a b (min c.i2 (c.i1 + n)) (min c.j2 (c.j1 + n)) (max c.i1 (c.i2 - n)) (max c.j1 (c.j2 - n)) := by
          refine ⟨by omega, by omega, by omega, ?_⟩
          have := k6.sub (s := n) (l := max c.i1 (c.i2 - n) - min c.i2 (c.i1 + n)) (by omega)
          generalize max c.i1 (c.i2 - n) - min c.i2 (c.i1 + n) = l at this ⊢
          rw [show c.i1 + n = min c.i2 (c.i1 + n) by omega, show c.j1 + n = min c.j2 (c.j1 + n) by omega] at this
          exact this
        obtain ⟨text, t1, t2, -⟩ := groupLoop_ok n cs _ _ _ _ _ _ _ e f hskip (Path.single hback) h4 he hf hd
        have hg' := hg.append (Path.cons (c := ⟨c.tag, c.i1, min c.i2 (c.i1 + n), c.j1, min c.j2 (c.j1 + n)⟩) h1 h2 hfront .nil)
        obtain ⟨x, hx, e1, hh⟩ := writeGroup_ok (by simp) hs hg' t2
        have hkept : gi - p + keptAll (group ++ [⟨c.tag, c.i1, min c.i2 (c.i1 + n), c.j1, min c.j2 (c.j1 + n)⟩]) +
            (max c.i1 (c.i2 - n) - min c.i2 (c.i1 + n) + keptAll [⟨c.tag, max c.i1 (c.i2 - n), c.i2, max c.j1 (c.j2 - n), c.j2⟩] + keptAll cs + (a.length - e)) =
            gi - p + keptAll group + keptAll (c :: cs) + (a.length - e) := by
          rw [keptAll_append, keptAll_cons, keptAll_cons, keptAll_cons, keptAll_nil, keptOf_equal ht, keptOf_mk ht, keptOf_mk ht]
          omega
        rw [hkept] at hh
        refine ⟨x ++ text, ?_, hh, by simp [hx]⟩
        show (do let x ← writeGroup a b _; let y ← writeGroups a b _; return x ++ y) = _
        rw [e1, t1]
        rfl
      · have hkept : gi - p + keptAll (group ++ [c]) + keptAll cs = gi - p + keptAll group + keptAll (c :: cs) := by
          rw [keptAll_append, keptAll_cons, keptAll_cons, keptAll_nil]
          omega
        rw [← hkept]
        refine groupLoop_ok n cs (group ++ [c]) p q gi gj c.i2 c.j2 e f hs (hg.append (.cons h1 h2 h3 .nil)) h4 he hf hd

theorem fixLast_ok (n : Nat) : ∀ (cs : List OpCode) (i j : Nat), Path a b i j cs a.length b.length → i ≤ a.length → j ≤ b.length →
    ∃ e f, Path a b i j (fixLast n cs) e f ∧ e ≤ a.length ∧ f ≤ b.length ∧ a.drop e = b.drop f ∧ keptAll (fixLast n cs) + (a.length - e) = keptAll cs
  | [], i, j, h, hi, hj => by
    cases h
    exact ⟨_, _, .nil, hi, hj, by rw [List.drop_length, List.drop_length], by rw [Nat.sub_self]; rfl⟩
  | [c], i, j, h, hi, hj => by
    cases h with
    | cons h1 h2 h3 h4 =>
      unfold fixLast
      by_cases ht : c.tag = .equal
      · rw [if_pos ht]
        have k1 := h3.li
        have k2 := h3.lj
        have k3 := h3.la
        have k4 := h3.lb
        obtain ⟨k5, k6⟩ := h3.equal ht
        refine ⟨_, _, .cons h1 h2 (h3.front ht n) .nil, by dsimp only; omega, by dsimp only; omega, ?_⟩
        have e1 : c.i2 = a.length ∧ c.j2 = b.length := by
          cases hi2 : c.i2
          all_goals
            cases hj2 : c.j2
            all_goals
              rw [hi2, hj2] at h4
              generalize hu : a.length = u at h4
              generalize hv : b.length = v at h4
              cases h4
              exact ⟨rfl, rfl⟩
        have hk : Skip a b (min c.i2 (c.i1 + n)) (min c.j2 (c.j1 + n)) c.i2 c.j2 := by
          refine ⟨by omega, by omega, by omega, ?_⟩
          have := k6.sub (s := min c.i2 (c.i1 + n) - c.i1) (l := c.i2 - min c.i2 (c.i1 + n)) (by omega)
          rw [show c.i1 + (min c.i2 (c.i1 + n) - c.i1) = min c.i2 (c.i1 + n) by omega,
            show c.j1 + (min c.i2 (c.i1 + n) - c.i1) = min c.j2 (c.j1 + n) by omega] at this
          exact this
        refine ⟨hk.drop k3 k4 (by rw [e1.1, e1.2, List.drop_length, List.drop_length]), ?_⟩
        rw [keptAll_cons, keptAll_cons, keptAll_nil, keptOf_equal ht, keptOf_mk ht]
        dsimp only
        omega
      · rw [if_neg ht]
        exact ⟨a.length, b.length, .cons h1 h2 h3 h4, Nat.le_refl _, Nat.le_refl _, by rw [List.drop_length, List.drop_length], by rw [Nat.sub_self]; rfl⟩
  | c :: d :: cs, i, j, h, hi, hj => by
    cases h with
    | cons h1 h2 h3 h4 =>
      obtain ⟨e, f, k1, k2, k3, k4, k5⟩ := fixLast_ok n (d :: cs) c.i2 c.j2 h4 h3.la h3.lb
      refine ⟨e, f, .cons h1 h2 h3 k1, k2, k3, k4, ?_⟩
      rw [keptAll_cons, ← k5]
      show keptAll (c :: fixLast n (d :: cs)) + _ = _
      rw [keptAll_cons]
      omega

theorem fixFirst_ok (n : Nat) {cs : List OpCode} {i j e f : Nat} (h : Path a b i j cs e f) (hi : i ≤ a.length) (hj : j ≤ b.length) :
    ∃ i' j', Skip a b i j i' j' ∧ i' ≤ a.length ∧ j' ≤ b.length ∧ Path a b i' j' (fixFirst n cs) e f ∧ i' - i + keptAll (fixFirst n cs) = keptAll cs := by
  cases h with
  | nil => exact ⟨_, _, Skip.refl, hi, hj, .nil, by rw [Nat.sub_self, Nat.zero_add]; rfl⟩
  | @cons _ _ c cs _ _ h1 h2 h3 h4 =>
    unfold fixFirst
    dsimp only
    by_cases ht : c.tag = .equal
    · rw [if_pos ht]
      have k1 := h3.li
      have k2 := h3.lj
      have k3 := h3.la
      have k4 := h3.lb
      obtain ⟨k5, k6⟩ := h3.equal ht
      refine ⟨max c.i1 (c.i2 - n), max c.j1 (c.j2 - n), ⟨by omega, by omega, by omega, ?_⟩, by omega, by omega, .cons rfl rfl (h3.back ht n) h4, ?_⟩
      rotate_left
      · rw [keptAll_cons, keptAll_cons, keptOf_equal ht, keptOf_mk ht]
        omega
      rw [← h1, ← h2]
      have := k6.sub (s := 0) (l := max c.i1 (c.i2 - n) - c.i1) (by omega)
      exact this
    · rw [if_neg ht]
      exact ⟨i, j, Skip.refl, hi, hj, .cons h1 h2 h3 h4, by rw [Nat.sub_self, Nat.zero_add]⟩

/-- the text of a diff, if the codes tile both lists -/
theorem grouped_ok (n : Nat) {codes : List OpCode} (h : Path a b 0 0 codes a.length b.length) :
    ∃ text, writeGroups a b (groupLoop n [] (fixLast n (fixFirst n codes))) = some text ∧ Hunks 0 0 a b (keptAll codes) text ∧
      (groupLoop n [] (fixLast n (fixFirst n codes)) = [] ↔ text = []) := by
  obtain ⟨i, j, h1, h2, h3, h4, h5⟩ := fixFirst_ok n h (Nat.zero_le _) (Nat.zero_le _)
  obtain ⟨e, f, k1, k2, k3, k4, k5⟩ := fixLast_ok n _ i j h4 h2 h3
  have hk : keptAll codes = i - 0 + keptAll [] + keptAll (fixLast n (fixFirst n codes)) + (a.length - e) := by
    rw [← h5, ← k5, keptAll_nil]
    omega
  rw [hk]
  exact groupLoop_ok n _ [] 0 0 i j i j e f h1 .nil k1 k2 k3 k4

end

/-- all lines of the blocks -/
def sizes (xs : List Match) : Nat := (xs.map (·.size)).sum

theorem keptAll_opCodes : ∀ (xs : List Match) (i j : Nat), keptAll (opCodes i j xs) = sizes xs
  | [], _, _ => rfl
  | x :: xs, i, j => by
    unfold opCodes
    rw [keptAll_append, keptAll_append, keptAll_opCodes xs]
    have e1 : keptAll (if i < x.a ∧ j < x.b then [⟨.replace, i, x.a, j, x.b⟩] else if i < x.a then [⟨.delete, i, x.a, j, x.b⟩]
        else if j < x.b then [⟨.insert, i, x.a, j, x.b⟩] else []) = 0 := by
      split
      · rfl
      · split
        · rfl
        · split <;> rfl
    have e2 : keptAll (if x.size > 0 then [⟨.equal, x.a, x.a + x.size, x.b, x.b + x.size⟩] else []) = x.size := by
      split
      · rw [keptAll_cons, keptAll_nil, keptOf_equal rfl]
        dsimp only
        omega
      · rw [keptAll_nil]
        omega
    rw [e1, e2]
    show 0 + x.size + sizes xs = x.size + (xs.map (·.size)).sum
    unfold sizes
    omega

theorem sizes_cons (x : Match) (xs : List Match) : sizes (x :: xs) = x.size + sizes xs := rfl

theorem sizes_append (xs ys : List Match) : sizes (xs ++ ys) = sizes xs + sizes ys := by
  unfold sizes
  rw [List.map_append, List.sum_append]

theorem sizes_collapse : ∀ (xs : List Match) (cur : Match), sizes (collapse cur xs) = cur.size + sizes xs
  | [], cur => by
    unfold collapse
    split
    · rfl
    · show 0 = cur.size + 0
      omega
  | x :: xs, cur => by
    unfold collapse
    rw [sizes_cons]
    split
    · rw [sizes_collapse xs]
      dsimp only
      omega
    · split
      · rw [sizes_cons, sizes_collapse xs]
      · rw [sizes_collapse xs]
        omega

theorem matchBlocks_keeps {m : Matcher} {fuel alo ahi blo bhi : Nat} {x : Match} {xs : List Match} (hx : findLongestMatch m alo ahi blo bhi = some x)
    (h : matchBlocks m fuel alo ahi blo bhi = some xs) : x.size ≤ sizes xs := by
  cases fuel with
  | zero => cases h
  | succ fuel =>
    unfold matchBlocks at h
    rw [hx] at h
    dsimp only [Option.bind_some] at h
    by_cases hs : x.size > 0
    · rw [if_pos hs] at h
      obtain ⟨l, -, h⟩ := Option.bind_eq_some_iff.1 h
      obtain ⟨r, -, h⟩ := Option.bind_eq_some_iff.1 h
      injection h with h
      rw [← h, sizes_append, sizes_cons]
      omega
    · omega

theorem getOpCodes_ok {m : Matcher} (hm : Indexed m) {fuel : Nat} (hf : m.a.length < fuel) :
    ∃ codes, getOpCodes m fuel = some codes ∧ Path m.a m.b 0 0 codes m.a.length m.b.length ∧
      ∀ x, findLongestMatch m 0 m.a.length 0 m.b.length = some x → x.size ≤ keptAll codes := by
  obtain ⟨xs, h1, h2⟩ := matchBlocks_ok hm fuel 0 m.a.length 0 m.b.length (Nat.le_refl _) (Nat.le_refl _) (Nat.zero_le _) (Nat.zero_le _) (by omega)
  refine ⟨opCodes 0 0 (collapse ⟨0, 0, 0⟩ xs ++ [⟨m.a.length, m.b.length, 0⟩]), ?_, opCodes_ok rfl rfl _ 0 0 ?_, fun x hx => ?_⟩
  · unfold getOpCodes getMatchingBlocks
    rw [h1]
    rfl
  · exact collapse_ok xs ⟨0, 0, 0⟩ 0 0 (Nat.le_refl _) (Nat.le_refl _) Run.zero h2
  · have := matchBlocks_keeps hx h1
    rw [keptAll_opCodes, sizes_append, sizes_collapse]
    omega

theorem hunks_nil {p q kept : Nat} {a b : List Bytes} (h : Hunks p q a b kept []) : a = b ∧ kept = a.length := by
  generalize ht : ([] : Bytes) = t at h
  cases h with
  | done => exact ⟨rfl, rfl⟩
  | hunk => simp at ht

theorem unifiedDiff_ok (a b : List Bytes) {fuel : Nat} (hf : a.length < fuel) : ∃ kept text, unifiedDiff a b fuel = some text ∧ UnifiedDiff a b kept text ∧
    ∀ x, findLongestMatch (newMatcher a b) 0 a.length 0 b.length = some x → x.size ≤ kept := by
  obtain ⟨codes, h1, h2, h3⟩ := getOpCodes_ok (newMatcher_indexed a b) hf
  change Path a b 0 0 codes a.length b.length at h2
  refine ⟨keptAll codes, ?_⟩
  have key : ∃ groups text, getGroupedOpCodes (newMatcher a b) fuel 1 = some groups ∧ writeGroups a b groups = some text ∧ Hunks 0 0 a b (keptAll codes) text ∧
      (groups = [] ↔ text = []) := by
    unfold getGroupedOpCodes
    rw [h1]
    by_cases hc : codes = []
    · subst hc
      have e : a = [] ∧ b = [] := by
        generalize hu : a.length = u at h2
        generalize hv : b.length = v at h2
        cases h2
        exact ⟨List.length_eq_zero_iff.1 hu, List.length_eq_zero_iff.1 hv⟩
      rw [e.1, e.2]
      exact ⟨[], [], rfl, rfl, .done, by simp⟩
    · obtain ⟨text, t1, t2, t3⟩ := grouped_ok 1 h2
      have hl : ¬ codes.length = 0 := fun h => hc (List.length_eq_zero_iff.1 h)
      refine ⟨_, text, ?_, t1, t2, t3⟩
      show some (groupLoop 1 [] (fixLast 1 (fixFirst 1 (if codes.length = 0 then _ else codes)))) = _
      rw [if_neg hl]
  obtain ⟨groups, text, k1, k2, k3, k4⟩ := key
  refine ⟨(if groups = [] then [] else b%"--- Expected\n+++ Actual\n") ++ text, ?_, ?_, h3⟩
  · unfold unifiedDiff
    rw [k1]
    show (do let body ← writeGroups a b groups; return _) = _
    rw [k2]
    rfl
  · by_cases hg : groups = []
    · rw [if_pos hg, k4.1 hg]
      rw [k4.1 hg] at k3
      obtain ⟨e1, e2⟩ := hunks_nil k3
      rw [e2]
      exact .same e1
    · rw [if_neg hg]
      exact .hunks (fun h => hg (k4.2 h)) k3

end Diff
end Yarql
