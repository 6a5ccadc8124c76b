import Verif.Proofs.DiffText
import Verif.Spec.Context

/-!
# How much a diff shows (`/repo/assert/difflib/difflib.go`)
-/

namespace Yarql
namespace Diff
open Patch

/-! ### Marks -/

/-- `near l marks`: every `true` is next to a `false`, where `l` says that there is a `false` in front -/
def near : Bool → List Bool → Prop
  | _, [] => True
  | _, false :: ms => near true ms
  | l, true :: ms => (l = true ∨ ms.head? = some false) ∧ near false ms

theorem near_ok : ∀ (ms : List Bool) (l : Bool), near l ms → ∀ t, ms[t]? = some true →
    ms[t + 1]? = some false ∨ (t = 0 ∧ l = true) ∨ ∃ s, t = s + 1 ∧ ms[s]? = some false
  | [], _, _, t, ht => by simp at ht
  | false :: ms, l, h, t, ht => by
    cases t with
    | zero => simp at ht
    | succ t =>
      rcases near_ok ms true h t (by simpa using ht) with k | ⟨rfl, -⟩ | ⟨s, rfl, k⟩
      · exact Or.inl (by simpa using k)
      · exact Or.inr (Or.inr ⟨0, rfl, rfl⟩)
      · exact Or.inr (Or.inr ⟨s + 1, rfl, by simpa using k⟩)
  | true :: ms, l, h, t, ht => by
    cases t with
    | zero =>
      rcases h.1 with k | k
      · exact Or.inr (Or.inl ⟨rfl, k⟩)
      · left
        rw [List.head?_eq_getElem?] at k
        simpa using k
    | succ t =>
      rcases near_ok ms false h.2 t (by simpa using ht) with k | ⟨-, k⟩ | ⟨s, rfl, k⟩
      · exact Or.inl (by simpa using k)
      · cases k
      · exact Or.inr (Or.inr ⟨s + 1, rfl, by simpa using k⟩)

theorem near_near {ms : List Bool} (h : near false ms) : Context.Near ms := by
  intro t ht
  rcases near_ok ms false h t ht with k | ⟨-, k⟩ | k
  · exact Or.inl k
  · cases k
  · exact Or.inr k

theorem near_falses {l : Bool} {ms : List Bool} (h : near true ms) : ∀ (k : Nat), 0 < k → near l (List.replicate k false ++ ms)
  | 1, _ => h
  | k + 2, _ => by
    rw [List.replicate_succ]
    exact near_falses (l := true) h (k + 1) (by omega)

/-- the marks of a code -/
def marksOf (c : OpCode) : List Bool :=
  if c.tag = .equal then List.replicate (c.i2 - c.i1) true else List.replicate (c.i2 - c.i1 + (c.j2 - c.j1)) false

def isEq (c : OpCode) : Bool := decide (c.tag = .equal)

/-- a code is not empty -/
def Proper (c : OpCode) : Prop := c.i1 < c.i2 ∨ (c.tag ≠ .equal ∧ c.j1 < c.j2)

/-- codes of a group: `l` tells if there is a change in front, `r` if there is one behind -/
def Tidy : Bool → List OpCode → Bool → Prop
  | _, [], _ => True
  | l, c :: cs, r => Proper c ∧ (isEq c = true →
      (match cs with
        | [] => (c.i2 - c.i1 = 1 ∧ (l = true ∨ r = true)) ∨ (c.i2 - c.i1 = 2 ∧ l = true ∧ r = true)
        | d :: _ => isEq d = false ∧ (c.i2 - c.i1 = 1 ∨ (c.i2 - c.i1 = 2 ∧ l = true)))) ∧ Tidy (!isEq c) cs r

theorem marksOf_eq {c : OpCode} (h : isEq c = true) : marksOf c = List.replicate (c.i2 - c.i1) true := if_pos (of_decide_eq_true h)
theorem marksOf_ne {c : OpCode} (h : isEq c = false) : marksOf c = List.replicate (c.i2 - c.i1 + (c.j2 - c.j1)) false := if_neg (of_decide_eq_false h)

theorem head_marks {c : OpCode} (hp : Proper c) (h : isEq c = false) (cs : List OpCode) : ((c :: cs).flatMap marksOf).head? = some false := by
  rw [List.flatMap_cons, marksOf_ne h]
  obtain ⟨k, hk⟩ : ∃ k, c.i2 - c.i1 + (c.j2 - c.j1) = k + 1 := ⟨c.i2 - c.i1 + (c.j2 - c.j1) - 1, by
    rcases hp with k | ⟨-, k⟩ <;> omega⟩
  rw [hk]
  rfl

theorem tidy_near : ∀ (g : List OpCode) (l : Bool), Tidy l g false → near l (g.flatMap marksOf)
  | [], _, _ => trivial
  | c :: cs, l, h => by
    obtain ⟨h1, h2, h3⟩ := h
    have ih := tidy_near cs _ h3
    rw [List.flatMap_cons]
    cases hc : isEq c with
    | false =>
      rw [hc] at ih
      rw [marksOf_ne hc]
      exact near_falses ih _ (by rcases h1 with k | ⟨-, k⟩ <;> omega)
    | true =>
      rw [hc] at ih
      have h2 := h2 hc
      rw [marksOf_eq hc]
      cases cs with
      | nil =>
        rcases h2 with ⟨e, k | k⟩ | ⟨-, -, k⟩
        · rw [e]; exact ⟨Or.inl k, trivial⟩
        · cases k
        · cases k
      | cons d ds =>
        obtain ⟨hd, e | ⟨e, k⟩⟩ := h2
        · rw [e]; exact ⟨Or.inr (head_marks h3.1 hd ds), ih⟩
        · rw [e]; exact ⟨Or.inl k, Or.inr (head_marks h3.1 hd ds), ih⟩

/-- a code behind a group -/
theorem Tidy.snoc : ∀ {g : List OpCode} {l r : Bool} {d : OpCode}, Tidy l g (!isEq d) → Proper d → (∀ c, g.getLast? = some c → isEq c = true → isEq d = false) →
    (isEq d = true → r = true ∧ (d.i2 - d.i1 = 1 ∨ (d.i2 - d.i1 = 2 ∧ (g ≠ [] ∨ l = true)))) → Tidy l (g ++ [d]) r
  | [], l, r, d, _, hp, _, hd => by
    refine ⟨hp, fun h => ?_, trivial⟩
    obtain ⟨hr, e | ⟨e, k | k⟩⟩ := hd h
    · exact Or.inl ⟨e, Or.inr hr⟩
    · exact absurd rfl k
    · exact Or.inr ⟨e, k, hr⟩
  | [c], l, r, d, hg, hp, hl, hd => by
    obtain ⟨h1, h2, -⟩ := hg
    have hl := hl c rfl
    refine ⟨h1, fun h => ?_, hp, fun h => ?_, trivial⟩
    · have k := h2 h
      refine ⟨hl h, ?_⟩
      rcases k with ⟨e, -⟩ | ⟨e, k, -⟩
      · exact Or.inl e
      · exact Or.inr ⟨e, k⟩
    · have hc : isEq c = false := by
        cases hc : isEq c with
        | false => rfl
        | true => rw [hl hc] at h; cases h
      obtain ⟨hr, e | ⟨e, -⟩⟩ := hd h
      · exact Or.inl ⟨e, Or.inr hr⟩
      · exact Or.inr ⟨e, by rw [hc]; rfl, hr⟩
  | c :: x :: xs, l, r, d, hg, hp, hl, hd => by
    obtain ⟨h1, h2, h3⟩ := hg
    refine ⟨h1, h2, Tidy.snoc (g := x :: xs) h3 hp (fun c' hc' => hl c' (by rw [List.getLast?_cons_cons]; exact hc')) (fun h => ?_)⟩
    obtain ⟨hr, e | ⟨e, -⟩⟩ := hd h
    · exact ⟨hr, Or.inl e⟩
    · exact ⟨hr, Or.inr ⟨e, Or.inl (by simp)⟩⟩

/-- what a group is allowed if nothing follows -/
theorem Tidy.close : ∀ {g : List OpCode} {l : Bool}, Tidy l g true → (∀ c, g.getLast? = some c → isEq c = true → c.i2 - c.i1 = 1 ∧ (l = true ∨ 2 ≤ g.length)) →
    Tidy l g false
  | [], _, _, _ => trivial
  | [c], l, h, hl => by
    obtain ⟨h1, h2, -⟩ := h
    refine ⟨h1, fun h => ?_, trivial⟩
    obtain ⟨e, k | k⟩ := hl c rfl h
    · exact Or.inl ⟨e, Or.inl k⟩
    · exact absurd k (by simp)
  | c :: x :: xs, l, h, hl => by
    obtain ⟨h1, h2, h3⟩ := h
    refine ⟨h1, h2, Tidy.close h3 (fun c' hc' hq => ?_)⟩
    refine ⟨(hl c' (by rw [List.getLast?_cons_cons]; exact hc') hq).1, ?_⟩
    cases xs with
    | nil =>
      left
      injection hc' with hc'
      rw [← show x = c' from hc'] at hq
      cases hc : isEq c with
      | false => rfl
      | true => rw [(h2 hc).1] at hq; cases hq
    | cons => right; simp

theorem Tidy.mono : ∀ {g : List OpCode} {l r : Bool}, Tidy l g r → Tidy l g true
  | [], _, _, _ => trivial
  | [c], l, r, h => by
    obtain ⟨h1, h2, -⟩ := h
    refine ⟨h1, fun h => ?_, trivial⟩
    rcases h2 h with ⟨e, -⟩ | ⟨e, k, -⟩
    · exact Or.inl ⟨e, Or.inr rfl⟩
    · exact Or.inr ⟨e, k, rfl⟩
  | c :: x :: xs, l, r, h => ⟨h.1, h.2.1, Tidy.mono h.2.2⟩

theorem Tidy.proper : ∀ {g : List OpCode} {l r : Bool}, Tidy l g r → ∀ c ∈ g, Proper c
  | [], _, _, _, c, hc => by cases hc
  | d :: g, _, _, h, c, hc => by
    rcases List.mem_cons.1 hc with rfl | hc
    · exact h.1
    · exact Tidy.proper h.2.2 c hc

theorem marks_equal {c : OpCode} (hp : Proper c) (h : isEq c = true) : ∃ k, marksOf c = List.replicate (k + 1) true := by
  refine ⟨c.i2 - c.i1 - 1, ?_⟩
  rw [marksOf_eq h]
  rcases hp with k | ⟨k, -⟩
  · rw [show c.i2 - c.i1 - 1 + 1 = c.i2 - c.i1 by omega]
  · exact absurd (of_decide_eq_true h) k

theorem marks_head {c : OpCode} {cs : List OpCode} (hp : Proper c) (h : ((c :: cs).flatMap marksOf).head? = some false) : isEq c = false := by
  cases hc : isEq c with
  | false => rfl
  | true =>
    obtain ⟨k, hk⟩ := marks_equal hp hc
    rw [List.flatMap_cons, hk] at h
    simp [List.replicate_succ] at h

theorem marks_last {c : OpCode} {cs : List OpCode} (hp : Proper c) (h : ((cs ++ [c]).flatMap marksOf).getLast? = some false) : isEq c = false := by
  cases hc : isEq c with
  | false => rfl
  | true =>
    obtain ⟨k, hk⟩ := marks_equal hp hc
    rw [List.flatMap_append, List.flatMap_cons, List.flatMap_nil, List.append_nil, hk, List.replicate_succ', ← List.append_assoc, List.getLast?_concat] at h
    cases h

theorem marks_ne {g : List OpCode} (hne : g ≠ []) (hp : ∀ c ∈ g, Proper c) : g.flatMap marksOf ≠ [] := by
  cases g with
  | nil => exact absurd rfl hne
  | cons c cs =>
    have hc := hp c (by simp)
    rw [List.flatMap_cons]
    cases h : isEq c with
    | true =>
      obtain ⟨k, hk⟩ := marks_equal hc h
      rw [hk]
      simp [List.replicate_succ]
    | false =>
      have := head_marks hc h []
      intro e
      rw [List.flatMap_cons, List.flatMap_nil, List.append_nil] at this
      rw [(List.append_eq_nil_iff.1 e).1] at this
      cases this

/-! ### The text -/

section
variable {a b : List Bytes}

theorem cbody_append {o n o' n' : List Bytes} {t t' : Bytes} {k k' : List Bool} (h : Context.Body o n k t) (h' : Context.Body o' n' k' t') :
    Context.Body (o ++ o') (n ++ n') (k ++ k') (t ++ t') := by
  induction h with
  | nil => exact h'
  | both _ ih => simpa using Context.Body.both ih
  | old _ ih => simpa using Context.Body.old ih
  | new _ ih => simpa using Context.Body.new ih

theorem cbody_both : ∀ (l : List Bytes), Context.Body l l (List.replicate l.length true) (marked c%' ' l)
  | [] => .nil
  | x :: l => by simpa [marked, List.replicate_succ] using Context.Body.both (line := x) (cbody_both l)

theorem cbody_old : ∀ (l : List Bytes), Context.Body l [] (List.replicate l.length false) (marked c%'-' l)
  | [] => .nil
  | x :: l => by simpa [marked, List.replicate_succ] using Context.Body.old (line := x) (cbody_old l)

theorem cbody_new : ∀ (l : List Bytes), Context.Body [] l (List.replicate l.length false) (marked c%'+' l)
  | [] => .nil
  | x :: l => by simpa [marked, List.replicate_succ] using Context.Body.new (line := x) (cbody_new l)

theorem writeCode_marks {c : OpCode} (h : Good a b c) : ∃ t, writeCode a b c = some t ∧ Context.Body (seg a c.i1 c.i2) (seg b c.j1 c.j2) (marksOf c) t := by
  unfold writeCode
  rw [slice_seg h.li h.la, slice_seg h.lj h.lb]
  have l1 := seg_length (i := c.i1) h.la
  have l2 := seg_length (i := c.j1) h.lb
  have kinds : c.tag = .equal ∨ c.tag = .replace ∨ c.tag = .delete ∨ c.tag = .insert := by cases c.tag <;> simp
  rcases kinds with k | k | k | k
  · rw [if_pos k, marksOf_eq (decide_eq_true k), ← l1, h.seg k]
    exact ⟨_, rfl, cbody_both _⟩
  all_goals rw [marksOf_ne (decide_eq_false (by rw [k]; exact fun h => nomatch h)), ← l1, ← l2, ← List.replicate_append_replicate]
  · rw [k]
    exact ⟨_, rfl, by simpa using cbody_append (cbody_old (seg a c.i1 c.i2)) (cbody_new (seg b c.j1 c.j2))⟩
  · have e := h.delete k
    rw [k, e, seg_self]
    exact ⟨_, rfl, by simpa using cbody_old (seg a c.i1 c.i2)⟩
  · have e := h.insert k
    rw [k, e, seg_self]
    exact ⟨_, rfl, by simpa using cbody_new (seg b c.j1 c.j2)⟩

theorem writeCodes_marks : ∀ {i j i' j' : Nat} {g : List OpCode}, Path a b i j g i' j' →
    ∃ t, writeCodes a b g = some t ∧ Context.Body (seg a i i') (seg b j j') (g.flatMap marksOf) t := by
  intro i j i' j' g h
  induction h with
  | nil => exact ⟨[], rfl, by rw [seg_self, seg_self]; exact .nil⟩
  | @cons i j c cs i' j' h1 h2 h3 h4 ih =>
    obtain ⟨t, e, ht⟩ := writeCode_marks h3
    obtain ⟨u, e', hu⟩ := ih
    have k3 := h3.li
    have k4 := h3.lj
    have k5 := h4.le
    have hl : i' ≤ a.length ∧ j' ≤ b.length := by
      cases cs with
      | nil => cases h4; exact ⟨h3.la, h3.lb⟩
      | cons => exact k5.2.2 (by simp)
    refine ⟨t ++ u, ?_, ?_⟩
    · unfold writeCodes
      rw [e, e']
      rfl
    · have := cbody_append ht hu
      rw [seg_append k3 k5.1 hl.1, seg_append k4 k5.2.1 hl.2, h1, h2] at this
      rw [List.flatMap_cons]
      exact this

theorem writeGroup_shown {p q i j i' j' : Nat} {g : List OpCode} (hne : g ≠ []) (hs : Skip a b p q i j) (hg : Path a b i j g i' j')
    (htidy : Tidy false g false) (hfirst : ∀ c, g.head? = some c → isEq c = false → i = 0 ∧ j = 0)
    (hlast : ∀ c, g.getLast? = some c → isEq c = false → i' = a.length ∧ j' = b.length) (hgap : p < i ∨ p = 0 ∧ q = 0) {text : Bytes}
    (ht : Context.Hunks i' j' (a.drop i') (b.drop j') text) :
    ∃ x, writeGroup a b g = some x ∧ Context.Hunks p q (a.drop p) (b.drop q) (x ++ text) := by
  obtain ⟨first, last, k1, k2, k3, k4, k5, k6⟩ := path_ends hg hne
  obtain ⟨body, e, hb⟩ := writeCodes_marks hg
  have hl := hg.le
  obtain ⟨la, lb⟩ := hl.2.2 hne
  refine ⟨b%"@@ -" ++ formatRange i i' ++ b%" +" ++ formatRange j j' ++ b%" @@\n" ++ body, ?_, ?_⟩
  · unfold writeGroup
    rw [k1, k2]
    dsimp only
    rw [e, k3, k4, k5, k6]
    rfl
  · have s1 := hs.li
    have s2 := hs.lj
    have sk := hs.seg (by omega) (by omega)
    have n1 : (seg a p i).length = i - p := seg_length (by omega)
    have n2 : (seg a i i').length = i' - i := seg_length la
    have n3 : (seg b j j').length = j' - j := seg_length lb
    have sq := hs.eq
    have hprop := htidy.proper
    have this := Context.Hunks.hunk (p := p) (q := q) (same := seg a p i) (old := seg a i i') (new := seg b j j') (a := a.drop i') (b := b.drop j')
      (r1 := formatRange i i') (r2 := formatRange j j') (body := body) (text := text)
      (by rw [n1, n2, show p + (i - p) = i by omega]; exact formatRange_ok hl.1)
      (by rw [n1, n3, show q + (i - p) = j by omega]; exact formatRange_ok hl.2.1) hb (marks_ne hne hprop) (near_near (tidy_near _ _ htidy))
      (fun h => by
        have : isEq first = false := by
          cases g with
          | nil => cases k1
          | cons c cs =>
            injection k1 with k1
            rw [← k1]
            exact marks_head (hprop c (by simp)) h
        have := hfirst _ k1 this
        rw [n1]
        omega)
      (fun h => by
        have : isEq last = false := by
          obtain ⟨cs, e⟩ := List.getLast?_eq_some_iff.1 k2
          rw [e] at h
          exact marks_last (hprop last (by rw [e]; simp)) h
        have := hlast _ k2 this
        rw [this.1, this.2, List.drop_length, List.drop_length]
        exact ⟨rfl, rfl⟩)
      (by
        rcases hgap with k | k
        · left
          intro h
          rw [h] at n1
          change 0 = i - p at n1
          omega
        · exact Or.inr k)
      (by rw [n1, n2, n3, show p + (i - p) + (i' - i) = i' by omega, show q + (i - p) + (j' - j) = j' by omega]; exact ht)
    rw [List.append_assoc (seg a p i), seg_drop hl.1 la, seg_drop s1 (by omega)] at this
    rw [sk, List.append_assoc (seg b q j), seg_drop hl.2.1 lb, seg_drop s2 (by omega)] at this
    exact this

/-- codes that follow: changes and kept lines take turns, the last is not more than one kept line; `p` says that kept lines are in front -/
def Alt : Bool → List OpCode → Prop
  | _, [] => True
  | p, c :: cs => Proper c ∧ (isEq c = true → p = false ∧ (cs = [] → c.i2 - c.i1 = 1)) ∧ Alt (isEq c) cs

/-- the last code keeps lines -/
def lastEq (g : List OpCode) : Bool := (g.getLast?.map isEq).getD false

theorem lastEq_snoc (g : List OpCode) (c : OpCode) : lastEq (g ++ [c]) = isEq c := by
  unfold lastEq
  rw [List.getLast?_concat]
  rfl

theorem lastEq_false {g : List OpCode} (h : lastEq g = false) : ∀ c, g.getLast? = some c → isEq c = true → False := by
  intro c hc hq
  unfold lastEq at h
  rw [hc] at h
  change isEq c = false at h
  rw [h] at hq
  cases hq

theorem groupLoop_shown : ∀ (cs group : List OpCode) (p q gi gj i j e f : Nat), Skip a b p q gi gj → Path a b gi gj group i j → Path a b i j cs e f →
    e ≤ a.length → f ≤ b.length → a.drop e = b.drop f → Tidy false group true → Alt (lastEq group) cs →
    (cs = [] → ∀ c, group.getLast? = some c → isEq c = true → c.i2 - c.i1 = 1) →
    (group = [] → ∀ c, cs.head? = some c → isEq c = true → c.i2 - c.i1 = 1) →
    (∀ c, (group ++ cs).head? = some c → isEq c = false → gi = 0 ∧ gj = 0) →
    (∀ c, (group ++ cs).getLast? = some c → isEq c = false → e = a.length ∧ f = b.length) →
    (p < gi ∨ p = 0 ∧ q = 0) →
    ∃ text, writeGroups a b (groupLoop 1 group cs) = some text ∧ Context.Hunks p q (a.drop p) (b.drop q) text
  | [], group, p, q, gi, gj, i, j, e, f, hs, hg, hc, he, hf, hd, htidy, halt, hend, hstart, hfirst, hlast, hgap => by
    cases hc
    rw [List.append_nil] at hfirst hlast
    unfold groupLoop
    split
    · rename_i h
      have hne : group ≠ [] := by
        intro e
        rw [e] at h
        exact absurd h.1 (Nat.not_lt_zero _)
      have hdone : Context.Hunks i j (a.drop i) (b.drop j) [] := by
        rw [hd]
        exact .done
      obtain ⟨x, e, hh⟩ := writeGroup_shown hne hs hg (htidy.close (fun c hc hq => ⟨hend rfl c hc hq, Or.inr (by
        rcases group with _ | ⟨g1, _ | ⟨g2, gs⟩⟩
        · exact absurd rfl hne
        · exfalso
          injection hc with hc
          refine h.2 ⟨rfl, ?_⟩
          have : g1.tag = .equal := by rw [show g1 = c from hc]; exact of_decide_eq_true hq
          show some g1.tag = _
          rw [this]
        · simp)⟩)) hfirst hlast hgap hdone
      refine ⟨x ++ [], ?_, hh⟩
      unfold writeGroups writeGroups
      rw [e]
      rfl
    · rename_i h
      refine ⟨[], rfl, ?_⟩
      have hk : Skip a b p q i j := by
        cases hg with
        | nil => exact hs
        | @cons _ _ c cs _ _ h1 h2 h3 h4 =>
          cases h4 with
          | nil =>
            have ht : c.tag = .equal := by
              simpa using h
            subst h1
            subst h2
            exact hs.code h3 ht
          | cons => simp at h
      rw [hk.drop he hf hd]
      exact .done
  | c :: cs, group, p, q, gi, gj, i, j, e, f, hs, hg, hc, he, hf, hd, htidy, halt, hend, hstart, hfirst, hlast, hgap => by
    obtain ⟨hp, heq, halt⟩ := halt
    cases hc with
    | cons h1 h2 h3 h4 =>
      unfold groupLoop
      have k1 := h3.li
      have k2 := h3.lj
      have k3 := h3.la
      have k4 := h3.lb
      split
      · rename_i hk
        obtain ⟨ht, hn⟩ := hk
        have hq : isEq c = true := decide_eq_true ht
        have hne : group ≠ [] := fun h => by
          have := hstart h c rfl hq
          omega
        have hnl := lastEq_false (heq hq).1
        have hfront := h3.front ht 1
        have hback := h3.back ht 1
        obtain ⟨k5, k6⟩ := h3.equal ht
        have hskip : Skip a b (min c.i2 (c.i1 + 1)) (min c.j2 (c.j1 + 1)) (max c.i1 (c.i2 - 1)) (max c.j1 (c.j2 - 1)) := by
          refine ⟨by omega, by omega, by omega, ?_⟩
          have := k6.sub (s := 1) (l := max c.i1 (c.i2 - 1) - min c.i2 (c.i1 + 1)) (by omega)
          generalize max c.i1 (c.i2 - 1) - min c.i2 (c.i1 + 1) = l at this ⊢
          rw [show c.i1 + 1 = min c.i2 (c.i1 + 1) by omega, show c.j1 + 1 = min c.j2 (c.j1 + 1) by omega] at this
          exact this
        have hqb : isEq ⟨c.tag, max c.i1 (c.i2 - 1), c.i2, max c.j1 (c.j2 - 1), c.j2⟩ = true := hq
        have hqf : isEq ⟨c.tag, c.i1, min c.i2 (c.i1 + 1), c.j1, min c.j2 (c.j1 + 1)⟩ = true := hq
        obtain ⟨text, t1, t2⟩ := groupLoop_shown cs [⟨c.tag, max c.i1 (c.i2 - 1), c.i2, max c.j1 (c.j2 - 1), c.j2⟩] _ _ _ _ _ _ e f hskip
          (Path.single hback) h4 he hf hd
          ⟨Or.inl (by dsimp only; omega), fun _ => Or.inl ⟨by dsimp only; omega, Or.inr rfl⟩, trivial⟩
          (by have k : lastEq [(⟨c.tag, max c.i1 (c.i2 - 1), c.i2, max c.j1 (c.j2 - 1), c.j2⟩ : OpCode)] = true := hqb
              rw [k, ← hq]; exact halt)
          (fun _ d hd _ => by
            injection hd with hd
            rw [← show (⟨c.tag, max c.i1 (c.i2 - 1), c.i2, max c.j1 (c.j2 - 1), c.j2⟩ : OpCode) = d from hd]
            dsimp only
            omega)
          (fun h => absurd h (by simp))
          (fun d hd hf => by
            injection hd with hd
            rw [← hd, hqb] at hf
            cases hf)
          (fun d hd hf => by
            cases cs with
            | nil =>
              injection hd with hd
              rw [← show (⟨c.tag, max c.i1 (c.i2 - 1), c.i2, max c.j1 (c.j2 - 1), c.j2⟩ : OpCode) = d from hd, hqb] at hf
              cases hf
            | cons x xs =>
              refine hlast d ?_ hf
              change List.getLast? (_ :: x :: xs) = _ at hd
              rw [List.getLast?_cons_cons] at hd
              rw [List.getLast?_append, List.getLast?_cons_cons, hd]
              rfl)
          (Or.inl (by omega))
        have hg' := hg.append (Path.cons (c := ⟨c.tag, c.i1, min c.i2 (c.i1 + 1), c.j1, min c.j2 (c.j1 + 1)⟩) h1 h2 hfront .nil)
        have htidy0 : Tidy false group false := htidy.close (fun d hd hq => (hnl d hd hq).elim)
        have htidy' : Tidy false (group ++ [⟨c.tag, c.i1, min c.i2 (c.i1 + 1), c.j1, min c.j2 (c.j1 + 1)⟩]) false := by
          refine (Tidy.snoc (r := true) (by rw [hqf]; exact htidy0) (Or.inl (by dsimp only; omega)) (fun d hd hq => (hnl d hd hq).elim)
            (fun _ => ⟨rfl, Or.inl (by dsimp only; omega)⟩)).close (fun d hd _ => ?_)
          rw [List.getLast?_concat] at hd
          injection hd with hd
          subst hd
          refine ⟨by dsimp only; omega, Or.inr ?_⟩
          rw [List.length_append]
          have := List.length_pos_iff.2 hne
          simp only [List.length_cons, List.length_nil]
          omega
        obtain ⟨x, e1, hh⟩ := writeGroup_shown (by simp) hs hg' htidy'
          (fun d hd hf => hfirst d (by
            cases group with
            | nil => exact absurd rfl hne
            | cons => exact hd) hf)
          (fun d hd hf => by
            rw [List.getLast?_concat] at hd
            injection hd with hd
            rw [← hd, hqf] at hf
            cases hf) hgap t2
        refine ⟨x ++ text, ?_, hh⟩
        show (do let x ← writeGroup a b _; let y ← writeGroups a b _; return x ++ y) = _
        rw [e1, t1]
        rfl
      · rename_i hk
        have hsmall : isEq c = true → c.i2 - c.i1 = 1 ∨ c.i2 - c.i1 = 2 := by
          intro hq
          have ht := of_decide_eq_true hq
          rcases hp with k | ⟨k, -⟩
          · have : ¬ c.i2 - c.i1 > 1 + 1 := fun h => hk ⟨ht, h⟩
            omega
          · exact absurd ht k
        have htidy' : Tidy false (group ++ [c]) true := by
          cases hq : isEq c with
          | false => exact Tidy.snoc (by rw [hq]; exact htidy) hp (fun _ _ _ => hq) (fun h => by rw [hq] at h; cases h)
          | true =>
            have hnl := lastEq_false (heq hq).1
            refine Tidy.snoc (by rw [hq]; exact htidy.close (fun d hd hq => (hnl d hd hq).elim)) hp (fun d hd hq => (hnl d hd hq).elim) (fun _ => ⟨rfl, ?_⟩)
            rcases hsmall hq with k | k
            · exact Or.inl k
            · refine Or.inr ⟨k, Or.inl (fun h => ?_)⟩
              have := hstart h c rfl hq
              omega
        refine groupLoop_shown cs (group ++ [c]) p q gi gj c.i2 c.j2 e f hs (hg.append (.cons h1 h2 h3 .nil)) h4 he hf hd htidy'
          (by rw [lastEq_snoc]; exact halt) (fun h d hd hq => ?_) (fun h => absurd h (by simp)) ?_ ?_ hgap
        · rw [List.getLast?_concat] at hd
          injection hd with hd
          subst hd
          exact (heq hq).2 h
        · rw [List.append_assoc]; exact hfirst
        · rw [List.append_assoc]; exact hlast

end

/-! ### The codes -/

/-- changes and kept lines take turns -/
def Turns : Bool → List OpCode → Prop
  | _, [] => True
  | p, c :: cs => Proper c ∧ (isEq c = true → p = false) ∧ Turns (isEq c) cs

/-- blocks with lines left out in between; `p` says that there have to be some at `(i, j)` -/
def Apart : Bool → Nat → Nat → List Match → Prop
  | _, _, _, [] => True
  | p, i, j, x :: xs => 0 < x.size ∧ (p = true → ¬ (i = x.a ∧ j = x.b)) ∧ Apart true (x.a + x.size) (x.b + x.size) xs

theorem matchBlocks_pos {m : Matcher} : ∀ (fuel alo ahi blo bhi : Nat) (xs : List Match), matchBlocks m fuel alo ahi blo bhi = some xs → ∀ x ∈ xs, 0 < x.size
  | 0, _, _, _, _, _, h => by cases h
  | fuel + 1, alo, ahi, blo, bhi, xs, h => by
    unfold matchBlocks at h
    obtain ⟨x, -, h⟩ := Option.bind_eq_some_iff.1 h
    by_cases hs : x.size > 0
    · rw [if_pos hs] at h
      obtain ⟨l, hl, h⟩ := Option.bind_eq_some_iff.1 h
      obtain ⟨r, hr, h⟩ := Option.bind_eq_some_iff.1 h
      injection h with h
      subst h
      have side : ∀ {P : Prop} [Decidable P] {alo ahi blo bhi : Nat} {l : List Match}, (if P then matchBlocks m fuel alo ahi blo bhi else some []) = some l →
          ∀ y ∈ l, 0 < y.size := by
        intro P _ alo ahi blo bhi l h
        by_cases hP : P
        · rw [if_pos hP] at h
          exact matchBlocks_pos fuel _ _ _ _ _ h
        · rw [if_neg hP] at h
          injection h with h
          subst h
          intro y hy
          cases hy
      intro y hy
      rcases List.mem_append.1 hy with hy | hy
      · exact side hl y hy
      · rcases List.mem_cons.1 hy with rfl | hy
        · exact hs
        · exact side hr y hy
    · rw [if_neg hs] at h
      injection h with h
      subst h
      intro y hy
      cases hy

theorem collapse_apart : ∀ (xs : List Match) (cur : Match), 0 < cur.size → (∀ x ∈ xs, 0 < x.size) →
    ∃ y ys, collapse cur xs = y :: ys ∧ y.a = cur.a ∧ y.b = cur.b ∧ 0 < y.size ∧ Apart true (y.a + y.size) (y.b + y.size) ys
  | [], cur, h, _ => ⟨cur, [], by unfold collapse; rw [if_pos h], rfl, rfl, h, trivial⟩
  | x :: xs, cur, h, hx => by
    have hx1 := hx x (by simp)
    have hx2 : ∀ y ∈ xs, 0 < y.size := fun y hy => hx y (by simp [hy])
    unfold collapse
    by_cases he : cur.a + cur.size = x.a ∧ cur.b + cur.size = x.b
    · rw [if_pos he]
      exact collapse_apart xs ⟨cur.a, cur.b, cur.size + x.size⟩ (by dsimp only; omega) hx2
    · rw [if_neg he, if_pos h]
      obtain ⟨y, ys, e, e1, e2, e3, e4⟩ := collapse_apart xs x hx1 hx2
      rw [e]
      exact ⟨cur, _, rfl, rfl, rfl, h, e3, fun _ => by rw [e1, e2]; exact he, e4⟩

theorem collapse_start {xs : List Match} (hx : ∀ x ∈ xs, 0 < x.size) : Apart false 0 0 (collapse ⟨0, 0, 0⟩ xs) := by
  have head : ∀ (x : Match) (xs : List Match), 0 < x.size → (∀ y ∈ xs, 0 < y.size) → Apart false 0 0 (collapse x xs) := by
    intro x xs h hx
    obtain ⟨y, ys, e, -, -, e3, e4⟩ := collapse_apart xs x h hx
    rw [e]
    exact ⟨e3, (fun h => nomatch h), e4⟩
  cases xs with
  | nil => exact trivial
  | cons x xs =>
    have hx1 := hx x (by simp)
    have hx2 : ∀ y ∈ xs, 0 < y.size := fun y hy => hx y (by simp [hy])
    unfold collapse
    by_cases he : (⟨0, 0, 0⟩ : Match).a + (⟨0, 0, 0⟩ : Match).size = x.a ∧ (⟨0, 0, 0⟩ : Match).b + (⟨0, 0, 0⟩ : Match).size = x.b
    · rw [if_pos he]
      exact head _ xs (by dsimp only; omega) hx2
    · rw [if_neg he, if_neg (Nat.lt_irrefl 0)]
      exact head x xs hx1 hx2

theorem turns_false {b : Bool} {cs : List OpCode} (h : Turns b cs) : Turns false cs := by
  cases cs with
  | nil => exact trivial
  | cons c cs => exact ⟨h.1, fun _ => rfl, h.2.2⟩

theorem turns_gap {i j p q : Nat} (hi : i ≤ p) (hj : j ≤ q) {b : Bool} {cs : List OpCode} (h0 : i = p → j = q → Turns b cs) (h1 : Turns false cs) :
    Turns b ((if i < p ∧ j < q then [⟨.replace, i, p, j, q⟩] else if i < p then [⟨.delete, i, p, j, q⟩] else if j < q then [⟨.insert, i, p, j, q⟩] else []) ++ cs) := by
  split
  · rename_i h
    exact ⟨Or.inl h.1, (fun h => nomatch h), h1⟩
  · split
    · rename_i h
      exact ⟨Or.inl h, (fun h => nomatch h), h1⟩
    · split
      · rename_i h
        exact ⟨Or.inr ⟨(fun h => nomatch h), h⟩, (fun h => nomatch h), h1⟩
      · exact h0 (by omega) (by omega)

theorem opCodes_turns {m : Matcher} : ∀ (xs : List Match) (i j k l : Nat) (b : Bool), Chain m k l i j xs → Apart b i j xs →
    Turns b (opCodes i j (xs ++ [⟨k, l, 0⟩]))
  | [], i, j, k, l, b, h, _ => by
    cases h with
    | nil h1 h2 =>
      show Turns b (opCodes i j [⟨k, l, 0⟩])
      unfold opCodes opCodes
      rw [if_neg (Nat.lt_irrefl 0), List.append_nil]
      exact turns_gap h1 h2 (fun _ _ => trivial) trivial
  | x :: xs, i, j, k, l, b, h, ha => by
    cases h with
    | cons h1 h2 _ h4 =>
      obtain ⟨e1, e2, e3⟩ := ha
      have ih := opCodes_turns xs _ _ k l true h4 e3
      show Turns b (opCodes i j (x :: (xs ++ _)))
      unfold opCodes
      rw [if_pos e1, List.append_assoc]
      have rest : ∀ c, (c = true → ¬ (i = x.a ∧ j = x.b)) → i = x.a → j = x.b → Turns c ([⟨.equal, x.a, x.a + x.size, x.b, x.b + x.size⟩] ++ opCodes (x.a + x.size) (x.b + x.size) (xs ++ [⟨k, l, 0⟩])) := by
        intro c hc hi hj
        refine ⟨Or.inl (by dsimp only; omega), fun _ => ?_, ih⟩
        cases c with
        | false => rfl
        | true => exact absurd ⟨hi, hj⟩ (hc rfl)
      exact turns_gap h1 h2 (rest b e2) ⟨Or.inl (by dsimp only; omega), fun _ => rfl, ih⟩

/-! ### The first and the last code -/

theorem turns_fixFirst {cs : List OpCode} {b : Bool} (h : Turns b cs) : Turns b (fixFirst 1 cs) := by
  cases cs with
  | nil => exact trivial
  | cons c cs =>
    unfold fixFirst
    dsimp only
    by_cases ht : c.tag = .equal
    · rw [if_pos ht]
      obtain ⟨h1, h2, h3⟩ := h
      refine ⟨Or.inl ?_, h2, h3⟩
      dsimp only
      rcases h1 with k | ⟨k, -⟩
      · omega
      · exact absurd ht k
    · rw [if_neg ht]
      exact h

/-- the code at the end of the list, shortened -/
def shortened (c : OpCode) : OpCode := if c.tag = .equal then ⟨c.tag, c.i1, min c.i2 (c.i1 + 1), c.j1, min c.j2 (c.j1 + 1)⟩ else c

theorem shortened_isEq (c : OpCode) : isEq (shortened c) = isEq c := by
  unfold shortened
  split <;> rfl

theorem shortened_proper {c : OpCode} (h : Proper c) : Proper (shortened c) := by
  unfold shortened
  split
  · rename_i ht
    rcases h with k | ⟨k, -⟩
    · exact Or.inl (by dsimp only; omega)
    · exact absurd ht k
  · exact h

theorem shortened_one {c : OpCode} (h : Proper c) (hq : isEq c = true) : (shortened c).i2 - (shortened c).i1 = 1 := by
  have ht := of_decide_eq_true hq
  unfold shortened
  rw [if_pos ht]
  rcases h with k | ⟨k, -⟩
  · dsimp only; omega
  · exact absurd ht k

theorem fixLast_snoc : ∀ (cs : List OpCode) (c : OpCode), fixLast 1 (cs ++ [c]) = cs ++ [shortened c]
  | [], c => rfl
  | [x], c => rfl
  | x :: y :: cs, c => by
    show x :: fixLast 1 (y :: cs ++ [c]) = _
    rw [fixLast_snoc]
    rfl

theorem alt_fixLast : ∀ {cs : List OpCode} {b : Bool}, Turns b cs → Alt b (fixLast 1 cs)
  | [], _, _ => trivial
  | [c], b, h => ⟨shortened_proper h.1, fun hq => ⟨h.2.1 (by rw [← shortened_isEq]; exact hq), fun _ => shortened_one h.1 (by rw [← shortened_isEq]; exact hq)⟩, trivial⟩
  | c :: d :: cs, b, h => ⟨h.1, fun hq => ⟨h.2.1 hq, fun e => by
      exfalso
      cases cs with
      | nil => cases e
      | cons => cases e⟩, alt_fixLast (cs := d :: cs) h.2.2⟩

/-- the code at the start of the list, shortened -/
def clipped (c : OpCode) : OpCode := if c.tag = .equal then ⟨c.tag, max c.i1 (c.i2 - 1), c.i2, max c.j1 (c.j2 - 1), c.j2⟩ else c

theorem clipped_isEq (c : OpCode) : isEq (clipped c) = isEq c := by
  unfold clipped
  split <;> rfl

theorem clipped_one {c : OpCode} (h : Proper c) (hq : isEq c = true) : (clipped c).i2 - (clipped c).i1 = 1 := by
  have ht := of_decide_eq_true hq
  unfold clipped
  rw [if_pos ht]
  rcases h with k | ⟨k, -⟩
  · dsimp only; omega
  · exact absurd ht k

theorem unchanged {c : OpCode} (h : isEq c = false) : clipped c = c ∧ shortened c = c := ⟨if_neg (of_decide_eq_false h), if_neg (of_decide_eq_false h)⟩

section
variable {a b : List Bytes}

theorem Path.start {i j i' j' : Nat} {c : OpCode} {cs : List OpCode} (h : Path a b i j (c :: cs) i' j') : c.i1 = i ∧ c.j1 = j := by
  cases h with
  | cons h1 h2 _ _ => exact ⟨h1, h2⟩

theorem Path.stop {i j i' j' : Nat} {c : OpCode} {cs : List OpCode} (h : Path a b i j (cs ++ [c]) i' j') : c.i2 = i' ∧ c.j2 = j' := by
  obtain ⟨_, last, -, h2, -, -, h5, h6⟩ := path_ends h (by simp)
  rw [List.getLast?_concat] at h2
  injection h2 with h2
  rw [h2]
  exact ⟨h5, h6⟩

theorem grouped_shown {codes : List OpCode} (h : Path a b 0 0 codes a.length b.length) (ht : Turns false codes) :
    ∃ text, writeGroups a b (groupLoop 1 [] (fixLast 1 (fixFirst 1 codes))) = some text ∧ Context.Hunks 0 0 a b text := by
  obtain ⟨i, j, h1, h2, h3, h4, -⟩ := fixFirst_ok 1 h (Nat.zero_le _) (Nat.zero_le _)
  obtain ⟨e, f, k1, k2, k3, k4, -⟩ := fixLast_ok 1 _ i j h4 h2 h3
  have start : ∀ d, (fixLast 1 (fixFirst 1 codes)).head? = some d → ∃ c cs, codes = c :: cs ∧ isEq d = isEq c ∧ (isEq d = true → d.i2 - d.i1 = 1) ∧ (isEq c = false → d = c) := by
    intro d hd
    have hp := turns_fixFirst ht
    cases codes with
    | nil => cases hd
    | cons c cs =>
      have hc : Proper c := ht.1
      have hk : Proper (clipped c) := hp.1
      refine ⟨c, cs, rfl, ?_⟩
      cases cs with
      | nil =>
        change some (shortened (clipped c)) = some d at hd
        injection hd with hd
        subst hd
        rw [shortened_isEq, clipped_isEq]
        refine ⟨rfl, fun hq => shortened_one hk (by rw [clipped_isEq]; exact hq), fun hq => ?_⟩
        rw [(unchanged hq).1, (unchanged hq).2]
      | cons =>
        change some (clipped c) = some d at hd
        injection hd with hd
        subst hd
        rw [clipped_isEq]
        exact ⟨rfl, fun hq => clipped_one hc hq, fun hq => (unchanged hq).1⟩
  refine groupLoop_shown _ [] 0 0 i j i j e f h1 .nil k1 k2 k3 k4 trivial (alt_fixLast (turns_fixFirst ht)) (fun _ c hc => by cases hc) ?_ ?_ ?_ (Or.inr ⟨rfl, rfl⟩)
  · intro _ d hd hq
    obtain ⟨_, _, -, -, h, -⟩ := start d hd
    exact h hq
  · intro d hd hq
    obtain ⟨c, cs, rfl, e1, -, e3⟩ := start d hd
    have hc : isEq c = false := by rw [← e1]; exact hq
    have s0 := h.start
    have s1 : c.i1 = i ∧ c.j1 = j := by
      have : fixFirst 1 (c :: cs) = clipped c :: cs := rfl
      rw [this, (unchanged hc).1] at h4
      exact h4.start
    omega
  · intro d hd hq
    rw [List.nil_append] at hd
    rcases List.eq_nil_or_concat (fixFirst 1 codes) with hn | ⟨gs, g, hg⟩
    · rw [hn] at hd
      cases hd
    · rw [hg, List.concat_eq_append] at k1 h4 hd
      rw [fixLast_snoc] at k1 hd
      rw [List.getLast?_concat] at hd
      injection hd with hd
      have hq' : isEq g = false := by rw [← hd, shortened_isEq] at hq; exact hq
      rw [(unchanged hq').2] at k1
      have s0 := h4.stop
      have s1 := k1.stop
      omega

end

theorem unifiedDiff_shown (a b : List Bytes) {fuel : Nat} (hf : a.length < fuel) : ∃ text, unifiedDiff a b fuel = some text ∧ Context.UnifiedDiff a b text := by
  have hm := newMatcher_indexed a b
  obtain ⟨xs, e1, e2⟩ := matchBlocks_ok hm fuel 0 a.length 0 b.length (Nat.le_refl _) (Nat.le_refl _) (Nat.zero_le _) (Nat.zero_le _) (by omega)
  have hchain := collapse_ok xs ⟨0, 0, 0⟩ 0 0 (Nat.le_refl _) (Nat.le_refl _) Run.zero e2
  have hturns := opCodes_turns _ 0 0 a.length b.length false hchain (collapse_start (matchBlocks_pos _ _ _ _ _ _ e1))
  obtain ⟨codes, hcodes⟩ : ∃ codes, opCodes 0 0 (collapse ⟨0, 0, 0⟩ xs ++ [⟨a.length, b.length, 0⟩]) = codes := ⟨_, rfl⟩
  have hpath := opCodes_ok (a := a) (b := b) (m := newMatcher a b) rfl rfl _ 0 0 hchain
  have hget : getOpCodes (newMatcher a b) fuel = some codes := by
    unfold getOpCodes getMatchingBlocks
    show Option.map _ (do let matched ← matchBlocks (newMatcher a b) fuel 0 a.length 0 b.length; return _) = _
    rw [e1, ← hcodes]
    rfl
  rw [hcodes] at hturns hpath
  have key : ∃ groups text, getGroupedOpCodes (newMatcher a b) fuel 1 = some groups ∧ writeGroups a b groups = some text ∧ Context.Hunks 0 0 a b text := by
    unfold getGroupedOpCodes
    rw [hget]
    by_cases hc : codes = []
    · subst hc
      have e : a = [] ∧ b = [] := by
        generalize hu : a.length = u at hpath
        generalize hv : b.length = v at hpath
        cases hpath
        exact ⟨List.length_eq_zero_iff.1 hu, List.length_eq_zero_iff.1 hv⟩
      rw [e.1, e.2]
      exact ⟨[], [], rfl, rfl, .done⟩
    · obtain ⟨text, t1, t2⟩ := grouped_shown hpath hturns
      have hl : ¬ codes.length = 0 := fun h => hc (List.length_eq_zero_iff.1 h)
      refine ⟨_, text, ?_, t1, t2⟩
      show some (groupLoop 1 [] (fixLast 1 (fixFirst 1 (if codes.length = 0 then _ else codes)))) = _
      rw [if_neg hl]
  obtain ⟨groups, text, g1, g2, g3⟩ := key
  obtain ⟨_, text', u1, u2, -⟩ := unifiedDiff_ok a b hf
  have hu : unifiedDiff a b fuel = some ((if groups = [] then [] else b%"--- Expected\n+++ Actual\n") ++ text) := by
    unfold unifiedDiff
    rw [g1]
    show (do let body ← writeGroups a b groups; return _) = _
    rw [g2]
    rfl
  refine ⟨_, hu, ?_⟩
  by_cases hg : groups = []
  · rw [if_pos hg]
    have : text = [] := by
      rw [hg] at g2
      injection g2 with g2
      exact g2.symm
    subst this
    refine .same ?_
    generalize hn : ([] : Bytes) = t at g3
    cases g3 with
    | done => rfl
    | hunk => simp at hn
  · rw [if_neg hg]
    refine .hunks (fun h => ?_) g3
    rw [if_neg hg, h] at hu
    rw [u1] at hu
    injection hu with hu
    subst hu
    generalize hn : (b%"--- Expected\n+++ Actual\n" ++ ([] : Bytes)) = t at u2
    cases u2 with
    | same => simp at hn
    | hunks h1 _ => exact h1 (by simpa using hn.symm)

end Diff
end Yarql
