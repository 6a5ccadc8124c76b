import Verif.Proofs.Wp
import Verif.Spec.Document

/-!
# Safety and soundness of the parser model: no panic, enough fuel, output is an encoding
-/

namespace Yarql
namespace Parser
open Doc

/-- `e` carries the line and column of some position of the query. -/
def Located (q : Bytes) (e : PErr) : Prop :=
  ∃ p, p ≤ q.length ∧ e.line = 1 + Location.lineBreaks (q.take p) ∧ e.col = Location.column (q.take p)

theorem mkErr_located (cfg : PCfg) (t : Nat) (m : Bytes) : Located cfg.query (mkErr cfg t m) := by
  by_cases h : t ≤ cfg.query.length
  · exact ⟨t, h, rfl, rfl⟩
  · refine ⟨cfg.query.length, Nat.le_refl _, ?_, ?_⟩ <;>
    · simp only [mkErr]
      rw [List.take_of_length_le (i := t) (by omega), List.take_of_length_le (i := cfg.query.length) (by omega)]

/-- What every parser function does to the parts of the state it does not own. -/
structure Ext (cfg : PCfg) (s s' : PS) : Prop where
  pos : s.charNr ≤ s'.charNr
  frags : s'.frags = s.frags
  tgt : s'.targetIdx = s.targetIdx
  errs : ∃ es, s'.errs = s.errs ++ es ∧ ∀ e ∈ es, Located cfg.query e

theorem Ext.refl {cfg s} : Ext cfg s s := ⟨Nat.le_refl _, rfl, rfl, [], by simp, by simp⟩

theorem Ext.trans {cfg s s' s''} (h : Ext cfg s s') (h' : Ext cfg s' s'') : Ext cfg s s'' := by
  obtain ⟨es, h1, h2⟩ := h.errs
  obtain ⟨es', h1', h2'⟩ := h'.errs
  refine ⟨Nat.le_trans h.pos h'.pos, h'.frags.trans h.frags, h'.tgt.trans h.tgt, es ++ es', by simp [h1', h1], ?_⟩
  intro e he
  rcases List.mem_append.mp he with he | he
  · exact h2 e he
  · exact h2' e he

theorem Ext.errLen {cfg s s'} (h : Ext cfg s s') : s.errs.length ≤ s'.errs.length := by
  obtain ⟨es, h1, _⟩ := h.errs
  rw [h1]; simp

theorem Ext.errEq {cfg s s'} (h : Ext cfg s s') (hl : s'.errs.length = s.errs.length) : s'.errs = s.errs := by
  obtain ⟨es, h1, _⟩ := h.errs
  rw [h1] at hl ⊢
  simp at hl
  simp [hl]

/-- Ext only looks at position, fragments, target and errors. -/
theorem Ext.of {cfg : PCfg} {s s' : PS} (hp : s.charNr ≤ s'.charNr) (hf : s'.frags = s.frags) (ht : s'.targetIdx = s.targetIdx)
    (he : s'.errs = s.errs) : Ext cfg s s' := ⟨hp, hf, ht, [], by simp [he], by simp⟩

theorem Ext.err {cfg : PCfg} {s s' : PS} {t : Nat} {m : Bytes} (hp : s.charNr ≤ s'.charNr) (hf : s'.frags = s.frags)
    (ht : s'.targetIdx = s.targetIdx) (he : s'.errs = s.errs ++ [mkErr cfg t m]) : Ext cfg s s' :=
  ⟨hp, hf, ht, [mkErr cfg t m], he, by simp [mkErr_located]⟩

/-- Post-condition of a parser function that returns a critical flag: started with output `pre` at `s`, the new output is
valid (`V`) if no error was recorded, a critical return has recorded an error, any other return has advanced. -/
structure Post (cfg : PCfg) (pre : Bytes) (V : Bytes → Prop) (s : PS) (crit : Bool) (s' : PS) : Prop where
  ext : Ext cfg s s'
  bad : crit = true → s.errs.length < s'.errs.length
  adv : crit = false → s.charNr < s'.charNr
  out : ∃ out, s'.res = pre ++ out ∧ (s'.errs.length = s.errs.length → V out)

/-- Generic failing post-condition. -/
theorem Post.fail {cfg : PCfg} {pre : Bytes} {V} {s s' : PS} {t : Nat} {m : Bytes} (hp : s.charNr ≤ s'.charNr)
    (hf : s'.frags = s.frags) (ht : s'.targetIdx = s.targetIdx) (he : s'.errs = s.errs ++ [mkErr cfg t m])
    (ho : ∃ out, s'.res = pre ++ out) : Post cfg pre V s true s' :=
  ⟨Ext.err hp hf ht he, by simp [he], by simp, by
    obtain ⟨out, h⟩ := ho
    exact ⟨out, h, by simp [he]⟩⟩

theorem query_lt {q : Bytes} {i : Nat} {c : Byte} (h : q[i]? = some c) : i < q.length := by
  rw [List.getElem?_eq_some_iff] at h
  exact h.1

theorem query_none {q : Bytes} {i : Nat} (h : q[i]? = none) : q.length ≤ i := by
  rw [List.getElem?_eq_none_iff] at h
  exact h

/-! ## Ignored tokens -/

theorem isLineTerminator_wp {b cfg s} (hs : s.charNr < cfg.query.length) :
    wp b isLineTerminator cfg s (fun _ s' => ∃ p, s' = { s with charNr := p } ∧ s.charNr ≤ p ∧ p < cfg.query.length) := by
  unfold isLineTerminator
  wps
  have h := List.getElem?_eq_getElem hs
  rw [h]
  simp only
  split
  · exact ⟨s.charNr, rfl, Nat.le_refl _, hs⟩
  · split
    · split
      · rename_i h1
        have h2 : cfg.query[s.charNr + 1]? = some 10 := by simpa using h1
        exact ⟨s.charNr + 1, rfl, by omega, query_lt h2⟩
      · exact ⟨s.charNr, rfl, Nat.le_refl _, hs⟩
    · exact ⟨s.charNr, rfl, Nat.le_refl _, hs⟩

theorem parseComment_wp {b cfg} : ∀ (fuel : Nat) (s : PS), cfg.query.length < s.charNr + fuel →
    s.charNr ≤ cfg.query.length →
    wp b (parseComment fuel) cfg s (fun _ s' => ∃ p, s' = { s with charNr := p } ∧ s.charNr ≤ p ∧ p ≤ cfg.query.length)
  | 0, s, h, h' => by omega
  | fuel + 1, s, h, h' => by
    unfold parseComment
    wps
    cases hc : cfg.query[s.charNr]? with
    | none => exact ⟨s.charNr, rfl, Nat.le_refl _, h'⟩
    | some c =>
      simp only [Option.isNone_some, Bool.false_eq_true, if_false]
      refine wp_mono (isLineTerminator_wp (query_lt hc)) ?_
      rintro t s' ⟨p, rfl, hp, hp'⟩
      split
      · exact ⟨p, rfl, hp, by omega⟩
      · refine wp_mono (parseComment_wp fuel _ (by simp; omega) (by simp; omega)) ?_
        rintro _ s' ⟨p', rfl, hp', hp''⟩
        exact ⟨p', rfl, by simp at hp'; omega, hp''⟩

theorem isIgnoredToken_wp {b cfg s c} (hs : s.charNr < cfg.query.length) :
    wp b (isIgnoredToken c) cfg s (fun _ s' => ∃ p, s' = { s with charNr := p } ∧ s.charNr ≤ p ∧ p ≤ cfg.query.length) := by
  unfold isIgnoredToken isComment
  wps
  split
  · exact ⟨s.charNr, rfl, Nat.le_refl _, by omega⟩
  · refine wp_mono (isLineTerminator_wp hs) ?_
    rintro t s' ⟨p, rfl, hp, hp'⟩
    split
    · exact ⟨p, rfl, hp, by omega⟩
    · have h := List.getElem?_eq_getElem hp'
      simp only [h]
      split
      · refine wp_mono (parseComment_wp _ _ (by simp; omega) (by simp; omega)) ?_
        rintro _ s' ⟨p', rfl, hp', hp''⟩
        exact ⟨p', by simp, by simp at hp'; omega, hp''⟩
      · simp only [Bool.false_eq_true, if_false]
        exact ⟨p, rfl, hp, by omega⟩

theorem isIgnoredToken_false {b cfg s c} (hs : cfg.query[s.charNr]? = some c) :
    wp b (isIgnoredToken c) cfg s (fun r s' => r = false → s' = s) := by
  have hlt := query_lt hs
  unfold isIgnoredToken isComment isLineTerminator
  wps
  simp only [hs]
  split
  · simp
  · split
    · simp
    · split
      · split <;> simp
      · simp only [Bool.false_eq_true, if_false]
        split
        · refine wp_mono (parseComment_wp _ _ (by omega) (by omega)) ?_
          simp
        · simp

theorem wp_and {α b cfg s} {m : P α} {Q Q' : α → PS → Prop} (h : wp b m cfg s Q) (h' : wp b m cfg s Q') :
    wp b m cfg s (fun a s' => Q a s' ∧ Q' a s') := by
  unfold wp at *
  split <;> simp_all

theorem mightIgnoreLoop_wp {b cfg} : ∀ (fuel : Nat) (s : PS), cfg.query.length - s.charNr < fuel →
    wp b (mightIgnoreLoop fuel) cfg s (fun r s' => ∃ p, s' = { s with charNr := p } ∧ s.charNr ≤ p ∧
      cfg.query[p]? = r)
  | 0, s, h => by omega
  | fuel + 1, s, h => by
    unfold mightIgnoreLoop
    wps
    cases hc : cfg.query[s.charNr]? with
    | none => exact ⟨s.charNr, rfl, Nat.le_refl _, hc⟩
    | some c =>
      simp only
      wps
      refine wp_mono (wp_and (isIgnoredToken_wp (c := c) (query_lt hc)) (isIgnoredToken_false hc)) ?_
      rintro t s' ⟨⟨p, rfl, hp, hp'⟩, hf⟩
      split
      · refine wp_mono (mightIgnoreLoop_wp fuel _ (by have := query_lt hc; simp; omega)) ?_
        rintro _ s' ⟨p', rfl, hp', hp''⟩
        exact ⟨p', rfl, by simp at hp'; omega, hp''⟩
      · rename_i ht
        simp only [Bool.not_eq_true] at ht
        have := hf ht
        rw [this]
        exact ⟨s.charNr, rfl, Nat.le_refl _, hc⟩

theorem mightIgnore_wp {b cfg s} :
    wp b mightIgnore cfg s (fun r s' => ∃ p, s' = { s with charNr := p } ∧ s.charNr ≤ p ∧ cfg.query[p]? = r) := by
  unfold mightIgnore
  wps
  exact mightIgnoreLoop_wp _ _ (by omega)

/-! ## Keywords -/

theorem matches1Loop_wp {b cfg} (key : Bytes) (start : Nat) : ∀ (fuel : Nat) (s : PS),
    start ≤ s.charNr → s.charNr - start < key.length → cfg.query.length - s.charNr < fuel →
    (∀ i, i < s.charNr - start → cfg.query[start + i]? = key[i]?) →
    wp b (matches1Loop key start fuel) cfg s (fun r s' =>
      (r = none ∧ s' = { s with charNr := start } ∧ ¬ (∀ i, i < key.length → cfg.query[start + i]? = key[i]?)) ∨
      (r = some 0 ∧ s' = { s with charNr := start + key.length } ∧
        ∀ i, i < key.length → cfg.query[start + i]? = key[i]?))
  | 0, s, h0, h', hf, hm => by omega
  | fuel + 1, s, h0, h', hf, hm => by
    unfold matches1Loop
    wps
    have e : start + (s.charNr - start) = s.charNr := by omega
    cases hc : cfg.query[s.charNr]? with
    | none =>
      refine Or.inl ⟨by trivial, by trivial, ?_⟩
      intro hall
      have := hall _ h'
      rw [e, hc, List.getElem?_eq_getElem h'] at this
      cases this
    | some c =>
      simp only
      wps
      rw [List.getElem?_eq_getElem h']
      simp only
      wps
      split
      · rename_i hne
        refine Or.inl ⟨by trivial, by trivial, ?_⟩
        intro hall
        have := hall _ h'
        rw [e, hc, List.getElem?_eq_getElem h'] at this
        simp at this hne
        exact hne this.symm
      · rename_i hne
        have hm' : ∀ i, i < s.charNr + 1 - start → cfg.query[start + i]? = key[i]? := by
          intro i hi
          by_cases hi' : i < s.charNr - start
          · exact hm i hi'
          · have : i = s.charNr - start := by omega
            subst this
            rw [e, hc, List.getElem?_eq_getElem h']
            simp at hne
            rw [hne]
        split
        · rename_i hl
          simp at hl
          refine Or.inr ⟨by trivial, ?_, ?_⟩
          · congr 1; omega
          · intro i hi
            exact hm' i (by omega)
        · rename_i hl
          simp at hl
          refine wp_mono (matches1Loop_wp key start fuel _ (by simp; omega) (by simp; omega)
            (by have := query_lt hc; simp; omega) (by simpa using hm')) ?_
          intro r s' hr
          simpa using hr

/-- `key` stands at position `i` of the query. -/
def At (q : Bytes) (i : Nat) (key : Bytes) : Prop := ∀ j, j < key.length → q[i + j]? = key[j]?

theorem at_iff_prefix {q : Bytes} {i : Nat} {key : Bytes} : At q i key ↔ ∃ r, q.drop i = key ++ r := by
  constructor
  · intro h
    have : (q.drop i).take key.length = key := by
      apply List.ext_getElem?
      intro j
      by_cases hj : j < key.length
      · rw [List.getElem?_take_of_lt hj, List.getElem?_drop]
        exact h j hj
      · rw [List.getElem?_eq_none (by simp; omega), List.getElem?_eq_none (by omega)]
    refine ⟨(q.drop i).drop key.length, ?_⟩
    have h2 := (List.take_append_drop key.length (q.drop i)).symm
    rw [this] at h2
    exact h2
  · rintro ⟨r, h⟩ j hj
    rw [← List.getElem?_drop, h, List.getElem?_append_left hj]

theorem matchScan_spec (c : Byte) (k : Nat) : ∀ (keys : List Bytes) (idx : Nat) (last : Bytes),
    (∃ i keys' last', matchScan c k idx keys last = (some (idx + i), keys', last') ∧ ∃ key, keys[i]? = some key ∧
      key.length = k + 1 ∧ key[k]? = some c) ∨
    (∃ last', matchScan c k idx keys last = (none, keys.map (fun key => if k < key.length ∧ key[k]? ≠ some c then []
      else key), last') ∧ (∀ key ∈ keys, ¬ (key.length = k + 1 ∧ key[k]? = some c)) ∧
      ((last ≠ [] ∨ ∃ key ∈ keys, k + 1 < key.length ∧ key[k]? = some c) ↔ last' ≠ []))
  | [], idx, last => Or.inr ⟨last, rfl, by simp, by simp⟩
  | key :: keys, idx, last => by
    unfold matchScan
    by_cases hk : k < key.length
    · rw [if_pos hk]
      by_cases hc : key[k]? = some c
      · rw [if_neg (by simp [hc])]
        by_cases hl : key.length = k + 1
        · rw [if_pos (by simp [hl])]
          exact Or.inl ⟨0, _, _, rfl, key, rfl, hl, hc⟩
        · rw [if_neg (by simp [hl])]
          rcases matchScan_spec c k keys (idx + 1) key with ⟨i, keys', last', h, h'⟩ | ⟨last', h, h1, h2⟩
          · left
            rw [h]
            exact ⟨i + 1, _, _, by rw [show idx + 1 + i = idx + (i + 1) by omega], by rw [List.getElem?_cons_succ]; exact h'⟩
          · right
            rw [h]
            refine ⟨last', ?_, ?_, ?_⟩
            · simp [hc]
            · intro x hx
              rcases List.mem_cons.mp hx with rfl | hx
              · exact fun hh => hl hh.1
              · exact h1 x hx
            · have : key ≠ [] := by intro h0; subst h0; simp at hk
              constructor
              · intro _; exact h2.mp (Or.inl this)
              · intro _; exact Or.inr ⟨key, by simp, by omega, hc⟩
      · rw [if_pos (by simp [hc])]
        rcases matchScan_spec c k keys (idx + 1) last with ⟨i, keys', last', h, h'⟩ | ⟨last', h, h1, h2⟩
        · left
          rw [h]
          exact ⟨i + 1, _, _, by rw [show idx + 1 + i = idx + (i + 1) by omega], by rw [List.getElem?_cons_succ]; exact h'⟩
        · right
          rw [h]
          refine ⟨last', ?_, ?_, ?_⟩
          · rw [List.map_cons, if_pos ⟨hk, hc⟩]
          · intro x hx
            rcases List.mem_cons.mp hx with rfl | hx
            · exact fun hh => hc hh.2
            · exact h1 x hx
          · rw [← h2]
            simp [hc]
    · rw [if_neg hk]
      rcases matchScan_spec c k keys (idx + 1) last with ⟨i, keys', last', h, h'⟩ | ⟨last', h, h1, h2⟩
      · left
        rw [h]
        exact ⟨i + 1, _, _, by rw [show idx + 1 + i = idx + (i + 1) by omega], by rw [List.getElem?_cons_succ]; exact h'⟩
      · right
        rw [h]
        refine ⟨last', ?_, ?_, ?_⟩
        · simp [hk]
        · intro x hx
          rcases List.mem_cons.mp hx with rfl | hx
          · exact fun hh => hk (by omega)
          · exact h1 x hx
        · rw [← h2]
          have : ¬ (k + 1 < key.length) := by omega
          simp [this]

/-- Keys still alive at offset `k`: those whose first `k` bytes agree with the text; the others are nullified. -/
def alive (q : Bytes) (start k : Nat) (keys : List Bytes) : List Bytes :=
  keys.map (fun key => if ∀ i, i < k → i < key.length → q[start + i]? = key[i]? then key else [])

theorem matchesNLoop_wp {b cfg} (keys : List Bytes) (start : Nat) : ∀ (fuel : Nat) (s : PS) (last : Bytes),
    start ≤ s.charNr → cfg.query.length - s.charNr < fuel →
    (∀ key ∈ keys, key ≠ [] ∧ ∀ n, n ≤ key.length → n ≤ s.charNr - start →
      ((∀ i, i < n → cfg.query[start + i]? = key[i]?) → n < key.length)) →
    (last = [] → s.charNr = start) →
    wp b (matchesNLoop start fuel (alive cfg.query start (s.charNr - start) keys) last) cfg s (fun r s' =>
      (r = none ∧ s' = { s with charNr := start } ∧ ∀ key ∈ keys, ¬ At cfg.query start key) ∨
      (∃ m key, r = some m ∧ keys[m]? = some key ∧ At cfg.query start key ∧
        s' = { s with charNr := start + key.length }))
  | 0, s, last, h0, hf, hk, hl => by omega
  | fuel + 1, s, last, h0, hf, hk, hl => by
    unfold matchesNLoop
    wps
    have e : start + (s.charNr - start) = s.charNr := by omega
    cases hc : cfg.query[s.charNr]? with
    | none =>
      refine Or.inl ⟨by trivial, by trivial, ?_⟩
      intro key hkey hat
      obtain ⟨hne, hx⟩ := hk key hkey
      have := query_none hc
      have hlt : ∀ i, i < key.length → start + i < cfg.query.length := by
        intro i hi
        have := hat i hi
        rw [List.getElem?_eq_getElem hi] at this
        exact query_lt this
      by_cases hkl : key.length ≤ s.charNr - start
      · have := hx key.length (Nat.le_refl _) hkl (fun i hi => hat i hi)
        omega
      · have := hlt (s.charNr - start) (by omega)
        omega
    | some c =>
      simp only
      wps
      have hspec := matchScan_spec c (s.charNr - start) (alive cfg.query start (s.charNr - start) keys) 0 last
      rcases hspec with ⟨i, keys', last', h, key, hget, hlen, hkc⟩ | ⟨last', h, h1, h2⟩
      · rw [h]
        simp only
        wps
        right
        simp only [alive, List.getElem?_map, Option.map_eq_some_iff] at hget
        obtain ⟨key', hg, hif⟩ := hget
        split at hif
        · rename_i hall
          subst hif
          refine ⟨0 + i, key', rfl, by simpa using hg, ?_, ?_⟩
          · intro j hj
            by_cases hj' : j < s.charNr - start
            · exact hall j hj' hj
            · have : j = s.charNr - start := by omega
              subst this
              rw [e, hc, hkc]
          · congr 1
            omega
        · subst hif
          simp at hlen
      · rw [h]
        simp only
        have hal : (alive cfg.query start (s.charNr - start) keys).map
            (fun key => if (s.charNr - start) < key.length ∧ key[s.charNr - start]? ≠ some c then [] else key) =
            alive cfg.query start (s.charNr + 1 - start) keys := by
          simp only [alive, List.map_map]
          apply List.map_congr_left
          intro key hkey
          simp only [Function.comp]
          by_cases hall : ∀ i, i < s.charNr - start → i < key.length → cfg.query[start + i]? = key[i]?
          · rw [if_pos hall]
            by_cases hcond : (s.charNr - start) < key.length ∧ key[s.charNr - start]? ≠ some c
            · rw [if_pos hcond, if_neg]
              intro hall'
              have := hall' (s.charNr - start) (by omega) hcond.1
              rw [e, hc] at this
              exact hcond.2 this.symm
            · rw [if_neg hcond, if_pos]
              intro i hi hi'
              by_cases hi2 : i < s.charNr - start
              · exact hall i hi2 hi'
              · have : i = s.charNr - start := by omega
                subst this
                have h3 : key[s.charNr - start]? = some c := by
                  apply Classical.byContradiction
                  intro h4
                  exact hcond ⟨hi', h4⟩
                rw [e, hc, h3]
          · rw [if_neg hall, if_neg (c := ∀ i, i < s.charNr + 1 - start → _)]
            · simp
            · intro h'
              exact hall (fun i hi hi' => h' i (by omega) hi')
        have hk' : ∀ key ∈ keys, key ≠ [] ∧ ∀ n, n ≤ key.length → n ≤ s.charNr + 1 - start →
            ((∀ i, i < n → cfg.query[start + i]? = key[i]?) → n < key.length) := by
          intro key hkey
          obtain ⟨hne, hx⟩ := hk key hkey
          refine ⟨hne, ?_⟩
          intro n hn hn' hall
          by_cases hn2 : n ≤ s.charNr - start
          · exact hx n hn hn2 hall
          · have hnn : n = s.charNr - start + 1 := by omega
            subst hnn
            apply Classical.byContradiction
            intro hlt
            have hkl : key.length = s.charNr - start + 1 := by omega
            have hmem : key ∈ alive cfg.query start (s.charNr - start) keys := by
              simp only [alive, List.mem_map]
              refine ⟨key, hkey, ?_⟩
              rw [if_pos]
              intro i hi _
              exact hall i (by omega)
            refine h1 key hmem ⟨hkl, ?_⟩
            have := hall (s.charNr - start) (by omega)
            rw [e, hc] at this
            exact this.symm
        wps
        split
        · rename_i hl'
          have hl'' : last' = [] := by simpa using hl'
          have hnot : ¬ (last ≠ [] ∨ ∃ key ∈ alive cfg.query start (s.charNr - start) keys,
              s.charNr - start + 1 < key.length ∧ key[s.charNr - start]? = some c) := by
            rw [h2]; simp [hl'']
          have hst : s.charNr = start := hl (by
            apply Classical.byContradiction
            intro hh
            exact hnot (Or.inl hh))
          refine Or.inl ⟨by trivial, by trivial, ?_⟩
          intro key hkey hat
          obtain ⟨hne, hx⟩ := hk' key hkey
          have hpos : 0 < key.length := List.length_pos_iff.mpr hne
          have h3 := hx 1 (by omega) (by omega) (fun i hi => hat i (by omega))
          refine hnot (Or.inr ⟨key, ?_, by omega, ?_⟩)
          · simp only [alive, List.mem_map]
            refine ⟨key, hkey, ?_⟩
            rw [if_pos]
            intro i hi _
            omega
          · have := hat 0 hpos
            rw [Nat.add_zero, ← hst, hc] at this
            rw [show s.charNr - start = 0 by omega, ← this]
        · rename_i hl'
          have hl'' : last' ≠ [] := by simpa using hl'
          rw [hal]
          refine wp_mono (matchesNLoop_wp keys start fuel { s with charNr := s.charNr + 1 } last' (by simp; omega)
            (by have := query_lt hc; simp; omega) (by simpa using hk') (fun h => absurd h hl'')) ?_
          intro r s' hr
          simpa using hr

/-- `matches` finds a key standing at the current position, or restores the position. -/
theorem matchesKw_wp {b cfg s} (keys : List Bytes) (hk : ∀ key ∈ keys, key ≠ []) :
    wp b (matchesKw keys) cfg s (fun r s' =>
      (r = none ∧ s' = s ∧ ∀ key ∈ keys, ¬ At cfg.query s.charNr key) ∨
      (∃ m key, r = some m ∧ keys[m]? = some key ∧ At cfg.query s.charNr key ∧
        s' = { s with charNr := s.charNr + key.length })) := by
  unfold matchesKw
  wps
  split
  · rename_i key
    wps
    have hpos := List.length_pos_iff.mpr (hk key (by simp))
    refine wp_mono (matches1Loop_wp key s.charNr _ s (Nat.le_refl _) (by omega) (by omega) (fun i hi => by omega)) ?_
    rintro r s' (⟨rfl, rfl, h⟩ | ⟨rfl, rfl, h⟩)
    · exact Or.inl ⟨rfl, rfl, by simpa [At] using h⟩
    · exact Or.inr ⟨0, key, rfl, rfl, h, rfl⟩
  · wps
    have := matchesNLoop_wp (b := b) (cfg := cfg) keys s.charNr (cfg.query.length + 2) s [] (Nat.le_refl _) (by omega)
      (by
        intro key hkey
        refine ⟨hk key hkey, ?_⟩
        intro n _ hn _
        have := List.length_pos_iff.mpr (hk key hkey)
        omega) (fun _ => rfl)
    have he : alive cfg.query s.charNr (s.charNr - s.charNr) keys = keys := by
      simp [alive]
    rw [he] at this
    exact this

end Parser
end Yarql
