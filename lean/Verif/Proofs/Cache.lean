import Verif.Model.Cache

/-! Helper lemmas about the cache model. -/

namespace Yarql
namespace Cache

/-! ### Heap -/

/-- The slice lies inside its backing array. -/
def Heap.Ok (h : Heap) (s : Slice) : Prop := s.arr < h.length ∧ s.len ≤ (h.getD s.arr []).length

theorem push_facts (extra : Nat) (h : Heap) (s : Slice) (x : Nat) (hs : h.Ok s) :
    let r := h.push extra s x
    r.1.read r.2 = h.read s ++ [x] ∧ r.1.Ok r.2 ∧ r.2.len = s.len + 1 ∧
      (∀ t, h.Ok t → r.1.Ok t) := by
  obtain ⟨hs1, hs2⟩ := hs
  unfold Heap.push
  split
  · rename_i hlt
    refine ⟨?_, ?_, rfl, ?_⟩
    · simp only [Heap.read, List.getD_eq_getElem?_getD, List.getElem?_set_self hs1, Option.getD_some]
      simp only [List.getD_eq_getElem?_getD] at hlt
      rw [List.take_add_one, List.take_set_of_le (by omega)]
      simp [hlt]
    · refine ⟨by simpa using hs1, ?_⟩
      simp [List.getElem?_set_self hs1]
      simp only [List.getD_eq_getElem?_getD] at hlt
      omega
    · rintro t ⟨h1, h2⟩
      refine ⟨by simpa using h1, ?_⟩
      by_cases e : s.arr = t.arr
      · simp [e, List.getElem?_set_self h1]
        simpa using h2
      · simp [List.getElem?_set_ne e]
        simpa using h2
  · rename_i hge
    refine ⟨?_, ?_, rfl, ?_⟩
    · simp only [Heap.read, List.getD_eq_getElem?_getD, List.getElem?_append_right (Nat.le_refl _),
        Nat.sub_self, List.getElem?_cons_zero, Option.getD_some]
      simp only [List.getD_eq_getElem?_getD] at hs2
      rw [List.take_append]
      simp [List.length_take, Nat.min_eq_left hs2]
      apply List.take_of_length_le
      simp [Nat.min_eq_left hs2]
    · refine ⟨by simp, ?_⟩
      simp only [List.getD_eq_getElem?_getD] at hs2
      simp [Heap.read]
      omega
    · rintro t ⟨h1, h2⟩
      refine ⟨by simp; omega, ?_⟩
      simp only [List.getD_eq_getElem?_getD] at h2
      simp [List.getElem?_append_left h1, h2]

theorem pushAll_facts (extra : Nat) (xs : List Nat) : ∀ (h : Heap) (s : Slice), h.Ok s →
    let r := h.pushAll extra s xs
    r.1.read r.2 = h.read s ++ xs ∧ r.1.Ok r.2 ∧ r.2.len = s.len + xs.length ∧
      (∀ t, h.Ok t → r.1.Ok t) := by
  induction xs with
  | nil => intro h s hs; simp [Heap.pushAll, hs]
  | cons x xs ih =>
    intro h s hs
    obtain ⟨a1, a2, a3, a4⟩ := push_facts extra h s x hs
    obtain ⟨b1, b2, b3, b4⟩ := ih _ _ a2
    simp only [Heap.pushAll]
    refine ⟨by rw [b1, a1]; simp, b2, by rw [b3, a3]; simp; omega, fun t ht => b4 t (a4 t ht)⟩

theorem read_zero (h : Heap) (a : Nat) : h.read ⟨a, 0⟩ = [] := by simp [Heap.read]

theorem read_length (h : Heap) (s : Slice) (hs : h.Ok s) : (h.read s).length = s.len := by
  simp only [Heap.read, List.length_take]
  exact Nat.min_eq_left hs.2

/-- Writing `L[k]` at index `k` keeps every slice that reads a prefix of `L`. -/
theorem push_prefix (extra : Nat) (h : Heap) (s : Slice) (L : List Nat) (x : Nat)
    (hx : L[s.len]? = some x) (t : Slice) (ht : h.Ok t) (hp : h.read t = L.take t.len) :
    (h.push extra s x).1.read t = L.take t.len := by
  unfold Heap.push
  split
  · by_cases e : s.arr = t.arr
    · simp only [Heap.read, List.getD_eq_getElem?_getD] at hp ⊢
      simp only [e, List.getElem?_set_self ht.1, Option.getD_some]
      apply List.ext_getElem?
      intro i
      have := congrArg (fun l => l[i]?) hp
      simp only [List.getElem?_take] at this ⊢
      by_cases hi : i < t.len
      · simp only [hi, if_true] at this ⊢
        by_cases hk : s.len = i
        · subst hk
          rw [List.getElem?_set_self]
          · exact hx.symm
          · have := ht.2
            simp only [List.getD_eq_getElem?_getD] at this
            omega
        · rw [List.getElem?_set_ne hk, this]
      · simp [hi]
    · simp only [Heap.read, List.getD_eq_getElem?_getD] at hp ⊢
      rw [List.getElem?_set_ne e]
      exact hp
  · simp only [Heap.read, List.getD_eq_getElem?_getD] at hp ⊢
    rw [List.getElem?_append_left ht.1]
    exact hp

theorem pushAll_prefix (extra : Nat) (L : List Nat) : ∀ (xs : List Nat) (h : Heap) (s : Slice),
    h.Ok s → (L.drop s.len = xs ∨ xs = []) → ∀ t : Slice, h.Ok t → h.read t = L.take t.len →
    (h.pushAll extra s xs).1.read t = L.take t.len := by
  intro xs
  induction xs with
  | nil => intro h s _ _ t _ hp; exact hp
  | cons x xs ih =>
    intro h s hs hL t ht hp
    have hL : L.drop s.len = x :: xs := by simpa using hL
    obtain ⟨_, a2, a3, a4⟩ := push_facts extra h s x hs
    simp only [Heap.pushAll]
    have hx : L[s.len]? = some x := by
      have := congrArg (fun l => l[0]?) hL
      simpa using this
    refine ih _ _ a2 (Or.inl ?_) t (a4 t ht) (push_prefix extra h s L x hx t ht hp)
    rw [a3, ← List.drop_drop, hL]; rfl

/-! ### The map -/

theorem lookup_some {c : BC} {n : Nat} {es : List Entry} (h : lookup c n = some es) : (n, es) ∈ c := by
  unfold lookup at h
  cases hf : c.find? (fun kv => kv.1 == n) with
  | none => simp [hf] at h
  | some kv =>
    simp [hf] at h
    have h1 := List.find?_some hf
    have h2 := List.mem_of_find?_eq_some hf
    simp at h1
    subst h1 h
    exact h2

theorem getEntry_mem {c : BC} {q t e} (h : getEntry c q t = some e) :
    (∃ es, (q.length, es) ∈ c ∧ e ∈ es) ∧ e.query = q ∧ e.target = t := by
  unfold getEntry at h
  cases hl : lookup c q.length with
  | none => simp [hl] at h
  | some es =>
    simp only [hl] at h
    have h1 := List.find?_some h
    have h2 := List.mem_of_find?_eq_some h
    simp at h1
    exact ⟨⟨es, lookup_some hl, h2⟩, h1⟩

theorem evict_sub {v c kv} (h : kv ∈ evict v c) : kv ∈ c := by
  unfold evict at h
  split at h
  · exact (List.mem_filter.mp h).1
  · exact h

/-- Every entry of the new map is the new one or an old one. -/
theorem setEntry_mem {v c q b t ti fl k es e} (h : (k, es) ∈ setEntry v c q b t ti fl) (he : e ∈ es) :
    e = ⟨q, b, t, ti, fl⟩ ∨ ∃ es', (k, es') ∈ c ∧ e ∈ es' := by
  unfold setEntry at h
  simp only [List.mem_cons, Prod.mk.injEq] at h
  rcases h with ⟨rfl, rfl⟩ | h
  · rcases List.mem_cons.mp he with rfl | he
    · exact Or.inl rfl
    · right
      cases hl : lookup (evict v c) q.length with
      | none => simp [hl] at he
      | some es' =>
        refine ⟨es', evict_sub (lookup_some hl), ?_⟩
        simp only [hl] at he
        split at he
        · exact List.dropLast_subset _ he
        · exact he
  · exact Or.inr ⟨es, evict_sub (List.mem_filter.mp h).1, he⟩

/-- Shape invariant of the cache. -/
structure Shape (c : BC) : Prop where
  lengths : c.length ≤ 100
  nodup : (c.map (·.1)).Nodup
  perLength : ∀ kv ∈ c, kv.2.length ≤ 20
  keyed : ∀ kv ∈ c, ∀ e ∈ kv.2, e.query.length = kv.1

theorem shape_nil : Shape [] := ⟨by simp, by simp, by simp, by simp⟩

theorem length_filter_not_mem (c : BC) : ∀ v : List Nat, v.Nodup → (c.map (·.1)).Nodup →
    (∀ x ∈ v, x ∈ c.map (·.1)) →
    (c.filter (fun kv => !v.contains kv.1)).length + v.length ≤ c.length := by
  induction c with
  | nil =>
    intro v _ _ hv
    cases v with
    | nil => simp
    | cons x xs => simpa using hv x (by simp)
  | cons kv c ih =>
    intro v hvn hcn hv
    simp only [List.map_cons, List.nodup_cons] at hcn
    by_cases hm : kv.1 ∈ v
    · have hlen : (v.erase kv.1).length + 1 = v.length := by
        rw [List.length_erase_of_mem hm]
        have := List.length_pos_of_mem hm
        omega
      have hne : kv.1 ∉ v.erase kv.1 := by
        intro hh
        exact absurd (List.Nodup.mem_erase_iff hvn |>.mp hh).1 (by simp)
      have := ih (v.erase kv.1) (hvn.erase _) hcn.2 (by
        intro x hx
        have hx' := (List.Nodup.mem_erase_iff hvn).mp hx
        have := hv x hx'.2
        simp only [List.map_cons, List.mem_cons] at this
        rcases this with h | h
        · exact absurd h hx'.1
        · exact h)
      have heq : c.filter (fun kv' => !v.contains kv'.1) =
          c.filter (fun kv' => !(v.erase kv.1).contains kv'.1) := by
        apply List.filter_congr
        intro y hy
        have hyk : y.1 ≠ kv.1 := by
          intro hh
          exact hcn.1 (hh ▸ List.mem_map_of_mem hy)
        congr 1
        rw [Bool.eq_iff_iff]
        simp [List.Nodup.mem_erase_iff hvn, hyk]
      have hc : (!v.contains kv.1) = false := by simp [hm]
      rw [List.filter_cons, hc, heq]
      simp only [Bool.false_eq_true, if_false, List.length_cons]
      omega
    · have := ih v hvn hcn.2 (by
        intro x hx
        have := hv x hx
        simp only [List.map_cons, List.mem_cons] at this
        rcases this with h | h
        · exact absurd (h ▸ hx) hm
        · exact h)
      have hc : (!v.contains kv.1) = true := by simp [hm]
      rw [List.filter_cons, hc]
      simp only [if_true, List.length_cons]
      omega

theorem evict_shape {v : List Nat} {c : BC} (hc : Shape c)
    (hv : c.length = 100 → v.Nodup ∧ v.length = 5 ∧ ∀ x ∈ v, x ∈ c.map (·.1)) :
    Shape (evict v c) ∧ (evict v c).length ≤ 99 := by
  unfold evict
  split
  · rename_i h100
    have h100 : c.length = 100 := by simpa using h100
    obtain ⟨h1, h2, h3⟩ := hv h100
    have := length_filter_not_mem c v h1 hc.nodup h3
    refine ⟨⟨by omega, ?_, ?_, ?_⟩, by omega⟩
    · exact hc.nodup.sublist (List.filter_sublist.map _)
    · exact fun kv hkv => hc.perLength kv (List.mem_filter.mp hkv).1
    · exact fun kv hkv => hc.keyed kv (List.mem_filter.mp hkv).1
  · rename_i h
    have h : c.length ≠ 100 := by simpa using h
    exact ⟨hc, by have := hc.lengths; omega⟩

theorem setEntry_shape {v c q b t ti fl} (hc : Shape c)
    (hv : c.length = 100 → v.Nodup ∧ v.length = 5 ∧ ∀ x ∈ v, x ∈ c.map (·.1)) :
    Shape (setEntry v c q b t ti fl) := by
  obtain ⟨he, hl⟩ := evict_shape hc hv
  unfold setEntry
  refine ⟨?_, ?_, ?_, ?_⟩
  · have := List.length_filter_le (fun kv : Nat × List Entry => !(kv.1 == q.length)) (evict v c)
    simp only [List.length_cons]
    omega
  · simp only [List.map_cons, List.nodup_cons]
    refine ⟨?_, he.nodup.sublist (List.filter_sublist.map _)⟩
    simp
  · intro kv hkv
    rcases List.mem_cons.mp hkv with rfl | hkv
    · cases hl : lookup (evict v c) q.length with
      | none => simp
      | some es =>
        have := he.perLength _ (lookup_some hl)
        simp only [List.length_cons] at this ⊢
        split
        · simp only [List.length_dropLast]; omega
        · rename_i h20
          have : es.length ≠ 20 := by simpa using h20
          omega
    · exact he.perLength kv (List.mem_filter.mp hkv).1
  · intro kv hkv e hee
    rcases List.mem_cons.mp hkv with rfl | hkv
    · rcases List.mem_cons.mp hee with rfl | hee
      · rfl
      · cases hl : lookup (evict v c) q.length with
        | none => simp [hl] at hee
        | some es =>
          simp only [hl] at hee
          apply he.keyed _ (lookup_some hl)
          split at hee
          · exact List.dropLast_subset _ hee
          · exact hee
    · exact he.keyed kv (List.mem_filter.mp hkv).1 e hee

theorem lookup_setEntry_self (v c q b t ti fl) :
    ∃ es, lookup (setEntry v c q b t ti fl) q.length = some (⟨q, b, t, ti, fl⟩ :: es) := by
  simp [setEntry, lookup]

theorem lookup_filter (p : Nat → Bool) (n : Nat) (c : BC) :
    lookup (c.filter (fun kv => p kv.1)) n = if p n then lookup c n else none := by
  unfold lookup
  induction c with
  | nil => simp
  | cons kv c ih =>
    rw [List.filter_cons]
    by_cases hk : kv.1 = n
    · subst hk
      cases hp : p kv.1
      · simp only [hp, Bool.false_eq_true, if_false] at ih ⊢
        exact ih
      · simp
    · have hk' : (kv.1 == n) = false := by simpa using hk
      cases hp : p kv.1
      · simp only [Bool.false_eq_true, if_false, List.find?_cons, hk']
        exact ih
      · simp only [if_true, List.find?_cons, hk']
        exact ih

theorem lookup_evict {v : List Nat} {c : BC} {n es} (h : lookup (evict v c) n = some es) :
    lookup c n = some es := by
  unfold evict at h
  split at h
  · have := lookup_filter (fun k => !v.contains k) n c
    rw [this] at h
    split at h
    · exact h
    · cases h
  · exact h

/-- For lookups of `(q, t)` the first matching entry of a bucket is the most recent store. -/
theorem find_after_set {v : List Nat} {c : BC} {q b t ti fl} {q' : Bytes} {t' : Option Bytes} {e : Entry}
    (h : getEntry (setEntry v c q b t ti fl) q' t' = some e) :
    (q' = q ∧ t' = t ∧ e = ⟨q, b, t, ti, fl⟩) ∨
    (¬ (q' = q ∧ t' = t) ∧ getEntry c q' t' = some e) := by
  by_cases heq : q' = q ∧ t' = t
  · left
    obtain ⟨rfl, rfl⟩ := heq
    refine ⟨rfl, rfl, ?_⟩
    obtain ⟨es, hes⟩ := lookup_setEntry_self v c q' b t' ti fl
    simp [getEntry, hes] at h
    exact h.symm
  · right
    refine ⟨heq, ?_⟩
    unfold getEntry at h ⊢
    by_cases hq : q.length = q'.length
    · have hne : (q == q' && t == t') = false := by
        rw [Bool.eq_false_iff]
        intro hh
        simp at hh
        exact heq ⟨hh.1.symm, hh.2.symm⟩
      cases hl : lookup (evict v c) q.length with
      | none =>
        have : lookup (setEntry v c q b t ti fl) q'.length = some [⟨q, b, t, ti, fl⟩] := by
          simp only [setEntry, hl]
          simp [lookup, hq]
        simp [this, hne] at h
      | some es =>
        have : lookup (setEntry v c q b t ti fl) q'.length =
            some (⟨q, b, t, ti, fl⟩ :: if es.length == 20 then es.dropLast else es) := by
          simp only [setEntry, hl]
          simp [lookup, hq]
        simp only [this, List.find?_cons, hne] at h
        rw [← hq, lookup_evict hl]
        simp only
        split at h
        · obtain ⟨r, hr⟩ := List.dropLast_prefix es
          rw [← hr, List.find?_append, h]
          rfl
        · exact h
    · have : lookup (setEntry v c q b t ti fl) q'.length = lookup (evict v c) q'.length := by
        have h1 := lookup_filter (fun k => !(k == q.length)) q'.length (evict v c)
        have h2 : (!(q'.length == q.length)) = true := by simpa using fun h => hq h.symm
        simp only [h2, if_true] at h1
        rw [← h1]
        have h3 : (q.length == q'.length) = false := by simpa using hq
        simp only [setEntry]
        unfold lookup
        simp only [List.find?_cons, h3]
      rw [this] at h
      cases hl : lookup (evict v c) q'.length with
      | none => simp [hl] at h
      | some es =>
        rw [lookup_evict hl]
        rw [hl] at h
        exact h

/-! ### Whole contexts -/

/-- Invariant of a context with respect to the cache-less parser. -/
structure Inv (F : Bytes → Option Bytes → Outcome) (s : Ctx) : Prop where
  frag : s.frag.arr < s.heap.length
  entries : ∀ kv ∈ s.cache, ∀ e ∈ kv.2, e.bytecode = (F e.query e.target).res ∧
    e.targetIdx = (F e.query e.target).targetIdx ∧ (F e.query e.target).errs = [] ∧
    e.fragmentLocation.len = (F e.query e.target).frags.length ∧ s.heap.Ok e.fragmentLocation

theorem inv_new (F) : Inv F Ctx.new := ⟨by simp [Ctx.new], by simp [Ctx.new]⟩

theorem ok_zero {h : Heap} {s : Slice} (hs : s.arr < h.length) : h.Ok { s with len := 0 } :=
  ⟨hs, Nat.zero_le _⟩

theorem step_inv {F s o} (hi : Inv F s) : Inv F (step F s o).1 := by
  have hz := ok_zero hi.frag
  unfold step
  simp only
  split
  · rename_i e he
    obtain ⟨_, p2, _, p4⟩ := pushAll_facts o.extra (s.heap.read e.fragmentLocation) _ _ hz
    exact ⟨p2.1, fun kv hkv e' he' => by
      obtain ⟨h1, h2, h3, h4, h5⟩ := hi.entries kv hkv e' he'
      exact ⟨h1, h2, h3, h4, p4 _ h5⟩⟩
  · obtain ⟨_, p2, p3, p4⟩ := pushAll_facts o.extra (F o.query o.target).frags _ _ hz
    refine ⟨p2.1, fun kv hkv e' he' => ?_⟩
    split at hkv
    · rename_i hce
      simp only [Bool.and_eq_true, List.isEmpty_iff] at hce
      rcases setEntry_mem hkv he' with rfl | ⟨es', h1, h2⟩
      · exact ⟨rfl, rfl, hce.2, by simpa using p3, p2⟩
      · obtain ⟨h1, h2, h3, h4, h5⟩ := hi.entries (kv.1, es') h1 e' h2
        exact ⟨h1, h2, h3, h4, p4 _ h5⟩
    · obtain ⟨h1, h2, h3, h4, h5⟩ := hi.entries kv hkv e' he'
      exact ⟨h1, h2, h3, h4, p4 _ h5⟩

theorem run_inv {F} : ∀ {ops s}, Inv F s → Inv F (run F s ops)
  | [], _, h => h
  | o :: _, _, h => by unfold run; exact run_inv (step_inv h)

/-- Everything but the fragment table is right in every state; the table is right on a miss and always has
the right length. -/
theorem step_out {F s o} (hi : Inv F s) :
    (step F s o).2.res = (F o.query o.target).res ∧
    (step F s o).2.targetIdx = (F o.query o.target).targetIdx ∧
    (step F s o).2.errs = (F o.query o.target).errs ∧
    (step F s o).2.frags.length = (F o.query o.target).frags.length ∧
    (getEntry s.cache o.query o.target = none ∨ o.query.length ≤ o.minLen →
      (step F s o).2.frags = (F o.query o.target).frags) := by
  have hz := ok_zero hi.frag
  unfold step
  simp only
  split
  · rename_i e he
    split at he
    · rename_i hc
      obtain ⟨⟨es, h1, h2⟩, h3, h4⟩ := getEntry_mem he
      obtain ⟨g1, g2, g3, g4, g5⟩ := hi.entries _ h1 e h2
      rw [h3, h4] at g1 g2 g3 g4
      obtain ⟨p1, _, p3, _⟩ := pushAll_facts o.extra (s.heap.read e.fragmentLocation) _ _ hz
      refine ⟨g1, g2, g3.symm, ?_, ?_⟩
      · simp only [p1, List.length_append, read_zero, List.length_nil, Nat.zero_add]
        rw [read_length _ _ g5, g4]
      · rintro (hn | hm)
        · rw [hn] at he; cases he
        · simp at hc; omega
    · cases he
  · obtain ⟨p1, _, p3, _⟩ := pushAll_facts o.extra (F o.query o.target).frags _ _ hz
    refine ⟨rfl, rfl, rfl, ?_, fun _ => ?_⟩
    · simp only [p1, read_zero, List.nil_append]
    · simp only [p1, read_zero, List.nil_append]

/-- Invariant for histories in which the fragment tables are all `L` or empty. -/
def InvL (L : List Nat) (s : Ctx) : Prop :=
  ∀ kv ∈ s.cache, ∀ e ∈ kv.2, s.heap.read e.fragmentLocation = L.take e.fragmentLocation.len

theorem step_invL {F s o L} (hi : Inv F s) (hl : InvL L s)
    (hL : (F o.query o.target).frags = L ∨ (F o.query o.target).frags = []) :
    InvL L (step F s o).1 := by
  have hz := ok_zero hi.frag
  intro kv hkv e he
  unfold step at hkv ⊢
  simp only at hkv ⊢
  split
  · rename_i e0 he0
    simp only [he0] at hkv
    split at he0
    · obtain ⟨⟨es, h1, h2⟩, h3, h4⟩ := getEntry_mem he0
      obtain ⟨_, _, _, g4, g5⟩ := hi.entries _ h1 e0 h2
      rw [h3, h4] at g4
      have hr := hl _ h1 e0 h2
      refine pushAll_prefix o.extra L _ _ _ hz ?_ _ (hi.entries kv hkv e he).2.2.2.2 (hl kv hkv e he)
      rw [hr, g4]
      rcases hL with h | h <;> simp [h]
    · cases he0
  · rename_i he0
    simp only [he0] at hkv
    obtain ⟨p1, p2, p3, _⟩ := pushAll_facts o.extra (F o.query o.target).frags _ _ hz
    have key : ∀ e', (∃ es', (kv.1, es') ∈ s.cache ∧ e' ∈ es') →
        (s.heap.pushAll o.extra { s.frag with len := 0 } (F o.query o.target).frags).1.read
          e'.fragmentLocation = L.take e'.fragmentLocation.len := by
      rintro e' ⟨es', h1, h2⟩
      refine pushAll_prefix o.extra L _ _ _ hz ?_ _ (hi.entries _ h1 e' h2).2.2.2.2 (hl _ h1 e' h2)
      rcases hL with h | h <;> simp [h]
    split at hkv
    · rcases setEntry_mem hkv he with rfl | h
      · simp only
        rw [p1, p3, read_zero]
        rcases hL with h | h <;> simp [h]
      · exact key e h
    · exact key e ⟨kv.2, hkv, he⟩

theorem run_invL {F L} : ∀ {ops s}, Inv F s → InvL L s →
    (∀ o ∈ ops, (F o.query o.target).frags = L ∨ (F o.query o.target).frags = []) →
    InvL L (run F s ops)
  | [], _, _, h, _ => h
  | o :: os, _, hi, h, ho =>
    by unfold run; exact run_invL (step_inv hi) (step_invL hi h (ho o (by simp))) (fun o' h' => ho o' (by simp [h']))

end Cache
end Yarql
