import Verif.Spec.TypeList
import Verif.Props.TypeList
import Verif.Props.Registry

/-!
# C68: `__schema { directives }`
-/

namespace Yarql
namespace TypeList
open Introspect Registry

variable {E : Type}

theorem registerLoop_ok_inv (d : Directive) (ls : List Loc) (t : Loc → Option (List Directive)) (h : (registerLoop d ls t).1 = .ok) :
    ls.Nodup ∧ ∀ l ∈ ls, ∀ x ∈ (t l).getD [], x.name ≠ d.name := by
  refine ⟨?_, fun l hl x hx e => by rw [registerLoop_err d ls t ⟨l, hl, x, hx, e⟩] at h; cases h⟩
  induction ls generalizing t with
  | nil => exact .nil
  | cons l ls ih =>
    unfold registerLoop at h
    simp only at h
    split at h
    · cases h
    · refine List.nodup_cons.2 ⟨fun hl => ?_, ih _ h⟩
      rw [registerLoop_err d ls _ ⟨l, hl, d, by simp, rfl⟩] at h
      cases h

/-- the table holds exactly the directives `ds`, and those of one name have no location in common -/
structure Holds (s : Registry.Schema E) (ds : List Directive) : Prop where
  mem : ∀ l d, d ∈ (s.directives l).getD [] ↔ d ∈ ds ∧ l ∈ d.where_.getD []
  key : ∀ l, (s.directives l).isSome = true → (s.directives l).getD [] ≠ []
  apart : ds.Pairwise (fun d e => d.name = e.name → ∀ l, l ∈ d.where_.getD [] → l ∈ e.where_.getD [] → False)

theorem holds_empty : Holds (E := E) empty [] := ⟨fun l d => by simp [empty], fun l h => by simp [empty] at h, .nil⟩

theorem holds_register {s : Registry.Schema E} {ds : List Directive} (h : Holds s ds) (d : Directive) (hok : (registerDirective s d).1 = .ok) :
    Holds (registerDirective s d).2 (ds ++ [d]) := by
  unfold registerDirective at hok ⊢
  cases hp : s.parsed with
  | true => rw [hp] at hok; cases hok
  | false =>
    rw [hp] at hok
    simp only [Bool.false_eq_true, if_false] at hok ⊢
    cases hc : checkDirective d with
    | err => rw [hc] at hok; cases hok
    | panic => rw [hc] at hok; cases hok
    | ok =>
      rw [hc] at hok
      simp only at hok ⊢
      obtain ⟨hnd, hfree⟩ := registerLoop_ok_inv _ _ _ hok
      rw [registerLoop_ok _ _ _ hnd hfree]
      refine ⟨fun l x => ?_, fun l hl => ?_, ?_⟩
      · simp only
        by_cases hm : l ∈ d.where_.getD []
        · rw [if_pos hm, Option.getD_some, List.mem_append, List.mem_append, h.mem, List.mem_singleton]
          constructor
          · rintro (⟨a, b⟩ | rfl)
            · exact ⟨.inl a, b⟩
            · exact ⟨.inr rfl, hm⟩
          · rintro ⟨a | a, b⟩
            · exact .inl ⟨a, b⟩
            · exact .inr a
        · rw [if_neg hm, h.mem, List.mem_append, List.mem_singleton]
          constructor
          · rintro ⟨a, b⟩; exact ⟨.inl a, b⟩
          · rintro ⟨a | rfl, b⟩
            · exact ⟨a, b⟩
            · exact absurd b hm
      · simp only at hl ⊢
        by_cases hm : l ∈ d.where_.getD []
        · rw [if_pos hm]; simp
        · rw [if_neg hm] at hl ⊢; exact h.key l hl
      · rw [List.pairwise_append]
        refine ⟨h.apart, by simp, fun x hx y hy hxy l hl hl' => ?_⟩
        rw [List.mem_singleton] at hy; subst hy
        exact hfree l hl' x ((h.mem l x).2 ⟨hx, hl⟩) hxy

theorem holds_run {s : Registry.Schema E} {ds : List Directive} (h : Holds s ds) (cs : List (Call E)) (hc : Clean s cs) :
    Holds (run s cs) (ds ++ accepted s cs) := by
  induction cs generalizing s ds with
  | nil => simpa [run, accepted] using h
  | cons c cs ih =>
    obtain ⟨h1, h2⟩ := hc
    cases c with
    | directive d =>
      simp only [run, accepted]
      by_cases hok : (step s (.directive d)).1 = .ok
      · rw [if_pos hok, ← List.append_assoc]
        exact ih (holds_register h d hok) h2
      · rw [if_neg hok, List.nil_append]
        have e := h1 d rfl hok
        rw [e] at h2 ⊢
        exact ih h h2
    | enum m =>
      simp only [run, accepted, List.nil_append]
      refine ih ?_ h2
      have : (step s (.enum m)).2.directives = s.directives := by
        simp only [step, registerEnum]
        split
        · rfl
        · split <;> rfl
      exact ⟨by rw [this]; exact h.mem, by rw [this]; exact h.key, h.apart⟩
    | parse b =>
      simp only [run, accepted, List.nil_append]
      refine ih ?_ h2
      have : (step s (.parse b)).2.directives = s.directives := by
        simp only [step, Registry.parse]
        split <;> rfl
      exact ⟨by rw [this]; exact h.mem, by rw [this]; exact h.key, h.apart⟩

/-! ## Collecting -/

def entryOf (d : Directive) : QDir := ⟨d.name, (d.where_.getD []).map locationName⟩

theorem loc_cases (l : Loc) (h : l ≤ 2) : l = 0 ∨ l = 1 ∨ l = 2 := by
  have h := UInt8.le_iff_toNat_le.1 h
  have h2 : (2 : Loc).toNat = 2 := rfl
  rw [h2] at h
  have : l.toNat = 0 ∨ l.toNat = 1 ∨ l.toNat = 2 := by omega
  rcases this with h | h | h
  · exact .inl (UInt8.toNat_inj.1 h)
  · exact .inr (.inl (UInt8.toNat_inj.1 h))
  · exact .inr (.inr (UInt8.toNat_inj.1 h))

theorem locationName_inj (a b : Loc) (ha : a ≤ 2) (hb : b ≤ 2) (h : locationName a = locationName b) : a = b := by
  revert h
  rcases loc_cases a ha with rfl | rfl | rfl <;> rcases loc_cases b hb with rfl | rfl | rfl <;> decide

theorem pairwise_mem {A : Type} {R : A → A → Prop} (hs : ∀ a b, R a b → R b a) {l : List A} (h : l.Pairwise R) {a b : A} (ha : a ∈ l) (hb : b ∈ l)
    (hne : a ≠ b) : R a b := by
  induction h with
  | nil => cases ha
  | cons h1 _ ih =>
    rcases List.mem_cons.1 ha with rfl | ha' <;> rcases List.mem_cons.1 hb with rfl | hb'
    · exact absurd rfl hne
    · exact h1 _ hb'
    · exact hs _ _ (h1 _ ha')
    · exact ih ha' hb'

section
variable {ds : List Directive}
  (apart : ds.Pairwise (fun d e => d.name = e.name → ∀ l, l ∈ d.where_.getD [] → l ∈ e.where_.getD [] → False))
  (hloc : ∀ d ∈ ds, ∀ l ∈ d.where_.getD [], l ≤ 2)

include apart in
theorem same_of_shared {d e : Directive} (hd : d ∈ ds) (he : e ∈ ds) (hn : d.name = e.name) {l : Loc} (h1 : l ∈ d.where_.getD [])
    (h2 : l ∈ e.where_.getD []) : d = e := by
  by_cases h : d = e
  · exact h
  · have := pairwise_mem (R := fun d e : Directive => d.name = e.name → ∀ l, l ∈ d.where_.getD [] → l ∈ e.where_.getD [] → False)
      (fun a b h e l x y => h e.symm l y x) apart hd he h hn l h1 h2
    exact this.elim

include apart hloc in
theorem addDirective_step {seen : List Directive} (hs : ∀ x ∈ seen, x ∈ ds) {d : Directive} (hd : d ∈ ds) {l : Loc} (hl : l ∈ d.where_.getD []) :
    addDirective (seen.map entryOf) d = (if d ∈ seen then seen else seen ++ [d]).map entryOf := by
  have hany : ((seen.map entryOf).any (fun e => e.name = d.name ∧ ((d.where_.getD []).map locationName).any (fun l => e.locations.contains l))) = true ↔ d ∈ seen := by
    rw [List.any_eq_true]
    constructor
    · rintro ⟨q, hq, h⟩
      obtain ⟨e, he, rfl⟩ := List.mem_map.1 hq
      obtain ⟨hn, hx⟩ := of_decide_eq_true h
      obtain ⟨x, hx1, hx2⟩ := List.any_eq_true.1 hx
      obtain ⟨a, ha, rfl⟩ := List.mem_map.1 hx1
      have hx3 : locationName a ∈ (e.where_.getD []).map locationName := List.contains_iff_mem.1 hx2
      obtain ⟨b, hb, hab⟩ := List.mem_map.1 hx3
      have := locationName_inj b a (hloc e (hs e he) b hb) (hloc d hd a ha) hab
      subst this
      exact same_of_shared apart (hs e he) hd hn hb ha ▸ he
    · intro h
      refine ⟨entryOf d, List.mem_map_of_mem h, ?_⟩
      apply decide_eq_true
      refine ⟨rfl, List.any_eq_true.2 ⟨locationName l, List.mem_map_of_mem hl, ?_⟩⟩
      show (List.contains ((d.where_.getD []).map locationName) (locationName l)) = true
      rw [List.contains_iff_mem]
      exact List.mem_map_of_mem hl
  unfold addDirective
  by_cases h : d ∈ seen
  · rw [if_pos (hany.2 h), if_pos h]
  · rw [if_neg (fun hh => h (hany.1 hh)), if_neg h, List.map_append]; rfl

include apart hloc in
theorem addAll {seen : List Directive} (hs : ∀ x ∈ seen, x ∈ ds) (hn : seen.Nodup) (l : Loc) : ∀ (xs : List Directive),
    (∀ x ∈ xs, x ∈ ds ∧ l ∈ x.where_.getD []) → ∃ seen' : List Directive, xs.foldl addDirective (seen.map entryOf) = seen'.map entryOf ∧ seen'.Nodup ∧
      ∀ x, x ∈ seen' ↔ x ∈ seen ∨ x ∈ xs := by
  intro xs
  induction xs generalizing seen with
  | nil => intro _; exact ⟨seen, rfl, hn, fun x => by simp⟩
  | cons d xs ih =>
    intro hx
    obtain ⟨hd, hl⟩ := hx d (List.mem_cons_self ..)
    rw [List.foldl_cons, addDirective_step apart hloc hs hd hl]
    have hs' : ∀ x ∈ (if d ∈ seen then seen else seen ++ [d]), x ∈ ds := by
      intro x hx
      split at hx
      · exact hs x hx
      · rcases List.mem_append.1 hx with h | h
        · exact hs x h
        · rw [List.mem_singleton] at h; exact h ▸ hd
    have hn' : (if d ∈ seen then seen else seen ++ [d]).Nodup := by
      split
      · exact hn
      · rename_i hni
        rw [List.nodup_append]
        refine ⟨hn, by simp, fun a ha b hb e => ?_⟩
        rw [List.mem_singleton] at hb
        subst hb; subst e
        exact hni ha
    obtain ⟨seen', h1, h2, h3⟩ := ih hs' hn' (fun x h => hx x (List.mem_cons_of_mem _ h))
    refine ⟨seen', h1, h2, fun x => (h3 x).trans ?_⟩
    split
    · rename_i hin
      constructor
      · rintro (h | h)
        · exact .inl h
        · exact .inr (List.mem_cons_of_mem _ h)
      · rintro (h | h)
        · exact .inl h
        · rcases List.mem_cons.1 h with rfl | h
          · exact .inl hin
          · exact .inr h
    · simp only [List.mem_append, List.mem_cons]
      constructor
      · rintro ((h | h | h) | h)
        · exact .inl h
        · exact .inr (.inl h)
        · cases h
        · exact .inr (.inr h)
      · rintro (h | h | h)
        · exact .inl (.inl h)
        · exact .inl (.inr (.inl h))
        · exact .inr h

end

theorem collect_spec {s : Registry.Schema E} {ds : List Directive} (h : Holds s ds) (hloc : ∀ d ∈ ds, ∀ l ∈ d.where_.getD [], l ≤ 2) (order : List Loc) :
    ∀ seen : List Directive, (∀ x ∈ seen, x ∈ ds) → seen.Nodup → ∃ seen' : List Directive,
      order.foldl (fun res l => ((s.directives l).getD []).foldl addDirective res) (seen.map entryOf) = seen'.map entryOf ∧ seen'.Nodup ∧
      ∀ x, x ∈ seen' ↔ x ∈ seen ∨ (x ∈ ds ∧ ∃ l ∈ order, l ∈ x.where_.getD []) := by
  induction order with
  | nil => intro seen _ hn; exact ⟨seen, rfl, hn, fun x => by simp⟩
  | cons l order ih =>
    intro seen hs hn
    obtain ⟨seen₁, e1, n1, m1⟩ := addAll h.apart hloc hs hn l _ (fun x hx => (h.mem l x).1 hx)
    have hs₁ : ∀ x ∈ seen₁, x ∈ ds := fun x hx => by
      rcases (m1 x).1 hx with h' | h'
      · exact hs x h'
      · exact ((h.mem l x).1 h').1
    obtain ⟨seen₂, e2, n2, m2⟩ := ih seen₁ hs₁ n1
    refine ⟨seen₂, ?_, n2, fun x => ?_⟩
    · rw [List.foldl_cons, e1, e2]
    · rw [m2, m1, h.mem]
      constructor
      · rintro ((h' | ⟨h1, h2⟩) | ⟨h1, l', h2, h3⟩)
        · exact .inl h'
        · exact .inr ⟨h1, l, List.mem_cons_self .., h2⟩
        · exact .inr ⟨h1, l', List.mem_cons_of_mem _ h2, h3⟩
      · rintro (h' | ⟨h1, l', h2, h3⟩)
        · exact .inl (.inl h')
        · rcases List.mem_cons.1 h2 with rfl | h2
          · exact .inl (.inr ⟨h1, h3⟩)
          · exact .inr ⟨h1, l', h2, h3⟩

theorem showsDirective_entry {d : Directive} (h : ∀ l ∈ d.where_.getD [], l ≤ 2) : ShowsDirective d (entryOf d) := by
  refine ⟨rfl, ?_⟩
  unfold entryOf
  dsimp only
  revert h
  generalize d.where_.getD [] = ls
  intro h
  induction ls with
  | nil => exact .nil
  | cons l ls ih =>
    refine .cons ?_ (ih (fun x hx => h x (List.mem_cons_of_mem _ hx)))
    rcases loc_cases l (h l (List.mem_cons_self ..)) with rfl | rfl | rfl
    · exact .field
    · exact .spread
    · exact .inline

theorem pointwise_map {A B : Type} {R : A → B → Prop} {f : A → B} : ∀ {l : List A}, (∀ a ∈ l, R a (f a)) → Pointwise R l (l.map f)
  | [], _ => .nil
  | a :: _, h => .cons (h a (List.mem_cons_self ..)) (pointwise_map (fun x hx => h x (List.mem_cons_of_mem _ hx)))

/-- **C68.** `__schema { directives }` lists, in alphabetical order, exactly one entry for each directive that was registered (and has
a location), `skip` and `include` among them, with its name and its locations, in whatever order Go ranges over its tables. Missing:
directives with an undefined location, and what a call that was refused half-way left behind (`C68_refuted`). -/
theorem C68_directives_partial (e₁ e₂ : EnumArg E) (cs : List (Call E)) (hc : Clean (newSchema e₁ e₂) cs)
    (hloc : ∀ d ∈ accepted (newSchema e₁ e₂) cs, ∀ l ∈ d.where_.getD [], l ≤ 2) (l : List QDir) (h : AllDirectives (run (newSchema e₁ e₂) cs) l) :
    l.Pairwise (fun a b => bytesLe a.name b.name = true) ∧ ∃ qs, l.Perm qs ∧
      Pointwise ShowsDirective ((builtin b%"skip" 1 :: builtin b%"include" 2 :: accepted (newSchema e₁ e₂) cs).filter (fun d => d.where_ ≠ some [])) qs := by
  have h0 : Holds (newSchema e₁ e₂) [builtin b%"skip" 1, builtin b%"include" 2] := by
    have key : ∀ s : Registry.Schema E, s.directives = (empty : Registry.Schema E).directives → s.parsed = false → Clean s [.directive (builtin b%"skip" 1), .directive (builtin b%"include" 2)] ∧
        accepted s [.directive (builtin b%"skip" 1), .directive (builtin b%"include" 2)] = [builtin b%"skip" 1, builtin b%"include" 2] := by
      intro s hs hp
      obtain ⟨p, t, en⟩ := s
      simp only at hs hp
      subst hs; subst hp
      have o1 : (step (⟨false, (empty : Registry.Schema E).directives, en⟩ : Registry.Schema E) (.directive (builtin b%"skip" 1))).1 = .ok := rfl
      have o2 : (step (step (⟨false, (empty : Registry.Schema E).directives, en⟩ : Registry.Schema E) (.directive (builtin b%"skip" 1))).2 (.directive (builtin b%"include" 2))).1 = .ok := rfl
      constructor
      · exact ⟨fun d _ hh => absurd o1 hh, fun d _ hh => absurd o2 hh, trivial⟩
      · simp only [accepted]
        rw [if_pos o1, if_pos o2]; rfl
    have enumKeeps : ∀ (s : Registry.Schema E) m, (step s (.enum m)).2.directives = s.directives ∧ (step s (.enum m)).2.parsed = s.parsed := by
      intro s m
      simp only [step, registerEnum]
      split
      · exact ⟨rfl, rfl⟩
      · split <;> exact ⟨rfl, rfl⟩
    have a1 := enumKeeps (empty : Registry.Schema E) e₁
    have a2 := enumKeeps (step (empty : Registry.Schema E) (.enum e₁)).2 e₂
    obtain ⟨k1, k2⟩ := key (step (step (empty : Registry.Schema E) (.enum e₁)).2 (.enum e₂)).2 (a2.1.trans a1.1) (a2.2.trans a1.2)
    have hh : Holds (step (step (empty : Registry.Schema E) (.enum e₁)).2 (.enum e₂)).2 [] := by
      have := holds_empty (E := E)
      exact ⟨by rw [a2.1.trans a1.1]; exact this.mem, by rw [a2.1.trans a1.1]; exact this.key, .nil⟩
    have := holds_run hh _ k1
    rw [k2] at this
    exact this
  have hH := holds_run h0 cs hc
  have hloc' : ∀ d ∈ [builtin b%"skip" 1, builtin b%"include" 2] ++ accepted (newSchema e₁ e₂) cs, ∀ l ∈ d.where_.getD [], l ≤ 2 := by
    intro d hd
    rcases List.mem_append.1 hd with hd | hd
    · have : ∀ x ∈ [builtin b%"skip" 1, builtin b%"include" 2], ∀ l ∈ x.where_.getD [], l ≤ 2 := by decide +kernel
      exact this d hd
    · exact hloc d hd
  obtain ⟨order, -, ho, hp⟩ := h.perm
  obtain ⟨seen, e, hn, hm⟩ := collect_spec hH hloc' order [] (fun _ h => nomatch h) .nil
  refine ⟨h.sorted, ?_⟩
  have hmem : ∀ d, d ∈ seen ↔ d ∈ ([builtin b%"skip" 1, builtin b%"include" 2] ++ accepted (newSchema e₁ e₂) cs).filter (fun d => d.where_.getD [] ≠ []) := by
    intro d
    rw [hm, List.mem_filter]
    constructor
    · rintro (h' | ⟨h1, l, -, h3⟩)
      · cases h'
      · exact ⟨h1, by simp only [ne_eq, decide_not, Bool.not_eq_true', decide_eq_false_iff_not]; intro e; rw [e] at h3; cases h3⟩
    · rintro ⟨h1, h2⟩
      have h2 := of_decide_eq_true h2
      obtain ⟨l, hl⟩ := List.exists_mem_of_ne_nil _ h2
      refine .inr ⟨h1, l, (ho l).2 ?_, hl⟩
      have hmm := (hH.mem l d).2 ⟨h1, hl⟩
      cases hd : (run (newSchema e₁ e₂) cs).directives l with
      | some x => rfl
      | none => rw [hd] at hmm; cases hmm
  have hnd : (([builtin b%"skip" 1, builtin b%"include" 2] ++ accepted (newSchema e₁ e₂) cs).filter (fun d => d.where_.getD [] ≠ [])).Nodup := by
    refine List.pairwise_filter.2 (hH.apart.imp ?_)
    intro a b hab ha hb e
    subst e
    obtain ⟨l, hl⟩ := List.exists_mem_of_ne_nil _ (of_decide_eq_true ha)
    exact hab rfl l hl hl
  have hperm : seen.Perm _ := (List.perm_ext_iff_of_nodup hn hnd).2 hmem
  have hsame : ([builtin b%"skip" 1, builtin b%"include" 2] ++ accepted (newSchema e₁ e₂) cs).filter (fun d => d.where_.getD [] ≠ []) =
      (builtin b%"skip" 1 :: builtin b%"include" 2 :: accepted (newSchema e₁ e₂) cs).filter (fun d => d.where_ ≠ some []) := by
    refine List.filter_congr (fun d hd => decide_eq_decide.2 ?_)
    have hwn : d.where_ ≠ none := by
      rcases List.mem_append.1 hd with hd' | hd'
      · have : ∀ x ∈ [builtin b%"skip" 1, builtin b%"include" 2], x.where_ ≠ none := by decide +kernel
        exact this d hd'
      · have : ∀ (cs : List (Call E)) (s : Registry.Schema E), d ∈ accepted s cs → d.where_ ≠ none := by
          intro cs
          induction cs with
          | nil => intro s h; cases h
          | cons c cs ih =>
            intro s h
            rcases List.mem_append.1 h with h | h
            · cases c with
              | directive x =>
                simp only at h
                split at h
                · rename_i hok
                  rw [List.mem_singleton] at h
                  subst h
                  intro hn
                  simp only [step, registerDirective] at hok
                  split at hok
                  · cases hok
                  · have hne : checkDirective d ≠ .ok := by
                      unfold checkDirective
                      by_cases c1 : d.name.length = 0
                      · rw [if_pos c1]; exact fun h => nomatch h
                      rw [if_neg c1]
                      by_cases c2 : d.name.all directiveChar = false
                      · rw [if_pos c2]; exact fun h => nomatch h
                      rw [if_neg c2, if_pos hn]; exact fun h => nomatch h
                    split at hok
                    · rename_i hck; exact hne hck
                    · rename_i hck; exact hne hok
                · cases h
              | _ => cases h
            · exact ih _ h
        exact this cs _ hd'
    cases hw : d.where_ with
    | none => exact absurd hw hwn
    | some ls => simp
  refine ⟨_, hp.trans ?_, pointwise_map (f := entryOf) (fun d hd => showsDirective_entry (hloc' d ?_))⟩
  · rw [← hsame]
    have : collectDirectives (run (newSchema e₁ e₂) cs) order = seen.map entryOf := e
    rw [this]
    exact hperm.map _
  · rw [← hsame] at hd
    exact (List.mem_filter.1 hd).1

/-- the list for one order of the table -/
def dirListOf (s : Registry.Schema E) (order : List Loc) : List QDir := sortBy QDir.name (collectDirectives s order)

theorem dirListOf_all (s : Registry.Schema E) (order : List Loc) (hn : order.Nodup) (hm : ∀ x, x ∈ order ↔ (s.directives x).isSome = true) :
    AllDirectives s (dirListOf s order) := ⟨⟨order, hn, hm, sortBy_perm _ _⟩, sortBy_sorted _ _⟩

namespace DirDemo

def foo (w : List Loc) (uid : Nat) : Directive := ⟨b%"foo", some w, .func false [true], uid⟩

/-- `foo` for fields and another `foo` for fragments; the third call is refused -/
def calls : List (Call Unit) := [.directive (foo [0] 3), .directive (foo [1, 2] 4), .directive (foo [2] 5)]

/-- the second call is refused at the location 0, after it was stored for the location 1 -/
def torn : List (Call Unit) := [.directive (foo [0] 3), .directive (foo [1, 0] 4)]

theorem keys (cs : List (Call Unit)) (h : cs = calls ∨ cs = torn) (order : List Loc) (ho : ∀ x, x ∈ order ↔ x = 0 ∨ x = 1 ∨ x = 2) :
    ∀ x, x ∈ order ↔ ((run (newSchema (V := Unit) .nil .nil) cs).directives x).isSome = true := by
  intro x
  rw [ho]
  have : ∀ n : Fin 256, ((UInt8.ofNat n.val = 0 ∨ UInt8.ofNat n.val = 1 ∨ UInt8.ofNat n.val = 2) ↔
      ((run (newSchema (V := Unit) .nil .nil) calls).directives (UInt8.ofNat n.val)).isSome = true) ∧
      ((UInt8.ofNat n.val = 0 ∨ UInt8.ofNat n.val = 1 ∨ UInt8.ofNat n.val = 2) ↔
      ((run (newSchema (V := Unit) .nil .nil) torn).directives (UInt8.ofNat n.val)).isSome = true) := by decide +kernel
  have h1 := this ⟨x.toNat, x.toNat_lt⟩
  have e : UInt8.ofNat x.toNat = x := UInt8.toNat_inj.1 (by simp)
  simp only [e] at h1
  rcases h with rfl | rfl
  · exact h1.1
  · exact h1.2

end DirDemo

open DirDemo in
/-- Non-vacuity of C68: the hypotheses hold, and the list shows both directives of the name `foo`. -/
example : Clean (newSchema (V := Unit) .nil .nil) calls ∧ accepted (newSchema (V := Unit) .nil .nil) calls = [foo [0] 3, foo [1, 2] 4] ∧
    AllDirectives (run (newSchema (V := Unit) .nil .nil) calls) (dirListOf (run (newSchema (V := Unit) .nil .nil) calls) [2, 0, 1]) ∧
    dirListOf (run (newSchema (V := Unit) .nil .nil) calls) [2, 0, 1] =
      [⟨b%"foo", [b%"FRAGMENT_SPREAD", b%"INLINE_FRAGMENT"]⟩, ⟨b%"foo", [b%"FIELD"]⟩,
       ⟨b%"include", [b%"FIELD", b%"FRAGMENT_SPREAD", b%"INLINE_FRAGMENT"]⟩, ⟨b%"skip", [b%"FIELD", b%"FRAGMENT_SPREAD", b%"INLINE_FRAGMENT"]⟩] := by
  refine ⟨⟨?_, ?_, ?_, trivial⟩, by decide +kernel, dirListOf_all _ _ (by decide) (keys _ (.inl rfl) _ (by simp; intro x; constructor <;> (rintro (h | h | h) <;> simp [h]))), by decide +kernel⟩
  · intro d _ h; exact absurd (by decide +kernel) h
  · intro d _ h; exact absurd (by decide +kernel) h
  · intro d e h
    injection e with e
    subst e
    rfl

open DirDemo in
/-- **C68 refuted after a refused call.** `RegisterDirective` refuses the second `foo`, but it stays registered for fragments; which of
the two the list shows depends on the order in which Go ranges over its tables. -/
theorem C68_refuted : ∃ l l', (step (step (newSchema (V := Unit) .nil .nil) (.directive (foo [0] 3))).2 (.directive (foo [1, 0] 4))).1 = .err ∧
    AllDirectives (run (newSchema (V := Unit) .nil .nil) torn) l ∧ AllDirectives (run (newSchema (V := Unit) .nil .nil) torn) l' ∧
    l.filter (fun q => q.name = b%"foo") = [⟨b%"foo", [b%"FIELD"]⟩] ∧ l'.filter (fun q => q.name = b%"foo") = [⟨b%"foo", [b%"FRAGMENT_SPREAD", b%"FIELD"]⟩] := by
  refine ⟨_, _, by decide +kernel, dirListOf_all _ [0, 1, 2] (by decide) (keys _ (.inr rfl) _ (by simp)), dirListOf_all _ [1, 0, 2] (by decide)
    (keys _ (.inr rfl) _ ?_), by decide +kernel, by decide +kernel⟩
  intro x
  simp
  constructor <;> (rintro (h | h | h) <;> simp [h])

open DirDemo in
/-- **C68 refuted for other locations.** A directive registered for a location that does not exist is accepted and shown as one for fields. -/
theorem C68_refuted_location : (step (newSchema (V := Unit) .nil .nil) (.directive (foo [7] 3))).1 = .ok ∧
    entryOf (foo [7] 3) = ⟨b%"foo", [b%"FIELD"]⟩ ∧
    entryOf (foo [7] 3) ∈ collectDirectives (run (newSchema (V := Unit) .nil .nil) [.directive (foo [7] 3)]) [0, 1, 2, 7] := by decide +kernel

end TypeList
end Yarql
