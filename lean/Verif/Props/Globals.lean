import Verif.Model.Globals
import Verif.Props.TypeWalk

/-!
# C64, C65: `Implements` and `TypeRename`
-/

namespace Yarql
namespace Globals
open TypeWalk
open Reflects (Names Mirrors)
open GoTypes (NoClash Reach)

/-! ## Specification -/

/-- `i` is a named interface, `t` a named struct that implements it -/
structure Proper (T : Types) (i t : Ty) : Prop where
  iface : (T.get i).shape = .iface
  iname : (T.get i).name ≠ []
  ipkg : (T.get i).pkg ≠ []
  struct : ∃ fs, (T.get t).shape = .struct fs
  tname : (T.get t).name ≠ []
  tpkg : (T.get t).pkg ≠ []
  impl : T.implements t i = true

/-- the call `Implements((*i)(nil), t{})` was made and is legal -/
def Made (T : Types) (h : List Call) (i t : Ty) : Prop :=
  ∃ p, Call.implements (some p) (some t) ∈ h ∧ (T.get p).shape = .ptr i ∧ Proper T i t

/-- the call `TypeRename(t{}, n, force)` is legal and gives the name `m` -/
structure Renames (T : Types) (t : Ty) (n : Bytes) (force : Bool) (m : Bytes) : Prop where
  name : (T.get t).name ≠ []
  struct : ∃ fs, (T.get t).shape = .struct fs
  trimmed : m = Naming.trimSpace n
  nonempty : m ≠ []
  valid : force = false → Naming.validGraphQlName m = true

/-- the name `TypeRename` has given to `t`: that of the last legal call for it -/
inductive Given (T : Types) (t : Ty) : List Call → Bytes → Prop where
  | last {h n force m} : Renames T t n force m → Given T t (h ++ [.rename (some t) n force]) m
  | implements {h i u m} : Given T t h m → Given T t (h ++ [.implements i u]) m
  | other {h u n force m} : Given T t h m → (∀ v, u = some v → ∀ m', ¬ Renames T v n force m' ∨ v ≠ t) →
      Given T t (h ++ [.rename u n force]) m

/-- no legal call for `t` -/
def NotRenamed (T : Types) (t : Ty) (h : List Call) : Prop := ∀ n force m, .rename (some t) n force ∈ h → ¬ Renames T t n force m

/-! ## Single calls -/

theorem implements_iff (T : Types) (g g' : State) (iv tv : Option Ty) : implements T g iv tv = some g' ↔
    ∃ p i t, iv = some p ∧ tv = some t ∧ (T.get p).shape = .ptr i ∧ Proper T i t ∧
      g' = (if ((lookup g.impls (T.get i).name).getD []).any (fun u => (T.get u).name = (T.get t).name ∧ (T.get u).pkg = (T.get t).pkg) then g
        else { g with
          impls := mapSet g.impls (T.get i).name ((lookup g.impls (T.get i).name).getD [] ++ [t])
          structs := mapSet g.structs (T.get t).name ((lookup g.structs (T.get t).name).getD [] ++ [i]) }) := by
  constructor
  · intro h
    unfold implements at h
    cases iv with
    | none => cases h
    | some p =>
      dsimp only at h
      split at h
      · rename_i i hp
        split at h
        · rename_i hi
          by_cases h1 : (T.get i).name = [] ∨ (T.get i).pkg = []
          · rw [if_pos h1] at h; cases h
          · rw [if_neg h1] at h
            rw [not_or] at h1
            cases tv with
            | none => cases h
            | some t =>
              dsimp only at h
              split at h
              · rename_i fs ht
                by_cases h2 : (T.get t).name = [] ∨ (T.get t).pkg = []
                · rw [if_pos h2] at h; cases h
                · rw [if_neg h2] at h
                  rw [not_or] at h2
                  by_cases h3 : T.implements t i = false
                  · rw [if_pos h3] at h; cases h
                  · rw [if_neg h3] at h
                    refine ⟨p, i, t, rfl, rfl, hp, ⟨hi, h1.1, h1.2, ⟨fs, ht⟩, h2.1, h2.2, by simpa using h3⟩, ?_⟩
                    split at h
                    · rename_i h4
                      rw [if_pos h4]
                      injection h with h
                      exact h.symm
                    · rename_i h4
                      rw [if_neg h4]
                      injection h with h
                      exact h.symm
              · cases h
        · cases h
      · cases h
  · rintro ⟨p, i, t, rfl, rfl, hp, hP, rfl⟩
    obtain ⟨fs, hs⟩ := hP.struct
    unfold implements
    dsimp only
    rw [hp]
    dsimp only
    rw [hP.iface]
    dsimp only
    rw [if_neg (not_or.2 ⟨hP.iname, hP.ipkg⟩), hs]
    dsimp only
    rw [if_neg (not_or.2 ⟨hP.tname, hP.tpkg⟩), if_neg (by simp [hP.impl])]
    split <;> rfl

theorem rename_iff (T : Types) (g g' : State) (tv : Option Ty) (n : Bytes) (force : Bool) : typeRename T g tv n force = some g' ↔
    ∃ t m, tv = some t ∧ Renames T t n force m ∧ g' = { g with renames := mapSet g.renames (T.get t).name m } := by
  constructor
  · intro h
    unfold typeRename at h
    cases tv with
    | none => cases h
    | some t =>
      dsimp only at h
      by_cases h1 : (T.get t).name = []
      · rw [if_pos h1] at h; cases h
      · rw [if_neg h1] at h
        split at h
        · rename_i fs hs
          by_cases h2 : (Naming.trimSpace n).length = 0
          · rw [if_pos h2] at h; cases h
          · rw [if_neg h2] at h
            by_cases h3 : force = false ∧ Naming.validGraphQlName (Naming.trimSpace n) = false
            · rw [if_pos h3] at h; cases h
            · rw [if_neg h3] at h
              injection h with h
              refine ⟨t, _, rfl, ⟨h1, ⟨fs, hs⟩, rfl, fun e => h2 (by rw [e]; rfl), fun e => ?_⟩, h.symm⟩
              cases hv : Naming.validGraphQlName (Naming.trimSpace n) with
              | true => rfl
              | false => exact absurd ⟨e, hv⟩ h3
        · cases h
  · rintro ⟨t, m, rfl, hr, rfl⟩
    obtain ⟨fs, hs⟩ := hr.struct
    unfold typeRename
    dsimp only
    rw [if_neg hr.name, hs]
    dsimp only
    have hm := hr.trimmed
    rw [← hm, if_neg (by intro e; exact hr.nonempty (List.length_eq_zero_iff.1 e)), if_neg]
    rintro ⟨e, h⟩
    rw [hr.valid e] at h
    cases h

theorem run_append (T : Types) (g : State) (h : List Call) (c : Call) : run T g (h ++ [c]) = (step T (run T g h) c).getD (run T g h) := by
  induction h generalizing g with
  | nil => rfl
  | cons c' h ih => exact ih _

theorem lookup_mapSet {K A : Type} [DecidableEq K] (m : List (K × A)) (k k' : K) (a : A) :
    lookup (mapSet m k a) k' = if k = k' then some a else lookup m k' := by
  unfold lookup mapSet
  by_cases h : k = k'
  · rw [if_pos h]
    simp [List.find?_cons, h]
  · rw [if_neg h]
    simp only [List.find?_cons, h, decide_false]
    congr 1
    induction m with
    | nil => rfl
    | cons e m ih =>
      by_cases he : e.1 = k
      · have : ¬ e.1 = k' := fun e' => h (he ▸ e')
        simp [List.filter_cons, List.find?_cons, he, h] at ih ⊢
        exact ih
      · by_cases he' : e.1 = k'
        · simp [List.filter_cons, List.find?_cons, he', Ne.symm h]
        · simp [List.filter_cons, List.find?_cons, he, he'] at ih ⊢
          exact ih


/-! ## C64: histories of `Implements` -/

theorem Made.mono {T : Types} {h : List Call} {i t : Ty} (hm : Made T h i t) (c : Call) : Made T (h ++ [c]) i t := by
  obtain ⟨p, hc, hp⟩ := hm
  exact ⟨p, List.mem_append_left _ hc, hp⟩

theorem Made.last {T : Types} {h : List Call} {c : Call} {i t : Ty} (hm : Made T (h ++ [c]) i t) :
    Made T h i t ∨ ∃ p, c = .implements (some p) (some t) ∧ (T.get p).shape = .ptr i ∧ Proper T i t := by
  obtain ⟨p, hc, hp⟩ := hm
  rcases List.mem_append.1 hc with hc | hc
  · exact .inl ⟨p, hc, hp⟩
  · exact .inr ⟨p, (List.mem_singleton.1 hc).symm, hp⟩

def implsOf (g : State) (n : Bytes) : List Ty := (lookup g.impls n).getD []
def structsOf (g : State) (n : Bytes) : List Ty := (lookup g.structs n).getD []

/-- What the two tables say of the history. -/
structure Inv (T : Types) (h : List Call) (g : State) : Prop where
  sound : ∀ n t, t ∈ implsOf g n → ∃ i, (T.get i).name = n ∧ Made T h i t
  complete : ∀ i t, Made T h i t → ∃ u ∈ implsOf g (T.get i).name, (T.get u).name = (T.get t).name ∧ (T.get u).pkg = (T.get t).pkg
  once : ∀ n, ((implsOf g n).map (fun u => ((T.get u).name, (T.get u).pkg))).Nodup
  back : ∀ n i, i ∈ structsOf g n → ∃ t, (T.get t).name = n ∧ Made T h i t
  forth : (∀ i j t u, Made T h i t → Made T h j u → (T.get i).name = (T.get j).name → i = j) →
    ∀ i t, Made T h i t → i ∈ structsOf g (T.get t).name

theorem snocRec {A : Type} {P : List A → Prop} (nil : P []) (append_singleton : ∀ l a, P l → P (l ++ [a])) (l : List A) : P l := by
  rw [← List.reverse_reverse l]
  induction l.reverse with
  | nil => exact nil
  | cons a l ih => rw [List.reverse_cons]; exact append_singleton _ _ ih

theorem inv_run (T : Types) (h : List Call) : Inv T h (run T empty h) := by
  induction h using snocRec with
  | nil =>
    refine ⟨fun n t ht => ?_, fun i t hm => ?_, fun n => ?_, fun n i hi => ?_, fun _ i t hm => ?_⟩
    · cases ht
    · obtain ⟨_, hc, _⟩ := hm; cases hc
    · exact List.nodup_nil
    · cases hi
    · obtain ⟨_, hc, _⟩ := hm; cases hc
  | append_singleton h c ih =>
    rw [run_append]
    generalize run T empty h = g at ih ⊢
    have stay : (∀ i t, Made T (h ++ [c]) i t → Made T h i t) → Inv T (h ++ [c]) g := by
      intro hb
      refine ⟨fun n t ht => ?_, fun i t hm => ih.complete i t (hb i t hm), ih.once, fun n i hi => ?_, fun hI i t hm => ?_⟩
      · obtain ⟨i, e, hm⟩ := ih.sound n t ht; exact ⟨i, e, hm.mono c⟩
      · obtain ⟨t, e, hm⟩ := ih.back n i hi; exact ⟨t, e, hm.mono c⟩
      · exact ih.forth (fun i j t u hi hj => hI i j t u (hi.mono c) (hj.mono c)) i t (hb i t hm)
    cases c with
    | rename t n force =>
      have hb : Inv T (h ++ [.rename t n force]) g := stay (fun i u hm => by
        rcases hm.last with hm | ⟨p, e, _⟩
        · exact hm
        · cases e)
      change Inv T _ ((typeRename T g t n force).getD g)
      cases hr : typeRename T g t n force with
      | none => exact hb
      | some g' =>
        obtain ⟨u, m, _, _, rfl⟩ := (rename_iff T g g' t n force).1 hr
        exact ⟨hb.sound, hb.complete, hb.once, hb.back, hb.forth⟩
    | implements iv tv =>
      change Inv T _ ((implements T g iv tv).getD g)
      cases hr : implements T g iv tv with
      | none =>
        refine stay (fun i u hm => ?_)
        rcases hm.last with hm | ⟨p, e, hp, hP⟩
        · exact hm
        · injection e with e1 e2
          subst e1 e2
          have := (implements_iff T g _ (some p) (some u)).2 ⟨p, i, u, rfl, rfl, hp, hP, rfl⟩
          rw [hr] at this; cases this
      | some g' =>
        obtain ⟨p, i, t, rfl, rfl, hp, hP, hg⟩ := (implements_iff T g g' iv tv).1 hr
        have hnew : Made T (h ++ [.implements (some p) (some t)]) i t := ⟨p, by simp, hp, hP⟩
        have hlast : ∀ j u, Made T (h ++ [.implements (some p) (some t)]) j u → Made T h j u ∨ (j = i ∧ u = t) := by
          intro j u hm
          rcases hm.last with hm | ⟨p', e, hp', _⟩
          · exact .inl hm
          · injection e with e1 e2
            injection e1 with e1; injection e2 with e2
            subst e1 e2
            rw [hp] at hp'
            injection hp' with e
            exact .inr ⟨e.symm, rfl⟩
        by_cases hk : ((lookup g.impls (T.get i).name).getD []).any
            (fun u => (T.get u).name = (T.get t).name ∧ (T.get u).pkg = (T.get t).pkg) = true
        · rw [if_pos hk] at hg
          subst hg
          obtain ⟨u, hu, hun⟩ := List.any_eq_true.1 hk
          have hun := of_decide_eq_true hun
          refine ⟨fun n t' ht => ?_, fun j t' hm => ?_, ih.once, fun n j hj => ?_, fun hI j t' hm => ?_⟩
          · obtain ⟨j, e, hm⟩ := ih.sound n t' ht; exact ⟨j, e, hm.mono _⟩
          · rcases hlast j t' hm with hm | ⟨rfl, rfl⟩
            · exact ih.complete j t' hm
            · exact ⟨u, hu, hun⟩
          · obtain ⟨t', e, hm⟩ := ih.back n j hj; exact ⟨t', e, hm.mono _⟩
          · have hI' : ∀ i j t u, Made T h i t → Made T h j u → (T.get i).name = (T.get j).name → i = j :=
              fun i j t u hi hj => hI i j t u (hi.mono _) (hj.mono _)
            rcases hlast j t' hm with hm | ⟨rfl, rfl⟩
            · exact ih.forth hI' j t' hm
            · obtain ⟨i', e, hm'⟩ := ih.sound _ u hu
              have := hI i' j u t' (hm'.mono _) hnew e
              subst this
              have := ih.forth hI' i' u hm'
              rw [hun.1] at this
              exact this
        · rw [if_neg hk] at hg
          have h1 : ∀ n, implsOf g' n = if (T.get i).name = n then implsOf g n ++ [t] else implsOf g n := by
            intro n
            rw [hg]
            unfold implsOf
            dsimp only
            rw [lookup_mapSet]
            by_cases e : (T.get i).name = n
            · rw [if_pos e, if_pos e, ← e]; rfl
            · rw [if_neg e, if_neg e]
          have h2 : ∀ n, structsOf g' n = if (T.get t).name = n then structsOf g n ++ [i] else structsOf g n := by
            intro n
            rw [hg]
            unfold structsOf
            dsimp only
            rw [lookup_mapSet]
            by_cases e : (T.get t).name = n
            · rw [if_pos e, if_pos e, ← e]; rfl
            · rw [if_neg e, if_neg e]
          change Inv T _ g'
          clear hg
          have m1 : ∀ n u, u ∈ implsOf g n → u ∈ implsOf g' n := by
            intro n u hu
            rw [h1]; split
            · exact List.mem_append_left _ hu
            · exact hu
          have m2 : ∀ n u, u ∈ structsOf g n → u ∈ structsOf g' n := by
            intro n u hu
            rw [h2]; split
            · exact List.mem_append_left _ hu
            · exact hu
          refine ⟨fun n t' ht => ?_, fun j t' hm => ?_, fun n => ?_, fun n j hj => ?_, fun hI j t' hm => ?_⟩
          · rw [h1] at ht
            have old : t' ∈ implsOf g n → ∃ i_1, (T.get i_1).name = n ∧ Made T (h ++ [.implements (some p) (some t)]) i_1 t' := by
              intro ht
              obtain ⟨j, e, hm⟩ := ih.sound n t' ht; exact ⟨j, e, hm.mono _⟩
            by_cases e : (T.get i).name = n
            · rw [if_pos e] at ht
              rcases List.mem_append.1 ht with ht | ht
              · exact old ht
              · rw [List.mem_singleton] at ht
                subst ht
                exact ⟨i, e, hnew⟩
            · rw [if_neg e] at ht
              exact old ht
          · rcases hlast j t' hm with hm | ⟨rfl, rfl⟩
            · obtain ⟨u, hu, e⟩ := ih.complete j t' hm
              exact ⟨u, m1 _ _ hu, e⟩
            · refine ⟨t', ?_, rfl, rfl⟩
              rw [h1, if_pos rfl]; simp
          · rw [h1]
            by_cases e : (T.get i).name = n
            · rw [if_pos e, List.map_append, List.nodup_append]
              refine ⟨ih.once n, by simp, ?_⟩
              intro a ha b hb hab
              simp only [List.map_cons, List.map_nil, List.mem_singleton] at hb
              obtain ⟨u, hu, rfl⟩ := List.mem_map.1 ha
              apply hk
              rw [List.any_eq_true]
              subst e
              refine ⟨u, hu, ?_⟩
              rw [hb] at hab
              injection hab with e1 e2
              simp [e1, e2]
            · rw [if_neg e]; exact ih.once n
          · rw [h2] at hj
            have old : j ∈ structsOf g n → ∃ t', (T.get t').name = n ∧ Made T (h ++ [.implements (some p) (some t)]) j t' := by
              intro hj
              obtain ⟨t', e, hm⟩ := ih.back n j hj; exact ⟨t', e, hm.mono _⟩
            by_cases e : (T.get t).name = n
            · rw [if_pos e] at hj
              rcases List.mem_append.1 hj with hj | hj
              · exact old hj
              · rw [List.mem_singleton] at hj
                subst hj
                exact ⟨t, e, hnew⟩
            · rw [if_neg e] at hj
              exact old hj
          · rcases hlast j t' hm with hm | ⟨rfl, rfl⟩
            · exact m2 _ _ (ih.forth (fun i j t u hi hj => hI i j t u (hi.mono _) (hj.mono _)) j t' hm)
            · rw [h2, if_pos rfl]; simp


theorem nodup_of_map {A B : Type} (f : A → B) {l : List A} (h : (l.map f).Nodup) : l.Nodup := by
  induction l with
  | nil => exact List.nodup_nil
  | cons a l ih =>
    rw [List.map_cons, List.nodup_cons] at h
    exact List.nodup_cons.2 ⟨fun ha => h.1 (List.mem_map_of_mem ha), ih h.2⟩

/-- **C64** (illegal calls). `Implements` either panics, changing nothing, or its arguments were a pointer to a named interface and a
named struct that implements it. -/
theorem C64_legal (T : Types) (g : State) (iv tv : Option Ty) : (implements T g iv tv).isSome = true ↔
    ∃ p i t, iv = some p ∧ tv = some t ∧ (T.get p).shape = .ptr i ∧ Proper T i t := by
  constructor
  · intro h
    obtain ⟨g', h⟩ := Option.isSome_iff_exists.1 h
    obtain ⟨p, i, t, h1, h2, h3, h4, _⟩ := (implements_iff T g g' iv tv).1 h
    exact ⟨p, i, t, h1, h2, h3, h4⟩
  · rintro ⟨p, i, t, h1, h2, h3, h4⟩
    rw [(implements_iff T g _ iv tv).2 ⟨p, i, t, h1, h2, h3, h4, rfl⟩]
    rfl

/-- **C64** (the tables). After any history of calls the registered implementations of an interface are exactly those given to
`Implements` for it, each once, and the interfaces of a struct exactly those it was registered for. Missing: interfaces of
different packages with one name, see `C64_refuted`. -/
theorem C64_tables_partial (T : Types) (h : List Call)
    (hI : ∀ i j t u, Made T h i t → Made T h j u → (T.get i).name = (T.get j).name → i = j)
    (hS : ∀ i j t u, Made T h i t → Made T h j u → (T.get t).name = (T.get u).name → (T.get t).pkg = (T.get u).pkg → t = u) :
    (∀ i t u, Made T h i u → (t ∈ implsOf (run T empty h) (T.get i).name ↔ Made T h i t)) ∧
    (∀ n, (implsOf (run T empty h) n).Nodup) ∧
    (∀ i t, i ∈ structsOf (run T empty h) (T.get t).name ↔ ∃ u, (T.get u).name = (T.get t).name ∧ Made T h i u) := by
  have inv := inv_run T h
  refine ⟨fun i t v hv => ⟨fun ht => ?_, fun hm => ?_⟩, fun n => ?_, fun i t => ⟨fun hi => inv.back _ i hi, ?_⟩⟩
  · obtain ⟨j, e, hm⟩ := inv.sound _ t ht
    rw [← hI j i t v hm hv e]
    exact hm
  · obtain ⟨u, hu, e1, e2⟩ := inv.complete i t hm
    obtain ⟨j, _, hm'⟩ := inv.sound _ u hu
    rw [← hS j i u t hm' hm e1 e2]
    exact hu
  · exact nodup_of_map _ (inv.once n)
  · rintro ⟨u, e, hm⟩
    rw [← e]
    exact inv.forth hI i u hm

/-- **C64** (again). Repeating a call changes nothing, whatever was called between. -/
theorem C64_again (T : Types) (h h' : List Call) (i t : Option Ty) :
    run T empty (h ++ [.implements i t] ++ h' ++ [.implements i t]) = run T empty (h ++ [.implements i t] ++ h') := by
  rw [run_append]
  change (implements T _ i t).getD _ = _
  cases hr : implements T (run T empty (h ++ [.implements i t] ++ h')) i t with
  | none => rfl
  | some g' =>
    obtain ⟨p, i, t, rfl, rfl, hp, hP, hg⟩ := (implements_iff _ _ _ _ _).1 hr
    have hm : Made T (h ++ [.implements (some p) (some t)] ++ h') i t := ⟨p, by simp, hp, hP⟩
    obtain ⟨u, hu, e1, e2⟩ := (inv_run T _).complete i t hm
    unfold implsOf at hu
    rw [hg, if_pos (List.any_eq_true.2 ⟨u, hu, decide_eq_true ⟨e1, e2⟩⟩)]
    rfl

section
variable {F V : Type} (T : Types) (h : List Call) (isError : Ty → Bool) (zero : Ty → InVal F) (enums : List (EnumDef F))

/-- the program after the calls `h` -/
def progAfter : Program F := program T (run T empty h) isError zero enums

/-- **C64** (the schema). In a schema that `Parse` makes after the calls `h`, the implementations of an interface are exactly the
structs registered for it, and the interfaces of an object type exactly those it is registered for. Missing: interfaces of
different packages with one name. -/
theorem C64_schema_partial (fuel : Nat) (d : Decl V) (schema : Schema F V) (hnc : NoClash (progAfter T h isError zero enums))
    (hI : ∀ i j, (T.get i).shape = .iface → (T.get j).shape = .iface → (T.get i).name ≠ [] → (T.get i).name = (T.get j).name → i = j)
    (hp : parse (progAfter T h isError zero enums) fuel d = .ok schema) :
    ∃ N, Mirrors (progAfter T h isError zero enums) N (fun _ _ => True) d schema ∧
      (∀ n i dd u, N.ifaces n = some i → lookup schema.interfaces n = some dd → isTime (T.get u) = false →
        ((∃ k ∈ dd.implementations, N.types k.typeName = some u) ↔ Made T h i u)) ∧
      (∀ n t td i, N.types n = some t → lookup schema.types n = some td → (T.get t).name ≠ [] → isTime (T.get i) = false →
        ((∃ k ∈ td.implementations, N.ifaces k = some i) ↔ Made T h i t)) := by
  obtain ⟨N, hN⟩ := C48_registered_partial _ fuel d schema hnc hp
  have inv := inv_run T h
  have hMI : ∀ i j t u, Made T h i t → Made T h j u → (T.get i).name = (T.get j).name → i = j := by
    rintro i j t u ⟨_, _, _, hi⟩ ⟨_, _, _, hj⟩ e
    exact hI i j hi.iface hj.iface hi.iname e
  have named : ∀ i t, Made T h i t → GoTypes.Named (progAfter T h isError zero enums) t := by
    rintro i t ⟨_, _, _, hi⟩
    exact ⟨hi.struct, hi.tname⟩
  have same : ∀ t u, (T.get t).name = (T.get u).name → qlName (progAfter T h isError zero enums) (T.get t).name =
      qlName (progAfter T h isError zero enums) (T.get u).name := fun t u e => by rw [e]
  refine ⟨N, hN, fun n i dd u hn hl hu => ?_, fun n t td i hn hl ht hi => ?_⟩
  · obtain ⟨_, _, us, hus, h1, h2⟩ := hN.ifaceDef n i dd hn hl
    have hus' : implsOf (run T empty h) (T.get i).name = us := by
      unfold implsOf
      change lookup (run T empty h).impls (T.get i).name = some us at hus
      rw [hus]; rfl
    have hish := (hN.ifaceReached n i hn).2
    have hin := (hN.ifaceName n i hn).1
    constructor
    · rintro ⟨k, hk, hku⟩
      obtain ⟨u', hu', _, _, _, _, hku'⟩ := h1 k hk
      rw [hku] at hku'
      injection hku' with e
      subst e
      rw [← hus'] at hu'
      obtain ⟨j, e, hm⟩ := inv.sound _ u hu'
      obtain ⟨_, _, _, hP⟩ := id hm
      rw [hI i j hish hP.iface hin e.symm]
      exact hm
    · intro hm
      obtain ⟨v, hv, e1, e2⟩ := inv.complete i u hm
      obtain ⟨j, _, hm'⟩ := inv.sound _ v hv
      have : v = u := hnc.same v u (named j v hm') (named i u hm) (same v u e1) e2
      subst this
      rw [hus'] at hv
      exact h2 v hv hu
  · obtain ⟨_, _, _, _, h1, h2⟩ := hN.typeDef n t td hn hl
    have htn : GoTypes.Named (progAfter T h isError zero enums) t := by
      obtain ⟨_, fs, hs⟩ := hN.typeReached n t hn
      exact ⟨⟨fs, hs.1⟩, ht⟩
    constructor
    · rintro ⟨k, hk, hki⟩
      obtain ⟨i', hi', hki'⟩ := h1 k hk
      rw [hki] at hki'
      injection hki' with e
      subst e
      obtain ⟨u, e, hm⟩ := inv.back _ i hi'
      have : t = u := hnc.solo t u htn (named i u hm) (same t u e.symm) (List.ne_nil_of_mem hi')
      rw [this]
      exact hm
    · intro hm
      obtain ⟨_, _, _, hP⟩ := id hm
      exact h2 ht i (inv.forth hMI i t hm) hi hP.iface

end

/-! ## C65: histories of `TypeRename` -/

/-- The table of names: of a bare Go name, the last legal call for a type of that name. -/
theorem renames_spec (T : Types) (h : List Call) (t : Ty) 
    (halone : ∀ u n force, .rename (some u) n force ∈ h → (T.get u).name = (T.get t).name → u = t) :
    (∀ m, Given T t h m → lookup (run T empty h).renames (T.get t).name = some m) ∧
    (NotRenamed T t h → lookup (run T empty h).renames (T.get t).name = none) ∧
    ((∃ m, Given T t h m) ∨ NotRenamed T t h) := by
  induction h using snocRec with
  | nil =>
    refine ⟨fun m hm => ?_, fun _ => rfl, .inr (fun n f m hc => by cases hc)⟩
    generalize hh : ([] : List Call) = h at hm
    cases hm <;> simp at hh
  | append_singleton h c ih =>
    obtain ⟨ih1, ih2, ih3⟩ := ih (fun u n f hc => halone u n f (List.mem_append_left _ hc))
    rw [run_append]
    generalize run T empty h = g at ih1 ih2 ⊢
    cases c with
    | implements i u =>
      have hsame : ((step T g (.implements i u)).getD g).renames = g.renames := by
        change ((implements T g i u).getD g).renames = _
        cases hr : implements T g i u with
        | none => rfl
        | some g' =>
          obtain ⟨p, i', t', _, _, _, _, rfl⟩ := (implements_iff _ _ _ _ _).1 hr
          change (if _ then g else _ : State).renames = _
          split <;> rfl
      rw [hsame]
      have hgiven : ∀ m, Given T t (h ++ [.implements i u]) m ↔ Given T t h m := by
        intro m
        refine ⟨fun hm => ?_, .implements⟩
        generalize hh : h ++ [Call.implements i u] = h' at hm
        cases hm with
        | last => have := List.append_inj_right' hh rfl; cases this
        | implements hm => rw [List.append_inj_left' hh rfl]; exact hm
        | other => have := List.append_inj_right' hh rfl; cases this
      have hnot : NotRenamed T t (h ++ [.implements i u]) ↔ NotRenamed T t h := by
        refine ⟨fun hn n f m hc => hn n f m (List.mem_append_left _ hc), fun hn n f m hc => ?_⟩
        rcases List.mem_append.1 hc with hc | hc
        · exact hn n f m hc
        · cases List.mem_singleton.1 hc
      refine ⟨fun m hm => ih1 m ((hgiven m).1 hm), fun hn => ih2 (hnot.1 hn), ?_⟩
      rcases ih3 with ⟨m, hm⟩ | hn
      · exact .inl ⟨m, (hgiven m).2 hm⟩
      · exact .inr (hnot.2 hn)
    | rename u n force =>
      change (∀ m, _ → lookup ((typeRename T g u n force).getD g).renames _ = _) ∧ (_ → lookup ((typeRename T g u n force).getD g).renames _ = _) ∧ _
      by_cases hthis : u = some t ∧ ∃ m, Renames T t n force m
      · obtain ⟨rfl, m, hm⟩ := hthis
        rw [(rename_iff T g _ (some t) n force).2 ⟨t, m, rfl, hm, rfl⟩]
        change (∀ m', _ → lookup (mapSet g.renames (T.get t).name m) _ = _) ∧ (_ → lookup (mapSet g.renames (T.get t).name m) _ = _) ∧ _
        rw [lookup_mapSet, if_pos rfl]
        refine ⟨fun m' hm' => ?_, fun hn => absurd hm (hn n force m (by simp)), .inl ⟨m, .last hm⟩⟩
        generalize hh : h ++ [Call.rename (some t) n force] = h' at hm'
        cases hm' with
        | last hr =>
          have e := List.append_inj_right' hh rfl
          injection e with e; injection e with _ e1 e2
          subst e1 e2
          rw [hm.trimmed, hr.trimmed]
        | implements => have := List.append_inj_right' hh rfl; cases this
        | other _ hno =>
          have e := List.append_inj_right' hh rfl
          injection e with e; injection e with e0 e1 e2
          subst e1 e2
          rcases hno t e0.symm m with h | h
          · exact absurd hm h
          · exact absurd rfl h
      · have hno : ∀ v, u = some v → ∀ m', ¬ Renames T v n force m' ∨ v ≠ t := by
          rintro v rfl m'
          by_cases e : v = t
          · subst e
            exact .inl (fun hr => hthis ⟨rfl, m', hr⟩)
          · exact .inr e
        have hsame : lookup ((typeRename T g u n force).getD g).renames (T.get t).name = lookup g.renames (T.get t).name := by
          cases hr : typeRename T g u n force with
          | none => rfl
          | some g' =>
            obtain ⟨v, m, rfl, hv, rfl⟩ := (rename_iff _ _ _ _ _ _).1 hr
            change lookup (mapSet g.renames (T.get v).name m) _ = _
            rw [lookup_mapSet, if_neg]
            intro e
            have := halone v n force (by simp) e
            subst this
            exact hthis ⟨rfl, m, hv⟩
        rw [hsame]
        refine ⟨fun m hm => ?_, fun hn => ih2 (fun n' f' m' hc => hn n' f' m' (List.mem_append_left _ hc)), ?_⟩
        · generalize hh : h ++ [Call.rename u n force] = h' at hm
          cases hm with
          | last hr =>
            have e := List.append_inj_right' hh rfl
            injection e with e; injection e with e0 e1 e2
            subst e0 e1 e2
            exact absurd ⟨rfl, _, hr⟩ hthis
          | implements => have := List.append_inj_right' hh rfl; cases this
          | other hm =>
            have e := List.append_inj_left' hh rfl
            subst e
            exact ih1 m hm
        · rcases ih3 with ⟨m, hm⟩ | hn
          · exact .inl ⟨m, .other hm hno⟩
          · refine .inr (fun n' f' m' hc hr => ?_)
            rcases List.mem_append.1 hc with hc | hc
            · exact hn n' f' m' hc hr
            · have e := List.mem_singleton.1 hc
              injection e with e0 e1 e2
              subst e0 e1 e2
              exact hthis ⟨rfl, _, hr⟩

/-- **C65** (illegal calls). `TypeRename` either panics, changing nothing, or was given a named struct and a name that is not blank and,
unless forced, valid. -/
theorem C65_legal (T : Types) (g : State) (tv : Option Ty) (n : Bytes) (force : Bool) : (typeRename T g tv n force).isSome = true ↔
    ∃ t, tv = some t ∧ ∃ m, Renames T t n force m := by
  constructor
  · intro h
    obtain ⟨g', h⟩ := Option.isSome_iff_exists.1 h
    obtain ⟨t, m, h1, h2, _⟩ := (rename_iff T g g' tv n force).1 h
    exact ⟨t, h1, m, h2⟩
  · rintro ⟨t, h1, m, h2⟩
    rw [(rename_iff T g _ tv n force).2 ⟨t, m, h1, h2, rfl⟩]
    rfl

/-- **C65** (the schema). In a schema that `Parse` makes after the calls `h`, a named Go type has the name of the last legal
`TypeRename` call for it, and its own name if there was none. Missing: another struct of the same bare name that is renamed, see
`C65_refuted`. -/
theorem C65_schema_partial {F V : Type} (T : Types) (h : List Call) (isError : Ty → Bool) (zero : Ty → InVal F) (enums : List (EnumDef F))
    (fuel : Nat) (d : Decl V) (schema : Schema F V) (hnc : NoClash (progAfter T h isError zero enums))
    (hp : parse (progAfter T h isError zero enums) fuel d = .ok schema) :
    ∃ N, Mirrors (progAfter T h isError zero enums) N (fun _ _ => True) d schema ∧
      ∀ n t, N.types n = some t ∨ N.ifaces n = some t → (T.get t).name ≠ [] →
        (∀ u k force, .rename (some u) k force ∈ h → (T.get u).name = (T.get t).name → u = t) →
        (Given T t h n ∨ (NotRenamed T t h ∧ n = (T.get t).name)) := by
  obtain ⟨N, hN⟩ := C48_registered_partial _ fuel d schema hnc hp
  refine ⟨N, hN, fun n t hn hne hal => ?_⟩
  have hname : n = qlName (progAfter T h isError zero enums) (T.get t).name := by
    rcases hn with hn | hn
    · rcases hN.typeName n t hn with ⟨_, e⟩ | ⟨e, _⟩
      · exact e
      · exact absurd e hne
    · exact (hN.ifaceName n t hn).2
  obtain ⟨h1, h2, h3⟩ := renames_spec T h t hal
  change n = (lookup (run T empty h).renames (T.get t).name).getD (T.get t).name at hname
  rcases h3 with ⟨m, hm⟩ | hnr
  · rw [h1 m hm] at hname
    rw [hname]
    exact .inl hm
  · rw [h2 hnr] at hname
    exact .inr ⟨hnr, hname⟩

/-- **C65** (names are valid). A name given without force is a valid GraphQL name, without spaces around it, and not empty. -/
theorem C65_valid (T : Types) (h : List Call) (t : Ty) (m : Bytes) (hg : Given T t h m)
    (hf : ∀ n force, Call.rename (some t) n force ∈ h → force = false) : Naming.validGraphQlName m = true ∧ m ≠ [] := by
  induction hg with
  | last hr => exact ⟨hr.valid (hf _ _ (List.mem_append_right _ (List.mem_singleton.2 rfl))), hr.nonempty⟩
  | implements _ ih => exact ih (fun n f hc => hf n f (List.mem_append_left _ hc))
  | other _ _ ih => exact ih (fun n f hc => hf n f (List.mem_append_left _ hc))


/-! ## The hypotheses can be met -/

namespace Registered
open GoDemo Demo

/-- the program of `Spec/GoDemo.lean`, before its registrations; type 11 is `*Animal` -/
def types : Types where
  get := fun t => if t = 11 then anon (.ptr 6) else GoDemo.get t
  implements := fun t u => t = 7 ∧ u = 6

/-- `Implements((*Animal)(nil), Dog{})`, `TypeRename(Dog{}, " Hond ")`, and calls that panic -/
def calls : List Call := [.implements none (some 7), .implements (some 11) (some 7), .implements (some 11) (some 0), .rename (some 7) b%" Hond " false,
  .rename (some 7) b%"a b" false, .rename (some 6) b%"Beast" true]

def after : Program Unit := progAfter types calls (fun t => t = 9) GoDemo.zero []

theorem accepts : (toOption (parse after 10 decl)).isSome = true := by decide +kernel

def schema : Schema Unit D := (toOption (parse after 10 decl)).get accepts

theorem parse_ok : parse after 10 decl = .ok schema := of_toOption _ _

theorem made : Made types calls 6 7 :=
  ⟨11, by simp [calls], rfl, rfl, by decide, by decide, ⟨_, rfl⟩, by decide, by decide, by decide⟩

theorem made_only {i t : Ty} (h : Made types calls i t) : i = 6 ∧ t = 7 := by
  obtain ⟨p, _, _, hP⟩ := h
  have := of_decide_eq_true (p := t = 7 ∧ i = 6) hP.impl
  exact ⟨this.2, this.1⟩

theorem named_cases {t : Ty} (h : GoTypes.Named after t) : t = 0 ∨ t = 7 ∨ t = 10 := by
  refine GoDemo.named_cases (t := t) ?_
  obtain ⟨⟨fs, hs⟩, hn⟩ := h
  by_cases e : t = 11
  · subst e; cases hs
  · have hg : after.get t = prog.get t := if_neg e
    rw [hg] at hs hn
    exact ⟨⟨fs, hs⟩, hn⟩

theorem iface_cases {t : Ty} (h : (after.get t).shape = .iface) : t = 6 ∨ t = 9 := by
  refine GoDemo.iface_cases (t := t) ?_
  by_cases e : t = 11
  · subst e; cases h
  · have hg : after.get t = prog.get t := if_neg e
    rw [hg] at h
    exact h

theorem noClash : NoClash after where
  same t u ht hu h _ := by
    rcases named_cases ht with rfl | rfl | rfl <;> rcases named_cases hu with rfl | rfl | rfl <;> first | rfl | exact absurd h (by decide +kernel)
  solo t u ht hu h _ := by
    rcases named_cases ht with rfl | rfl | rfl <;> rcases named_cases hu with rfl | rfl | rfl <;> first | rfl | exact absurd h (by decide +kernel)
  ifaces t u ht hu h _ := by
    rcases iface_cases ht with rfl | rfl <;> rcases iface_cases hu with rfl | rfl <;> first | rfl | exact absurd h (by decide +kernel)
  fresh t ht n h := by
    have h3 := congrArg List.head? h
    have h2 : List.head? (GoTypes.unknownType n) = some 95 := rfl
    rw [h2] at h3
    revert h3
    rcases named_cases ht with rfl | rfl | rfl <;> decide +kernel

theorem ifacesApart : ∀ i j, (types.get i).shape = .iface → (types.get j).shape = .iface → (types.get i).name ≠ [] →
    (types.get i).name = (types.get j).name → i = j := by
  intro i j hi hj _ h
  rcases iface_cases (t := i) hi with rfl | rfl <;> rcases iface_cases (t := j) hj with rfl | rfl <;> first | rfl | exact absurd h (by decide)

/-- `C64_tables_partial` applies: `Dog` is the only implementation of `Animal`. -/
example : (7 ∈ implsOf (run types empty calls) b%"Animal" ↔ Made types calls 6 7) :=
  (C64_tables_partial types calls (fun i j t u hi hj _ => by rw [(made_only hi).1, (made_only hj).1])
    (fun i j t u hi hj _ _ => by rw [(made_only hi).2, (made_only hj).2])).1 6 7 7 made

/-- `C64_schema_partial` and `C65_schema_partial` apply. -/
example := C64_schema_partial types calls (fun t => t = 9) GoDemo.zero [] 10 decl schema noClash ifacesApart parse_ok
example := C65_schema_partial types calls (fun t => t = 9) GoDemo.zero [] 10 decl schema noClash parse_ok

/-- what they say here -/
example : schema.types.map (·.1) = [b%"M", b%"User", b%"Hond"] ∧
    schema.interfaces.map (fun e => (e.1, e.2.implementations.map (·.typeName))) = [(b%"Animal", [b%"Hond"])] := by decide +kernel

theorem given : Given types 7 calls b%"Hond" := by
  refine .other (h := [_, _, _, _, _]) (.other (h := [_, _, _, _]) (.last (h := [_, _, _]) ⟨by decide, ⟨_, rfl⟩, by decide +kernel, by decide, fun _ => by decide +kernel⟩) ?_) ?_
  · rintro v hv m'
    refine .inl (fun hr => ?_)
    have h1 := hr.valid rfl
    rw [hr.trimmed] at h1
    revert h1
    decide +kernel
  · rintro v hv m'
    injection hv with hv
    subst hv
    exact .inr (by decide)

example : Naming.validGraphQlName b%"Hond" = true ∧ b%"Hond" ≠ [] := C65_valid types calls 7 _ given (by
  intro n f h
  simp only [calls, List.mem_cons, List.not_mem_nil, or_false] at h
  rcases h with h | h | h | h | h | h
  all_goals first
    | (injection h with e; exact absurd (Option.some.inj e) (by decide))
    | (cases h; done)
    | (cases h; rfl))

end Registered

/-! ## Refutations -/

namespace Clash
open GoDemo Demo

/--
```go
package main
type Q struct { Pet b.Animal }            // type 10: { You b.User }, type 12: { Pet b.Animal; Other c.Animal }
type Dog struct { Sound string }          // a.Animal and b.Animal
```
-/
def types : Types where
  get := fun
    | 0 => ⟨b%"Q", b%"main", .struct [fld b%"Pet" 4], []⟩
    | 1 => basic b%"string" .string
    | 2 => ⟨b%"Dog", b%"main", .struct [fld b%"Sound" 1], []⟩
    | 3 => ⟨b%"Animal", b%"a", .iface, []⟩
    | 4 => ⟨b%"Animal", b%"b", .iface, []⟩
    | 5 => anon (.ptr 3)
    | 6 => anon (.ptr 4)
    | 7 => ⟨b%"M", b%"main", .struct [], []⟩
    | 8 => ⟨b%"User", b%"a", .struct [fld b%"Name" 1], []⟩
    | 9 => ⟨b%"User", b%"b", .struct [fld b%"Name" 1], []⟩
    | 10 => ⟨b%"Q", b%"main", .struct [fld b%"You" 9], []⟩
    | 11 => ⟨b%"Animal", b%"c", .struct [fld b%"Name" 1], []⟩
    | 12 => ⟨b%"Q", b%"main", .struct [fld b%"Pet" 4, fld b%"Other" 11], []⟩
    | _ => anon .other
  implements := fun t u => t = 2 ∧ (u = 3 ∨ u = 4)

def decl (q : Ty) : Decl D where
  queries := q
  methods := 7
  queryValue := .struct []
  methodValue := .struct []
  inject := none
  noEqualCheck := false
  maxDepth := 60
  directives := []

def failure {F V : Type} : TypeWalk.Parsed F V → Option WErr
  | .err e => some e
  | _ => none

def both : List Call := [.implements (some 5) (some 2), .implements (some 6) (some 2)]

end Clash

open Clash GoDemo in
/-- **C64 refuted for interfaces of one name.** `Dog` is registered for `a.Animal` and then for `b.Animal`, both legally. The
second call is taken for a repetition of the first: the interfaces of `Dog` do not include `b.Animal`, and a program whose only
interface field has the type `b.Animal` is rejected, which it is not if only the second call is made. -/
theorem C64_refuted : Made Clash.types both 4 2 ∧ ¬ (4 ∈ structsOf (run Clash.types empty both) b%"Dog") ∧
    failure (parse (progAfter (F := Unit) Clash.types both (fun _ => false) (fun _ => .scalar (.bool false)) []) 10 (Clash.decl 0)) = some .twoInterfaces ∧
    (toOption (parse (progAfter (F := Unit) Clash.types (both.drop 1) (fun _ => false) (fun _ => .scalar (.bool false)) []) 10 (Clash.decl 0))).isSome = true := by
  refine ⟨⟨6, by simp [both], rfl, rfl, by decide, by decide, ⟨_, rfl⟩, by decide, by decide, by decide⟩, by decide +kernel, by decide +kernel, by decide +kernel⟩

open Clash GoDemo in
/-- **C65 refuted for structs of one name.** `TypeRename(a.User{}, "Account")` renames `b.User`, for which no call was made. -/
theorem C65_refuted : NotRenamed Clash.types 9 [.rename (some 8) b%"Account" false] ∧
    (toOption (parse (progAfter (F := Unit) Clash.types [.rename (some 8) b%"Account" false] (fun _ => false) (fun _ => .scalar (.bool false)) []) 10
      (Clash.decl 10))).map (fun s => s.types.map (fun e => (e.1, e.2.goTypeName, e.2.goPkgPath))) =
      some [(b%"M", b%"M", b%"main"), (b%"Q", b%"Q", b%"main"), (b%"Account", b%"User", b%"b")] := by
  refine ⟨?_, by decide +kernel⟩
  intro n f m h
  cases List.mem_singleton.1 h

open Clash GoDemo in
/-- **One name, two kinds.** A struct and an interface of one name are both accepted: the schema has an object type and an
interface called `Animal`. -/
theorem C65_refuted_kinds :
    (toOption (parse (progAfter (F := Unit) Clash.types (both.drop 1) (fun _ => false) (fun _ => .scalar (.bool false)) []) 10
      (Clash.decl 12))).map (fun s => (s.types.map (·.1), s.interfaces.map (·.1))) =
      some ([b%"M", b%"Q", b%"Animal", b%"Dog"], [b%"Animal"]) := by
  decide +kernel

end Globals
end Yarql
