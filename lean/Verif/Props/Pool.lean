import Verif.Model.Pool
import Verif.Props.Introspect

/-!
# C72, C73: schemas made by `Copy` and their originals
-/

namespace Yarql
namespace Pool
open Introspect

section
variable {F V : Type}

/-! ## Specification: which schema is a copy of which -/

/-- the schemas a program makes, in order -/
inductive Made (F V : Type) where
  | parse (s : Schema F V)
  | copy (i : Nat)

def made : Op F V → Option (Made F V)
  | .parse s => some (.parse s)
  | .copy i => some (.copy i)
  | _ => none

/-- Schema `i` goes back, through any number of copies, to schema `o`, which `Parse` made with the tables `s`; `t` are its own tables. -/
inductive Origin (ms : List (Made F V)) : Nat → Nat → Schema F V → Schema F V → Prop where
  | parse {i s} : ms[i]? = some (.parse s) → Origin ms i i s s
  | copy {i j o s t} : ms[i]? = some (.copy j) → Origin ms j o s t → Origin ms i o s (copySchema t)

/-- the requests for fields that schema `i` itself computes: those below its own `__type`, and those below the `__schema` of any schema
that goes back to it -/
def Reaches (ms : List (Made F V)) (i : Nat) : Op F V → Option Ask → Prop
  | .viaType j a, r => (j = i ∧ r = some a) ∨ (j ≠ i ∧ r = none)
  | .viaSchema j a, r => ((∃ s t, Origin ms j i s t) ∧ r = some a) ∨ ((¬ ∃ s t, Origin ms j i s t) ∧ r = none)
  | _, r => r = none

/-! ## The heap -/

theorem Origin.mono {ms ms' : List (Made F V)} {i o : Nat} {s t : Schema F V} (h : Origin ms i o s t) : Origin (ms ++ ms') i o s t := by
  induction h with
  | parse h => exact .parse (by rw [List.getElem?_append_left (List.getElem?_eq_some_iff.1 h).1, h])
  | copy h _ ih => exact .copy (by rw [List.getElem?_append_left (List.getElem?_eq_some_iff.1 h).1, h]) ih

theorem Origin.unique {ms : List (Made F V)} {i o o' : Nat} {s s' t t' : Schema F V} (h : Origin ms i o s t) (h' : Origin ms i o' s' t') :
    o = o' ∧ s = s' ∧ t = t' := by
  induction h generalizing o' s' t' with
  | parse h =>
    cases h' with
    | parse h2 => rw [h] at h2; injection h2 with h2; injection h2 with h2; exact ⟨rfl, h2, h2⟩
    | copy h2 _ => rw [h] at h2; injection h2 with h2; cases h2
  | copy h _ ih =>
    cases h' with
    | parse h2 => rw [h] at h2; injection h2 with h2; cases h2
    | copy h2 h3 =>
      rw [h] at h2; injection h2 with h2; injection h2 with h2
      subst h2
      obtain ⟨a, b, c⟩ := ih h3
      exact ⟨a, b, by rw [c]⟩

theorem Origin.root {ms : List (Made F V)} {i o : Nat} {s t : Schema F V} (h : Origin ms i o s t) : Origin ms o o s s := by
  induction h with
  | parse h => exact .parse h
  | copy _ _ ih => exact ih

/-- the heap is what the history made -/
structure Sound (ms : List (Made F V)) (heap : List (Inst F V)) : Prop where
  len : heap.length = ms.length
  inst : ∀ i x, heap[i]? = some x → ∃ s, Origin ms i x.bound s x.schema ∧ x.tracer = x.bound

theorem Sound.snoc {ms : List (Made F V)} {heap : List (Inst F V)} (h : Sound ms heap) {m : Made F V} {x : Inst F V}
    (hx : ∃ s, Origin (ms ++ [m]) heap.length x.bound s x.schema ∧ x.tracer = x.bound) : Sound (ms ++ [m]) (heap ++ [x]) := by
  refine ⟨by simp [h.len], fun i y hy => ?_⟩
  rcases Nat.lt_or_ge i heap.length with hl | hl
  · rw [List.getElem?_append_left hl] at hy
    obtain ⟨s, h1, h2⟩ := h.inst i y hy
    exact ⟨s, h1.mono, h2⟩
  · rw [List.getElem?_append_right hl] at hy
    cases hi : i - heap.length with
    | succ k => rw [hi] at hy; simp at hy
    | zero =>
      rw [hi] at hy
      have hy : some x = some y := hy
      cases hy
      have : i = heap.length := by omega
      subst this
      exact hx

theorem askAt_some {heap : List (Inst F V)} {b : Nat} {a : Ask} {r : List QField} {heap' : List (Inst F V)} (h : askAt heap b a = some (r, heap')) :
    ∃ x memo', heap[b]? = some x ∧ fields x.schema x.memo a = some (r, memo') ∧ heap' = heap.set b { x with memo := memo' } := by
  unfold askAt at h
  obtain ⟨x, hx, h⟩ := Option.bind_eq_some_iff.1 h
  obtain ⟨⟨r', m'⟩, h1, h2⟩ := Option.map_eq_some_iff.1 h
  injection h2 with h3 h4
  subst h3
  exact ⟨x, m', hx, h1, h4.symm⟩

theorem Sound.set {ms : List (Made F V)} {heap : List (Inst F V)} (h : Sound ms heap) {b : Nat} {x : Inst F V} {m : Memo}
    (hx : heap[b]? = some x) : Sound ms (heap.set b { x with memo := m }) := by
  refine ⟨by simp [h.len], fun i y hy => ?_⟩
  by_cases hb : b = i
  · subst hb
    rw [List.getElem?_set_self (List.getElem?_eq_some_iff.1 hx).1] at hy
    cases hy
    exact h.inst b x hx
  · rw [List.getElem?_set_ne hb] at hy
    exact h.inst i y hy

theorem step_sound {ms : List (Made F V)} {heap heap' : List (Inst F V)} {op : Op F V} (h : Sound ms heap) (hs : step heap op = some heap') :
    Sound (ms ++ (made op).toList) heap' := by
  cases op with
  | parse s =>
    injection hs with hs
    subst hs
    refine h.snoc ⟨s, ?_, rfl⟩
    exact .parse (by rw [h.len]; simp)
  | copy j =>
    obtain ⟨x, hx, rfl⟩ := Option.map_eq_some_iff.1 hs
    obtain ⟨s, h1, h2⟩ := h.inst j x hx
    refine h.snoc ⟨s, .copy (j := j) (by rw [h.len]; simp) h1.mono, h2⟩
  | viaSchema j a =>
    obtain ⟨⟨r, heap1⟩, h1, rfl⟩ := Option.map_eq_some_iff.1 hs
    obtain ⟨x, hx, h2⟩ := Option.bind_eq_some_iff.1 h1
    obtain ⟨y, m, hy, -, rfl⟩ := askAt_some h2
    simpa [made] using h.set hy
  | viaType j a =>
    obtain ⟨⟨r, heap1⟩, h1, rfl⟩ := Option.map_eq_some_iff.1 hs
    obtain ⟨y, m, hy, -, rfl⟩ := askAt_some h1
    simpa [made] using h.set hy

theorem run_snoc {heap : List (Inst F V)} {ops : List (Op F V)} {op : Op F V} :
    run heap (ops ++ [op]) = (run heap ops).bind (fun h => step h op) := by
  induction ops generalizing heap with
  | nil => simp [run]
  | cons o ops ih =>
    simp only [List.cons_append, run]
    cases step heap o with
    | none => rfl
    | some h => simp only [Option.bind_some]; exact ih

theorem asks_snoc (s : Schema F V) (m : Memo) (as : List Ask) (a : Ask) :
    asks s m (as ++ [a]) = (asks s m as).bind (fun m' => (fields s m' a).map (·.2)) := by
  induction as generalizing m with
  | nil =>
    simp only [List.nil_append, asks, Option.bind_some]
    cases fields s m a <;> rfl
  | cons b as ih =>
    simp only [List.cons_append, asks]
    cases fields s m b with
    | none => rfl
    | some r => simp only [Option.bind_some]; exact ih r.2

/-- a history of requests for fields reaching schema `i` -/
def Reached (ms : List (Made F V)) (i : Nat) : List (Op F V) → List Ask → Prop
  | [], as => as = []
  | op :: ops, as => ∃ r rest, Reaches ms i op r ∧ Reached ms i ops rest ∧ as = r.toList ++ rest

theorem Reaches.total (ms : List (Made F V)) (i : Nat) (op : Op F V) : ∃ r, Reaches ms i op r := by
  cases op with
  | parse s => exact ⟨none, rfl⟩
  | copy j => exact ⟨none, rfl⟩
  | viaSchema j a =>
    by_cases h : ∃ s t, Origin ms j i s t
    · exact ⟨_, .inl ⟨h, rfl⟩⟩
    · exact ⟨_, .inr ⟨h, rfl⟩⟩
  | viaType j a =>
    by_cases h : j = i
    · exact ⟨_, .inl ⟨h, rfl⟩⟩
    · exact ⟨_, .inr ⟨h, rfl⟩⟩

theorem reached_snoc {ms : List (Made F V)} {i : Nat} {ops : List (Op F V)} {op : Op F V} {as : List Ask} :
    Reached ms i (ops ++ [op]) as ↔ ∃ as' r, Reached ms i ops as' ∧ Reaches ms i op r ∧ as = as' ++ r.toList := by
  induction ops generalizing as with
  | nil =>
    constructor
    · rintro ⟨r, rest, h1, h2, h3⟩
      have h2 : rest = [] := h2
      subst h2
      exact ⟨[], r, rfl, h1, by simpa using h3⟩
    · rintro ⟨as', r, h1, h2, h3⟩
      have h1 : as' = [] := h1
      subst h1
      exact ⟨r, [], h2, rfl, by simpa using h3⟩
  | cons o ops ih =>
    constructor
    · rintro ⟨r, rest, h1, h2, h3⟩
      obtain ⟨as', r', k1, k2, k3⟩ := ih.1 h2
      exact ⟨r.toList ++ as', r', ⟨r, as', h1, k1, rfl⟩, k2, by rw [h3, k3, List.append_assoc]⟩
    · rintro ⟨as', r, ⟨r0, rest, h1, h2, h3⟩, h4, h5⟩
      exact ⟨r0, rest ++ r.toList, h1, ih.2 ⟨rest, r, h2, h4, rfl⟩, by rw [h5, h3, List.append_assoc]⟩

theorem Origin.lt {ms : List (Made F V)} {i o : Nat} {s t : Schema F V} (h : Origin ms i o s t) : i < ms.length := by
  cases h with
  | parse h => exact (List.getElem?_eq_some_iff.1 h).1
  | copy h _ => exact (List.getElem?_eq_some_iff.1 h).1

/-- making more schemas does not change which requests reach a schema, as long as the requests are on schemas that exist -/
theorem run_reaches {ops : List (Op F V)} : ∀ {heap : List (Inst F V)}, run [] ops = some heap → 
    Sound (ops.filterMap made) heap ∧
    ∀ more i as, Reached (ops.filterMap made ++ more) i ops as →
      (∀ x, heap[i]? = some x → asks x.schema emptyMemo as = some x.memo) ∧ (heap.length ≤ i → as = []) := by
  suffices H : ∀ n (ops : List (Op F V)), ops.length = n → ∀ heap, run [] ops = some heap → Sound (ops.filterMap made) heap ∧
    ∀ more i as, Reached (ops.filterMap made ++ more) i ops as →
      (∀ x, heap[i]? = some x → asks x.schema emptyMemo as = some x.memo) ∧ (heap.length ≤ i → as = []) from
    fun {heap} h => H _ ops rfl heap h
  intro n
  induction n with
  | zero =>
    intro ops hn heap h
    have : ops = [] := List.length_eq_zero_iff.1 hn
    subst this
    injection h with h
    subst h
    refine ⟨⟨rfl, fun i x hx => by simp at hx⟩, fun more i as hr => ⟨fun x hx => by simp at hx, fun _ => hr⟩⟩
  | succ n ih =>
    intro ops hn heap h
    obtain ⟨ops', op, rfl⟩ : ∃ ops' op, ops = ops' ++ [op] := ⟨ops.dropLast, ops.getLast (by intro e; simp [e] at hn), (List.dropLast_concat_getLast _).symm⟩
    rw [run_snoc] at h
    obtain ⟨heap0, h0, h1⟩ := Option.bind_eq_some_iff.1 h
    obtain ⟨hsound, hmemo⟩ := ih ops' (by simpa using hn) heap0 h0
    have hmade : (ops' ++ [op]).filterMap made = ops'.filterMap made ++ (made op).toList := by
      rw [List.filterMap_append]
      cases hm : made op <;> simp [List.filterMap_cons, hm]
    have hsound' := step_sound hsound h1
    rw [hmade]
    refine ⟨hsound', fun more i as hr => ?_⟩
    obtain ⟨as', r, k1, k2, k3⟩ := reached_snoc.1 hr
    rw [List.append_assoc] at k1 k2
    obtain ⟨hm1, hm2⟩ := hmemo _ i as' k1
    -- a request computed by schema b
    have key : ∀ b a r0, askAt heap0 b a = some (r0, heap) → (r = if i = b then some a else none) →
        (∀ x, heap[i]? = some x → asks x.schema emptyMemo as = some x.memo) ∧ (heap.length ≤ i → as = []) := by
      intro b a r0 hb hr'
      obtain ⟨x, m, hx, hf, rfl⟩ := askAt_some hb
      have hbl := (List.getElem?_eq_some_iff.1 hx).1
      by_cases hib : i = b
      · subst hib
        rw [if_pos rfl] at hr'
        subst hr'
        constructor
        · intro y hy
          rw [List.getElem?_set_self hbl] at hy
          cases hy
          rw [k3]
          show asks x.schema emptyMemo (as' ++ [a]) = some m
          rw [asks_snoc, hm1 x hx]
          simp [hf]
        · intro hl
          rw [List.length_set] at hl
          omega
      · rw [if_neg hib] at hr'
        subst hr'
        rw [List.length_set]
        have : as = as' := by rw [k3]; simp
        subst this
        refine ⟨fun y hy => ?_, hm2⟩
        rw [List.getElem?_set_ne (fun e => hib e.symm)] at hy
        exact hm1 y hy
    -- making a schema
    have fresh : ∀ x : Inst F V, x.memo = emptyMemo → heap = heap0 ++ [x] → r = none →
        (∀ x, heap[i]? = some x → asks x.schema emptyMemo as = some x.memo) ∧ (heap.length ≤ i → as = []) := by
      intro x hx he hr'
      subst hr'
      have has : as = as' := by rw [k3]; simp
      subst has
      subst he
      constructor
      · intro y hy
        rcases Nat.lt_or_ge i heap0.length with hl | hl
        · rw [List.getElem?_append_left hl] at hy
          exact hm1 y hy
        · rw [hm2 hl]
          rw [List.getElem?_append_right hl] at hy
          cases hi : i - heap0.length with
          | succ k => rw [hi] at hy; simp at hy
          | zero =>
            rw [hi] at hy
            have hy : some x = some y := hy
            cases hy
            rw [hx]; rfl
      · intro hl
        rw [List.length_append, List.length_singleton] at hl
        exact hm2 (by omega)
    cases op with
    | parse s =>
      injection h1 with h1
      exact fresh ⟨s, emptyMemo, _, _⟩ rfl h1.symm k2
    | copy j =>
      obtain ⟨x, hx, h1⟩ := Option.map_eq_some_iff.1 h1
      exact fresh _ rfl h1.symm k2
    | viaType j a =>
      obtain ⟨⟨r0, heap1⟩, h2, h3⟩ := Option.map_eq_some_iff.1 h1
      have h3 : heap1 = heap := h3
      subst h3
      refine key j a r0 h2 ?_
      rcases k2 with ⟨e, k2⟩ | ⟨e, k2⟩
      · rw [if_pos e.symm, k2]
      · rw [if_neg (fun h => e h.symm), k2]
    | viaSchema j a =>
      obtain ⟨⟨r0, heap1⟩, h2, h3⟩ := Option.map_eq_some_iff.1 h1
      have h3 : heap1 = heap := h3
      subst h3
      obtain ⟨x, hx, h2⟩ := Option.bind_eq_some_iff.1 h2
      refine key x.bound a r0 h2 ?_
      obtain ⟨s, ho, -⟩ := hsound.inst j x hx
      rcases k2 with ⟨⟨s', t', e⟩, k2⟩ | ⟨e, k2⟩
      · obtain ⟨e1, -, -⟩ := ho.mono.unique e
        rw [if_pos e1.symm, k2]
      · rw [if_neg (fun h => e ⟨s, x.schema, by rw [h]; exact ho.mono⟩), k2]


/-! ## C72: what introspection says on copies -/

/-- `__type` finds types by name, so it never goes through the two root fields of `__schema` (inject_schema.go:26-28, 298-318) -/
def Possible : Op F V → Prop
  | .viaType _ a => a ≠ .query ∧ a ≠ .mutation
  | _ => True

theorem lookup_map {K A : Type} [DecidableEq K] (l : List (K × A)) (g : A → A) (n : K) :
    lookup (l.map (fun e => (e.1, g e.2))) n = (lookup l n).map g := by
  unfold lookup
  induction l with
  | nil => rfl
  | cons e l ih =>
    rw [List.map_cons, List.find?_cons, List.find?_cons]
    by_cases h : e.1 = n
    · simp [h]
    · simp only [h, decide_false]
      exact ih

theorem copy_types (s : Schema F V) (n : Bytes) :
    lookup (copySchema s).types n = (lookup s.types n).map (fun d => { d with fields := d.fields.map reveal }) := by
  rw [C42_copy_reveals]
  exact lookup_map s.types (fun d => { d with fields := d.fields.map reveal }) n

theorem copy_ifaces (s : Schema F V) (n : Bytes) :
    lookup (copySchema s).interfaces n = (lookup s.interfaces n).map (fun d => { d with fields := d.fields.map reveal }) := by
  rw [C42_copy_reveals]
  exact lookup_map s.interfaces (fun d => { d with fields := d.fields.map reveal }) n

theorem copy_query (s : Schema F V) : (copySchema s).rootQuery = { s.rootQuery with fields := s.rootQuery.fields.map reveal } := by
  rw [C42_copy_reveals]

theorem copy_method (s : Schema F V) : (copySchema s).rootMethod = { s.rootMethod with fields := s.rootMethod.fields.map reveal } := by
  rw [C42_copy_reveals]

theorem tables_copy {s : Schema F V} (h : Tables s) : Tables (copySchema s) := by
  refine ⟨?_, ?_, ?_, ?_, ?_, ?_, ?_⟩
  · intro n d hd
    rw [copy_types] at hd
    obtain ⟨d0, h0, rfl⟩ := Option.map_eq_some_iff.1 hd
    exact h.typeName n d0 h0
  · intro n d hd
    rw [copy_ifaces] at hd
    obtain ⟨d0, h0, rfl⟩ := Option.map_eq_some_iff.1 hd
    exact h.ifaceName n d0 h0
  · rw [copy_query, copy_types, h.query]; rfl
  · rw [copy_method, copy_types, h.mutation]; rfl
  · rw [copy_query, copy_method]; exact h.roots
  · intro n d e hd he
    rw [copy_types] at hd
    rw [copy_ifaces] at he
    obtain ⟨d0, h0, -⟩ := Option.map_eq_some_iff.1 hd
    obtain ⟨e0, h1, -⟩ := Option.map_eq_some_iff.1 he
    exact h.disjoint n d0 e0 h0 h1
  · intro n d hd f hf
    rw [copy_ifaces] at hd
    obtain ⟨d0, h0, rfl⟩ := Option.map_eq_some_iff.1 hd
    obtain ⟨f0, -, rfl⟩ := List.mem_map.1 hf
    rfl

theorem copy_copy (s : Schema F V) : copySchema (copySchema s) = copySchema s := by
  have hr : (reveal : Field F V → Field F V) ∘ reveal = reveal := rfl
  rw [C42_copy_reveals (copySchema s), C42_copy_reveals s]
  simp only [List.map_map]
  congr 1
  · apply List.map_congr_left
    intro e _
    simp only [Function.comp_apply, List.map_map, hr]
  · apply List.map_congr_left
    intro e _
    simp only [Function.comp_apply, List.map_map, hr]

/-- the own tables of a schema that goes back to `o`: those of `o`, with every field visible if it is a copy -/
theorem Origin.tables {ms : List (Made F V)} {i o : Nat} {s t : Schema F V} (h : Origin ms i o s t) :
    (ms[i]? = some (.parse s) ∧ i = o ∧ t = s) ∨ ((∃ j, ms[i]? = some (.copy j)) ∧ t = copySchema s) := by
  induction h with
  | parse h => exact .inl ⟨h, rfl, rfl⟩
  | copy h _ ih =>
    refine .inr ⟨⟨_, h⟩, ?_⟩
    rcases ih with ⟨-, -, e⟩ | ⟨-, e⟩
    · rw [e]
    · rw [e, copy_copy]

theorem Reached.total (ms : List (Made F V)) (i : Nat) (ops : List (Op F V)) : ∃ as, Reached ms i ops as := by
  induction ops with
  | nil => exact ⟨[], rfl⟩
  | cons op ops ih =>
    obtain ⟨as, h⟩ := ih
    obtain ⟨r, hr⟩ := Reaches.total ms i op
    exact ⟨_, r, as, hr, h, rfl⟩

theorem Reached.mem {ms : List (Made F V)} {i : Nat} {ops : List (Op F V)} {as : List Ask} (h : Reached ms i ops as) {a : Ask} (ha : a ∈ as) :
    .viaType i a ∈ ops ∨ ∃ j s t, .viaSchema j a ∈ ops ∧ Origin ms j i s t := by
  induction ops generalizing as with
  | nil =>
    have h : as = [] := h
    subst h
    cases ha
  | cons op ops ih =>
    obtain ⟨r, rest, h1, h2, rfl⟩ := h
    rcases List.mem_append.1 ha with ha | ha
    · rw [Option.mem_toList] at ha
      subst ha
      cases op with
      | parse s => cases h1
      | copy j => cases h1
      | viaType j b =>
        rcases h1 with ⟨rfl, h1⟩ | ⟨-, h1⟩
        · cases h1
          exact .inl (List.mem_cons_self ..)
        · cases h1
      | viaSchema j b =>
        rcases h1 with ⟨⟨s, t, ho⟩, h1⟩ | ⟨-, h1⟩
        · cases h1
          exact .inr ⟨j, s, t, List.mem_cons_self .., ho⟩
        · cases h1
    · rcases ih h2 ha with h | ⟨j, s, t, h, ho⟩
      · exact .inl (List.mem_cons_of_mem _ h)
      · exact .inr ⟨j, s, t, List.mem_cons_of_mem _ h, ho⟩

theorem origin_tables {ops : List (Op F V)} (hp : ∀ s, .parse s ∈ ops → Tables s) {i o : Nat} {s t : Schema F V}
    (h : Origin (ops.filterMap made) i o s t) : Tables s ∧ Tables t := by
  induction h with
  | parse h =>
    have hm := List.mem_of_getElem? h
    obtain ⟨op, hop, e⟩ := List.mem_filterMap.1 hm
    cases op with
    | parse s' => injection e with e; injection e with e; subst e; exact ⟨hp _ hop, hp _ hop⟩
    | copy j => injection e with e; cases e
    | viaSchema j a => cases e
    | viaType j a => cases e
  | copy _ _ ih => exact ⟨ih.1, tables_copy ih.2⟩

/-- **C72_partial** Take any program of `Parse`, `Copy` and introspection requests on any of the schemas, and schema `i` that goes back to
the parsed schema `o` with tables `s`; its own tables are `t` (`s` again, or `s` with every field visible if `i` is a copy).
* a request below `i`'s `__schema` lists the fields according to the tables of the ORIGINAL, unless it is about the query type and the
  mutation type's fields were asked for below the `__schema` of any schema going back to `o`;
* a request below `i`'s `__type` lists the fields according to `i`'s own tables, whatever was asked of any other schema if `i` is a copy.
Missing: that copies hide what their originals hide, and that asking one schema never changes the answers of another
(`C72_leak`: the query type of a copy is listed with the fields of the mutation after a request on the original). -/
theorem C72_pool_partial (ops : List (Op F V)) (heap : List (Inst F V)) (hrun : run [] ops = some heap)
    (hp : ∀ s, .parse s ∈ ops → Tables s) (hpos : ∀ op ∈ ops, Possible op)
    (i o : Nat) (s t : Schema F V) (ho : Origin (ops.filterMap made) i o s t) :
    (t = s ∨ t = copySchema s) ∧
    (∀ a r heap', answer heap (.viaSchema i a) = some (r, heap') →
      (aboutQuery s a → ∀ j s' t', .viaSchema j .mutation ∈ ops → ¬ Origin (ops.filterMap made) j o s' t') →
      ∃ fs, target s a = some fs ∧ Lists s fs r) ∧
    (∀ a r heap', answer heap (.viaType i a) = some (r, heap') →
      (aboutQuery s a → i = o → ∀ j s' t', .viaSchema j .mutation ∈ ops → ¬ Origin (ops.filterMap made) j o s' t') →
      ∃ fs, target t a = some fs ∧ Lists t fs r) := by
  obtain ⟨hsound, hmemo⟩ := run_reaches hrun
  obtain ⟨hts, htt⟩ := origin_tables hp ho
  have key : ∀ b s0, Origin (ops.filterMap made) b o s s0 → ∀ a r heap', askAt heap b a = some (r, heap') →
      (aboutQuery s0 a → b = o → ∀ j s' t', .viaSchema j .mutation ∈ ops → ¬ Origin (ops.filterMap made) j o s' t') →
      ∃ fs, target s0 a = some fs ∧ Lists s0 fs r := by
    intro b s0 hb a r heap' ha hq
    obtain ⟨x, m, hx, hf, -⟩ := askAt_some ha
    obtain ⟨s1, ho1, -⟩ := hsound.inst b x hx
    obtain ⟨e1, e2, e3⟩ := ho1.unique hb
    subst e3
    obtain ⟨as, has⟩ := Reached.total (ops.filterMap made) b ops
    have hm := (hmemo [] b as (by simpa using has)).1 x hx
    refine C35_fields_partial _ (origin_tables hp hb).2 as x.memo hm a r m hf (fun hab c hc e => ?_)
    subst e
    rcases has.mem hc with h | ⟨j, s', t', h, hj⟩
    · exact (hpos _ h).2 rfl
    · obtain ⟨e, -, -⟩ := hj.root.unique hb
      subst e
      exact hq hab rfl j s' t' h hj
  refine ⟨?_, ?_, ?_⟩
  · rcases ho.tables with ⟨-, -, e⟩ | ⟨-, e⟩
    · exact .inl e
    · exact .inr e
  · intro a r heap' ha hq
    obtain ⟨x, hx, ha⟩ := Option.bind_eq_some_iff.1 ha
    obtain ⟨s1, ho1, -⟩ := hsound.inst i x hx
    obtain ⟨e1, e2, e3⟩ := ho1.unique ho
    rw [e1] at ha
    exact key o s ho.root a r heap' ha (fun h _ => hq h)
  · intro a r heap' ha hq
    refine key i t ho a r heap' ha (fun h => hq ?_)
    rcases ho.tables with ⟨-, -, e⟩ | ⟨-, e⟩
    · rw [← e]; exact h
    · subst e
      cases a with
      | query => trivial
      | mutation => exact h
      | iface n => exact h
      | object n =>
        have h : n = (copySchema s).rootQuery.typeName := h
        rw [copy_query] at h
        exact h


/-- a request on schema `j` is computed by schema `b` -/
def ComputedBy (ms : List (Made F V)) (b : Nat) : Op F V → Prop
  | .viaType j _ => j = b
  | .viaSchema j _ => ∃ s t, Origin ms j b s t
  | _ => False

theorem askAt_fst {heap heap' : List (Inst F V)} {b : Nat} (h : heap'[b]? = heap[b]?) (a : Ask) :
    (askAt heap' b a).map (·.1) = (askAt heap b a).map (·.1) := by
  unfold askAt
  rw [h]
  cases heap[b]? with
  | none => rfl
  | some x =>
    simp only [Option.bind_some, Option.map_map]
    rfl

/-- **C72** (isolation) Whatever a program does next - make a schema, or ask for fields - a question put to schema `i` gets the answer it
would have got before, unless the request in between was computed by the schema that computes `i`'s answer: `i` itself below `__type`, the
parsed schema `i` goes back to below `__schema`. -/
theorem C72_isolated (ops : List (Op F V)) (heap heap' : List (Inst F V)) (hrun : run [] ops = some heap) (op : Op F V)
    (hstep : step heap op = some heap') (i o : Nat) (s t : Schema F V) (ho : Origin (ops.filterMap made) i o s t) (a : Ask) :
    (¬ ComputedBy (ops.filterMap made) i op → (answer heap' (.viaType i a)).map (·.1) = (answer heap (.viaType i a)).map (·.1)) ∧
    (¬ ComputedBy (ops.filterMap made) o op → (answer heap' (.viaSchema i a)).map (·.1) = (answer heap (.viaSchema i a)).map (·.1)) := by
  obtain ⟨hsound, -⟩ := run_reaches hrun
  -- what is left alone
  have key : ∀ b, b < heap.length → ¬ ComputedBy (ops.filterMap made) b op → heap'[b]? = heap[b]? := by
    intro b hb hc
    cases op with
    | parse s' =>
      injection hstep with hs
      subst hs
      exact List.getElem?_append_left hb
    | copy j =>
      obtain ⟨x, -, rfl⟩ := Option.map_eq_some_iff.1 hstep
      exact List.getElem?_append_left hb
    | viaType j c =>
      obtain ⟨⟨r, h1⟩, h2, h3⟩ := Option.map_eq_some_iff.1 hstep
      have h3 : h1 = heap' := h3
      subst h3
      obtain ⟨y, m, hy, -, rfl⟩ := askAt_some h2
      exact List.getElem?_set_ne (fun e => hc e)
    | viaSchema j c =>
      obtain ⟨⟨r, h1⟩, h2, h3⟩ := Option.map_eq_some_iff.1 hstep
      have h3 : h1 = heap' := h3
      subst h3
      obtain ⟨x, hx, h2⟩ := Option.bind_eq_some_iff.1 h2
      obtain ⟨y, m, hy, -, rfl⟩ := askAt_some h2
      obtain ⟨s1, ho1, -⟩ := hsound.inst j x hx
      refine List.getElem?_set_ne (fun e => hc ?_)
      exact ⟨s1, x.schema, e ▸ ho1⟩
  -- the schema `i` itself keeps its binding
  have bound : (heap'[i]?).map (·.bound) = (heap[i]?).map (·.bound) := by
    have hi : i < heap.length := hsound.len ▸ ho.lt
    cases op with
    | parse s' =>
      injection hstep with hs
      subst hs
      rw [List.getElem?_append_left hi]
    | copy j =>
      obtain ⟨x, -, rfl⟩ := Option.map_eq_some_iff.1 hstep
      rw [List.getElem?_append_left hi]
    | viaType j c =>
      obtain ⟨⟨r, h1⟩, h2, h3⟩ := Option.map_eq_some_iff.1 hstep
      have h3 : h1 = heap' := h3
      subst h3
      obtain ⟨y, m, hy, -, rfl⟩ := askAt_some h2
      by_cases e : j = i
      · subst e
        rw [List.getElem?_set_self hi, hy]; rfl
      · rw [List.getElem?_set_ne e]
    | viaSchema j c =>
      obtain ⟨⟨r, h1⟩, h2, h3⟩ := Option.map_eq_some_iff.1 hstep
      have h3 : h1 = heap' := h3
      subst h3
      obtain ⟨x, hx, h2⟩ := Option.bind_eq_some_iff.1 h2
      obtain ⟨y, m, hy, -, rfl⟩ := askAt_some h2
      by_cases e : x.bound = i
      · rw [e] at hy ⊢
        rw [List.getElem?_set_self hi, hy]; rfl
      · rw [List.getElem?_set_ne e]
  constructor
  · intro hc
    exact askAt_fst (key i (hsound.len ▸ ho.lt) hc) a
  · intro hc
    obtain ⟨x, hx⟩ : ∃ x, heap[i]? = some x := ⟨_, List.getElem?_eq_getElem (hsound.len ▸ ho.lt)⟩
    rw [hx] at bound
    obtain ⟨y, hy, hb⟩ := Option.map_eq_some_iff.1 bound
    have hb : y.bound = x.bound := hb
    obtain ⟨s1, ho1, -⟩ := hsound.inst i x hx
    obtain ⟨e1, -, -⟩ := ho1.unique ho
    show ((heap'[i]?).bind (fun inst => askAt heap' inst.bound a)).map (·.1) = ((heap[i]?).bind (fun inst => askAt heap inst.bound a)).map (·.1)
    rw [hx, hy]
    simp only [Option.bind_some]
    rw [hb, e1]
    exact askAt_fst (key o (hsound.len ▸ ho.root.lt) hc) a

/-! ## C73: which requests may run at the same time -/

/-- **C73** After any program of `Parse`, `Copy` and requests, two requests on two different schemas write to the same memory exactly when
the schemas go back to the same parsed schema and both requests are traced, or both ask for types below `__schema`, or one asks for a type
below the `__type` of the parsed schema and the other below `__schema`. -/
theorem C73_shared_memory (ops : List (Op F V)) (heap : List (Inst F V)) (hrun : run [] ops = some heap) (i j : Nat) (hij : i ≠ j)
    (x y : Inst F V) (hx : heap[i]? = some x) (hy : heap[j]? = some y) (o o' : Nat) (s s' t t' : Schema F V)
    (ho : Origin (ops.filterMap made) i o s t) (ho' : Origin (ops.filterMap made) j o' s' t') (k l : Kind) :
    (∃ c, c ∈ writes i x k ∧ c ∈ writes j y l) ↔
      o = o' ∧ ((k.traced = true ∧ l.traced = true) ∨ (k.asksSchema = true ∧ l.asksSchema = true) ∨
        (i = o ∧ k.asksType = true ∧ l.asksSchema = true) ∨ (j = o ∧ l.asksType = true ∧ k.asksSchema = true)) := by
  obtain ⟨hsound, -⟩ := run_reaches hrun
  obtain ⟨s1, a1, tx⟩ := hsound.inst i x hx
  obtain ⟨s2, a2, ty⟩ := hsound.inst j y hy
  obtain ⟨e1, -, -⟩ := a1.unique ho
  obtain ⟨e2, -, -⟩ := a2.unique ho'
  rw [e1] at tx
  rw [e2] at ty
  have mem : ∀ (i : Nat) (x : Inst F V) (k : Kind) (c : Cell), c ∈ writes i x k ↔
      c = .ctx i ∨ c = .result i ∨ (k.traced = true ∧ c = .tracer x.tracer) ∨ (k.asksSchema = true ∧ c = .memo x.bound) ∨
        (k.asksType = true ∧ c = .memo i) := by
    intro i x k c
    obtain ⟨a, b, d⟩ := k
    cases a <;> cases b <;> cases d <;> simp [writes, or_assoc]
  -- the parsed schema's own cells
  have root : ∀ {i o s t}, Origin (ops.filterMap made) i o s t → ∀ {j s' t'}, Origin (ops.filterMap made) j i s' t' → i = o := by
    intro i o s t h j s' t' h'
    exact (h'.root.unique h).1
  constructor
  · rintro ⟨c, hc1, hc2⟩
    rw [mem] at hc1 hc2
    rw [e1, tx] at hc1
    rw [e2, ty] at hc2
    rcases hc1 with rfl | rfl | ⟨h1, rfl⟩ | ⟨h1, rfl⟩ | ⟨h1, rfl⟩ <;>
      rcases hc2 with h2 | h2 | ⟨h3, h2⟩ | ⟨h3, h2⟩ | ⟨h3, h2⟩ <;> first | (exact Cell.noConfusion h2) | (injection h2 with h2)
    · exact absurd h2 hij
    · exact absurd h2 hij
    · exact ⟨h2, .inl ⟨h1, h3⟩⟩
    · exact ⟨h2, .inr (.inl ⟨h1, h3⟩)⟩
    · subst h2
      exact ⟨root ho' ho, .inr (.inr (.inr ⟨rfl, h3, h1⟩))⟩
    · subst h2
      exact ⟨(root ho ho').symm, .inr (.inr (.inl ⟨(root ho ho'), h1, h3⟩))⟩
    · exact absurd h2 hij
  · rintro ⟨rfl, h⟩
    rcases h with ⟨h1, h2⟩ | ⟨h1, h2⟩ | ⟨rfl, h1, h2⟩ | ⟨rfl, h1, h2⟩
    · refine ⟨.tracer o, (mem ..).2 ?_, (mem ..).2 ?_⟩
      · rw [tx]; exact .inr (.inr (.inl ⟨h1, rfl⟩))
      · rw [ty]; exact .inr (.inr (.inl ⟨h2, rfl⟩))
    · refine ⟨.memo o, (mem ..).2 ?_, (mem ..).2 ?_⟩
      · rw [e1]; exact .inr (.inr (.inr (.inl ⟨h1, rfl⟩)))
      · rw [e2]; exact .inr (.inr (.inr (.inl ⟨h2, rfl⟩)))
    · refine ⟨.memo i, (mem ..).2 ?_, (mem ..).2 ?_⟩
      · exact .inr (.inr (.inr (.inr ⟨h1, rfl⟩)))
      · rw [e2]; exact .inr (.inr (.inr (.inl ⟨h2, rfl⟩)))
    · refine ⟨.memo j, (mem ..).2 ?_, (mem ..).2 ?_⟩
      · rw [e1]; exact .inr (.inr (.inr (.inl ⟨h2, rfl⟩)))
      · exact .inr (.inr (.inr (.inr ⟨h1, rfl⟩)))

/-- in particular requests that neither trace nor introspect never write to common memory on different schemas -/
theorem C73_plain (ops : List (Op F V)) (heap : List (Inst F V)) (hrun : run [] ops = some heap) (i j : Nat) (hij : i ≠ j)
    (x y : Inst F V) (hx : heap[i]? = some x) (hy : heap[j]? = some y) (c : Cell) (h1 : c ∈ writes i x ⟨false, false, false⟩) :
    c ∉ writes j y ⟨false, false, false⟩ := by
  intro h2
  obtain ⟨hsound, -⟩ := run_reaches hrun
  obtain ⟨s1, a1, -⟩ := hsound.inst i x hx
  obtain ⟨s2, a2, -⟩ := hsound.inst j y hy
  have := (C73_shared_memory ops heap hrun i j hij x y hx hy _ _ _ _ _ _ a1 a2 _ _).1 ⟨c, h1, h2⟩
  simp at this

end

/-! ## A program with copies -/

/-- parse a schema, copy it, copy the copy, ask the original for the fields of the mutation -/
def prog : List (Op Unit Unit) := [.parse demo, .copy 0, .copy 1, .viaSchema 0 .mutation]

/-- it runs -/
theorem prog_runs : ∃ heap, run [] prog = some heap ∧ heap.length = 3 := ⟨_, rfl, rfl⟩

/-- the second copy goes back to the parsed schema -/
theorem prog_origin : Origin (prog.filterMap made) 2 0 demo (copySchema (copySchema demo)) :=
  .copy (j := 1) rfl (.copy (j := 0) rfl (.parse rfl))

/-- **C72** is false below `__schema`: after a request on the ORIGINAL for the fields of the mutation, the copy of the copy lists them as the
fields of its query; below `__type` it lists the right ones. -/
theorem C72_leak : ∃ heap r heap1 r' heap2, run [] prog = some heap ∧
    answer heap (.viaSchema 2 .query) = some (r, heap1) ∧ r.map (·.name) = [b%"b"] ∧
    answer heap (.viaType 2 (.object b%"Query")) = some (r', heap2) ∧ r'.map (·.name) = [b%"a"] :=
  ⟨_, _, _, _, _, rfl, rfl, rfl, rfl, rfl⟩

/-- **C72** (hidden fields) `__type(name: "Query")` on a copy lists the internal field the original hides; below `__schema` the copy says
what the original says. -/
theorem C72_copy_lists_hidden : ∃ heap r h1 r' h2 r'' h3, run [] [.parse demoHidden, .copy 0] = some heap ∧
    answer heap (.viaType 0 (.object b%"Query")) = some (r, h1) ∧ r.map (·.name) = [b%"a"] ∧
    answer heap (.viaType 1 (.object b%"Query")) = some (r', h2) ∧ r'.map (·.name) = [b%"__type", b%"a"] ∧
    answer heap (.viaSchema 1 .query) = some (r'', h3) ∧ r''.map (·.name) = [b%"a"] :=
  ⟨_, _, _, _, _, _, _, rfl, rfl, rfl, rfl, rfl, rfl, rfl⟩

/-- Non-vacuity of `C73_shared_memory`: two traced requests on a copy and on the copy of the copy write to the same tracer, two plain ones share
nothing. -/
example : ∃ heap x y, run [] prog = some heap ∧ heap[1]? = some x ∧ heap[2]? = some y ∧
    Cell.tracer 0 ∈ writes 1 x ⟨true, false, false⟩ ∧ Cell.tracer 0 ∈ writes 2 y ⟨true, false, false⟩ ∧
    Cell.memo 0 ∈ writes 1 x ⟨false, true, false⟩ ∧ Cell.memo 0 ∈ writes 2 y ⟨false, true, false⟩ :=
  ⟨_, _, _, rfl, rfl, rfl, by simp [writes], by simp [writes], by simp [writes], by simp [writes]⟩

end Pool
end Yarql
