import Verif.Model.Ctx

/-!
# C39 (context values), C40 (SetContext), C41 (returned error lists)
-/

namespace Yarql
namespace Ctx

/-! ### C39 -/

/-- Specification: the value of the last assignment to `k` in a list of assignments. -/
inductive LastSet {K V : Type} : List (K × V) → K → Option V → Prop where
  | none (k : K) : LastSet [] k none
  | hit (l : List (K × V)) (k : K) (v : V) : LastSet (l ++ [(k, v)]) k (some v)
  | other (l : List (K × V)) (k k' : K) (v : V) (o : Option V) : k ≠ k' → LastSet l k o → LastSet (l ++ [(k', v)]) k o

variable {K V : Type} [DecidableEq K]

/-- the map supplied in the options, if any -/
def supplied (vs : Values K V) : GoMap K V := fun k => getValueOk vs k

theorem setValues_append (vs : Values K V) (l m : List (K × V)) :
    setValues vs (l ++ m) = (setValues vs l).bind (fun x => setValues x m) := by
  induction l generalizing vs with
  | nil => rfl
  | cons kv l ih =>
    obtain ⟨k, v⟩ := kv
    simp only [List.cons_append, setValues]
    cases setValue vs k v with
    | none => rfl
    | some x => simp only [Option.bind_some]; exact ih x

theorem setValue_get {vs vs' : Values K V} {k : K} {v : V} (h : setValue vs k v = some vs') :
    (∀ k', getValueOk vs' k' = if k' = k then some v else getValueOk vs k') ∧ ∃ m, vs' = .ptr (some m) := by
  cases vs with
  | nilPtr => simp only [setValue, Option.some.injEq] at h; subst h; exact ⟨fun _ => rfl, _, rfl⟩
  | ptr m =>
    cases m with
    | none => cases h
    | some m => simp only [setValue, Option.some.injEq] at h; subst h; exact ⟨fun _ => rfl, _, rfl⟩

/-- **C39** For every request started with no values or with a (non-nil) map, and every sequence of `SetValue` calls:
no call fails, and `GetValueOk` returns the value last set for the key, else the supplied one, else absent;
`GetValue` is the same with nil for absent. -/
theorem C39_values (nilValue : V) (vs : Values K V) (hvs : vs ≠ .ptr none) (sets : List (K × V)) :
    ∃ vs', setValues vs sets = some vs' ∧
      (∀ k o, LastSet sets k o → getValueOk vs' k = o.or (supplied vs k)) ∧
      (∀ k, getValue nilValue vs' k = (getValueOk vs' k).getD nilValue) := by
  have hg : ∀ (x : Values K V) k, getValue nilValue x k = (getValueOk x k).getD nilValue := by
    intro x k
    cases x with
    | nilPtr => rfl
    | ptr m => cases m <;> rfl
  have key : ∀ n (sets : List (K × V)), sets.length = n → ∃ vs', setValues vs sets = some vs' ∧ vs' ≠ .ptr none ∧
      (∀ k o, LastSet sets k o → getValueOk vs' k = o.or (supplied vs k)) := by
    intro n
    induction n with
    | zero =>
      intro sets hl
      obtain rfl := List.length_eq_zero_iff.1 hl
      refine ⟨vs, rfl, hvs, ?_⟩
      intro k o h
      generalize hs : ([] : List (K × V)) = l at h
      cases h with
      | none => rfl
      | hit l k v => simp at hs
      | other l k k' v o hk hl => simp at hs
    | succ n ih =>
      intro sets hl
      obtain ⟨l, ⟨k₀, v₀⟩, rfl⟩ : ∃ l kv, sets = l ++ [kv] :=
        ⟨sets.dropLast, sets.getLast (by rintro rfl; simp at hl), (List.dropLast_concat_getLast _).symm⟩
      obtain ⟨vs₁, h1, h1n, h1g⟩ := ih l (by simpa using hl)
      have : ∃ vs₂, setValue vs₁ k₀ v₀ = some vs₂ := by
        cases vs₁ with
        | nilPtr => exact ⟨_, rfl⟩
        | ptr m =>
          cases m with
          | none => exact absurd rfl h1n
          | some m => exact ⟨_, rfl⟩
      obtain ⟨vs₂, h2⟩ := this
      obtain ⟨hget, m, hm⟩ := setValue_get h2
      refine ⟨vs₂, ?_, by rw [hm]; simp, ?_⟩
      · rw [setValues_append, h1]
        simp only [Option.bind_some, setValues, h2]
      · intro k o h
        rw [hget]
        generalize hs : l ++ [(k₀, v₀)] = l' at h
        cases h with
        | none => simp at hs
        | hit l'' k v =>
          obtain ⟨-, he⟩ := List.append_inj' hs rfl
          simp only [List.cons.injEq, Prod.mk.injEq, and_true] at he
          obtain ⟨rfl, rfl⟩ := he
          simp
        | other l'' k k' v o hk hl' =>
          obtain ⟨rfl, he⟩ := List.append_inj' hs rfl
          simp only [List.cons.injEq, Prod.mk.injEq, and_true] at he
          obtain ⟨rfl, rfl⟩ := he
          rw [if_neg hk]
          exact h1g k o hl'
  obtain ⟨vs', h1, -, h2⟩ := key _ sets rfl
  exact ⟨vs', h1, h2, hg vs'⟩

/-- What C39 excludes: with `Values` pointing to a nil map every `SetValue` crashes. -/
theorem C39_nil_map_panics (k : K) (v : V) (rest : List (K × V)) :
    setValues (.ptr none) ((k, v) :: rest) = none := rfl

/-- Non-vacuity: two sets of the same key, one supplied key, one absent key. -/
example : ∃ vs', setValues (.ptr (some fun k => if k = 7 then some 70 else none)) [(1, 10), (2, 20), (1, 11)] = some vs' ∧
    getValueOk vs' 1 = some 11 ∧ getValueOk vs' 7 = some 70 ∧ getValueOk vs' 3 = none :=
  ⟨_, rfl, rfl, rfl, rfl⟩

example : LastSet [(1, 10), (2, 20), (1, 11)] 1 (some 11) ∧ LastSet [(1, 10), (2, 20)] 1 (some 10) :=
  ⟨.hit [(1, 10), (2, 20)] 1 11, .other [(1, 10)] 1 2 20 _ (by decide) (.hit [] 1 10)⟩

/-! ### C40 -/

/-- **C40** is false: in a request started without a context, `SetContext(c)` crashes, for every `c`; the same after
`SetContext(nil)`. -/
theorem C40_set_context_panics {C : Type} (c : C) (opts : Option C) :
    setContexts (initContext (none : Option C)) [some c] = none ∧
    setContexts (initContext opts) [none, some c] = none := ⟨rfl, rfl⟩

/-- **C40_partial** In a request started with a context, any sequence of `SetContext` calls with non-nil contexts
succeeds, and `GetContext` then returns the last one set (or the initial one). Missing: requests without context and
sequences setting nil in between, where the call crashes (`C40_set_context_panics`). -/
theorem C40_set_context_partial {C : Type} (c₀ : C) (cs : List C) :
    ∃ ctx, setContexts (initContext (some c₀)) (cs.map some) = some ctx ∧
      getContext ctx = some ((c₀ :: cs).getLast (by simp)) := by
  induction cs generalizing c₀ with
  | nil => exact ⟨_, rfl, rfl⟩
  | cons c cs ih =>
    obtain ⟨ctx, h1, h2⟩ := ih c
    exact ⟨ctx, h1, by rw [h2, List.getLast_cons (List.cons_ne_nil c cs)]⟩

/-- **C40** (exactly when it crashes) A single call fails iff the request currently has no context and the new one
is not nil; otherwise `GetContext` returns the argument. -/
theorem C40_set_context_iff {C : Type} (ctx new : Option C) :
    (setContext ctx new = none ↔ ctx = none ∧ new ≠ none) ∧
    (∀ ctx', setContext ctx new = some ctx' → getContext ctx' = new) := by
  cases ctx <;> cases new <;> simp [setContext, getContext]

/-! ### C41: the returned error list -/

variable {E : Type}

theorem take_set_snoc {α : Type} : ∀ (a : List α) (n : Nat) (x : α), n < a.length →
    (a.set n x).take (n + 1) = a.take n ++ [x]
  | [], _, _, h => by simp at h
  | y :: a, 0, x, _ => by simp
  | y :: a, n + 1, x, h => by
    simp only [List.set_cons_succ, List.take_succ_cons, List.cons_append]
    rw [take_set_snoc a n x (by simpa using h)]

theorem take_append_snoc {α : Type} (a : List α) (n : Nat) (x : α) (t : List α) (h : a.length = n) :
    (a ++ x :: t).take (n + 1) = a ++ [x] := by
  subst h
  rw [List.take_append, List.take_of_length_le (by omega)]
  simp

/-- reading an in-place run of appends -/
theorem appendAll_inplace (extra : Nat → Nat) (es : List E) (h : Heap E) (a : List (Option E)) (i n : Nat)
    (hi : h[i]? = some a) (hn : n + es.length ≤ a.length) :
    appendAll extra h ⟨i, n⟩ es =
      (h.set i (a.take n ++ es.map some ++ a.drop (n + es.length)), ⟨i, n + es.length⟩) := by
  induction es generalizing h a n with
  | nil =>
    have hlt : i < h.length := (List.getElem?_eq_some_iff.1 hi).1
    simp only [appendAll, List.map_nil, List.append_nil, List.length_nil, Nat.add_zero, List.take_append_drop]
    congr 1
    apply List.ext_getElem?
    intro j
    rw [List.getElem?_set]
    split
    · rename_i hj; subst hj; simp [hlt]; exact (List.getElem?_eq_some_iff.1 hi).2
    · rfl
  | cons e es ih =>
    simp only [List.length_cons] at hn
    have hlt : i < h.length := (List.getElem?_eq_some_iff.1 hi).1
    simp only [appendAll, append, hi, Option.getD_some]
    rw [if_pos (by omega)]
    simp only
    rw [ih (h.set i (a.set n (some e))) (a.set n (some e)) (n + 1) (by rw [List.getElem?_set]; simp [hlt])
      (by rw [List.length_set]; omega)]
    rw [List.set_set]
    congr 1
    · congr 1
      have h1 : (a.set n (some e)).take (n + 1) = a.take n ++ [some e] := by
        exact take_set_snoc a n (some e) (by omega)
      have h2 : (a.set n (some e)).drop (n + 1 + es.length) = a.drop (n + (es.length + 1)) := by
        rw [List.drop_set, if_pos (by omega)]
        congr 1; omega
      rw [h1, h2]
      simp
    · simp only [List.length_cons]; congr 1; omega

/-- everything appended is read back, with what was in the slice before -/
theorem appendAll_read (extra : Nat → Nat) (es : List E) (h : Heap E) (s : Slice) (a : List (Option E))
    (ha : h[s.arr]? = some a) (hl : s.len ≤ a.length) :
    ∃ a', (appendAll extra h s es).1[(appendAll extra h s es).2.arr]? = some a' ∧
      (appendAll extra h s es).2.len = s.len + es.length ∧ s.len + es.length ≤ a'.length ∧
      a'.take (s.len + es.length) = a.take s.len ++ es.map some := by
  induction es generalizing h s a with
  | nil => exact ⟨a, ha, rfl, hl, by simp⟩
  | cons e es ih =>
    simp only [appendAll]
    have hlt : s.arr < h.length := (List.getElem?_eq_some_iff.1 ha).1
    have : ∃ a₁, (append extra h s e).1[(append extra h s e).2.arr]? = some a₁ ∧ (append extra h s e).2.len = s.len + 1 ∧
        s.len + 1 ≤ a₁.length ∧ a₁.take (s.len + 1) = a.take s.len ++ [some e] := by
      simp only [append, ha, Option.getD_some]
      split
      · rename_i hc
        refine ⟨a.set s.len (some e), by simp [hlt], rfl, by rw [List.length_set]; omega, ?_⟩
        exact take_set_snoc a s.len (some e) hc
      · rename_i hc
        refine ⟨a.take s.len ++ some e :: List.replicate (extra s.len) none, by simp, rfl, by simp [Nat.min_eq_left hl], ?_⟩
        exact take_append_snoc _ _ _ _ (by rw [List.length_take]; omega)
    obtain ⟨a₁, h1, h2, h3, h4⟩ := this
    obtain ⟨a', g1, g2, g3, g4⟩ := ih _ _ a₁ h1 (by omega)
    refine ⟨a', g1, by rw [g2, h2, List.length_cons]; omega, by rw [List.length_cons]; omega, ?_⟩
    rw [List.length_cons, show s.len + (es.length + 1) = (append extra h s e).2.len + es.length by rw [h2]; omega, g4, h2, h4]
    simp

/-- the heap invariant: the context's slice points into an existing array -/
def Ok (h : Heap E) (s : Slice) : Prop := ∃ a, h[s.arr]? = some a ∧ s.len ≤ a.length

theorem request_ok (extra : Nat → Nat) (h : Heap E) (s : Slice) (es : List E) (hs : Ok h s) :
    Ok (request extra h s es).1 (request extra h s es).2 ∧
    read (request extra h s es).1 (request extra h s es).2 = es.map some := by
  obtain ⟨a, ha, -⟩ := hs
  obtain ⟨a', h1, h2, h3, h4⟩ := appendAll_read extra es h ⟨s.arr, 0⟩ a ha (Nat.zero_le _)
  refine ⟨⟨a', h1, by unfold request; rw [h2]; exact h3⟩, ?_⟩
  unfold read request
  rw [h1, h2, Option.getD_some, h4]
  simp

theorem history_ok (extra : Nat → Nat) (h : Heap E) (s : Slice) (hs : Ok h s) (rs : List (List E)) :
    Ok (history extra h s rs).1 (history extra h s rs).2 := by
  induction rs generalizing h s with
  | nil => exact hs
  | cons es rs ih => exact ih _ _ (request_ok extra h s es hs).1

/-- **C41** (each request reports its own errors) After any history of requests on one schema, whatever capacity the
runtime gives to grown slices, the slice returned by the next request holds exactly the errors of that request. -/
theorem C41_own_errors (extra : Nat → Nat) (past : List (List E)) (es : List E) :
    let before := history extra (init E).1 (init E).2 past
    let after := request extra before.1 before.2 es
    read after.1 after.2 = es.map some :=
  (request_ok extra _ _ es (history_ok extra _ _ ⟨[], rfl, Nat.le_refl _⟩ past)).2

/-- **C41** (returned lists change) False of the code: if a request reported the errors `es` and the next one
reports at most as many, the list returned by the first now reads as the second's errors followed by the rest
of its own. -/
theorem C41_returned_errors_overwritten (extra : Nat → Nat) (past : List (List E)) (es es' : List E)
    (hlen : es'.length ≤ es.length) :
    let before := history extra (init E).1 (init E).2 past
    let first := request extra before.1 before.2 es
    let second := request extra first.1 first.2 es'
    read first.1 first.2 = es.map some ∧
    read second.1 first.2 = (es' ++ es.drop es'.length).map some := by
  intro before first second
  have hb := history_ok extra (init E).1 (init E).2 ⟨[], rfl, Nat.le_refl _⟩ past
  refine ⟨(request_ok extra _ _ es hb).2, ?_⟩
  obtain ⟨a, ha, -⟩ := hb
  obtain ⟨a', h1, h2, h3, h4⟩ := appendAll_read extra es before.1 ⟨before.2.arr, 0⟩ a ha (Nat.zero_le _)
  simp only [Nat.zero_add, List.take_zero, List.nil_append] at h2 h3 h4
  have h1' : first.1[first.2.arr]? = some a' := h1
  have h2' : first.2.len = es.length := h2
  have hip := appendAll_inplace extra es' first.1 a' first.2.arr 0 h1' (by omega)
  have hsec : second = _ := hip
  have hlt : first.2.arr < first.1.length := (List.getElem?_eq_some_iff.1 h1').1
  unfold read
  rw [hsec, h2']
  simp only [List.getElem?_set, hlt, if_true, Option.getD_some, List.take_zero, List.nil_append, Nat.zero_add]
  rw [List.take_append, List.take_of_length_le (by rw [List.length_map]; omega), List.length_map, List.take_drop,
    Nat.add_sub_cancel' hlen, h4]
  simp

/-- **C41_partial** A returned error list keeps its contents as long as the later requests report no errors.
Missing: later requests with errors (`C41_returned_errors_overwritten`). -/
theorem C41_returned_errors_stable_partial (extra : Nat → Nat) (past : List (List E)) (es : List E) (n : Nat) :
    let before := history extra (init E).1 (init E).2 past
    let first := request extra before.1 before.2 es
    let later := history extra first.1 first.2 (List.replicate n [])
    read later.1 first.2 = es.map some := by
  intro before first later
  have : ∀ n (h : Heap E) (s : Slice), (history extra h s (List.replicate n [])).1 = h := by
    intro n
    induction n with
    | zero => intros; rfl
    | succ n ih =>
      intro h s
      rw [List.replicate_succ]
      simp only [history, request, appendAll]
      exact ih h _
  show read (history extra first.1 first.2 (List.replicate n [])).1 first.2 = _
  rw [this]
  exact C41_own_errors extra past es

/-- Non-vacuity / concrete reading: the caller of the first request kept `["a"]`, which turns into `["b"]`. -/
example : let r₁ := request (fun _ => 0) (init String).1 (init String).2 ["a"]
    let r₂ := request (fun _ => 0) r₁.1 r₁.2 ["b"]
    read r₁.1 r₁.2 = [some "a"] ∧ read r₂.1 r₁.2 = [some "b"] := by decide

end Ctx
end Yarql
