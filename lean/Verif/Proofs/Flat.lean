import Verif.Spec.Flat
import Verif.Proofs.Alias

/-!
# Evaluating flattened selections

`Ev m m'`: whenever the step `m` is defined, the steps `m' F` are defined for all large `F`, and do the same.
-/

namespace Yarql
namespace Flat
open Doc Eval Resolver Yarql.Bind
open Alias (refrag Sim Errs)

section
variable {F V W α β : Type}

def Ev (m : E W α) (m' : Nat → E W α) : Prop :=
  ∀ es a s, m es = some (a, s) → ∃ N, ∀ n, N ≤ n → m' n es = some (a, s)

theorem Ev.of_le {m m' : E W α} (h : ∀ es a s, m es = some (a, s) → m' es = some (a, s)) : Ev m (fun _ => m') :=
  fun es a s hm => ⟨0, fun _ _ => h es a s hm⟩

theorem Ev.const {m : E W α} : Ev m (fun _ => m) := Ev.of_le (fun _ _ _ h => h)

theorem Ev.ite {c c' : Prop} [Decidable c] [Decidable c'] (hc : c ↔ c') {a b : E W α} {a' b' : Nat → E W α} (ha : Ev a a') (hb : Ev b b') :
    Ev (if c then a else b) (fun n => if c' then a' n else b' n) := by
  by_cases h : c
  · simp only [if_pos h, if_pos (hc.1 h)]; exact ha
  · simp only [if_neg h, if_neg (fun h' => h (hc.2 h'))]; exact hb

theorem Ev.undefined {m' : Nat → E W α} : Ev undefinedE m' := fun _ _ _ h => by cases h

theorem Ev.bind {m : E W α} {m' : Nat → E W α} {f : α → E W β} {f' : Nat → α → E W β} (hm : Ev m m') (hf : ∀ a, Ev (f a) (fun n => f' n a)) :
    Ev (m >>= f) (fun n => m' n >>= f' n) := by
  intro es b s h
  obtain ⟨a, s1, h1, h2⟩ := E_bind.1 h
  obtain ⟨N1, k1⟩ := hm es a s1 h1
  obtain ⟨N2, k2⟩ := hf a s1 b s h2
  exact ⟨max N1 N2, fun n hn => E_bind.2 ⟨a, s1, k1 n (by omega), k2 n (by omega)⟩⟩

theorem Ev.succ {m : E W α} {m' g : Nat → E W α} (hg : ∀ n, g (n + 1) = m' n) (h : Ev m m') : Ev m g := by
  intro es a s hm
  obtain ⟨N, k⟩ := h es a s hm
  refine ⟨N + 1, ?_⟩
  intro n hn
  obtain ⟨k', rfl⟩ : ∃ k', n = k' + 1 := ⟨n - 1, by omega⟩
  rw [hg]
  exact k k' (by omega)

theorem errs_eq {a b : List (Bytes × List Seg)} (h : Errs Eq a b) : b = a := by
  induction h with
  | nil => rfl
  | cons h _ ih => rw [h, ih]

theorem Ev.of_sim {m m' : E W α} (h : Sim Eq Eq m m') : Ev m (fun _ => m') := by
  refine Ev.of_le ?_
  intro es a s hm
  obtain ⟨a', s', h1, rfl, h3, h4, n, n', h5, h6, h7⟩ := h es es rfl rfl a s hm
  have e : s' = s := by
    have e1 : s'.errs = s.errs := by rw [h5, h6, errs_eq h7]
    cases s; cases s'
    dsimp only at h3 h4 e1
    rw [h3, h4, e1]
  rw [h1, e]

theorem Ev.elems {elem : Nat → V → E W (Out × Bool)} {elem' : Nat → Nat → V → E W (Out × Bool)} (h : ∀ i x, Ev (elem i x) (fun n => elem' n i x)) :
    ∀ (vs : List V) (i : Nat), Ev (evalElems elem i vs) (fun n => evalElems (elem' n) i vs)
  | [], i => by simp only [evalElems]; exact Ev.const
  | v :: vs, i => by
    simp only [evalElems]
    refine Ev.bind (h i v) ?_
    rintro ⟨o, c⟩
    dsimp only
    exact Ev.bind (Ev.elems h vs (i + 1)) (fun _ => Ev.const)

variable (r : Req F V W) (frags' : List Fragment)

local notation "r'" => refrag r frags'

theorem callWith_ev (path : List Seg) (m : Method F) (fn : V) (args : List (Bytes × Value)) :
    Ev (callWith r path m fn args) (fun _ => callWith r' path m fn args) := by
  unfold callWith
  refine Ev.bind (Ev.of_sim (Alias.args_sim rfl r frags' m args _)) ?_
  rintro (_ | inputs)
  · exact Ev.const
  · exact Ev.const

theorem directive_ev (path : List Seg) (loc : UInt8) (d : Directive) :
    Ev (evalDirective r path loc d) (fun _ => evalDirective r' path loc d) := by
  unfold evalDirective
  rw [Alias.refrag_schema, Alias.refrag_env]
  cases (lookup r.schema.directives loc).bind (fun ds => ds.find? (fun x => decide (x.name = d.name))) with
  | none => exact Ev.const
  | some x =>
    refine Ev.bind (callWith_ev r frags' path x.method x.func _) ?_
    intro a
    exact Ev.const

theorem directives_ev (path : List Seg) (loc : UInt8) (ds : List Directive) :
    Ev (evalDirectives r path loc ds) (fun _ => evalDirectives r' path loc ds) := by
  induction ds with
  | nil => unfold evalDirectives; exact Ev.const
  | cons d ds ih =>
    unfold evalDirectives
    refine Ev.bind (directive_ev r frags' path loc d) ?_
    rintro (_ | _ | _)
    · exact Ev.const
    · exact ih
    · exact Ev.const

theorem result_ev (path : List Seg) (m : Method F) (outs : List V) {next : V → E W (Out × Bool)} {next' : Nat → V → E W (Out × Bool)}
    (hn : ∀ x, Ev (next x) (fun n => next' n x)) : Ev (evalResult r path m outs next) (fun n => evalResult r' path m outs (next' n)) := by
  unfold evalResult
  rw [Alias.refrag_env]
  refine Ev.bind Ev.const ?_
  intro w
  cases r.env.ctxErr w with
  | some msg => exact Ev.const
  | none =>
    dsimp only
    cases outs[m.outNr]? with
    | none => exact Ev.undefined
    | some x => exact hn x

theorem call_ev (path : List Seg) (m : Method F) (fn : V) (args : List (Bytes × Value)) {next : V → E W (Out × Bool)}
    {next' : Nat → V → E W (Out × Bool)} (hn : ∀ x, Ev (next x) (fun n => next' n x)) :
    Ev (evalCall r path m fn args next) (fun n => evalCall r' path m fn args (next' n)) := by
  unfold evalCall
  rw [Alias.refrag_env]
  refine Ev.bind (callWith_ev r frags' path m fn args) ?_
  rintro (_ | outs)
  · exact Ev.const
  · dsimp only
    cases m.errorOutNr with
    | none => exact result_ev r frags' path m outs hn
    | some nr =>
      dsimp only
      cases outs[nr]? with
      | none => exact Ev.undefined
      | some e =>
        refine Ev.bind Ev.const ?_
        intro w
        cases r.env.errOf w e with
        | none => exact result_ev r frags' path m outs hn
        | some msg => exact Ev.bind Ev.const (fun _ => result_ev r frags' path m outs hn)

variable [DecidableEq F]

/-- selections behind others -/
theorem append_crit (t : RType F V) (v : V) (dept : UInt8) (q : List Seg) (room : Nat) (b : List Sel) :
    ∀ (a : List Sel) (n : Nat) (es s : ES W) (ms : List (Bytes × Out)), evalSels r n t v dept q room a es = some ((ms, true), s) →
      evalSels r n t v dept q room (a ++ b) es = some ((ms, true), s) := by
  intro a
  induction a with
  | nil =>
    intro n es s ms h
    cases n with
    | zero => simp only [evalSels] at h; cases h
    | succ n => simp only [evalSels] at h; have e := E_pure.1 h; injection e with e _; injection e with _ e; cases e
  | cons x xs ih =>
    intro n es s ms h
    cases n with
    | zero => simp only [evalSels] at h; cases h
    | succ n =>
      rw [List.cons_append]
      cases x <;>
      · simp only [evalSels] at h ⊢
        obtain ⟨⟨m, c⟩, s1, h1, h2⟩ := E_bind.1 h
        refine E_bind.2 ⟨(m, c), s1, h1, ?_⟩
        cases c with
        | true => exact h2
        | false =>
          obtain ⟨⟨m2, c2⟩, s2, h3, h4⟩ := E_bind.1 h2
          have e := E_pure.1 h4
          injection e with e1 e2
          injection e1 with e3 e4
          subst e4 e2
          refine E_bind.2 ⟨(m2, true), s, ih _ _ _ _ h3, ?_⟩
          rw [e3]
          rfl

theorem append_go (t : RType F V) (v : V) (dept : UInt8) (q : List Seg) (room : Nat) (b : List Sel) :
    ∀ (a : List Sel) (n : Nat) (es s s' : ES W) (ms ms' : List (Bytes × Out)) (c : Bool),
      evalSels r n t v dept q room a es = some ((ms, false), s) → evalSels r (n - a.length) t v dept q room b s = some ((ms', c), s') →
      evalSels r n t v dept q room (a ++ b) es = some ((ms ++ ms', c), s') := by
  intro a
  induction a with
  | nil =>
    intro n es s s' ms ms' c h h'
    cases n with
    | zero => simp only [evalSels] at h; cases h
    | succ n =>
      simp only [evalSels] at h
      have e := E_pure.1 h
      injection e with e1 e2
      injection e1 with e3 e4
      subst e3 e2
      exact h'
  | cons x xs ih =>
    intro n es s s' ms ms' c h h'
    cases n with
    | zero => simp only [evalSels] at h; cases h
    | succ n =>
      rw [List.cons_append]
      rw [List.length_cons, show n + 1 - (xs.length + 1) = n - xs.length by omega] at h'
      cases x <;>
      · simp only [evalSels] at h ⊢
        obtain ⟨⟨m, c0⟩, s1, h1, h2⟩ := E_bind.1 h
        refine E_bind.2 ⟨(m, c0), s1, h1, ?_⟩
        cases c0 with
        | true => have e := E_pure.1 h2; injection e with e _; injection e with _ e; cases e
        | false =>
          obtain ⟨⟨m2, c2⟩, s2, h3, h4⟩ := E_bind.1 h2
          have e := E_pure.1 h4
          injection e with e1 e2
          injection e1 with e3 e4
          subst e4 e2
          refine E_bind.2 ⟨(m2 ++ ms', c), s', ih _ _ _ _ _ _ _ h3 h', ?_⟩
          rw [e3, List.append_assoc]
          rfl

/-- first these members, then those, unless the first ended critically -/
def seqE (m m' : E W (List (Bytes × Out) × Bool)) : E W (List (Bytes × Out) × Bool) := do
  let (ms, crit) ← m
  if crit then return (ms, true)
  let (ms', crit) ← m'
  return (ms ++ ms', crit)

theorem Ev.append {m1 m2 : E W (List (Bytes × Out) × Bool)} {t : RType F V} {v : V} {dept : UInt8} {q : List Seg} {room : Nat} {a b : List Sel}
    (h1 : Ev m1 (fun n => evalSels r n t v dept q room a)) (h2 : Ev m2 (fun n => evalSels r n t v dept q room b)) :
    Ev (seqE m1 m2) (fun n => evalSels r n t v dept q room (a ++ b)) := by
  intro es x s h
  unfold seqE at h
  obtain ⟨⟨ms, c⟩, s1, k1, k2⟩ := E_bind.1 h
  obtain ⟨N1, l1⟩ := h1 es _ _ k1
  cases c with
  | true =>
    have e := E_pure.1 k2
    injection e with e1 e2
    subst e1 e2
    exact ⟨N1, fun n hn => append_crit r t v dept q room b a n es _ ms (l1 n hn)⟩
  | false =>
    obtain ⟨⟨ms', c'⟩, s2, k3, k4⟩ := E_bind.1 k2
    have e := E_pure.1 k4
    injection e with e1 e2
    subst e1 e2
    obtain ⟨N2, l2⟩ := h2 s1 _ _ k3
    exact ⟨max N1 (N2 + a.length), fun n hn => append_go r t v dept q room b a n es s1 _ ms ms' c' (l1 n (by omega)) (l2 _ (by omega))⟩

theorem seqE_ev {m1 m2 : E W (List (Bytes × Out) × Bool)} {m1' m2' : Nat → E W (List (Bytes × Out) × Bool)} (h1 : Ev m1 m1') (h2 : Ev m2 m2') :
    Ev (seqE m1 m2) (fun n => seqE (m1' n) (m2' n)) := by
  unfold seqE
  refine Ev.bind h1 ?_
  rintro ⟨ms, _ | _⟩
  · exact Ev.bind h2 (fun _ => Ev.const)
  · exact Ev.const

/-- what is shown of the functions, for one fuel of the original -/
structure AllEv (n : Nat) : Prop where
  sels : ∀ (t : RType F V) (v : V) (dept : UInt8) (q : List Seg) (room : Nat) {K : RType F V → Prop} {S S' : List Sel}, Flatten r.schema K S S' →
    IsType r.schema t → K t → Ev (evalSels r n t v dept q room S) (fun k => evalSels r' k t v dept q room S')
  spread : ∀ (t : RType F V) (v : V) (dept : UInt8) (q : List Seg) (room : Nat) (name : Bytes) (dirs : List Directive), IsType r.schema t →
    Ev (evalSpread r n t v dept q room name dirs) (fun k => evalSpread r' k t v dept q room name dirs)
  inline : ∀ (t : RType F V) (v : V) (dept : UInt8) (q : List Seg) (room : Nat) (ty : Bytes) (dirs : List Directive) {K : RType F V → Prop}
    {S S' : List Sel}, Flatten r.schema (fun t => K t ∧ t.typeName = ty) S S' → IsType r.schema t → K t →
    Ev (evalInline r n t v dept q room ty dirs S) (fun k => evalInline r' k t v dept q room ty dirs S')
  always : ∀ (t : RType F V) (v : V) (dept : UInt8) (q : List Seg) (room : Nat) (ty : Bytes) {K : RType F V → Prop}
    {S S' : List Sel}, t.typeName = ty → Flatten r.schema K S S' → IsType r.schema t → K t →
    Ev (evalInline r n t v dept q room ty [] S) (fun k => evalSels r' k t v dept q room S')
  field : ∀ (t : RType F V) (v : V) (dept : UInt8) (q : List Seg) (room : Nat) (key name : Bytes) (dirs : List Directive)
    (args : Option (List (Bytes × Value))) {K : RType F V → Prop} {S S' : List Sel}, (S = [] ↔ S' = []) → Flatten r.schema (Below r.schema K name) S S' →
    K t → Ev (evalField r n t v dept q room key name dirs args S) (fun k => evalField r' k t v dept q room key name dirs args S')
  data : ∀ (o : Obj F) (v : V) (dept : UInt8) (q : List Seg) (room : Nat) (args : Option (List (Bytes × Value))) {K : RType F V → Prop}
    {S S' : List Sel}, (S = [] ↔ S' = []) → Flatten r.schema K S S' → (∀ t, Leads r.schema o t → K t) →
    Ev (evalData r n o v dept q room args S) (fun k => evalData r' k o v dept q room args S')

theorem never_eq {n : Nat} {t : RType F V} {v : V} {dept : UInt8} {q : List Seg} {room : Nat} {ty : Bytes} {S : List Sel} (h : t.typeName ≠ ty)
    {es s : ES W} {x : List (Bytes × Out) × Bool} (hx : evalInline r n t v dept q room ty [] S es = some (x, s)) : x = ([], false) ∧ s = es := by
  cases n with
  | zero => simp only [evalInline] at hx; cases hx
  | succ n =>
    simp only [evalInline, evalDirectives] at hx
    obtain ⟨a, s1, h1, h2⟩ := E_bind.1 hx
    have e := E_pure.1 h1
    injection e with e1 e2
    subst e1 e2
    dsimp only at h2
    rw [if_neg h] at h2
    have e := E_pure.1 h2
    injection e with e1 e2
    exact ⟨e1, e2⟩

theorem allEv_zero : AllEv r frags' 0 where
  sels := fun _ _ _ _ _ _ _ _ _ _ _ => by simp only [evalSels]; exact Ev.undefined
  spread := fun _ _ _ _ _ _ _ _ => by simp only [evalSpread]; exact Ev.undefined
  inline := fun _ _ _ _ _ _ _ _ _ _ _ _ _ => by simp only [evalInline]; exact Ev.undefined
  always := fun _ _ _ _ _ _ _ _ _ _ _ _ _ => by simp only [evalInline]; exact Ev.undefined
  field := fun _ _ _ _ _ _ _ _ _ _ _ _ _ _ _ => by simp only [evalField]; exact Ev.undefined
  data := fun _ _ _ _ _ _ _ _ _ _ _ _ => by simp only [evalData]; exact Ev.undefined

theorem frags_find (hfr : FlattenFrags r.schema r.frags frags') (name : Bytes) :
    (r.frags.find? (fun f => decide (f.name = name)) = none ∧ frags'.find? (fun f => decide (f.name = name)) = none) ∨
    ∃ f f', r.frags.find? (fun f => decide (f.name = name)) = some f ∧ frags'.find? (fun f => decide (f.name = name)) = some f' ∧
      f'.typeName = f.typeName ∧ Flatten r.schema (fun t => IsType r.schema t ∧ t.typeName = f.typeName) f.sels f'.sels := by
  generalize r.frags = fs at hfr
  induction hfr with
  | nil => exact Or.inl ⟨rfl, rfl⟩
  | @cons nm ty sels sels' fs fs' h _ ih =>
    by_cases e : nm = name
    · refine Or.inr ⟨_, _, List.find?_cons_of_pos (by simpa using e), List.find?_cons_of_pos (by simpa using e), rfl, h⟩
    · rw [List.find?_cons_of_neg (by simpa using e), List.find?_cons_of_neg (by simpa using e)]
      exact ih

variable (hfr : FlattenFrags r.schema r.frags frags')
include hfr

theorem allEv_succ {n : Nat} (ih : AllEv r frags' n) : AllEv r frags' (n + 1) where
  sels := by
    intro t v dept q room K S S' hS ht hK
    cases hS with
    | nil => simp only [evalSels]; exact Ev.succ (fun _ => by simp only [evalSels]) (Ev.const)
    | @field _ key name dirs args sub sub' rest rest' h1 h2 h3 =>
      simp only [evalSels]
      refine Ev.succ (fun _ => by simp only [evalSels]; rfl) (Ev.bind (ih.field t v dept q room key (name.getD key) dirs args h1 h2 hK) ?_)
      rintro ⟨m, _ | _⟩
      · exact Ev.bind (ih.sels t v dept q room h3 ht hK) (fun _ => Ev.const)
      · exact Ev.const
    | @spread _ name dirs rest rest' h3 =>
      simp only [evalSels]
      refine Ev.succ (fun _ => by simp only [evalSels]; rfl) (Ev.bind (ih.spread t v dept q room name dirs ht) ?_)
      rintro ⟨m, _ | _⟩
      · exact Ev.bind (ih.sels t v dept q room h3 ht hK) (fun _ => Ev.const)
      · exact Ev.const
    | @inline _ ty dirs sub sub' rest rest' h2 h3 =>
      simp only [evalSels]
      refine Ev.succ (fun _ => by simp only [evalSels]; rfl) (Ev.bind (ih.inline t v dept q room ty dirs h2 ht hK) ?_)
      rintro ⟨m, _ | _⟩
      · exact Ev.bind (ih.sels t v dept q room h3 ht hK) (fun _ => Ev.const)
      · exact Ev.const
    | @always _ ty sub sub' rest rest' h1 h2 h3 =>
      simp only [evalSels]
      exact Ev.append r' (ih.always t v dept q room ty (h1 t hK) h2 ht hK) (ih.sels t v dept q room h3 ht hK)
    | @never _ ty sub rest _ h1 h3 =>
      simp only [evalSels]
      intro es x s h
      obtain ⟨⟨ms, c⟩, s1, k1, k2⟩ := E_bind.1 h
      obtain ⟨e1, e2⟩ := never_eq r (h1 t hK) k1
      injection e1 with e3 e4
      subst e3 e4 e2
      obtain ⟨⟨ms, c⟩, s2, k3, k4⟩ := E_bind.1 k2
      have e := E_pure.1 k4
      injection e with e1 e2
      subst e1 e2
      exact ih.sels t v dept q room h3 ht hK _ _ _ k3
  spread := by
    intro t v dept q room name dirs ht
    simp only [evalSpread]
    refine Ev.succ (fun _ => by simp only [evalSpread]; rfl) (Ev.bind (directives_ev r frags' q 1 dirs) ?_)
    rintro (_ | _ | _)
    · exact Ev.const
    · dsimp only
      have e : (r').frags = frags' := rfl
      rw [e]
      rcases frags_find r frags' hfr name with ⟨h1, h2⟩ | ⟨f, f', h1, h2, h3, h4⟩
      · rw [h1, h2]
        exact Ev.const
      · rw [h1, h2]
        dsimp only
        rw [h3]
        by_cases hty : t.typeName = f.typeName
        · simp only [if_pos hty]
          exact ih.sels t v dept q room h4 ht ⟨ht, hty⟩
        · simp only [if_neg hty]
          exact Ev.const
    · exact Ev.const
  inline := by
    intro t v dept q room ty dirs K S S' hS ht hK
    simp only [evalInline]
    refine Ev.succ (fun _ => by simp only [evalInline]; rfl) (Ev.bind (directives_ev r frags' q 2 dirs) ?_)
    rintro (_ | _ | _)
    · exact Ev.const
    · dsimp only
      by_cases hty : t.typeName = ty
      · simp only [if_pos hty]
        exact ih.sels t v dept q room hS ht ⟨hK, hty⟩
      · simp only [if_neg hty]
        exact Ev.const
    · exact Ev.const
  always := by
    intro t v dept q room ty K S S' hty hS ht hK
    simp only [evalInline, evalDirectives]
    intro es x s h
    obtain ⟨a, s1, h1, h2⟩ := E_bind.1 h
    have e := E_pure.1 h1
    injection e with e1 e2
    subst e1 e2
    dsimp only at h2
    rw [if_pos hty] at h2
    exact ih.sels t v dept q room hS ht hK _ _ _ h2
  field := by
    intro t v dept q room key name dirs args K S S' hE hS hK
    simp only [evalField]
    refine Ev.succ (fun _ => by simp only [evalField]; rfl) (Ev.bind (directives_ev r frags' _ 0 dirs) ?_)
    rintro (_ | _ | _)
    · exact Ev.const
    · dsimp only
      have hemp : S'.isEmpty = S.isEmpty := by
        cases S <;> cases S' <;> simp_all
      cases hfind : t.fields.find? (fun f => decide (f.key = fnv1 name)) with
      | none =>
        dsimp only
        rw [hemp]
        exact Ev.const
      | some f =>
        dsimp only
        cases room with
        | zero => exact Ev.undefined
        | succ room =>
          dsimp only
          refine Ev.bind (Ev.of_sim (Alias.valueOfField_sim r frags' v f)) ?_
          intro x
          refine Ev.bind (ih.data f.obj x dept _ room args hE hS ?_) (fun _ => Ev.const)
          intro t' hl
          refine ⟨t, f, hK, List.mem_of_find?_eq_some hfind, ?_, hl⟩
          have := List.find?_some hfind
          simpa using this
    · exact Ev.const
  data := by
    intro o v dept q room args K S S' hE hS hK
    have hemp : S'.isEmpty = S.isEmpty := by
      cases S <;> cases S' <;> simp_all
    refine Ev.succ (m' := fun k => evalData r' (k + 1) o v dept q room args S') (fun _ => rfl) ?_
    cases o with
    | undefined => simp only [evalData, hemp]; exact Ev.const
    | data isID kind => simp only [evalData, hemp]; exact Ev.const
    | enum idx => simp only [evalData, hemp]; exact Ev.const
    | time => simp only [evalData, hemp]; exact Ev.const
    | array inner =>
      simp only [evalData, hemp, Alias.refrag_env]
      split
      · exact Ev.const
      · refine Ev.bind Ev.const ?_
        intro w
        cases r.env.view w v with
        | seq vs =>
          cases vs with
          | none => exact Ev.const
          | some vs =>
            dsimp only
            cases room with
            | zero => exact Ev.undefined
            | succ room =>
              dsimp only
              exact Ev.bind (Ev.elems (fun i x => ih.data inner x dept _ room args hE hS (fun t h => hK t (.list h))) vs 0) (fun _ => Ev.const)
        | _ => exact Ev.undefined
    | ptr inner =>
      simp only [evalData, hemp, Alias.refrag_env]
      split
      · exact Ev.const
      · refine Ev.bind Ev.const ?_
        intro w
        cases r.env.view w v with
        | ptr x =>
          cases x with
          | none => exact Ev.const
          | some x => exact ih.data inner x dept q room args hE hS (fun t h => hK t (.ptr h))
        | _ => exact Ev.undefined
    | method m out =>
      simp only [evalData, hemp, Alias.refrag_env]
      have hc : Ev (evalCall r q m v (args.getD []) (fun x => evalData r n out x dept q room none S))
          (fun k => evalCall r' q m v (args.getD []) (fun x => evalData r' k out x dept q room none S')) :=
        call_ev r frags' q m v _ (fun x => ih.data out x dept q room none hE hS (fun t h => hK t (.result h)))
      split
      · exact Ev.const
      · split
        · refine Ev.bind Ev.const ?_
          intro w
          cases r.env.view w v with
          | func b =>
            cases b with
            | true => exact Ev.const
            | false => exact hc
          | _ => exact Ev.undefined
        · exact hc
    | objRef typeName =>
      simp only [evalData, hemp, Alias.refrag_schema]
      split
      · exact Ev.const
      · split
        · exact Ev.const
        · cases hl : lookup r.schema.types typeName with
          | none => exact Ev.const
          | some t =>
            dsimp only
            refine Ev.ite Iff.rfl ?_ ?_
            · exact Ev.const
            · exact Ev.bind (ih.sels t v (dept + 1) q room hS (Or.inr (Or.inr ⟨_, hl⟩)) (hK t (.object hl))) (fun _ => Ev.const)
    | interfaceRef typeName =>
      simp only [evalData, hemp, Alias.refrag_schema, Alias.refrag_env]
      split
      · exact Ev.const
      · split
        · exact Ev.const
        · cases hl : lookup r.schema.interfaces typeName with
          | none => exact Ev.const
          | some impls =>
            dsimp only
            refine Ev.bind Ev.const ?_
            intro w
            cases r.env.view w v with
            | iface x =>
              rcases x with _ | ⟨goName, goPkg, x⟩
              · exact Ev.const
              · dsimp only
                cases room with
                | zero => exact Ev.undefined
                | succ room =>
                  dsimp only
                  cases hf : impls.find? (fun i => decide (i.goTypeName = goName ∧ i.goPkgPath = goPkg)) with
                  | none => exact Ev.const
                  | some i =>
                    refine ih.data (.objRef i.typeName) x (dept + 1) q room args hE hS ?_
                    intro t h
                    cases h with
                    | object h => exact hK t (.interface hl (List.mem_of_find?_eq_some hf) h)
            | _ => exact Ev.undefined

theorem allEv : ∀ n, AllEv r frags' n
  | 0 => allEv_zero r frags'
  | n + 1 => allEv_succ r frags' hfr (allEv n)

theorem operation_ev (n : Nat) {o o' : Operation} (hk : o'.kind = o.kind) (hd : o'.dirs = o.dirs) (hs : Flatten r.schema (Root r.schema o) o.sels o'.sels) :
    Ev (evalOperation r n o) (fun k => evalOperation r' k o') := by
  unfold evalOperation
  unfold Root at hs
  rw [hk, hd]
  have kinds : o.kind = .query ∨ o.kind = .mutation ∨ o.kind = .subscription := by cases o.kind <;> simp
  rcases kinds with h | h | h
  · rw [h] at hs ⊢
    dsimp only at hs ⊢
    split
    · exact Ev.const
    · exact Ev.bind ((allEv r frags' hfr n).sels _ _ 0 [] 255 hs (Or.inl rfl) rfl) (fun _ => Ev.const)
  · rw [h] at hs ⊢
    dsimp only at hs ⊢
    split
    · exact Ev.const
    · exact Ev.bind ((allEv r frags' hfr n).sels _ _ 0 [] 255 hs (Or.inr (Or.inl rfl)) rfl) (fun _ => Ev.const)
  · rw [h]
    exact Ev.const

end
end Flat
end Yarql
