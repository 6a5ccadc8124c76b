import Verif.Model.Tracing

/-!
# Tracing statements do not touch the resolver's state
-/

namespace Yarql
namespace Tracing
open Resolver

section
variable {F V W α β : Type}

/-- the same outcome, once the tracer is forgotten -/
def SameUpToTrace : R (TS V W) α → R (RS V W) α → Prop
  | .ok a s, r => r = .ok a s.rs
  | .panic, r => r = .panic
  | .oof, r => r = .oof

def Erases (c : TCfg F V W) (t : TM F V W α) (m : M F V W α) : Prop := ∀ s, SameUpToTrace (t c s) (m c.cfg s.rs)

variable {c : TCfg F V W}

theorem Erases.lift (m : M F V W α) : Erases c (Tracing.lift m) m := by
  intro s
  unfold Tracing.lift
  cases m c.cfg s.rs <;> exact rfl

theorem Erases.pure (a : α) : Erases c (Pure.pure a : TM F V W α) (Pure.pure a) := fun _ => rfl

theorem Erases.bind {t : TM F V W α} {m : M F V W α} {f : α → TM F V W β} {g : α → M F V W β} (h : Erases c t m)
    (hf : ∀ a, Erases c (f a) (g a)) : Erases c (t >>= f) (m >>= g) := by
  intro s
  have h1 := h s
  show SameUpToTrace (TM.bind t f c s) (M.bind m g c.cfg s.rs)
  unfold TM.bind M.bind
  cases ht : t c s with
  | ok a s' =>
    rw [ht] at h1
    rw [show m c.cfg s.rs = .ok a s'.rs from h1]
    exact hf a s'
  | panic => rw [ht] at h1; rw [show m c.cfg s.rs = .panic from h1]; exact rfl
  | oof => rw [ht] at h1; rw [show m c.cfg s.rs = .oof from h1]; exact rfl

theorem Erases.ite {p : Prop} [Decidable p] {t t' : TM F V W α} {m m' : M F V W α} (h : p → Erases c t m) (h' : ¬ p → Erases c t' m') :
    Erases c (if p then t else t') (if p then m else m') := by
  by_cases hp : p
  · rw [if_pos hp, if_pos hp]; exact h hp
  · rw [if_neg hp, if_neg hp]; exact h' hp

/-- a step that only touches the tracer -/
def Silent (c : TCfg F V W) (t : TM F V W α) : Prop := ∀ s, ∃ a s', t c s = .ok a s' ∧ s'.rs = s.rs

theorem Erases.silent {t : TM F V W α} {f : α → TM F V W β} {m : M F V W β} (h : Silent c t) (hf : ∀ a, Erases c (f a) m) :
    Erases c (t >>= f) m := by
  intro s
  obtain ⟨a, s', h1, h2⟩ := h s
  show SameUpToTrace (TM.bind t f c s) _
  unfold TM.bind
  rw [h1, ← h2]
  exact hf a s'

theorem bindT (m : TM F V W α) (f : α → TM F V W β) (c : TCfg F V W) (s : TS V W) :
    (m >>= f) c s = match m c s with | .ok a s' => f a c s' | .panic => .panic | .oof => .oof := rfl

theorem pureT (a : α) (c : TCfg F V W) (s : TS V W) : (Pure.pure a : TM F V W α) c s = .ok a s := rfl

theorem startTrace_run (s : TS V W) : (startTrace : TM F V W Unit) c s =
    .ok () (if c.enabled then { s with reads := s.reads + 1, start := c.clock s.reads } else s) := by
  cases h : c.enabled <;> simp [startTrace, bindT, pureT, isEnabled, now, setStart, h]

/-- what `record` does -/
theorem record_run (p n : Bytes) {o : Obj F} {x : Bytes} (h : c.typeText o = some x) (s : TS V W) :
    (record p n o : TM F V W Unit) c s = .ok () { s with
      reads := s.reads + 1, entries := s.entries ++ [⟨jsonPath s.rs.path, p, n, x, s.start - c.goStart, c.clock s.reads - s.start⟩] } := by
  simp [record, finishTrace, bindT, pureT, getT, now, h, addEntry]

theorem Silent.startTrace : Silent c (Tracing.startTrace : TM F V W Unit) := by
  intro s
  refine ⟨(), _, startTrace_run s, ?_⟩
  split <;> rfl

theorem Silent.record (p n : Bytes) {o : Obj F} (h : c.typeText o ≠ none) : Silent c (Tracing.record p n o : TM F V W Unit) := by
  intro s
  obtain ⟨x, hx⟩ := Option.ne_none_iff_exists'.1 h
  exact ⟨(), _, record_run p n hx s, rfl⟩

/-! ## The resolver -/

theorem elems_erases {t : TM F V W Bool} {m : M F V W Bool} (h : Erases c t m) (at_ : Nat) (vs : List V) :
    ∀ i, Erases c (elemsLoopT t at_ i vs) (elemsLoop m at_ i vs) := by
  induction vs with
  | nil => intro i; exact Erases.pure ()
  | cons v vs ih =>
    intro i
    unfold elemsLoopT elemsLoop
    refine Erases.bind (.lift _) fun _ => Erases.bind (.lift _) fun _ => Erases.bind (.lift _) fun _ => Erases.bind (.lift _) fun _ =>
      Erases.bind h fun _ => ?_
    exact Erases.ite (fun _ => Erases.bind (.lift _) fun _ => Erases.bind (.lift _) fun _ => ih _)
      (fun _ => Erases.bind (.lift _) fun _ => ih _)

theorem after_erases (m : Method F) (outs : List V) {t : V → TM F V W Bool} {k : V → M F V W Bool} (h : ∀ v, Erases c (t v) (k v)) :
    Erases c (afterCallT m outs t) (afterCall m outs k) := by
  unfold afterCallT afterCall
  refine Erases.bind (.lift _) fun cfg => Erases.bind (.lift _) fun s => ?_
  cases cfg.env.ctxErr s.world with
  | some msg => exact Erases.bind (.lift _) fun _ => Erases.bind (.lift _) fun _ => .pure _
  | none =>
    dsimp only
    cases outs[m.outNr]? with
    | none => exact .lift _
    | some v => exact h v

theorem call_erases (m : Method F) (v : V) {t : V → Bool → TM F V W Bool} {k : V → Bool → M F V W Bool}
    (h : ∀ v b, Erases c (t v b) (k v b)) : Erases c (callAndResolveT m v t) (callAndResolve m v k) := by
  unfold callAndResolveT callAndResolve
  refine Erases.bind (.lift _) fun i => Erases.bind (.lift _) fun r => ?_
  cases r with
  | none => exact .pure _
  | some outs =>
    exact Erases.bind (.lift _) fun i => Erases.bind (.lift _) fun _ => after_erases m outs (fun v => h v _)

variable [DecidableEq F]

/-- a type of the schema -/
def KnownType (s : RSchema F V) (t : RType F V) : Prop := t = s.rootQuery ∨ t = s.rootMethod ∨ ∃ n, lookup s.types n = some t

/-- every field of the schema has a printable type -/
def Printable (s : RSchema F V) (typeText : Obj F → Option Bytes) : Prop :=
  ∀ t, KnownType s t → ∀ f ∈ t.fields, typeText f.obj ≠ none

structure ErasesAll (c : TCfg F V W) (n : Nat) : Prop where
  sels : ∀ t dept first, KnownType c.cfg.schema t → Erases c (resolveSelectionSetT n t dept first) (resolveSelectionSet n t dept first)
  spread : ∀ t dept first, KnownType c.cfg.schema t → Erases c (resolveSpreadT n t dept first) (resolveSpread n t dept first)
  field : ∀ t dept comma, KnownType c.cfg.schema t → Erases c (resolveFieldT n t dept comma) (resolveField n t dept comma)
  data : ∀ o dept sub, Erases c (resolveFieldDataValueT n o dept sub) (resolveFieldDataValue n o dept sub)

theorem Erases.bindCfg {f : Cfg F V W → TM F V W α} {g : Cfg F V W → M F V W α} (h : Erases c (f c.cfg) (g c.cfg)) :
    Erases c (Tracing.lift getCfg >>= f) (getCfg >>= g) := fun s => h s

theorem erases_sels {n : Nat} (h : ErasesAll c n) (t : RType F V) (dept : UInt8) (first : Bool) (hk : KnownType c.cfg.schema t) :
    Erases c (resolveSelectionSetT (n + 1) t dept first) (resolveSelectionSet (n + 1) t dept first) := by
  unfold resolveSelectionSetT resolveSelectionSet
  refine Erases.bind (.lift _) fun inst => ?_
  refine Erases.ite (fun _ => .pure _) fun _ => Erases.ite (fun _ => ?_) fun _ => Erases.ite (fun _ => ?_) fun _ => ?_
  · refine Erases.bind (h.field t dept _ hk) fun r => ?_
    exact Erases.ite (fun _ => .pure _) fun _ => h.sels t dept _ hk
  · refine Erases.bind (h.spread t dept _ hk) fun r => ?_
    exact Erases.ite (fun _ => .pure _) fun _ => h.sels t dept _ hk
  · exact Erases.bind (.lift _) fun _ => Erases.bind (.lift _) fun _ => .pure _

theorem erases_spread {n : Nat} (h : ErasesAll c n) (t : RType F V) (dept : UInt8) (first : Bool) (hk : KnownType c.cfg.schema t) :
    Erases c (resolveSpreadT (n + 1) t dept first) (resolveSpread (n + 1) t dept first) := by
  unfold resolveSpreadT resolveSpread
  refine Erases.bind (.lift _) fun inl => Erases.bind (.lift _) fun dc => Erases.bind (.lift _) fun len => Erases.bind (.lift _) fun _ =>
    Erases.bind (.lift _) fun start => Erases.bind (.lift _) fun name => ?_
  refine Erases.bind (.lift _) fun r => ?_
  cases r with
  | none => exact Erases.bind (.lift _) fun _ => .pure _
  | some b =>
    cases b with
    | true => exact Erases.bind (.lift _) fun _ => .pure _
    | false =>
      dsimp only
      refine Erases.ite (fun _ => ?_) fun _ => ?_
      · refine Erases.ite (fun _ => Erases.bind (.lift _) fun _ => .pure _) fun _ => ?_
        exact Erases.bind (h.sels t dept _ hk) fun r => Erases.bind (.lift _) fun _ => .pure _
      · refine Erases.bind (.lift _) fun cfg => ?_
        cases findFragment cfg.res name cfg.frags with
        | none => exact Erases.bind (.lift _) fun _ => .pure _
        | some e =>
          refine Erases.bind (.lift _) fun p => Erases.bind (.lift _) fun _ => Erases.bind (.lift _) fun tn => ?_
          refine Erases.ite (fun _ => Erases.bind (.lift _) fun _ => .pure _) fun _ => ?_
          exact Erases.bind (h.sels t dept _ hk) fun r => Erases.bind (.lift _) fun _ => .pure _

/-- `Erases` from states with a property -/
def ErasesAt (c : TCfg F V W) (P : RS V W → Prop) (t : TM F V W α) (m : M F V W α) : Prop :=
  ∀ s, P s.rs → SameUpToTrace (t c s) (m c.cfg s.rs)

theorem ErasesAt.of {t : TM F V W α} {m : M F V W α} {P : RS V W → Prop} (h : Erases c t m) : ErasesAt c P t m := fun s _ => h s

theorem ErasesAt.bind {t : TM F V W α} {m : M F V W α} {f : α → TM F V W β} {g : α → M F V W β} {P : RS V W → Prop}
    (Q : α → RS V W → Prop) (h : Erases c t m) (hq : ∀ s a s', P s → m c.cfg s = .ok a s' → Q a s')
    (hf : ∀ a, ErasesAt c (Q a) (f a) (g a)) : ErasesAt c P (t >>= f) (m >>= g) := by
  intro s hp
  have h1 := h s
  show SameUpToTrace (TM.bind t f c s) (M.bind m g c.cfg s.rs)
  unfold TM.bind M.bind
  cases ht : t c s with
  | ok a s' =>
    rw [ht] at h1
    have h2 : m c.cfg s.rs = .ok a s'.rs := h1
    rw [h2]
    exact hf a s' (hq _ _ _ hp h2)
  | panic => rw [ht] at h1; rw [show m c.cfg s.rs = .panic from h1]; exact rfl
  | oof => rw [ht] at h1; rw [show m c.cfg s.rs = .oof from h1]; exact rfl

theorem ErasesAt.ite {P : RS V W → Prop} {p : Prop} [Decidable p] {t t' : TM F V W α} {m m' : M F V W α} (h : p → ErasesAt c P t m)
    (h' : ¬ p → ErasesAt c P t' m') : ErasesAt c P (if p then t else t') (if p then m else m') := by
  by_cases hp : p
  · rw [if_pos hp, if_pos hp]; exact h hp
  · rw [if_neg hp, if_neg hp]; exact h' hp

theorem ErasesAt.silent {t : TM F V W α} {f : α → TM F V W β} {m : M F V W β} {P : RS V W → Prop} (h : Silent c t)
    (hf : ∀ a, ErasesAt c P (f a) m) : ErasesAt c P (t >>= f) m := by
  intro s hp
  obtain ⟨a, s', h1, h2⟩ := h s
  show SameUpToTrace (TM.bind t f c s) _
  unfold TM.bind
  rw [h1, ← h2]
  exact hf a s' (by rw [h2]; exact hp)

/-- a step keeps what does not depend on the state -/
theorem keepFact {m : M F V W α} {p : Prop} : ∀ s a s', (fun _ : RS V W => p) s → m c.cfg s = .ok a s' → (fun _ _ => p : α → RS V W → Prop) a s' :=
  fun _ _ _ h _ => h

/-- directives are read behind the name of the field, or there are none -/
theorem resolveDirectives_reads (loc : UInt8) (n : Nat) (cfg : Cfg F V W) (s s' : RS V W) (r : Option Bool)
    (h : resolveDirectives loc n cfg s = .ok r s') : s.charNr < cfg.res.length ∨ s' = s := by
  cases n with
  | zero =>
    unfold resolveDirectives at h
    injection h with h1 h2
    exact .inr h2.symm
  | succ n =>
    refine .inl ?_
    unfold resolveDirectives resolveDirective at h
    have h' : (match cfg.res[s.charNr + 1]? with | some b => True | none => False) := by
      cases hb : cfg.res[s.charNr + 1]? with
      | some b => trivial
      | none =>
        exfalso
        have : (resolveDirective loc : M F V W (Option Bool)) cfg s = .panic := by
          unfold resolveDirective
          show M.bind (skipInst 1) _ cfg s = _
          unfold M.bind skipInst
          dsimp only
          show M.bind readInst _ cfg _ = _
          unfold M.bind readInst
          dsimp only
          rw [hb]
        change M.bind (resolveDirective loc) _ cfg s = _ at h
        unfold M.bind at h
        rw [this] at h
        cases h
    cases hb : cfg.res[s.charNr + 1]? with
    | none => rw [hb] at h'; cases h'
    | some b => have := (List.getElem?_eq_some_iff.1 hb).1; omega

theorem erases_field {n : Nat} (h : ErasesAll c n) (hT : Printable c.cfg.schema c.typeText) (t : RType F V) (dept : UInt8) (comma : Bool)
    (hk : KnownType c.cfg.schema t) : Erases c (resolveFieldT (n + 1) t dept comma) (resolveField (n + 1) t dept comma) := by
  unfold resolveFieldT resolveField
  refine Erases.silent Silent.startTrace fun _ => ?_
  refine Erases.bind (.lift _) fun dc => Erases.bind (.lift _) fun fl => Erases.bind (.lift _) fun _ => Erases.bind (.lift _) fun key =>
    Erases.bind (.lift _) fun _ => Erases.bind (.lift _) fun pos => Erases.bind (.lift _) fun al => Erases.bind (.lift _) fun sa => ?_
  intro s
  refine ErasesAt.bind (P := fun _ => True) (fun _ _ => sa + al.toNat ≤ c.cfg.res.length) (.lift _) ?_ (fun alias => ?_) s trivial
  · intro s a s' _ hs
    unfold sliceRes at hs
    by_cases hb : sa ≤ sa + al.toNat ∧ sa + al.toNat ≤ c.cfg.res.length
    · exact hb.2
    · rw [if_neg hb] at hs; cases hs
  refine ErasesAt.bind _ (.lift _) keepFact fun _ => ErasesAt.bind _ (.lift _) keepFact fun st => ErasesAt.bind _ (.lift _) keepFact fun _ =>
    ErasesAt.bind _ (.lift _) keepFact fun ln => ?_
  refine ErasesAt.bind (fun at_ s => sa + al.toNat ≤ c.cfg.res.length ∧ s.charNr = at_) (.lift _) ?_ fun at_ => ?_
  · intro s a s' hp hs
    injection hs with h1 h2
    exact ⟨hp, by rw [← h2]; exact h1⟩
  refine ErasesAt.bind (fun _ s => sa + al.toNat ≤ c.cfg.res.length ∧ s.charNr = at_ + ln.toNat) (.lift _) ?_ fun _ => ?_
  · intro s a s' hp hs
    injection hs with h1 h2
    exact ⟨hp.1, by rw [← h2]; exact congrArg (· + ln.toNat) hp.2⟩
  refine ErasesAt.bind (fun _ s => sa + al.toNat ≤ c.cfg.res.length ∧ s.charNr = at_ + ln.toNat + 1) (.lift _) ?_ fun _ => ?_
  · intro s a s' hp hs
    injection hs with h1 h2
    exact ⟨hp.1, by rw [← h2]; exact congrArg (· + 1) hp.2⟩
  -- the name is inside the bytecode, or nothing has been read since
  refine ErasesAt.bind (fun _ s => sa + al.toNat ≤ c.cfg.res.length ∧ (at_ + ln.toNat ≤ c.cfg.res.length ∨ s.charNr = at_ + ln.toNat + 1))
    (.lift _) ?_ fun r => ?_
  · intro s a s' hp hs
    refine ⟨hp.1, ?_⟩
    rcases resolveDirectives_reads _ _ _ _ _ _ hs with h1 | rfl
    · exact .inl (by omega)
    · exact .inr hp.2
  cases r with
  | none => exact .of (Erases.bind (.lift _) fun _ => Erases.bind (.lift _) fun _ => .pure _)
  | some b =>
    cases b with
    | true => exact .of (Erases.bind (.lift _) fun _ => Erases.bind (.lift _) fun _ => .pure _)
    | false =>
      have hw : ∀ (b : Bytes) (s : RS V W) (a : Unit) (s' : RS V W), (sa + al.toNat ≤ c.cfg.res.length ∧
          (at_ + ln.toNat ≤ c.cfg.res.length ∨ s.charNr = at_ + ln.toNat + 1)) → (write b : M F V W Unit) c.cfg s = .ok a s' →
          sa + al.toNat ≤ c.cfg.res.length ∧ (at_ + ln.toNat ≤ c.cfg.res.length ∨ s'.charNr = at_ + ln.toNat + 1) := by
        intro b s a s' hp hs
        injection hs with h1 h2
        rw [← h2]
        exact hp
      have hrest : ErasesAt c (fun s => sa + al.toNat ≤ c.cfg.res.length ∧
          (at_ + ln.toNat ≤ c.cfg.res.length ∨ s.charNr = at_ + ln.toNat + 1))
        (do
          lift (writeQuoted alias)
          lift (write [c%':'])
          let sel ← lift seekInst
          let fieldHasSelection := sel != c%'e'
          let criticalErr ← do
            match t.fields.find? (fun f => f.key.toNat = key) with
            | none =>
              let name ← lift (sliceRes (if ln = 0 then sa else at_) (if ln = 0 then sa + al.toNat else at_ + ln.toNat))
              if name = b%"__typename" then
                if fieldHasSelection then
                  lift (err b%"cannot have a selection set on this field")
                  pure true
                else
                  lift (writeQuoted t.typeName)
                  pure false
              else
                lift writeNull
                lift (err (name ++ b%" does not exists on " ++ t.typeName))
                pure true
            | some f =>
              let goValue ← lift getGoValue
              let v ← lift (fieldValue goValue f)
              lift (setNextGoValue v)
              let crit ← resolveFieldDataValueT n f.obj dept fieldHasSelection
              lift decIdx
              if ← isEnabled then
                let name ← lift (sliceRes (if ln = 0 then sa else at_) (if ln = 0 then sa + al.toNat else at_ + ln.toNat))
                record t.typeName name f.obj
                pure crit
              else pure crit
          lift (setPath st.path)
          lift (setPos (pos + fl + 1))
          return (false, criticalErr))
        (do
          writeQuoted alias
          write [c%':']
          let fieldHasSelection := (← seekInst) != c%'e'
          let criticalErr ← do
            match t.fields.find? (fun f => f.key.toNat = key) with
            | none =>
              let name ← sliceRes (if ln = 0 then sa else at_) (if ln = 0 then sa + al.toNat else at_ + ln.toNat)
              if name = b%"__typename" then
                if fieldHasSelection then
                  err b%"cannot have a selection set on this field"
                  pure true
                else
                  writeQuoted t.typeName
                  pure false
              else
                writeNull
                err (name ++ b%" does not exists on " ++ t.typeName)
                pure true
            | some f =>
              let goValue ← getGoValue
              let v ← fieldValue goValue f
              setNextGoValue v
              let crit ← resolveFieldDataValue n f.obj dept fieldHasSelection
              decIdx
              pure crit
          setPath st.path
          setPos (pos + fl + 1)
          return (false, criticalErr)) := by
        refine ErasesAt.bind _ (.lift _) (hw _) fun _ => ErasesAt.bind _ (.lift _) (hw _) fun _ => ?_
        refine ErasesAt.bind (fun _ _ => sa + al.toNat ≤ c.cfg.res.length ∧ at_ + ln.toNat ≤ c.cfg.res.length) (.lift _) ?_ fun sel => ?_
        · intro s a s' hp hs
          refine ⟨hp.1, hp.2.elim id fun h1 => ?_⟩
          unfold seekInst at hs
          cases hb : c.cfg.res[s.charNr]? with
          | none => rw [hb] at hs; cases hs
          | some b => have := (List.getElem?_eq_some_iff.1 hb).1; omega
        intro s hs
        have hend : ∀ b : Bool, Erases c (do
            lift (setPath st.path)
            lift (setPos (pos + fl + 1))
            return (false, b)) (do
            setPath st.path
            setPos (pos + fl + 1)
            return (false, b)) := fun b => Erases.bind (.lift _) fun _ => Erases.bind (.lift _) fun _ => .pure _
        refine (?_ : Erases c _ _) s
        dsimp only
        cases hf : t.fields.find? (fun f => f.key.toNat = key) with
        | none =>
          dsimp only
          refine Erases.bind (.lift _) fun name => Erases.ite (fun _ => Erases.ite (fun _ => ?_) fun _ => ?_) fun _ => ?_
          · exact Erases.bind (.lift _) fun _ => hend _
          · exact Erases.bind (.lift _) fun _ => hend _
          · exact Erases.bind (.lift _) fun _ => Erases.bind (.lift _) fun _ => hend _
        | some f =>
          dsimp only
          refine Erases.bind (.lift _) fun gv => Erases.bind (.lift _) fun v => Erases.bind (.lift _) fun _ => Erases.bind (h.data _ _ _) fun crit => ?_
          refine Erases.bind (.lift _) fun _ => ?_
          refine Erases.silent (fun s => ⟨c.enabled, s, rfl, rfl⟩) fun b => ?_
          cases b with
          | false => exact hend _
          | true =>
            have hsl : ∀ x y, x ≤ y → y ≤ c.cfg.res.length → Silent c (lift (sliceRes x y) : TM F V W Bytes) := by
              intro x y h1 h2 s
              exact ⟨_, s, by unfold lift sliceRes; rw [if_pos ⟨h1, h2⟩], rfl⟩
            refine Erases.silent (hsl _ _ ?_ ?_) fun name => ?_
            · split <;> omega
            · split
              · exact hs.1
              · exact hs.2
            exact Erases.silent (Silent.record _ _ (hT t hk f (List.mem_of_find?_eq_some hf))) fun _ => hend _
      exact ErasesAt.ite (fun _ => ErasesAt.bind _ (.lift _) (hw _) fun _ => hrest) fun _ => hrest

theorem erases_data {n : Nat} (h : ErasesAll c n) (o : Obj F) (dept : UInt8) (sub : Bool) :
    Erases c (resolveFieldDataValueT (n + 1) o dept sub) (resolveFieldDataValue (n + 1) o dept sub) := by
  have two : ∀ (a b : M F V W Unit) (x : Bool), Erases c (do lift a; lift b; return x) (do a; b; return x) := fun a b x =>
    Erases.bind (.lift _) fun _ => Erases.bind (.lift _) fun _ => .pure _
  have one : ∀ (a : M F V W Unit) (x : Bool), Erases c (do lift a; return x) (do a; return x) := fun a x =>
    Erases.bind (.lift _) fun _ => .pure _
  unfold resolveFieldDataValueT resolveFieldDataValue
  refine Erases.bindCfg ?_
  refine Erases.bind (.lift _) fun gv => Erases.bind (.lift _) fun inst => Erases.ite (fun _ => two _ _ _) fun _ => ?_
  cases o with
  | undefined => exact one _ _
  | array inner =>
    refine Erases.bind (.lift _) fun v => ?_
    cases v with
    | seq vs =>
      cases vs with
      | none => exact one _ _
      | some vs =>
        exact Erases.bind (.lift _) fun _ => Erases.bind (.lift _) fun _ => Erases.bind (.lift _) fun at_ =>
          Erases.bind (elems_erases (h.data _ _ _) at_ vs 0) fun _ => two _ _ _
    | _ => exact .lift _
  | objRef tn =>
    refine Erases.ite (fun _ => two _ _ _) fun _ => ?_
    dsimp only
    cases hl : lookup c.cfg.schema.types tn with
    | none => exact one _ _
    | some t =>
      refine Erases.ite (fun _ => two _ _ _) fun _ => ?_
      exact Erases.bind (.lift _) fun _ => Erases.bind (h.sels t _ _ (.inr (.inr ⟨tn, hl⟩))) fun r => one _ _
  | data isID k =>
    refine Erases.ite (fun _ => two _ _ _) fun _ => Erases.bind (.lift _) fun v => ?_
    cases v with
    | scalar x =>
      dsimp only
      cases dataText c.cfg.env isID k x with
      | none => exact .lift _
      | some t => exact one _ _
    | _ => exact .lift _
  | ptr inner =>
    refine Erases.bind (.lift _) fun v => ?_
    cases v with
    | ptr p =>
      cases p with
      | none => exact one _ _
      | some v => exact Erases.bind (.lift _) fun _ => h.data _ _ _
    | _ => exact .lift _
  | method m out =>
    refine Erases.bind (.lift _) fun b => Erases.ite (fun _ => one _ _) fun _ => ?_
    exact call_erases m gv fun v b => Erases.bind (.lift _) fun _ => h.data _ _ _
  | enum idx =>
    dsimp only
    cases c.cfg.schema.enums[idx]? with
    | none => exact .lift _
    | some e =>
      refine Erases.bind (.lift _) fun v => ?_
      cases v with
      | scalar x =>
        dsimp only
        cases enumKey e x with
        | none => exact .lift _
        | some k =>
          cases k with
          | none => exact one _ _
          | some key => exact one _ _
      | _ => exact .lift _
  | time =>
    refine Erases.bind (.lift _) fun v => ?_
    cases v <;> exact one _ _
  | interfaceRef tn =>
    refine Erases.ite (fun _ => two _ _ _) fun _ => ?_
    cases lookup c.cfg.schema.interfaces tn with
    | none => exact one _ _
    | some impls =>
      refine Erases.bind (.lift _) fun v => ?_
      cases v with
      | iface x =>
        rcases x with _ | ⟨gn, gp, v⟩
        · exact one _ _
        · refine Erases.bind (.lift _) fun _ => ?_
          cases impls.find? (fun i => i.goTypeName = gn ∧ i.goPkgPath = gp) with
          | none => exact two _ _ _
          | some i => exact Erases.bind (h.data _ _ _) fun crit => one _ _
      | _ => exact .lift _

theorem erases_all (hT : Printable c.cfg.schema c.typeText) : ∀ n, ErasesAll c n
  | 0 => by
    refine ⟨fun t dept first _ => ?_, fun t dept first _ => ?_, fun t dept first _ => ?_, fun o dept sub => ?_⟩
    · unfold resolveSelectionSetT resolveSelectionSet; exact .lift _
    · unfold resolveSpreadT resolveSpread; exact .lift _
    · unfold resolveFieldT resolveField; exact .lift _
    · unfold resolveFieldDataValueT resolveFieldDataValue; exact .lift _
  | n + 1 => by
    have h := erases_all hT n
    exact ⟨erases_sels h, erases_spread h, erases_field h hT, erases_data h⟩

theorem erases_operation (hT : Printable c.cfg.schema c.typeText) (fuel : Nat) :
    Erases c (resolveOperationT fuel) (resolveOperation fuel) := by
  unfold resolveOperationT resolveOperation
  refine Erases.bindCfg (Erases.bind (.lift _) fun _ => Erases.bind (.lift _) fun kind => ?_)
  have hroot : Erases c (do
      let (criticalErr, _) ← resolveSelectionSetT fuel (if kind == c%'m' then c.cfg.schema.rootMethod else c.cfg.schema.rootQuery) 0 true
      return criticalErr) (do
      let (criticalErr, _) ← resolveSelectionSet fuel (if kind == c%'m' then c.cfg.schema.rootMethod else c.cfg.schema.rootQuery) 0 true
      return criticalErr) := by
    refine Erases.bind ((erases_all hT fuel).sels _ 0 true ?_) (fun r => .pure _)
    split
    · exact .inr (.inl rfl)
    · exact .inl rfl
  have hargs : Erases c (do
      let argsByte ← lift readInst
      let hasArgs := argsByte == c%'t'
      lift (setArgs hasArgs 0)
      let directivesCount ← lift readInst
      if directivesCount > 0 then
        lift (err b%"operation directives unsupported")
        return true
      let _ ← lift readToNul
      if hasArgs then
        let argumentsLen ← lift readUint32M
        let pos ← lift getPos
        lift (setArgs true (pos + 5))
        lift (skipInst (argumentsLen + 5))
      let root := if kind == c%'m' then c.cfg.schema.rootMethod else c.cfg.schema.rootQuery
      let (criticalErr, _) ← resolveSelectionSetT fuel root 0 true
      return criticalErr) (do
      let hasArgs := (← readInst) == c%'t'
      setArgs hasArgs 0
      let directivesCount ← readInst
      if directivesCount > 0 then
        err b%"operation directives unsupported"
        return true
      let _ ← readToNul
      if hasArgs then
        let argumentsLen ← readUint32M
        setArgs true ((← getPos) + 5)
        skipInst (argumentsLen + 5)
      let root := if kind == c%'m' then c.cfg.schema.rootMethod else c.cfg.schema.rootQuery
      let (criticalErr, _) ← resolveSelectionSet fuel root 0 true
      return criticalErr) := by
    refine Erases.bind (.lift _) fun a => Erases.bind (.lift _) fun _ => Erases.bind (.lift _) fun d => ?_
    refine Erases.ite (fun _ => Erases.bind (.lift _) fun _ => .pure _) fun _ => Erases.bind (.lift _) fun _ => ?_
    exact Erases.ite (fun _ => Erases.bind (.lift _) fun _ => Erases.bind (.lift _) fun _ => Erases.bind (.lift _) fun _ =>
      Erases.bind (.lift _) fun _ => hroot) fun _ => hroot
  refine Erases.ite (fun _ => Erases.bind (.lift _) fun _ => .pure _) fun _ => ?_
  have hm : Erases c _ _ := Erases.ite (p := (kind == c%'m') = true) (fun _ => Erases.bind (.lift (setRoot c.cfg.schema.rootMethodValue)) fun _ => hargs) fun _ => hargs
  exact Erases.ite (fun _ => Erases.bind (.lift (setRoot _)) fun _ => hm) fun _ => hm

end
end Tracing
end Yarql
