import Verif.Proofs.Blame
import Verif.Spec.Fault

/-! # An evaluation only stops at an error that is the fault of the request -/

namespace Yarql
namespace Eval
open Doc Resolver Yarql.Bind Binding Blame Fault

section
variable {F V W α β : Type}

/-- errors are only added, and if the result is critical the last of them satisfies `P` -/
def Halts (P : Bytes × List Seg → Prop) (m : E W α) (c : α → Prop) : Prop :=
  ∀ es a es', m es = some (a, es') → ∃ new, es'.errs = es.errs ++ new ∧ (c a → ∃ before e, new = before ++ [e] ∧ P e)

variable {P : Bytes × List Seg → Prop}

theorem Halts.mono {Q : Bytes × List Seg → Prop} {m : E W α} {c c' : α → Prop} (h : Halts Q m c) (hq : ∀ e, Q e → P e)
    (hc : ∀ a, c' a → c a) : Halts P m c' := by
  intro es a es' hm
  obtain ⟨new, h1, h2⟩ := h es a es' hm
  refine ⟨new, h1, fun ha => ?_⟩
  obtain ⟨b, e, h3, h4⟩ := h2 (hc a ha)
  exact ⟨b, e, h3, hq e h4⟩

theorem Halts.pure {a : α} {c : α → Prop} (h : ¬ c a) : Halts (W := W) P (Pure.pure a) c := by
  intro es b es' hm
  have e := E_pure.1 hm
  cases e
  exact ⟨[], by simp, fun h' => absurd h' h⟩

theorem Halts.undefined {c : α → Prop} : Halts (W := W) P (undefinedE (α := α)) c := by
  intro es b es' hm
  cases hm

theorem Halts.grow {Q : Bytes × List Seg → Prop} {m : E W α} (h : Blamed Q m) : Halts P m (fun _ => False) := by
  intro es a es' hm
  obtain ⟨new, h1, -⟩ := h es a es' hm
  exact ⟨new, h1, fun h => h.elim⟩

theorem Halts.bind {m : E W α} {f : α → E W β} {c : α → Prop} {c' : β → Prop} (hm : Halts P m c)
    (hf : ∀ a, (c a ∧ ∃ b, f a = Pure.pure b) ∨ Halts P (f a) c') : Halts P (m >>= f) c' := by
  intro es b es' h
  obtain ⟨a, es1, h1, h2⟩ := E_bind.1 h
  obtain ⟨n1, k1, k2⟩ := hm es a es1 h1
  rcases hf a with ⟨hc, x, hx⟩ | hf
  · rw [hx] at h2
    have e := E_pure.1 h2
    cases e
    exact ⟨n1, k1, fun _ => k2 hc⟩
  · obtain ⟨n2, l1, l2⟩ := hf es1 b es' h2
    refine ⟨n1 ++ n2, by rw [l1, k1, List.append_assoc], fun hb => ?_⟩
    obtain ⟨before, e, h3, h4⟩ := l2 hb
    exact ⟨n1 ++ before, e, by rw [h3, List.append_assoc], h4⟩

/-- the first part is not critical -/
theorem Halts.bindQ {Q : Bytes × List Seg → Prop} {m : E W α} {f : α → E W β} {c' : β → Prop} (hm : Blamed Q m)
    (hf : ∀ a, Halts P (f a) c') : Halts P (m >>= f) c' := (Halts.grow hm).bind (fun a => Or.inr (hf a))

theorem Halts.reportThen {path : List Seg} {msg : Bytes} {b : β} {c : β → Prop} (h : P (msg, path)) :
    Halts (W := W) P (Eval.report path msg >>= fun _ => Pure.pure b) c := by
  intro es a es' hm
  obtain ⟨u, es1, h1, h2⟩ := E_bind.1 hm
  have e1 : Option.some ((), ({ es with errs := es.errs ++ [(msg, path)] } : ES W)) = Option.some (u, es1) := h1
  cases e1
  have e := E_pure.1 h2
  cases e
  exact ⟨_, rfl, fun _ => ⟨[], _, rfl, h⟩⟩

variable (r : Req F V W)

theorem callWith_halts (path : List Seg) (m : Method F) (fn : V) (args : List (Bytes × Value))
    (h : args ≠ [] → Unbound (ctxOf r) m args → ∀ msg, P (msg, path)) : Halts P (callWith r path m fn args) (fun a => a = none) := by
  intro es a es' hm
  obtain ⟨new, h1, h2⟩ := callWith_run r (w := es.world) path m fn args es a es' rfl hm
  refine ⟨new, h1, fun ha => ?_⟩
  subst ha
  obtain ⟨-, msg, rfl⟩ := h2
  obtain ⟨k1, k2⟩ := callWith_unbound r path m fn args hm
  exact ⟨[], _, rfl, h k1 k2 msg⟩

theorem evalDirectives_halts (path : List Seg) (loc : UInt8) (all ds : List Directive) (hs : ∀ d ∈ ds, d ∈ all) :
    Halts (fun e => e.2 = path ∧ BadDirective (ctxOf r) loc all e.1) (evalDirectives r path loc ds) (fun a => a = none) := by
  induction ds with
  | nil => unfold evalDirectives; exact .pure (by simp)
  | cons d ds ih =>
    unfold evalDirectives
    refine Halts.bind (c := fun a => a = none) ?_ ?_
    · unfold evalDirective
      cases hb : (lookup r.schema.directives loc).bind (fun ds => ds.find? (fun x => decide (x.name = d.name))) with
      | none =>
        dsimp only
        unfold fail
        refine Halts.reportThen ⟨rfl, .unknown (hs d (by simp)) ?_⟩
        intro table ht x hx hn
        have ht : lookup r.schema.directives loc = some table := ht
        rw [ht] at hb
        have := List.find?_eq_none.1 hb x hx
        simp [hn] at this
      | some x =>
        obtain ⟨table, ht, hx⟩ := Option.bind_eq_some_iff.1 hb
        dsimp only
        refine Halts.bind (callWith_halts r path x.method x.func _ ?_) ?_
        · intro _ hu msg
          exact ⟨rfl, .arguments (hs d (by simp)) ht hx hu⟩
        · intro a
          cases a with
          | none => exact Or.inl ⟨rfl, _, rfl⟩
          | some outs =>
            refine Or.inr ?_
            dsimp only
            cases outs[0]? with
            | none => exact .undefined
            | some o => exact Halts.bindQ (Q := fun _ => True) .getWorld (fun _ => .pure (by simp))
    · intro a
      match a with
      | none => exact Or.inl ⟨rfl, _, rfl⟩
      | some true => exact Or.inr (.pure (by simp))
      | some false => exact Or.inr (ih (fun d hd => hs d (List.mem_cons_of_mem _ hd)))

/-- a call: only refused arguments, and what comes after, can be critical -/
theorem evalCall_halts (path : List Seg) (m : Method F) (fn : V) (args : List (Bytes × Value)) (next : V → E W (Out × Bool))
    (hnext : ∀ v, Halts P (next v) (fun a => a.2 = true))
    (hunb : args ≠ [] → Unbound (ctxOf r) m args → ∀ msg, P (msg, path)) :
    Halts P (evalCall r path m fn args next) (fun a => a.2 = true) := by
  unfold evalCall
  refine Halts.bind (callWith_halts r path m fn args hunb) ?_
  intro a
  cases a with
  | none => exact Or.inl ⟨rfl, _, rfl⟩
  | some outs =>
    refine Or.inr ?_
    have hres : Halts P (evalResult r path m outs next) (fun a => a.2 = true) := by
      unfold evalResult
      refine Halts.bindQ (Q := fun _ => True) .getWorld (fun w => ?_)
      cases r.env.ctxErr w with
      | some msg => exact Halts.bindQ (Q := fun _ => True) (.report trivial) (fun _ => .pure (by simp))
      | none =>
        dsimp only
        cases outs[m.outNr]? with
        | none => exact .undefined
        | some x => exact hnext x
    dsimp only
    cases m.errorOutNr with
    | none => exact hres
    | some nr =>
      dsimp only
      cases outs[nr]? with
      | none => exact .undefined
      | some e =>
        dsimp only
        refine Halts.bindQ (Q := fun _ => True) .getWorld (fun w => ?_)
        cases r.env.errOf w e with
        | none => exact hres
        | some msg => exact Halts.bindQ (Q := fun _ => True) (.report trivial) (fun _ => hres)

/-! ## The evaluation functions -/

/-- the error, at `path` and below, is the fault of one of the selections -/
def FaultP (t : RType F V) (l : UInt8) (path : List Seg) (sels : List Sel) (e : Bytes × List Seg) : Prop :=
  ∃ p t' l' sel, e.2 = path ++ p ∧ Fault.Leads (ctxOf r) t l sels p t' l' sel ∧ Fault.Fault (ctxOf r) t' l' sel e.1

theorem FaultP.mem {t : RType F V} {l : UInt8} {path : List Seg} {sels sels' : List Sel} {e : Bytes × List Seg} (hs : ∀ s ∈ sels, s ∈ sels') (h : FaultP r t l path sels e) :
    FaultP r t l path sels' e := by
  obtain ⟨p, t', l', s, h1, h2, h3⟩ := h
  refine ⟨p, t', l', s, h1, ?_, h3⟩
  cases h2 with
  | field h => exact .field (hs _ h)
  | spread h => exact .spread (hs _ h)
  | inline h => exact .inline (hs _ h)
  | underField h k1 k2 h' => exact .underField (hs _ h) k1 k2 h'
  | underSpread h h1 h2 h4 h' => exact .underSpread (hs _ h) h1 h2 h4 h'
  | underInline h h' => exact .underInline (hs _ h) h'

theorem reaches_trans {a b c : Obj F} (h : Reaches a b) (h' : Reaches b c) : Reaches a c := by
  induction h with
  | refl => exact h'
  | ptr _ ih => exact .ptr (ih h')
  | method _ ih => exact .method (ih h')

theorem takesArgs_of_reaches {o : Obj F} {m : Method F} {out : Obj F} (h : Reaches o (.method m out)) : takesArgs o = true := by
  generalize ho : Obj.method m out = o' at h
  induction h with
  | refl => subst ho; rfl
  | ptr _ ih => exact ih ho
  | method _ _ => rfl

variable [DecidableEq F]

/-- the object is the value of an interface -/
def ViaInterface (r : Req F V W) (o o' : Obj F) (lev dept : UInt8) : Prop :=
  ∃ k impls i, o' = .objRef i.typeName ∧ Reaches o (.interfaceRef k) ∧ lookup r.schema.interfaces k = some impls ∧ i ∈ impls ∧ dept = lev + 1

structure AllHalt (r : Req F V W) (n : Nat) : Prop where
  sels : ∀ t v dept path room sels, Halts (FaultP r t dept path sels) (evalSels r n t v dept path room sels) (fun a => a.2 = true)
  spread : ∀ t v dept path room name dirs,
    Halts (FaultP r t dept path [.spread name dirs]) (evalSpread r n t v dept path room name dirs) (fun a => a.2 = true)
  inline : ∀ t v dept path room ty dirs sels,
    Halts (FaultP r t dept path [.inline ty dirs sels]) (evalInline r n t v dept path room ty dirs sels) (fun a => a.2 = true)
  field : ∀ t v dept path room key name dirs args sels,
    Halts (FaultP r t dept path [.field key name dirs args sels]) (evalField r n t v dept path room key (name.getD key) dirs args sels) (fun a => a.2 = true)
  data : ∀ t f o v lev dept path room key name dirs args args' sels, Names t (name.getD key) f →
    ((args' = args ∧ takesArgs o = takesArgs f.obj) ∨ args' = none) →
    ((Reaches f.obj o ∧ lev = dept) ∨ ViaInterface r f.obj o lev dept) →
    Halts (FaultP r t lev path [.field key name dirs args sels]) (evalData r n o v dept (path ++ [.key key]) room args' sels) (fun a => a.2 = true)

theorem allHalt (n : Nat) : AllHalt r n := by
  induction n with
  | zero =>
    constructor
    · intros; simp only [evalSels]; exact .undefined
    · intros; simp only [evalSpread]; exact .undefined
    · intros; simp only [evalInline]; exact .undefined
    · intros; simp only [evalField]; exact .undefined
    · intros; unfold evalData; exact .undefined
  | succ n ih =>
    constructor
    · -- selections
      intro t v dept path room sels
      have one : ∀ sel rest e, FaultP r t dept path [sel] e → FaultP r t dept path (sel :: rest) e :=
        fun sel rest e h => h.mem r (by simp)
      have tail : ∀ (p : List (Bytes × Out) × Bool) (sel : Sel) (rest : List Sel), (p.2 = true ∧ ∃ b, (do
          if p.2 then return (p.1, true)
          let (ms', crit) ← evalSels r n t v dept path room rest
          return (p.1 ++ ms', crit) : E W (List (Bytes × Out) × Bool)) = Pure.pure b) ∨ Halts (FaultP r t dept path (sel :: rest)) (do
          if p.2 then return (p.1, true)
          let (ms', crit) ← evalSels r n t v dept path room rest
          return (p.1 ++ ms', crit) : E W (List (Bytes × Out) × Bool)) (fun a => a.2 = true) := by
        intro p sel rest
        by_cases hc : p.2 = true
        · rw [if_pos hc]; exact Or.inl ⟨hc, _, rfl⟩
        · rw [if_neg hc]
          refine Or.inr (Halts.bind ((ih.sels t v dept path room rest).mono (fun e h => h.mem r (fun s hs => List.mem_cons_of_mem _ hs)) (fun _ h => h)) ?_)
          rintro ⟨ms, c⟩
          cases c with
          | true => exact Or.inl ⟨rfl, _, rfl⟩
          | false => exact Or.inr (.pure (by simp))
      match sels with
      | [] => simp only [evalSels]; exact .pure (by simp)
      | .field key name dirs args sub :: rest =>
        simp only [evalSels]
        refine Halts.bind ((ih.field t v dept path room key name dirs args sub).mono (one _ rest) (fun _ h => h)) ?_
        rintro ⟨m, c⟩
        exact tail (m.toList, c) _ rest
      | .spread name dirs :: rest =>
        simp only [evalSels]
        refine Halts.bind ((ih.spread t v dept path room name dirs).mono (one _ rest) (fun _ h => h)) ?_
        rintro ⟨m, c⟩
        exact tail (m, c) _ rest
      | .inline ty dirs sub :: rest =>
        simp only [evalSels]
        refine Halts.bind ((ih.inline t v dept path room ty dirs sub).mono (one _ rest) (fun _ h => h)) ?_
        rintro ⟨m, c⟩
        exact tail (m, c) _ rest
    · -- spreads
      intro t v dept path room name dirs
      simp only [evalSpread]
      refine Halts.bind ((evalDirectives_halts r path 1 dirs dirs (fun _ h => h)).mono ?_ (fun _ h => h)) ?_
      · rintro ⟨msg, p⟩ ⟨rfl, h⟩
        exact ⟨[], _, _, _, by simp, .spread (List.mem_singleton.2 rfl), .spreadDirective h⟩
      · intro a
        match a with
        | none => exact Or.inl ⟨rfl, _, rfl⟩
        | some true => exact Or.inr (.pure (by simp))
        | some false =>
          refine Or.inr ?_
          dsimp only
          cases hf : r.frags.find? (fun f => decide (f.name = name)) with
          | none =>
            refine Halts.reportThen ⟨[], _, _, _, by simp, .spread (List.mem_singleton.2 rfl), .unknownFragment ?_⟩
            intro f hm hn
            have := List.find?_eq_none.1 hf f hm
            simp [hn] at this
          | some f =>
            dsimp only
            by_cases h : t.typeName = f.typeName
            · rw [if_pos h]
              refine (ih.sels t v dept path room f.sels).mono ?_ (fun _ h => h)
              rintro e ⟨p, t', l', s, h1, h2, h3⟩
              exact ⟨p, t', l', s, h1, .underSpread (List.mem_singleton.2 rfl) (List.mem_of_find?_eq_some hf) (by simpa using List.find?_some hf) h.symm h2, h3⟩
            · rw [if_neg h]; exact .pure (by simp)
    · -- inline fragments
      intro t v dept path room ty dirs sels
      simp only [evalInline]
      refine Halts.bind ((evalDirectives_halts r path 2 dirs dirs (fun _ h => h)).mono ?_ (fun _ h => h)) ?_
      · rintro ⟨msg, p⟩ ⟨rfl, h⟩
        exact ⟨[], _, _, _, by simp, .inline (List.mem_singleton.2 rfl), .inlineDirective h⟩
      · intro a
        match a with
        | none => exact Or.inl ⟨rfl, _, rfl⟩
        | some true => exact Or.inr (.pure (by simp))
        | some false =>
          refine Or.inr ?_
          dsimp only
          by_cases h : t.typeName = ty
          · rw [if_pos h]
            refine (ih.sels t v dept path room sels).mono ?_ (fun _ h => h)
            rintro e ⟨p, t', l', s, h1, h2, h3⟩
            exact ⟨p, t', l', s, h1, .underInline (by rw [h]; exact List.mem_singleton.2 rfl) h2, h3⟩
          · rw [if_neg h]; exact .pure (by simp)
    · -- fields
      intro t v dept path room key name dirs args sels
      have here : ∀ msg, Fault.Fault (ctxOf r) t dept (.field key name dirs args sels) msg →
          FaultP r t dept path [.field key name dirs args sels] (msg, path ++ [.key key]) := by
        intro msg h
        exact ⟨[.key key], _, _, _, rfl, .field (List.mem_singleton.2 rfl), h⟩
      simp only [evalField]
      refine Halts.bind ((evalDirectives_halts r _ 0 dirs dirs (fun _ h => h)).mono ?_ (fun _ h => h)) ?_
      · rintro ⟨msg, p⟩ ⟨rfl, h⟩
        exact here _ (.fieldDirective h)
      · intro a
        match a with
        | none => exact Or.inl ⟨rfl, _, rfl⟩
        | some true => exact Or.inr (.pure (by simp))
        | some false =>
          refine Or.inr ?_
          dsimp only
          cases hf : t.fields.find? (fun f => decide (f.key = fnv1 (name.getD key))) with
          | none =>
            dsimp only
            by_cases h1 : name.getD key = b%"__typename"
            · rw [if_pos h1]
              by_cases h2 : (args.isSome || !sels.isEmpty) = true
              · rw [if_pos h2]
                refine Halts.reportThen (here _ (.typename h1 ?_))
                rcases Bool.or_eq_true_iff.1 h2 with h | h
                · exact Or.inl (by cases args <;> simp_all)
                · exact Or.inr (by cases sels <;> simp_all)
              · rw [if_neg h2]; exact .pure (by simp)
            · rw [if_neg h1]
              refine Halts.reportThen (here _ (.unknownField ?_ h1))
              intro f hm hk
              have := List.find?_eq_none.1 hf f hm
              simp [hk] at this
          | some f =>
            cases room with
            | zero => exact .undefined
            | succ room =>
              dsimp only
              refine Halts.bindQ (valueOfField_blamed r (P := fun _ => True) v f) ?_
              intro x
              refine Halts.bind (ih.data t f f.obj x dept dept path room key name dirs args args sels hf (Or.inl ⟨rfl, rfl⟩) (Or.inl ⟨.refl, rfl⟩)) ?_
              rintro ⟨o, c⟩
              cases c with
              | true => exact Or.inl ⟨rfl, _, rfl⟩
              | false => exact Or.inr (.pure (by simp))
    · -- values
      intro t f o v lev dept path room key name dirs args args' sels hres hargs hreach
      have here : ∀ msg, Fault.Fault (ctxOf r) t lev (.field key name dirs args sels) msg →
          FaultP r t lev path [.field key name dirs args sels] (msg, path ++ [.key key]) := by
        intro msg h
        exact ⟨[.key key], _, _, _, rfl, .field (List.mem_singleton.2 rfl), h⟩
      have hsome : args'.isSome = true → args' = args ∧ takesArgs o = takesArgs f.obj := by
        rcases hargs with h | rfl
        · exact fun _ => h
        · intro h; cases h
      unfold evalData
      dsimp only
      by_cases ha : (args'.isSome && !takesArgs o) = true
      · rw [if_pos ha]
        obtain ⟨h0, h0'⟩ := Bool.and_eq_true_iff.1 ha
        obtain ⟨rfl, h2⟩ := hsome h0
        refine Halts.reportThen (here _ ?_)
        cases args' with
        | none => cases h0
        | some args =>
          refine .arguments hres (fun m out h => ?_)
          rw [h2, takesArgs_of_reaches h] at h0'
          cases h0'
      · rw [if_neg ha]
        have hcomp : (∃ k, o = .objRef k ∨ o = .interfaceRef k) → Composite f.obj := by
          rintro ⟨k, hk⟩
          rcases hreach with ⟨h, -⟩ | ⟨k', -, -, -, h, -⟩
          · rcases hk with rfl | rfl
            · exact ⟨k, Or.inl h⟩
            · exact ⟨k, Or.inr h⟩
          · exact ⟨k', Or.inr h⟩
        have hsel : (∃ k, o = .objRef k ∨ o = .interfaceRef k) → (!(args'.isSome || !sels.isEmpty)) = true →
            Fault.Fault (ctxOf r) t lev (.field key name dirs args sels) b%"must have a selection" := by
          intro ho h
          cases sels with
          | nil => exact .noSelection hres (hcomp ho)
          | cons s ss => simp at h
        have hnot : (∀ k, o ≠ .objRef k) → Reaches f.obj o ∧ lev = dept := by
          intro h
          rcases hreach with h' | ⟨_, _, i, h', -⟩
          · exact h'
          · exact absurd h' (h _)
        have hopen : ∀ k t', o = .objRef k → lookup r.schema.types k = some t' → ∃ n, Opens (ctxOf r) f.obj t' n ∧ dept + 1 = lev + n := by
          rintro k t' rfl hl
          rcases hreach with ⟨h, rfl⟩ | ⟨k', impls, i, h1, h2, h3, h4, rfl⟩
          · exact ⟨1, .object h hl, rfl⟩
          · injection h1 with h1
            subst h1
            exact ⟨2, .interface h2 h3 h4 hl, by rw [UInt8.add_assoc]; rfl⟩
        cases o with
        | undefined => exact .pure (by simp)
        | array inner =>
          refine Halts.bindQ (Q := fun _ => True) .getWorld ?_
          intro w
          cases r.env.view w v with
          | seq vs =>
            cases vs with
            | none => exact .pure (by simp)
            | some vs =>
              cases room with
              | zero => exact .undefined
              | succ room =>
                dsimp only
                refine Halts.bindQ (Q := fun _ => True) (evalElems_blamed _ ?_ 0 vs) (fun _ => .pure (by simp))
                intro i x
                intro es b es' hb
                obtain ⟨new, h1, -⟩ := (allReport r n).data _ _ _ _ _ _ _ es b es' hb
                exact ⟨new, h1, fun _ _ => trivial⟩
          | _ => exact .undefined
        | objRef typeName =>
          dsimp only
          by_cases hs : (!(args'.isSome || !sels.isEmpty)) = true
          · rw [if_pos hs]; exact Halts.reportThen (here _ (hsel ⟨_, Or.inl rfl⟩ hs))
          · rw [if_neg hs]
            cases hl : lookup r.schema.types typeName with
            | none => exact .pure (by simp)
            | some t1 =>
              dsimp only
              obtain ⟨k, hk1, hk2⟩ := hopen _ _ rfl hl
              by_cases hd : dept + 1 = r.schema.maxDepth
              · rw [if_pos hd]; exact Halts.reportThen (here _ (.depth hres hk1 (hk2 ▸ hd)))
              · rw [if_neg hd]
                refine Halts.bind ((ih.sels t1 v (dept + 1) _ room sels).mono (P := FaultP r t lev path [.field key name dirs args sels]) ?_ (fun _ h => h)) ?_
                · rintro e ⟨p, t', l', s, h1, h2, h3⟩
                  exact ⟨.key key :: p, t', l', s, by rw [h1]; simp, .underField (List.mem_singleton.2 rfl) hres hk1 (hk2 ▸ h2), h3⟩
                · rintro ⟨ms, c⟩
                  cases c with
                  | true => exact Or.inl ⟨rfl, _, rfl⟩
                  | false => exact Or.inr (.pure (by simp))
        | data isID kind =>
          dsimp only
          by_cases hs : (args'.isSome || !sels.isEmpty) = true
          · rw [if_pos hs]
            · obtain ⟨hreach, -⟩ := hnot (by intro k h; cases h)
              refine Halts.reportThen (here _ (.selection hres hreach ?_))
              rcases Bool.or_eq_true_iff.1 hs with h | h
              · obtain ⟨rfl, -⟩ := hsome h
                exact Or.inl (by cases args' <;> simp_all)
              · exact Or.inr (by cases sels <;> simp_all)
          · rw [if_neg hs]
            refine Halts.bindQ (Q := fun _ => True) .getWorld ?_
            intro w
            cases r.env.view w v with
            | scalar x =>
              dsimp only
              cases dataText r.env isID kind x with
              | none => exact .undefined
              | some t => exact .pure (by simp)
            | _ => exact .undefined
        | ptr inner =>
          refine Halts.bindQ (Q := fun _ => True) .getWorld ?_
          intro w
          cases r.env.view w v with
          | ptr x =>
            cases x with
            | none => exact .pure (by simp)
            | some x =>
              refine ih.data t f inner x lev dept path room key name dirs args args' sels hres ?_ ?_
              · rcases hargs with ⟨h1, h2⟩ | h
                · exact Or.inl ⟨h1, h2⟩
                · exact Or.inr h
              · obtain ⟨h, rfl⟩ := hnot (by intro k h; cases h)
                exact Or.inl ⟨reaches_trans h (.ptr .refl), rfl⟩
          | _ => exact .undefined
        | method m out =>
          dsimp only
          obtain ⟨hr, rfl⟩ := hnot (by intro k h; cases h)
          have hc := evalCall_halts r (P := FaultP r t lev path [.field key name dirs args sels]) (path ++ [.key key]) m v (args'.getD [])
            (fun x => evalData r n out x lev (path ++ [.key key]) room none sels)
            (fun x => ih.data t f out x lev lev path room key name dirs args none sels hres (Or.inr rfl) (Or.inl ⟨reaches_trans hr (.method .refl), rfl⟩))
            (by
              intro h1 h2 msg
              refine here _ ?_
              rcases hargs with ⟨rfl, -⟩ | rfl
              · cases args' with
                | none => exact absurd rfl h1
                | some args => exact .unbound hres hr h2
              · exact absurd rfl h1)
          by_cases hm : (!m.isTypeMethod) = true
          · rw [if_pos hm]
            refine Halts.bindQ (Q := fun _ => True) .getWorld ?_
            intro w
            cases r.env.view w v with
            | func b =>
              cases b with
              | true => exact .pure (by simp)
              | false => exact hc
            | _ => exact .undefined
          · rw [if_neg hm]
            exact hc
        | enum idx =>
          dsimp only
          cases r.schema.enums[idx]? with
          | none => exact .undefined
          | some e =>
            dsimp only
            refine Halts.bindQ (Q := fun _ => True) .getWorld ?_
            intro w
            cases r.env.view w v with
            | scalar x =>
              dsimp only
              match enumKey e x with
              | none => exact .undefined
              | some none => exact .pure (by simp)
              | some (some k) => exact .pure (by simp)
            | _ => exact .undefined
        | time =>
          refine Halts.bindQ (Q := fun _ => True) .getWorld ?_
          intro w
          cases r.env.view w v <;> exact .pure (by simp)
        | interfaceRef typeName =>
          dsimp only
          obtain ⟨hr, rfl⟩ := hnot (by intro k h; cases h)
          by_cases hs : (!(args'.isSome || !sels.isEmpty)) = true
          · rw [if_pos hs]; exact Halts.reportThen (here _ (hsel ⟨_, Or.inr rfl⟩ hs))
          · rw [if_neg hs]
            cases hl : lookup r.schema.interfaces typeName with
            | none => exact .pure (by simp)
            | some impls =>
              dsimp only
              refine Halts.bindQ (Q := fun _ => True) .getWorld ?_
              intro w
              cases r.env.view w v with
              | iface x =>
                match x with
                | none => exact .pure (by simp)
                | some (g, p, x) =>
                  cases room with
                  | zero => exact .undefined
                  | succ room =>
                    dsimp only
                    cases hi : impls.find? (fun i => decide (i.goTypeName = g ∧ i.goPkgPath = p)) with
                    | none => exact .pure (by simp)
                    | some i =>
                      refine ih.data t f _ x lev (lev + 1) path room key name dirs args args' sels hres (Or.inr ?_)
                        (Or.inr ⟨_, impls, i, rfl, hr, hl, List.mem_of_find?_eq_some hi, rfl⟩)
                      cases args' with
                      | none => rfl
                      | some a => exact absurd rfl ha
              | _ => exact .undefined

/-- The selections of an operation. -/
theorem evalSels_halts (n : Nat) (t : RType F V) (v : V) (sels : List Sel) :
    Halts (AtFault (ctxOf r) t sels) (evalSels r n t v 0 [] 255 sels) (fun a => a.2 = true) :=
  ((allHalt r n).sels t v 0 [] 255 sels).mono (fun _ ⟨p, t', l', s, h1, h2, h3⟩ => ⟨t', l', s, by rw [h1]; exact h2, h3⟩) (fun _ h => h)

end
end Eval
end Yarql
