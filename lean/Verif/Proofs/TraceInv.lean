import Verif.Proofs.Tracing

/-!
# What holds of the tracer all along
-/

namespace Yarql
namespace Tracing
open Resolver

section
variable {F V W α β : Type} [DecidableEq F]

/-- the entry of a field `f` of the type `t` finished at the instant `now_` -/
def entryOf (c : TCfg F V W) (s : TS V W) (t : RType F V) (name ret : Bytes) : Entry :=
  ⟨jsonPath s.rs.path, t.typeName, name, ret, s.start - c.goStart, c.clock s.reads - s.start⟩

/-- the recorded start is one of the readings of the execution, which began with reading `n0` -/
def Started (n0 : Nat) (c : TCfg F V W) (s : TS V W) : Prop := ∃ k, n0 ≤ k ∧ k < s.reads ∧ s.start = c.clock k

/-- `P` survives the steps of a traced execution -/
structure Stable (n0 : Nat) (c : TCfg F V W) (P : TS V W → Prop) : Prop where
  enabled : c.enabled = true
  low : ∀ s, P s → n0 ≤ s.reads
  rs : ∀ s r, P s → P { s with rs := r }
  start : ∀ s, P s → P { s with reads := s.reads + 1, start := c.clock s.reads }
  record : ∀ s t f name ret, KnownType c.cfg.schema t → f ∈ t.fields → c.typeText f.obj = some ret → Started n0 c s → P s →
    P { s with reads := s.reads + 1, entries := s.entries ++ [entryOf c s t name ret] }

/-- once a field has been started -/
theorem Stable.started {n0 : Nat} {c : TCfg F V W} {P : TS V W → Prop} (h : Stable n0 c P) : Stable n0 c (fun s => P s ∧ Started n0 c s) where
  enabled := h.enabled
  low s hs := h.low s hs.1
  rs s r hs := ⟨h.rs s r hs.1, hs.2⟩
  start s hs := ⟨h.start s hs.1, s.reads, h.low s hs.1, Nat.lt_succ_self _, rfl⟩
  record s t f name ret hk hf hx h1 hs := by
    obtain ⟨k, a, b, e⟩ := h1
    exact ⟨h.record s t f name ret hk hf hx ⟨k, a, b, e⟩ hs.1, k, a, Nat.lt_succ_of_lt b, e⟩

def Keeps (c : TCfg F V W) (P : TS V W → Prop) (t : TM F V W α) : Prop := ∀ s, P s → ∀ a s', t c s = .ok a s' → P s'

variable {n0 : Nat} {c : TCfg F V W} {P : TS V W → Prop}

theorem Keeps.lift (hP : Stable n0 c P) (m : M F V W α) : Keeps c P (Tracing.lift m) := by
  intro s hs a s' h
  unfold Tracing.lift at h
  cases hm : m c.cfg s.rs with
  | ok b r =>
    rw [hm] at h
    injection h with h1 h2
    rw [← h2]
    exact hP.rs s r hs
  | panic => rw [hm] at h; cases h
  | oof => rw [hm] at h; cases h

theorem Keeps.pure (a : α) : Keeps c P (Pure.pure a : TM F V W α) := by
  intro s hs b s' h
  injection h with h1 h2
  rw [← h2]; exact hs

theorem Keeps.bind {t : TM F V W α} {f : α → TM F V W β} (h : Keeps c P t) (hf : ∀ a, Keeps c P (f a)) : Keeps c P (t >>= f) := by
  intro s hs b s' hr
  rw [bindT] at hr
  cases ht : t c s with
  | ok a s1 => rw [ht] at hr; exact hf a s1 (h s hs a s1 ht) b s' hr
  | panic => rw [ht] at hr; cases hr
  | oof => rw [ht] at hr; cases hr

theorem Keeps.ite {p : Prop} [Decidable p] {t t' : TM F V W α} (h : p → Keeps c P t) (h' : ¬ p → Keeps c P t') :
    Keeps c P (if p then t else t') := by
  by_cases hp : p
  · rw [if_pos hp]; exact h hp
  · rw [if_neg hp]; exact h' hp

theorem Keeps.bindCfg {f : Cfg F V W → TM F V W α} (h : Keeps c P (f c.cfg)) : Keeps c P (Tracing.lift getCfg >>= f) :=
  fun s hs a s' hr => h s hs a s' hr

theorem Keeps.isEnabled : Keeps c P (Tracing.isEnabled : TM F V W Bool) := by
  intro s hs a s' h
  injection h with h1 h2
  rw [← h2]; exact hs

theorem Keeps.record (hP : Stable n0 c P) {t : RType F V} {f : RField F V} (hk : KnownType c.cfg.schema t) (hf : f ∈ t.fields) (name : Bytes) :
    Keeps c (fun s => P s ∧ Started n0 c s) (Tracing.record t.typeName name f.obj : TM F V W Unit) := by
  intro s hs a s' h
  cases hx : c.typeText f.obj with
  | none =>
    simp [Tracing.record, finishTrace, bindT, pureT, getT, now, hx, panicT] at h
  | some x =>
    rw [record_run _ _ hx] at h
    injection h with h1 h2
    rw [← h2]
    exact hP.started.record s t f name x hk hf hx hs.2 hs

/-- a field starts its trace first -/
theorem Keeps.starting (hP : Stable n0 c P) {f : Unit → TM F V W α} (hf : ∀ a, Keeps c (fun s => P s ∧ Started n0 c s) (f a)) :
    Keeps c P (Tracing.startTrace >>= f) := by
  intro s hs b s' hr
  rw [bindT, startTrace_run, if_pos hP.enabled] at hr
  exact (hf () _ ⟨hP.start s hs, s.reads, hP.low s hs, Nat.lt_succ_self _, rfl⟩ b s' hr).1

theorem elems_keeps (hP : Stable n0 c P) {t : TM F V W Bool} (h : Keeps c P t) (at_ : Nat) (vs : List V) :
    ∀ i, Keeps c P (elemsLoopT t at_ i vs) := by
  induction vs with
  | nil => intro i; exact Keeps.pure ()
  | cons v vs ih =>
    intro i
    unfold elemsLoopT
    refine .bind (.lift hP _) fun _ => .bind (.lift hP _) fun _ => .bind (.lift hP _) fun _ => .bind (.lift hP _) fun _ =>
      .bind h fun _ => ?_
    exact .ite (fun _ => .bind (.lift hP _) fun _ => .bind (.lift hP _) fun _ => ih _) (fun _ => .bind (.lift hP _) fun _ => ih _)

theorem after_keeps (hP : Stable n0 c P) (m : Method F) (outs : List V) {t : V → TM F V W Bool} (h : ∀ v, Keeps c P (t v)) :
    Keeps c P (afterCallT m outs t) := by
  unfold afterCallT
  refine .bind (.lift hP _) fun cfg => .bind (.lift hP _) fun s => ?_
  cases cfg.env.ctxErr s.world with
  | some msg => exact .bind (.lift hP _) fun _ => .bind (.lift hP _) fun _ => .pure _
  | none =>
    dsimp only
    cases outs[m.outNr]? with
    | none => exact .lift hP _
    | some v => exact h v

theorem call_keeps (hP : Stable n0 c P) (m : Method F) (v : V) {t : V → Bool → TM F V W Bool} (h : ∀ v b, Keeps c P (t v b)) :
    Keeps c P (callAndResolveT m v t) := by
  unfold callAndResolveT
  refine .bind (.lift hP _) fun i => .bind (.lift hP _) fun r => ?_
  cases r with
  | none => exact .pure _
  | some outs => exact .bind (.lift hP _) fun i => .bind (.lift hP _) fun _ => after_keeps hP m outs (fun v => h v _)

structure KeepsAll (c : TCfg F V W) (P : TS V W → Prop) (n : Nat) : Prop where
  sels : ∀ t dept first, KnownType c.cfg.schema t → Keeps c P (resolveSelectionSetT n t dept first)
  spread : ∀ t dept first, KnownType c.cfg.schema t → Keeps c P (resolveSpreadT n t dept first)
  field : ∀ t dept comma, KnownType c.cfg.schema t → Keeps c P (resolveFieldT n t dept comma)
  data : ∀ o dept sub, Keeps c P (resolveFieldDataValueT n o dept sub)

theorem keeps_sels (hP : Stable n0 c P) {n : Nat} (h : KeepsAll c P n) (t : RType F V) (dept : UInt8) (first : Bool) (hk : KnownType c.cfg.schema t) :
    Keeps c P (resolveSelectionSetT (n + 1) t dept first) := by
  unfold resolveSelectionSetT
  refine .bind (.lift hP _) fun inst => ?_
  refine .ite (fun _ => .pure _) fun _ => .ite (fun _ => ?_) fun _ => .ite (fun _ => ?_) fun _ => ?_
  · refine .bind (h.field t dept _ hk) fun r => ?_
    exact .ite (fun _ => .pure _) fun _ => h.sels t dept _ hk
  · refine .bind (h.spread t dept _ hk) fun r => ?_
    exact .ite (fun _ => .pure _) fun _ => h.sels t dept _ hk
  · exact .bind (.lift hP _) fun _ => .bind (.lift hP _) fun _ => .pure _

theorem keeps_spread (hP : Stable n0 c P) {n : Nat} (h : KeepsAll c P n) (t : RType F V) (dept : UInt8) (first : Bool) (hk : KnownType c.cfg.schema t) :
    Keeps c P (resolveSpreadT (n + 1) t dept first) := by
  unfold resolveSpreadT
  refine .bind (.lift hP _) fun inl => .bind (.lift hP _) fun dc => .bind (.lift hP _) fun len => .bind (.lift hP _) fun _ =>
    .bind (.lift hP _) fun start => .bind (.lift hP _) fun name => ?_
  refine .bind (.lift hP _) fun r => ?_
  cases r with
  | none => exact .bind (.lift hP _) fun _ => .pure _
  | some b =>
    cases b with
    | true => exact .bind (.lift hP _) fun _ => .pure _
    | false =>
      dsimp only
      refine .ite (fun _ => ?_) fun _ => ?_
      · refine .ite (fun _ => .bind (.lift hP _) fun _ => .pure _) fun _ => ?_
        exact .bind (h.sels t dept _ hk) fun r => .bind (.lift hP _) fun _ => .pure _
      · refine .bind (.lift hP _) fun cfg => ?_
        cases findFragment cfg.res name cfg.frags with
        | none => exact .bind (.lift hP _) fun _ => .pure _
        | some e =>
          refine .bind (.lift hP _) fun p => .bind (.lift hP _) fun _ => .bind (.lift hP _) fun tn => ?_
          refine .ite (fun _ => .bind (.lift hP _) fun _ => .pure _) fun _ => ?_
          exact .bind (h.sels t dept _ hk) fun r => .bind (.lift hP _) fun _ => .pure _

theorem keeps_field (hP : Stable n0 c P) {n : Nat} (h : KeepsAll c (fun s => P s ∧ Started n0 c s) n) (t : RType F V) (dept : UInt8) (comma : Bool)
    (hk : KnownType c.cfg.schema t) : Keeps c P (resolveFieldT (n + 1) t dept comma) := by
  unfold resolveFieldT
  refine .starting hP fun _ => ?_
  refine .bind (.lift hP.started _) fun dc => .bind (.lift hP.started _) fun fl => .bind (.lift hP.started _) fun _ => .bind (.lift hP.started _) fun key =>
    .bind (.lift hP.started _) fun _ => .bind (.lift hP.started _) fun pos => .bind (.lift hP.started _) fun al => .bind (.lift hP.started _) fun sa =>
    .bind (.lift hP.started _) fun alias => .bind (.lift hP.started _) fun _ => .bind (.lift hP.started _) fun st => .bind (.lift hP.started _) fun _ =>
    .bind (.lift hP.started _) fun ln => .bind (.lift hP.started _) fun at_ => .bind (.lift hP.started _) fun _ => .bind (.lift hP.started _) fun _ =>
    .bind (.lift hP.started _) fun r => ?_
  cases r with
  | none => exact .bind (.lift hP.started _) fun _ => .bind (.lift hP.started _) fun _ => .pure _
  | some b =>
    cases b with
    | true => exact .bind (.lift hP.started _) fun _ => .bind (.lift hP.started _) fun _ => .pure _
    | false =>
      have hend : ∀ b : Bool, Keeps c (fun s => P s ∧ Started n0 c s) (do
            lift (setPath st.path)
            lift (setPos (pos + fl + 1))
            return (false, b)) := fun b => .bind (.lift hP.started _) fun _ => .bind (.lift hP.started _) fun _ => .pure _
      dsimp only
      refine .ite (fun _ => .bind (.lift hP.started _) fun _ => ?_) fun _ => ?_
      all_goals
        refine .bind (.lift hP.started _) fun _ => .bind (.lift hP.started _) fun _ => .bind (.lift hP.started _) fun sel => ?_
        cases hf : t.fields.find? (fun f => f.key.toNat = key) with
        | none =>
          dsimp only
          refine .bind (.lift hP.started _) fun name => .ite (fun _ => .ite (fun _ => ?_) fun _ => ?_) fun _ => ?_
          · exact .bind (.lift hP.started _) fun _ => hend _
          · exact .bind (.lift hP.started _) fun _ => hend _
          · exact .bind (.lift hP.started _) fun _ => .bind (.lift hP.started _) fun _ => hend _
        | some f =>
          dsimp only
          refine .bind (.lift hP.started _) fun gv => .bind (.lift hP.started _) fun v => .bind (.lift hP.started _) fun _ => .bind (h.data _ _ _) fun crit => ?_
          refine .bind (.lift hP.started _) fun _ => .bind .isEnabled fun b => ?_
          cases b with
          | false => exact hend _
          | true =>
            exact .bind (.lift hP.started _) fun name => .bind (.record hP hk (List.mem_of_find?_eq_some hf) name) fun _ => hend _

theorem keeps_data (hP : Stable n0 c P) {n : Nat} (h : KeepsAll c P n) (o : Obj F) (dept : UInt8) (sub : Bool) :
    Keeps c P (resolveFieldDataValueT (n + 1) o dept sub) := by
  have two : ∀ (a b : M F V W Unit) (x : Bool), Keeps c P (do lift a; lift b; return x) := fun a b x =>
    .bind (.lift hP _) fun _ => .bind (.lift hP _) fun _ => .pure _
  have one : ∀ (a : M F V W Unit) (x : Bool), Keeps c P (do lift a; return x) := fun a x => .bind (.lift hP _) fun _ => .pure _
  unfold resolveFieldDataValueT
  refine .bindCfg ?_
  refine .bind (.lift hP _) fun gv => .bind (.lift hP _) fun inst => .ite (fun _ => two _ _ _) fun _ => ?_
  cases o with
  | undefined => exact one _ _
  | array inner =>
    refine .bind (.lift hP _) fun v => ?_
    cases v with
    | seq vs =>
      cases vs with
      | none => exact one _ _
      | some vs =>
        exact .bind (.lift hP _) fun _ => .bind (.lift hP _) fun _ => .bind (.lift hP _) fun at_ =>
          .bind (elems_keeps hP (h.data _ _ _) at_ vs 0) fun _ => two _ _ _
    | _ => exact .lift hP _
  | objRef tn =>
    refine .ite (fun _ => two _ _ _) fun _ => ?_
    dsimp only
    cases hl : lookup c.cfg.schema.types tn with
    | none => exact one _ _
    | some t =>
      refine .ite (fun _ => two _ _ _) fun _ => ?_
      exact .bind (.lift hP _) fun _ => .bind (h.sels t _ _ (.inr (.inr ⟨tn, hl⟩))) fun r => one _ _
  | data isID k =>
    refine .ite (fun _ => two _ _ _) fun _ => .bind (.lift hP _) fun v => ?_
    cases v with
    | scalar x =>
      dsimp only
      cases dataText c.cfg.env isID k x with
      | none => exact .lift hP _
      | some t => exact one _ _
    | _ => exact .lift hP _
  | ptr inner =>
    refine .bind (.lift hP _) fun v => ?_
    cases v with
    | ptr p =>
      cases p with
      | none => exact one _ _
      | some v => exact .bind (.lift hP _) fun _ => h.data _ _ _
    | _ => exact .lift hP _
  | method m out =>
    refine .bind (.lift hP _) fun b => .ite (fun _ => one _ _) fun _ => ?_
    exact call_keeps hP m gv fun v b => .bind (.lift hP _) fun _ => h.data _ _ _
  | enum idx =>
    dsimp only
    cases c.cfg.schema.enums[idx]? with
    | none => exact .lift hP _
    | some e =>
      refine .bind (.lift hP _) fun v => ?_
      cases v with
      | scalar x =>
        dsimp only
        cases enumKey e x with
        | none => exact .lift hP _
        | some k =>
          cases k with
          | none => exact one _ _
          | some key => exact one _ _
      | _ => exact .lift hP _
  | time =>
    refine .bind (.lift hP _) fun v => ?_
    cases v <;> exact one _ _
  | interfaceRef tn =>
    refine .ite (fun _ => two _ _ _) fun _ => ?_
    cases lookup c.cfg.schema.interfaces tn with
    | none => exact one _ _
    | some impls =>
      refine .bind (.lift hP _) fun v => ?_
      cases v with
      | iface x =>
        rcases x with _ | ⟨gn, gp, v⟩
        · exact one _ _
        · refine .bind (.lift hP _) fun _ => ?_
          cases impls.find? (fun i => i.goTypeName = gn ∧ i.goPkgPath = gp) with
          | none => exact two _ _ _
          | some i => exact .bind (h.data _ _ _) fun crit => one _ _
      | _ => exact .lift hP _

theorem keeps_all : ∀ (n : Nat) (P : TS V W → Prop) (_ : Stable n0 c P), KeepsAll c P n
  | 0, P, hP => by
    refine ⟨fun t dept first _ => ?_, fun t dept first _ => ?_, fun t dept first _ => ?_, fun o dept sub => ?_⟩
    · unfold resolveSelectionSetT; exact .lift hP _
    · unfold resolveSpreadT; exact .lift hP _
    · unfold resolveFieldT; exact .lift hP _
    · unfold resolveFieldDataValueT; exact .lift hP _
  | n + 1, P, hP => by
    have h := keeps_all n P hP
    exact ⟨keeps_sels hP h, keeps_spread hP h, keeps_field hP (keeps_all n _ hP.started), keeps_data hP h⟩

theorem keeps_operation (hP : Stable n0 c P) (fuel : Nat) : Keeps c P (resolveOperationT fuel) := by
  unfold resolveOperationT
  refine .bindCfg (.bind (.lift hP _) fun _ => .bind (.lift hP _) fun kind => ?_)
  have hroot : Keeps c P (do
      let (criticalErr, _) ← resolveSelectionSetT fuel (if kind == c%'m' then c.cfg.schema.rootMethod else c.cfg.schema.rootQuery) 0 true
      return criticalErr) := by
    refine .bind ((keeps_all fuel P hP).sels _ 0 true ?_) (fun r => .pure _)
    split
    · exact .inr (.inl rfl)
    · exact .inl rfl
  refine .ite (fun _ => .bind (.lift hP _) fun _ => .pure _) fun _ => ?_
  have hargs : ∀ k : TM F V W Bool, k = (do
      let argsByte ← lift readInst
      let hasArgs := argsByte == c%'t'
      lift (setArgs hasArgs 0)
      let directivesCount ← lift readInst
      if directivesCount > 0 then
        lift (err b%"operation directives unsupported")
        return true
      let _ ← lift readToNul
      if hasArgs then
        let argumentsLen ← lift readUint32M
        let pos ← lift getPos
        lift (setArgs true (pos + 5))
        lift (skipInst (argumentsLen + 5))
      let root := if kind == c%'m' then c.cfg.schema.rootMethod else c.cfg.schema.rootQuery
      let (criticalErr, _) ← resolveSelectionSetT fuel root 0 true
      return criticalErr) → Keeps c P k := by
    rintro k rfl
    refine .bind (.lift hP _) fun a => .bind (.lift hP _) fun _ => .bind (.lift hP _) fun d => ?_
    refine .ite (fun _ => .bind (.lift hP _) fun _ => .pure _) fun _ => .bind (.lift hP _) fun _ => ?_
    exact .ite (fun _ => .bind (.lift hP _) fun _ => .bind (.lift hP _) fun _ => .bind (.lift hP _) fun _ =>
      .bind (.lift hP _) fun _ => hroot) fun _ => hroot
  refine .ite (fun _ => .bind (.lift hP _) fun _ => ?_) fun _ => ?_
  all_goals exact .ite (fun _ => .bind (.lift hP _) fun _ => hargs _ rfl) fun _ => hargs _ rfl

end
end Tracing
end Yarql
