import Verif.Proofs.DeliverLit

/-! # The errors an evaluation reports: appended, below the path of the field, at least one if critical -/

namespace Yarql
namespace Eval
open Doc Resolver Yarql.Bind Binding

section
variable {F V W α β : Type}

/-- Errors are appended only, their paths extend `path`, and there is at least one when `crit` holds of the result. -/
def Reports (path : List Seg) (m : E W α) (crit : α → Prop) : Prop :=
  ∀ es a es', m es = some (a, es') → ∃ new, es'.errs = es.errs ++ new ∧ (∀ e ∈ new, path <+: e.2) ∧ (crit a → new ≠ [])

theorem Reports.mono {path : List Seg} {m : E W α} {c c' : α → Prop} (h : Reports path m c) (hc : ∀ a, c' a → c a) :
    Reports path m c' := by
  intro es a es' hm
  obtain ⟨new, h1, h2, h3⟩ := h es a es' hm
  exact ⟨new, h1, h2, fun h => h3 (hc a h)⟩

theorem Reports.up {path path' : List Seg} {m : E W α} {c : α → Prop} (h : Reports path' m c) (hp : path <+: path') :
    Reports path m c := by
  intro es a es' hm
  obtain ⟨new, h1, h2, h3⟩ := h es a es' hm
  exact ⟨new, h1, fun e he => hp.trans (h2 e he), h3⟩

theorem Reports.pure {path : List Seg} {a : α} {c : α → Prop} (h : ¬ c a) : Reports (W := W) path (pure a) c := by
  intro es b es' hm
  have e := E_pure.1 hm
  cases e
  exact ⟨[], by simp, by simp, fun h' => absurd h' h⟩

/-- steps that do not touch the errors -/
theorem Reports.quiet {path : List Seg} {m : E W α} (h : ∀ es a es', m es = some (a, es') → es'.errs = es.errs) :
    Reports path m (fun _ => False) := by
  intro es b es' hm
  exact ⟨[], by simp [h es b es' hm], by simp, fun h' => h'.elim⟩

theorem getWorld_quiet {path : List Seg} : Reports path (getWorld (W := W)) (fun _ => False) :=
  .quiet (fun es a es' h => by have e : some (es.world, es) = some (a, es') := h; cases e; rfl)

theorem setWorld_quiet {path : List Seg} {w : W} : Reports path (setWorld w) (fun _ => False) :=
  .quiet (fun es a es' h => by have e : some ((), ({ es with world := w } : ES W)) = some (a, es') := h; cases e; rfl)

theorem Reports.undefined {path : List Seg} {c : α → Prop} : Reports (W := W) path undefinedE c := by
  intro es b es' hm
  cases hm

theorem Reports.report {path path' : List Seg} {msg : Bytes} (hp : path <+: path') :
    Reports (W := W) path (Eval.report path' msg) (fun _ => True) := by
  intro es b es' hm
  have e1 : Option.some ((), ({ es with errs := es.errs ++ [(msg, path')] } : ES W)) = Option.some (b, es') := hm
  cases e1
  exact ⟨[(msg, path')], rfl, by simpa using hp, by simp⟩

theorem Reports.bind {path : List Seg} {m : E W α} {f : α → E W β} {c : α → Prop} {c' : β → Prop}
    (hm : Reports path m c) (hf : ∀ a, Reports path (f a) (fun b => c' b ∧ ¬ c a)) : Reports path (m >>= f) c' := by
  intro es b es' h
  obtain ⟨a, es1, h1, h2⟩ := E_bind.1 h
  obtain ⟨n1, k1, k2, k3⟩ := hm es a es1 h1
  obtain ⟨n2, l1, l2, l3⟩ := hf a es1 b es' h2
  refine ⟨n1 ++ n2, by rw [l1, k1, List.append_assoc], ?_, ?_⟩
  · intro e he
    rcases List.mem_append.1 he with h | h
    · exact k2 e h
    · exact l2 e h
  · intro hc h0
    obtain ⟨e1, e2⟩ := List.append_eq_nil_iff.1 h0
    by_cases ha : c a
    · exact k3 ha e1
    · exact l3 ⟨hc, ha⟩ e2

theorem Reports.bindQ {path : List Seg} {m : E W α} {f : α → E W β} {c' : β → Prop}
    (hm : Reports path m (fun _ => False)) (hf : ∀ a, Reports path (f a) c') : Reports path (m >>= f) c' :=
  hm.bind (fun a => (hf a).mono (fun _ h => h.1))

/-- a report makes everything after it fine -/
theorem Reports.reportThen {path path' : List Seg} {msg : Bytes} {b : β} {c' : β → Prop} (hp : path <+: path') :
    Reports (W := W) path (Eval.report path' msg >>= fun _ => Pure.pure b) c' :=
  (Reports.report hp).bind (fun _ => .pure (fun h => h.2 trivial))

theorem Delivers.reports {path : List Seg} {m : E W (Option α)} {P : α → Prop} (h : Delivers path m P) :
    Reports path m (fun a => a = none) := by
  intro es a es' hm
  obtain ⟨_, k⟩ := h es a es' hm
  cases a with
  | none =>
    obtain ⟨msg, k⟩ := k
    exact ⟨[(msg, path)], k, by simp, by simp⟩
  | some a => exact ⟨[], by simp [k.2], by simp, by simp⟩

variable (r : Req F V W)

/-- the arguments of a call, each as `Lit` says -/
theorem bindArgs_delivers (path : List Seg) (m : Method F) (args : List (Bytes × Value)) (inputs : List (Arg F)) :
    Delivers path (bindArgs r path m args inputs) (fun inputs' =>
      Args r.env r.schema.enums r.schema.inTypes (Var r.env r.schema.enums r.schema.inTypes r.vars r.decls) m.inFields args inputs inputs') := by
  induction args generalizing inputs with
  | nil => unfold bindArgs; exact .some .nil
  | cons kv rest ih =>
    obtain ⟨k, v⟩ := kv
    unfold bindArgs
    cases hf : m.inFields.find? (fun a => decide (a.key = k)) with
    | none => exact .fail
    | some a =>
      dsimp only
      cases hg : argField inputs a with
      | none => exact .undefined
      | some cur =>
        dsimp only
        refine Delivers.bind (bindLit_delivers r path (fun n cur inp _ => bindVar_delivers r path n cur inp) v cur a.input) rfl ?_
        rintro ⟨x, set⟩ hx
        exact (ih _).mono (fun a h => .cons hf hx ((withArg_iff _ _ _ _ _).1 ⟨hg, rfl⟩) h)

theorem callWith_reports (path : List Seg) (m : Method F) (fn : V) (args : List (Bytes × Value)) :
    Reports path (callWith r path m fn args) (fun a => a = none) := by
  unfold callWith
  refine Reports.bind (Delivers.reports (bindArgs_delivers r path m args (freshInputs m))) ?_
  intro a
  cases a with
  | none => exact .pure (by simp)
  | some inputs =>
    refine Reports.bindQ getWorld_quiet ?_
    intro w
    cases r.env.call w fn (jsonPath (pathText path)) inputs with
    | none => exact .undefined
    | some p => exact Reports.bindQ setWorld_quiet (fun _ => .pure (by simp))

theorem evalDirectives_reports (path : List Seg) (loc : UInt8) (ds : List Directive) :
    Reports path (evalDirectives r path loc ds) (fun a => a = none) := by
  induction ds with
  | nil => unfold evalDirectives; exact .pure (by simp)
  | cons d ds ih =>
    unfold evalDirectives
    refine Reports.bind (c := fun a => a = none) ?_ ?_
    · unfold evalDirective
      cases (lookup r.schema.directives loc).bind (fun ds => ds.find? (fun x => decide (x.name = d.name))) with
      | none => exact Delivers.reports (P := fun _ => True) .fail
      | some x =>
        dsimp only
        refine Reports.bind (callWith_reports r path x.method x.func _) ?_
        intro a
        cases a with
        | none => exact .pure (by simp)
        | some outs =>
          dsimp only
          cases outs[0]? with
          | none => exact .undefined
          | some o => exact Reports.bindQ getWorld_quiet (fun _ => .pure (by simp))
    · intro a
      match a with
      | none => exact .pure (by simp)
      | some true => exact .pure (by simp)
      | some false => exact ih.mono (fun _ h => h.1)

theorem structField_quiet (path : List Seg) (v : V) (i : Nat) : Reports path (structField r v i) (fun _ => False) := by
  unfold structField
  refine Reports.bindQ getWorld_quiet ?_
  intro w
  cases r.env.view w v with
  | struct fs =>
    dsimp only
    cases fs[i]? with
    | none => exact .undefined
    | some x => exact .pure (by simp)
  | _ => exact .undefined

theorem valueOfField_quiet (path : List Seg) (v : V) (f : RField F V) : Reports path (valueOfField r v f) (fun _ => False) := by
  unfold valueOfField
  cases f.customObjValue with
  | some v => exact .pure (by simp)
  | none =>
    dsimp only
    cases f.obj with
    | method m o =>
      dsimp only
      by_cases h : m.isTypeMethod = true
      · rw [if_pos h]; exact .pure (by simp)
      · rw [if_neg h]; exact structField_quiet r path v _
    | _ => exact structField_quiet r path v _

theorem evalElems_reports (path : List Seg) (elem : Nat → V → E W (Out × Bool)) (c : Out × Bool → Prop) (h : ∀ i v, Reports (path ++ [.idx i]) (elem i v) c)
    (i : Nat) (vs : List V) : Reports path (evalElems elem i vs) (fun _ => False) := by
  induction vs generalizing i with
  | nil => unfold evalElems; exact .pure (by simp)
  | cons v vs ih =>
    unfold evalElems
    refine Reports.bindQ (((h i v).up (List.prefix_append _ _)).mono (fun _ h => h.elim)) ?_
    rintro ⟨o, b⟩
    dsimp only
    exact Reports.bindQ (ih (i + 1)) (fun _ => .pure (by simp))

theorem evalResult_reports (path : List Seg) (m : Method F) (outs : List V) (next : V → E W (Out × Bool))
    (h : ∀ v, Reports path (next v) (fun a => a.2 = true)) : Reports path (evalResult r path m outs next) (fun a => a.2 = true) := by
  unfold evalResult
  refine Reports.bindQ getWorld_quiet ?_
  intro w
  cases r.env.ctxErr w with
  | some msg => exact Reports.reportThen (List.prefix_refl _)
  | none =>
    dsimp only
    cases outs[m.outNr]? with
    | none => exact .undefined
    | some x => exact h x

theorem evalCall_reports (path : List Seg) (m : Method F) (fn : V) (args : List (Bytes × Value)) (next : V → E W (Out × Bool))
    (h : ∀ v, Reports path (next v) (fun a => a.2 = true)) : Reports path (evalCall r path m fn args next) (fun a => a.2 = true) := by
  unfold evalCall
  refine Reports.bind (callWith_reports r path m fn args) ?_
  intro a
  cases a with
  | none => exact .pure (by simp)
  | some outs =>
    dsimp only
    have hr := evalResult_reports r path m outs next h
    cases m.errorOutNr with
    | none => exact hr.mono (fun _ h => h.1)
    | some nr =>
      dsimp only
      cases outs[nr]? with
      | none => exact .undefined
      | some e =>
        dsimp only
        refine Reports.bindQ getWorld_quiet ?_
        intro w
        cases r.env.errOf w e with
        | none => exact hr.mono (fun _ h => h.1)
        | some msg => exact Reports.bind (Reports.report (List.prefix_refl _)) (fun _ => hr.mono (fun _ h => h.1.1))

variable [DecidableEq F]

/-- all five evaluation functions, at one fuel -/
structure AllReport (r : Req F V W) (n : Nat) : Prop where
  sels : ∀ t v dept path room sels, Reports path (evalSels r n t v dept path room sels) (fun a => a.2 = true)
  spread : ∀ t v dept path room name dirs, Reports path (evalSpread r n t v dept path room name dirs) (fun a => a.2 = true)
  inline : ∀ t v dept path room ty dirs sels, Reports path (evalInline r n t v dept path room ty dirs sels) (fun a => a.2 = true)
  field : ∀ t v dept path room key name dirs args sels,
    Reports (path ++ [.key key]) (evalField r n t v dept path room key name dirs args sels) (fun a => a.2 = true)
  data : ∀ o v dept path room args sels, Reports path (evalData r n o v dept path room args sels) (fun a => a.2 = true)

theorem allReport (n : Nat) : AllReport r n := by
  induction n with
  | zero =>
    constructor
    · intros; simp only [evalSels]; exact .undefined
    · intros; simp only [evalSpread]; exact .undefined
    · intros; simp only [evalInline]; exact .undefined
    · intros; simp only [evalField]; exact .undefined
    · intros; unfold evalData; exact .undefined
  | succ n ih =>
    constructor
    · -- selections
      intro t v dept path room sels
      have tail : ∀ (p : List (Bytes × Out) × Bool) (rest : List Sel), Reports path (do
          if p.2 then return (p.1, true)
          let (ms', crit) ← evalSels r n t v dept path room rest
          return (p.1 ++ ms', crit) : E W (List (Bytes × Out) × Bool)) (fun a => a.2 = true ∧ ¬ p.2 = true) := by
        intro p rest
        by_cases hc : p.2 = true
        · rw [if_pos hc]; exact .pure (by simp [hc])
        · rw [if_neg hc]
          refine (Reports.bind (c' := fun a => a.2 = true) (ih.sels t v dept path room rest) ?_).mono (fun _ h => h.1)
          rintro ⟨ms', c⟩
          exact .pure (by simp)
      match sels with
      | [] => simp only [evalSels]; exact .pure (by simp)
      | .field key name dirs args sub :: rest =>
        simp only [evalSels]
        refine Reports.bind ((ih.field t v dept path room key (name.getD key) dirs args sub).up (List.prefix_append _ _)) ?_
        rintro ⟨m, c⟩
        exact tail (m.toList, c) rest
      | .spread name dirs :: rest =>
        simp only [evalSels]
        refine Reports.bind (ih.spread t v dept path room name dirs) ?_
        rintro ⟨m, c⟩
        exact tail (m, c) rest
      | .inline ty dirs sub :: rest =>
        simp only [evalSels]
        refine Reports.bind (ih.inline t v dept path room ty dirs sub) ?_
        rintro ⟨m, c⟩
        exact tail (m, c) rest
    · -- spreads
      intro t v dept path room name dirs
      simp only [evalSpread]
      refine Reports.bind (evalDirectives_reports r path 1 dirs) ?_
      intro a
      match a with
      | none => exact .pure (by simp)
      | some true => exact .pure (by simp)
      | some false =>
        dsimp only
        cases r.frags.find? (fun f => decide (f.name = name)) with
        | none => exact Reports.reportThen (List.prefix_refl _)
        | some f =>
          dsimp only
          by_cases h : t.typeName = f.typeName
          · rw [if_pos h]; exact (ih.sels t v dept path room f.sels).mono (fun _ h => h.1)
          · rw [if_neg h]; exact .pure (by simp)
    · -- inline fragments
      intro t v dept path room ty dirs sels
      simp only [evalInline]
      refine Reports.bind (evalDirectives_reports r path 2 dirs) ?_
      intro a
      match a with
      | none => exact .pure (by simp)
      | some true => exact .pure (by simp)
      | some false =>
        dsimp only
        by_cases h : t.typeName = ty
        · rw [if_pos h]; exact (ih.sels t v dept path room sels).mono (fun _ h => h.1)
        · rw [if_neg h]; exact .pure (by simp)
    · -- fields
      intro t v dept path room key name dirs args sels
      simp only [evalField]
      refine Reports.bind (evalDirectives_reports r _ 0 dirs) ?_
      intro a
      match a with
      | none => exact .pure (by simp)
      | some true => exact .pure (by simp)
      | some false =>
        dsimp only
        cases t.fields.find? (fun f => decide (f.key = fnv1 name)) with
        | none =>
          dsimp only
          by_cases h1 : name = b%"__typename"
          · rw [if_pos h1]
            by_cases h2 : (args.isSome || !sels.isEmpty) = true
            · rw [if_pos h2]; exact Reports.reportThen (List.prefix_refl _)
            · rw [if_neg h2]; exact .pure (by simp)
          · rw [if_neg h1]; exact Reports.reportThen (List.prefix_refl _)
        | some f =>
          cases room with
          | zero => exact .undefined
          | succ room =>
            dsimp only
            refine Reports.bindQ (valueOfField_quiet r _ v f) ?_
            intro x
            refine Reports.bind (ih.data f.obj x dept _ room args sels) ?_
            rintro ⟨o, c⟩
            exact .pure (by simp)
    · -- values
      intro o v dept path room args sels
      unfold evalData
      dsimp only
      by_cases ha : (args.isSome && !takesArgs o) = true
      · rw [if_pos ha]; exact Reports.reportThen (List.prefix_refl _)
      · rw [if_neg ha]
        cases o with
        | undefined => exact .pure (by simp)
        | array inner =>
          refine Reports.bindQ getWorld_quiet ?_
          intro w
          cases r.env.view w v with
          | seq vs =>
            cases vs with
            | none => exact .pure (by simp)
            | some vs =>
              cases room with
              | zero => exact .undefined
              | succ room =>
                dsimp only
                refine Reports.bindQ (evalElems_reports path _ _ (fun i x => ih.data inner x dept _ room args sels) 0 vs) ?_
                intro os
                exact .pure (by simp)
          | _ => exact .undefined
        | objRef typeName =>
          dsimp only
          by_cases hs : (!(args.isSome || !sels.isEmpty)) = true
          · rw [if_pos hs]; exact Reports.reportThen (List.prefix_refl _)
          · rw [if_neg hs]
            cases lookup r.schema.types typeName with
            | none => exact .pure (by simp)
            | some t =>
              dsimp only
              by_cases hd : dept + 1 = r.schema.maxDepth
              · rw [if_pos hd]; exact Reports.reportThen (List.prefix_refl _)
              · rw [if_neg hd]
                refine Reports.bind (ih.sels t v (dept + 1) path room sels) ?_
                rintro ⟨ms, c⟩
                exact .pure (by simp)
        | data isID kind =>
          dsimp only
          by_cases hs : (args.isSome || !sels.isEmpty) = true
          · rw [if_pos hs]; exact Reports.reportThen (List.prefix_refl _)
          · rw [if_neg hs]
            refine Reports.bindQ getWorld_quiet ?_
            intro w
            cases r.env.view w v with
            | scalar x =>
              dsimp only
              cases dataText r.env isID kind x with
              | none => exact .undefined
              | some t => exact .pure (by simp)
            | _ => exact .undefined
        | ptr inner =>
          refine Reports.bindQ getWorld_quiet ?_
          intro w
          cases r.env.view w v with
          | ptr x =>
            cases x with
            | none => exact .pure (by simp)
            | some x => exact ih.data inner x dept path room args sels
          | _ => exact .undefined
        | method m out =>
          dsimp only
          have hc := evalCall_reports r path m v (args.getD []) (fun x => evalData r n out x dept path room none sels)
            (fun x => ih.data out x dept path room none sels)
          by_cases hm : (!m.isTypeMethod) = true
          · rw [if_pos hm]
            refine Reports.bindQ getWorld_quiet ?_
            intro w
            cases r.env.view w v with
            | func b =>
              cases b with
              | true => exact .pure (by simp)
              | false => exact hc
            | _ => exact .undefined
          · rw [if_neg hm]
            exact hc
        | enum idx =>
          dsimp only
          cases r.schema.enums[idx]? with
          | none => exact .undefined
          | some e =>
            refine Reports.bindQ getWorld_quiet ?_
            intro w
            cases r.env.view w v with
            | scalar x =>
              dsimp only
              match enumKey e x with
              | none => exact .undefined
              | some (some k) => exact .pure (by simp)
              | some none => exact .pure (by simp)
            | _ => exact .undefined
        | time =>
          refine Reports.bindQ getWorld_quiet ?_
          intro w
          cases r.env.view w v with
          | _ => exact .pure (by simp)
        | interfaceRef typeName =>
          dsimp only
          by_cases hs : (!(args.isSome || !sels.isEmpty)) = true
          · rw [if_pos hs]; exact Reports.reportThen (List.prefix_refl _)
          · rw [if_neg hs]
            cases lookup r.schema.interfaces typeName with
            | none => exact .pure (by simp)
            | some impls =>
              refine Reports.bindQ getWorld_quiet ?_
              intro w
              cases r.env.view w v with
              | iface x =>
                match x with
                | none => exact .pure (by simp)
                | some (goName, goPkg, x) =>
                  cases room with
                  | zero => exact .undefined
                  | succ room =>
                    dsimp only
                    cases impls.find? (fun i => decide (i.goTypeName = goName ∧ i.goPkgPath = goPkg)) with
                    | none => exact .pure (by simp)
                    | some i => exact ih.data (.objRef i.typeName) x (dept + 1) path room args sels
              | _ => exact .undefined

end
end Eval
end Yarql
