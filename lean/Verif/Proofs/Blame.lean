import Verif.Proofs.ShowsComplete
import Verif.Spec.Blame

/-! # Every error an evaluation reports is about the selection its path leads to -/

namespace Yarql
namespace Eval
open Doc Resolver Yarql.Bind Binding Blame

section
variable {F V W α β : Type}

/-- all new errors satisfy `P` -/
def Blamed (P : Bytes × List Seg → Prop) (m : E W α) : Prop :=
  ∀ es a es', m es = some (a, es') → ∃ new, es'.errs = es.errs ++ new ∧ ∀ e ∈ new, P e

variable {P : Bytes × List Seg → Prop}

theorem Blamed.mono {Q : Bytes × List Seg → Prop} {m : E W α} (h : Blamed Q m) (hq : ∀ e, Q e → P e) : Blamed P m := by
  intro es a es' hm
  obtain ⟨new, h1, h2⟩ := h es a es' hm
  exact ⟨new, h1, fun e he => hq e (h2 e he)⟩

theorem Blamed.pure {a : α} : Blamed (W := W) P (Pure.pure a) := by
  intro es b es' hm
  have e := E_pure.1 hm
  cases e
  exact ⟨[], by simp, by simp⟩

theorem Blamed.undefined : Blamed (W := W) P (undefinedE (α := α)) := by
  intro es b es' hm
  cases hm

theorem Blamed.bind {m : E W α} {f : α → E W β} (hm : Blamed P m) (hf : ∀ a, Blamed P (f a)) : Blamed P (m >>= f) := by
  intro es b es' h
  obtain ⟨a, es1, h1, h2⟩ := E_bind.1 h
  obtain ⟨n1, k1, k2⟩ := hm es a es1 h1
  obtain ⟨n2, l1, l2⟩ := hf a es1 b es' h2
  refine ⟨n1 ++ n2, by rw [l1, k1, List.append_assoc], ?_⟩
  intro e he
  rcases List.mem_append.1 he with h | h
  · exact k2 e h
  · exact l2 e h

theorem Blamed.quiet {m : E W α} (h : Reports [] m (fun _ => False)) (hq : ∀ es a es', m es = some (a, es') → es'.errs = es.errs) :
    Blamed P m := by
  intro es a es' hm
  exact ⟨[], by simp [hq es a es' hm], by simp⟩

theorem Blamed.getWorld : Blamed P (Eval.getWorld (W := W)) := by
  intro es a es' hm
  have e : some (es.world, es) = some (a, es') := hm
  cases e
  exact ⟨[], by simp, by simp⟩

theorem Blamed.report {path : List Seg} {msg : Bytes} (h : P (msg, path)) : Blamed (W := W) P (Eval.report path msg) := by
  intro es b es' hm
  have e1 : Option.some ((), ({ es with errs := es.errs ++ [(msg, path)] } : ES W)) = Option.some (b, es') := hm
  cases e1
  exact ⟨_, rfl, by simpa using h⟩

theorem Blamed.reportThen {path : List Seg} {msg : Bytes} {b : β} (h : P (msg, path)) :
    Blamed (W := W) P (Eval.report path msg >>= fun _ => Pure.pure b) := (Blamed.report h).bind (fun _ => .pure)

variable (r : Req F V W)

theorem usable_of_varsOK {v : VarsSrc} (h : VarsOK v) : Usable v := by
  unfold VarsOK at h
  unfold Usable
  exact h

/-- arguments that are refused are not ones the function can be called with -/
theorem callWith_unbound (path : List Seg) (m : Method F) (fn : V) (args : List (Bytes × Value)) {es es' : ES W}
    (h : callWith r path m fn args es = some (none, es')) : args ≠ [] ∧ Unbound (ctxOf r) m args := by
  unfold callWith at h
  obtain ⟨a, es1, h1, h2⟩ := E_bind.1 h
  cases a with
  | some inputs =>
    obtain ⟨w, es2, h3, h4⟩ := E_bind.1 h2
    cases hc : r.env.call w fn (jsonPath (pathText path)) inputs with
    | none => rw [hc] at h4; cases h4
    | some p =>
      rw [hc] at h4
      obtain ⟨_, es3, h5, h6⟩ := E_bind.1 h4
      have e := E_pure.1 h6
      cases e
  | none =>
    constructor
    · rintro rfl
      have e : some (some (freshInputs m), es) = some (none, es1) := h1
      cases e
    · by_cases hv : VarsOK r.vars
      · right
        rintro ⟨inputs, hi⟩
        obtain ⟨es2, h3⟩ := args_complete r (usable_of_varsOK hv) path m hi es
        have h3 : bindArgs r path m args (freshInputs m) es = _ := h3
        rw [h3] at h1
        cases h1
      · exact Or.inl hv

theorem callWith_blamed (path : List Seg) (m : Method F) (fn : V) (args : List (Bytes × Value))
    (h : args ≠ [] → Unbound (ctxOf r) m args → ∀ msg, P (msg, path)) : Blamed P (callWith r path m fn args) := by
  intro es a es' hm
  obtain ⟨new, h1, h2⟩ := callWith_run r (w := es.world) path m fn args es a es' rfl hm
  cases a with
  | some outs => exact ⟨new, h1, by rw [h2.1]; simp⟩
  | none =>
    obtain ⟨-, msg, rfl⟩ := h2
    obtain ⟨k1, k2⟩ := callWith_unbound r path m fn args hm
    exact ⟨_, h1, by simpa using h k1 k2 msg⟩

theorem evalDirectives_blamed (path : List Seg) (loc : UInt8) (all ds : List Directive) (hs : ∀ d ∈ ds, d ∈ all) :
    Blamed (fun e => e.2 = path ∧ BadDirective (ctxOf r) loc all e.1) (evalDirectives r path loc ds) := by
  induction ds with
  | nil => unfold evalDirectives; exact .pure
  | cons d ds ih =>
    unfold evalDirectives
    refine Blamed.bind ?_ ?_
    · unfold evalDirective
      cases hb : (lookup r.schema.directives loc).bind (fun ds => ds.find? (fun x => decide (x.name = d.name))) with
      | none =>
        dsimp only
        unfold fail
        refine Blamed.reportThen ⟨rfl, .unknown (hs d (by simp)) ?_⟩
        intro table ht x hx hn
        have ht : lookup r.schema.directives loc = some table := ht
        rw [ht] at hb
        have := List.find?_eq_none.1 hb x hx
        simp [hn] at this
      | some x =>
        obtain ⟨table, ht, hx⟩ := Option.bind_eq_some_iff.1 hb
        dsimp only
        refine Blamed.bind (callWith_blamed r path x.method x.func _ ?_) ?_
        · intro _ hu msg
          exact ⟨rfl, .arguments (hs d (by simp)) ht hx hu⟩
        · intro a
          cases a with
          | none => exact .pure
          | some outs =>
            dsimp only
            cases outs[0]? with
            | none => exact .undefined
            | some o => exact Blamed.bind .getWorld (fun _ => .pure)
    · intro a
      match a with
      | none => exact .pure
      | some true => exact .pure
      | some false => exact ih (fun d hd => hs d (List.mem_cons_of_mem _ hd))

theorem valueOfField_blamed (v : V) (f : RField F V) : Blamed P (valueOfField r v f) := by
  have hsf : ∀ i, Blamed P (structField r v i) := by
    intro i
    unfold structField
    refine Blamed.bind .getWorld ?_
    intro w
    cases r.env.view w v with
    | struct fs =>
      dsimp only
      cases fs[i]? with
      | none => exact .undefined
      | some x => exact .pure
    | _ => exact .undefined
  unfold valueOfField
  cases f.customObjValue with
  | some x => exact .pure
  | none =>
    dsimp only
    cases f.obj with
    | method m o =>
      dsimp only
      by_cases h : m.isTypeMethod = true
      · rw [if_pos h]; exact .pure
      · rw [if_neg h]; exact hsf _
    | _ => exact hsf _

theorem evalElems_blamed (elem : Nat → V → E W (Out × Bool)) (h : ∀ i v, Blamed P (elem i v)) (i : Nat) (vs : List V) :
    Blamed P (evalElems elem i vs) := by
  induction vs generalizing i with
  | nil => unfold evalElems; exact .pure
  | cons v vs ih =>
    unfold evalElems
    exact Blamed.bind (h i v) (fun _ => Blamed.bind (ih (i + 1)) (fun _ => .pure))

/-- a call: refused arguments, the returned error, the context, then what comes after -/
theorem evalCall_blamed (path : List Seg) (m : Method F) (fn : V) (args : List (Bytes × Value)) (next : V → E W (Out × Bool))
    (hnext : ∀ v, Blamed P (next v))
    (hunb : args ≠ [] → Unbound (ctxOf r) m args → ∀ msg, P (msg, path))
    (hret : ∀ w inputs w1 outs nr e msg, Shows.Inputs (ctxOf r) m args inputs →
      r.env.call w fn (Shows.pathArg path) inputs = some (w1, outs) → m.errorOutNr = some nr → outs[nr]? = some e →
      r.env.errOf w1 e = some msg → P (msg, path))
    (hctx : ∀ w inputs w1 outs msg, Shows.Inputs (ctxOf r) m args inputs →
      r.env.call w fn (Shows.pathArg path) inputs = some (w1, outs) → r.env.ctxErr w1 = some msg → P (msg, path)) :
    Blamed P (evalCall r path m fn args next) := by
  intro es b es' h
  unfold evalCall at h
  obtain ⟨a, es1, h1, h2⟩ := E_bind.1 h
  obtain ⟨n1, k1, k2⟩ := callWith_run r (w := es.world) path m fn args es a es1 rfl h1
  cases a with
  | none =>
    obtain ⟨-, msg, rfl⟩ := k2
    obtain ⟨l1, l2⟩ := callWith_unbound r path m fn args h1
    have e := E_pure.1 h2
    cases e
    exact ⟨_, k1, by simpa using hunb l1 l2 msg⟩
  | some outs =>
    obtain ⟨rfl, inputs, hi, hc⟩ := k2
    rw [List.append_nil] at k1
    dsimp only at h2
    have hres : ∀ es2 : ES W, es2.world = es1.world → ∀ b es', evalResult r path m outs next es2 = some (b, es') →
        ∃ new, es'.errs = es2.errs ++ new ∧ ∀ e ∈ new, P e := by
      intro es2 hw b es' h
      unfold evalResult at h
      obtain ⟨w, es3, h3, h4⟩ := E_bind.1 h
      have e : some (es2.world, es2) = some (w, es3) := h3
      cases e
      rw [hw] at h4
      cases hx : r.env.ctxErr es1.world with
      | some msg =>
        rw [hx] at h4
        exact Blamed.reportThen (hctx _ inputs _ outs msg hi hc hx) es2 b es' h4
      | none =>
        rw [hx] at h4
        dsimp only at h4
        cases ho : outs[m.outNr]? with
        | none => rw [ho] at h4; cases h4
        | some x => rw [ho] at h4; exact hnext x es2 b es' h4
    cases he : m.errorOutNr with
    | none =>
      rw [he] at h2
      dsimp only at h2
      rw [← k1]
      exact hres es1 rfl b es' h2
    | some nr =>
      rw [he] at h2
      dsimp only at h2
      cases ho : outs[nr]? with
      | none => rw [ho] at h2; cases h2
      | some x =>
        rw [ho] at h2
        dsimp only at h2
        obtain ⟨w, es3, h3, h4⟩ := E_bind.1 h2
        have e : some (es1.world, es1) = some (w, es3) := h3
        cases e
        rw [← k1]
        cases hx : r.env.errOf es1.world x with
        | none => rw [hx] at h4; exact hres es1 rfl b es' h4
        | some msg =>
          rw [hx] at h4
          obtain ⟨u, es4, h5, h6⟩ := E_bind.1 h4
          have e : some ((), ({ es1 with errs := es1.errs ++ [(msg, path)] } : ES W)) = some (u, es4) := h5
          cases e
          obtain ⟨new, l1, l2⟩ := hres { es1 with errs := es1.errs ++ [(msg, path)] } rfl b es' h6
          refine ⟨[(msg, path)] ++ new, by rw [l1]; simp, ?_⟩
          intro e he'
          rcases List.mem_append.1 he' with h | h
          · rw [List.mem_singleton.1 h]
            exact hret _ inputs _ outs nr x msg hi hc he ho hx
          · exact l2 e h

/-! ## The evaluation functions -/

/-- errors of selections at `path` -/
def SelsP (path : List Seg) (sels : List Sel) (e : Bytes × List Seg) : Prop :=
  ∃ p sel, e.2 = path ++ p ∧ Leads r.frags sels p sel ∧ Cause (ctxOf r) e.2 sel e.1

theorem SelsP.cons {path : List Seg} {sel : Sel} {rest : List Sel} {e : Bytes × List Seg} (h : SelsP r path rest e) : SelsP r path (sel :: rest) e := by
  obtain ⟨p, s, h1, h2, h3⟩ := h
  refine ⟨p, s, h1, ?_, h3⟩
  cases h2 with
  | field h => exact .field (List.mem_cons_of_mem _ h)
  | spread h => exact .spread (List.mem_cons_of_mem _ h)
  | inline h => exact .inline (List.mem_cons_of_mem _ h)
  | underField h h' => exact .underField (List.mem_cons_of_mem _ h) h'
  | underSpread h h1 h2 h' => exact .underSpread (List.mem_cons_of_mem _ h) h1 h2 h'
  | underInline h h' => exact .underInline (List.mem_cons_of_mem _ h) h'

variable [DecidableEq F]

structure AllBlamed (r : Req F V W) (n : Nat) : Prop where
  sels : ∀ t v dept path room sels, IsObject r.schema t → Blamed (SelsP r path sels) (evalSels r n t v dept path room sels)
  spread : ∀ t v dept path room name dirs, IsObject r.schema t →
    Blamed (SelsP r path [.spread name dirs]) (evalSpread r n t v dept path room name dirs)
  inline : ∀ t v dept path room ty dirs sels, IsObject r.schema t →
    Blamed (SelsP r path [.inline ty dirs sels]) (evalInline r n t v dept path room ty dirs sels)
  field : ∀ t v dept path room key name dirs args sels, IsObject r.schema t →
    Blamed (SelsP r path [.field key name dirs args sels]) (evalField r n t v dept path room key (name.getD key) dirs args sels)
  data : ∀ f o v dept path room key name dirs args args' sels (idxs : List Nat), Resolves (ctxOf r) (name.getD key) f →
    (∀ m, Calls m o → Calls m f.obj) → (args' = args ∨ args' = none) →
    Blamed (SelsP r path [.field key name dirs args sels])
      (evalData r n o v dept (path ++ .key key :: idxs.map .idx) room args' sels)

theorem allBlamed (n : Nat) : AllBlamed r n := by
  induction n with
  | zero =>
    constructor
    · intros; simp only [evalSels]; exact .undefined
    · intros; simp only [evalSpread]; exact .undefined
    · intros; simp only [evalInline]; exact .undefined
    · intros; simp only [evalField]; exact .undefined
    · intros; unfold evalData; exact .undefined
  | succ n ih =>
    constructor
    · -- selections
      intro t v dept path room sels ht
      have one : ∀ sel rest e, SelsP r path [sel] e → SelsP r path (sel :: rest) e := by
        intro sel rest e ⟨p, s, h1, h2, h3⟩
        refine ⟨p, s, h1, ?_, h3⟩
        cases h2 with
        | field h => rw [List.mem_singleton] at h; exact .field (by rw [h]; simp)
        | spread h => rw [List.mem_singleton] at h; exact .spread (by rw [h]; simp)
        | inline h => rw [List.mem_singleton] at h; exact .inline (by rw [h]; simp)
        | underField h h' => rw [List.mem_singleton] at h; exact .underField (by rw [h]; simp) h'
        | underSpread h h1 h2 h' => rw [List.mem_singleton] at h; exact .underSpread (by rw [h]; simp) h1 h2 h'
        | underInline h h' => rw [List.mem_singleton] at h; exact .underInline (by rw [h]; simp) h'
      have tail : ∀ (p : List (Bytes × Out) × Bool) (sel : Sel) (rest : List Sel), Blamed (SelsP r path (sel :: rest)) (do
          if p.2 then return (p.1, true)
          let (ms', crit) ← evalSels r n t v dept path room rest
          return (p.1 ++ ms', crit) : E W (List (Bytes × Out) × Bool)) := by
        intro p sel rest
        by_cases hc : p.2 = true
        · rw [if_pos hc]; exact .pure
        · rw [if_neg hc]
          exact Blamed.bind ((ih.sels t v dept path room rest ht).mono (fun e h => h.cons)) (fun _ => .pure)
      match sels with
      | [] => simp only [evalSels]; exact .pure
      | .field key name dirs args sub :: rest =>
        simp only [evalSels]
        refine Blamed.bind ((ih.field t v dept path room key name dirs args sub ht).mono (one _ rest)) ?_
        rintro ⟨m, c⟩
        exact tail (m.toList, c) _ rest
      | .spread name dirs :: rest =>
        simp only [evalSels]
        refine Blamed.bind ((ih.spread t v dept path room name dirs ht).mono (one _ rest)) ?_
        rintro ⟨m, c⟩
        exact tail (m, c) _ rest
      | .inline ty dirs sub :: rest =>
        simp only [evalSels]
        refine Blamed.bind ((ih.inline t v dept path room ty dirs sub ht).mono (one _ rest)) ?_
        rintro ⟨m, c⟩
        exact tail (m, c) _ rest
    · -- spreads
      intro t v dept path room name dirs ht
      simp only [evalSpread]
      refine Blamed.bind ((evalDirectives_blamed r path 1 dirs dirs (fun _ h => h)).mono ?_) ?_
      · rintro ⟨msg, p⟩ ⟨rfl, h⟩
        exact ⟨[], _, by simp, .spread (List.mem_singleton.2 rfl), .spreadDirective h⟩
      · intro a
        match a with
        | none => exact .pure
        | some true => exact .pure
        | some false =>
          dsimp only
          cases hf : r.frags.find? (fun f => decide (f.name = name)) with
          | none =>
            refine Blamed.reportThen ⟨[], _, by simp, .spread (List.mem_singleton.2 rfl), .unknownFragment ?_⟩
            intro f hm hn
            have := List.find?_eq_none.1 hf f hm
            simp [hn] at this
          | some f =>
            dsimp only
            by_cases h : t.typeName = f.typeName
            · rw [if_pos h]
              refine (ih.sels t v dept path room f.sels ht).mono ?_
              rintro e ⟨p, s, h1, h2, h3⟩
              exact ⟨p, s, h1, .underSpread (List.mem_singleton.2 rfl) (List.mem_of_find?_eq_some hf) (by simpa using List.find?_some hf) h2, h3⟩
            · rw [if_neg h]; exact .pure
    · -- inline fragments
      intro t v dept path room ty dirs sels ht
      simp only [evalInline]
      refine Blamed.bind ((evalDirectives_blamed r path 2 dirs dirs (fun _ h => h)).mono ?_) ?_
      · rintro ⟨msg, p⟩ ⟨rfl, h⟩
        exact ⟨[], _, by simp, .inline (List.mem_singleton.2 rfl), .inlineDirective h⟩
      · intro a
        match a with
        | none => exact .pure
        | some true => exact .pure
        | some false =>
          dsimp only
          by_cases h : t.typeName = ty
          · rw [if_pos h]
            refine (ih.sels t v dept path room sels ht).mono ?_
            rintro e ⟨p, s, h1, h2, h3⟩
            exact ⟨p, s, h1, .underInline (List.mem_singleton.2 rfl) h2, h3⟩
          · rw [if_neg h]; exact .pure
    · -- fields
      intro t v dept path room key name dirs args sels ht
      have here : ∀ msg, Cause (ctxOf r) (path ++ [.key key]) (.field key name dirs args sels) msg →
          SelsP r path [.field key name dirs args sels] (msg, path ++ [.key key]) := by
        intro msg h
        exact ⟨[.key key], _, rfl, .field (idxs := []) (List.mem_singleton.2 rfl), h⟩
      simp only [evalField]
      refine Blamed.bind ((evalDirectives_blamed r _ 0 dirs dirs (fun _ h => h)).mono ?_) ?_
      · rintro ⟨msg, p⟩ ⟨rfl, h⟩
        exact here _ (.fieldDirective h)
      · intro a
        match a with
        | none => exact .pure
        | some true => exact .pure
        | some false =>
          dsimp only
          cases hf : t.fields.find? (fun f => decide (f.key = fnv1 (name.getD key))) with
          | none =>
            dsimp only
            by_cases h1 : name.getD key = b%"__typename"
            · rw [if_pos h1]
              by_cases h2 : (args.isSome || !sels.isEmpty) = true
              · rw [if_pos h2]
                refine Blamed.reportThen (here _ (.selection ?_))
                rcases Bool.or_eq_true_iff.1 h2 with h | h
                · exact Or.inl (by cases args <;> simp_all)
                · exact Or.inr (by cases sels <;> simp_all)
              · rw [if_neg h2]; exact .pure
            · rw [if_neg h1]
              refine Blamed.reportThen (here _ (.unknownField ht ?_))
              intro f hm hk
              have := List.find?_eq_none.1 hf f hm
              simp [hk] at this
          | some f =>
            cases room with
            | zero => exact .undefined
            | succ room =>
              dsimp only
              refine Blamed.bind (valueOfField_blamed r v f) ?_
              intro x
              refine Blamed.bind (ih.data f f.obj x dept path room key name dirs args args sels [] ⟨t, ht, hf⟩ (fun _ h => h) (Or.inl rfl)) ?_
              rintro ⟨o, c⟩
              exact .pure
    · -- values
      intro f o v dept path room key name dirs args args' sels idxs hres hcalls hargs
      have here : ∀ msg, Cause (ctxOf r) (path ++ .key key :: idxs.map .idx) (.field key name dirs args sels) msg →
          SelsP r path [.field key name dirs args sels] (msg, path ++ .key key :: idxs.map .idx) := by
        intro msg h
        exact ⟨.key key :: idxs.map .idx, _, rfl, .field (List.mem_singleton.2 rfl), h⟩
      have hsome : args'.isSome = true → args.isSome = true := by
        rcases hargs with rfl | rfl
        · exact id
        · intro h; cases h
      unfold evalData
      dsimp only
      by_cases ha : (args'.isSome && !takesArgs o) = true
      · rw [if_pos ha]
        refine Blamed.reportThen (here _ ?_)
        have h1 := hsome (Bool.and_eq_true_iff.1 ha).1
        cases args with
        | none => cases h1
        | some args => exact .arguments
      · rw [if_neg ha]
        have hsel : (!(args'.isSome || !sels.isEmpty)) = true → Cause (ctxOf r) (path ++ .key key :: idxs.map .idx) (.field key name dirs args sels) b%"must have a selection" := by
          intro h
          cases sels with
          | nil => exact .noSelection
          | cons s ss => simp at h
        cases o with
        | undefined => exact .pure
        | array inner =>
          refine Blamed.bind .getWorld ?_
          intro w
          cases r.env.view w v with
          | seq vs =>
            cases vs with
            | none => exact .pure
            | some vs =>
              cases room with
              | zero => exact .undefined
              | succ room =>
                dsimp only
                refine Blamed.bind (evalElems_blamed _ ?_ 0 vs) (fun _ => .pure)
                intro i x
                have := ih.data f inner x dept path room key name dirs args args' sels (idxs ++ [i]) hres (fun m h => hcalls m (.array h)) hargs
                rw [List.map_append, List.map_singleton] at this
                rw [List.append_assoc]
                exact this
          | _ => exact .undefined
        | objRef typeName =>
          dsimp only
          by_cases hs : (!(args'.isSome || !sels.isEmpty)) = true
          · rw [if_pos hs]; exact Blamed.reportThen (here _ (hsel hs))
          · rw [if_neg hs]
            cases hl : lookup r.schema.types typeName with
            | none => exact .pure
            | some t =>
              dsimp only
              by_cases hd : dept + 1 = r.schema.maxDepth
              · rw [if_pos hd]; exact Blamed.reportThen (here _ .depth)
              · rw [if_neg hd]
                refine Blamed.bind ((ih.sels t v (dept + 1) _ room sels (Or.inr (Or.inr ⟨_, hl⟩))).mono ?_) (fun _ => .pure)
                rintro e ⟨p, s, h1, h2, h3⟩
                exact ⟨.key key :: idxs.map .idx ++ p, s, by rw [h1]; simp, .underField (List.mem_singleton.2 rfl) h2, h3⟩
        | data isID kind =>
          dsimp only
          by_cases hs : (args'.isSome || !sels.isEmpty) = true
          · rw [if_pos hs]
            refine Blamed.reportThen (here _ (.selection ?_))
            rcases Bool.or_eq_true_iff.1 hs with h | h
            · have := hsome h
              exact Or.inl (by cases args <;> simp_all)
            · exact Or.inr (by cases sels <;> simp_all)
          · rw [if_neg hs]
            refine Blamed.bind .getWorld ?_
            intro w
            cases r.env.view w v with
            | scalar x =>
              dsimp only
              cases dataText r.env isID kind x with
              | none => exact .undefined
              | some t => exact .pure
            | _ => exact .undefined
        | ptr inner =>
          refine Blamed.bind .getWorld ?_
          intro w
          cases r.env.view w v with
          | ptr x =>
            cases x with
            | none => exact .pure
            | some x => exact ih.data f inner x dept path room key name dirs args args' sels idxs hres (fun m h => hcalls m (.ptr h)) hargs
          | _ => exact .undefined
        | method m out =>
          dsimp only
          have hcall := hcalls m .here
          have hargs' : args'.getD [] = args.getD [] ∨ args'.getD [] = [] := by
            rcases hargs with rfl | rfl
            · exact Or.inl rfl
            · exact Or.inr rfl
          have hc := evalCall_blamed r (P := SelsP r path [.field key name dirs args sels]) (path ++ .key key :: idxs.map .idx) m v (args'.getD [])
            (fun x => evalData r n out x dept (path ++ .key key :: idxs.map .idx) room none sels)
            (fun x => ih.data f out x dept path room key name dirs args none sels idxs hres (fun m h => hcalls m (.result h)) (Or.inr rfl))
            (by
              intro h1 h2 msg
              refine here _ ?_
              rcases hargs with rfl | rfl
              · cases args' with
                | none => exact absurd rfl h1
                | some args => exact .unbound hres hcall h2
              · exact absurd rfl h1)
            (by
              intro w inputs w1 outs nr e msg h1 h2 h3 h4 h5
              exact here _ (.returned hres hcall hargs' h1 h2 h3 h4 h5))
            (by
              intro w inputs w1 outs msg h1 h2 h3
              exact here _ (.cancelled hres hcall hargs' h1 h2 h3))
          by_cases hm : (!m.isTypeMethod) = true
          · rw [if_pos hm]
            refine Blamed.bind .getWorld ?_
            intro w
            cases r.env.view w v with
            | func b =>
              cases b with
              | true => exact .pure
              | false => exact hc
            | _ => exact .undefined
          · rw [if_neg hm]
            exact hc
        | enum idx =>
          dsimp only
          cases r.schema.enums[idx]? with
          | none => exact .undefined
          | some e =>
            dsimp only
            refine Blamed.bind .getWorld ?_
            intro w
            cases r.env.view w v with
            | scalar x =>
              dsimp only
              match enumKey e x with
              | none => exact .undefined
              | some none => exact .pure
              | some (some k) => exact .pure
            | _ => exact .undefined
        | time =>
          refine Blamed.bind .getWorld ?_
          intro w
          cases r.env.view w v <;> exact .pure
        | interfaceRef typeName =>
          dsimp only
          by_cases hs : (!(args'.isSome || !sels.isEmpty)) = true
          · rw [if_pos hs]; exact Blamed.reportThen (here _ (hsel hs))
          · rw [if_neg hs]
            cases lookup r.schema.interfaces typeName with
            | none => exact .pure
            | some impls =>
              dsimp only
              refine Blamed.bind .getWorld ?_
              intro w
              cases r.env.view w v with
              | iface x =>
                match x with
                | none => exact .pure
                | some (g, p, x) =>
                  cases room with
                  | zero => exact .undefined
                  | succ room =>
                    dsimp only
                    cases impls.find? (fun i => decide (i.goTypeName = g ∧ i.goPkgPath = p)) with
                    | none => exact .pure
                    | some i => exact ih.data f _ x (dept + 1) path room key name dirs args args' sels idxs hres (fun m h => by cases h) hargs
              | _ => exact .undefined

theorem evalOperation_blamed (fuel : Nat) (o : Operation) : Blamed (Blame.Operation (ctxOf r) o) (evalOperation r fuel o) := by
  have sels : ∀ t v, IsObject r.schema t → Blamed (Blame.Operation (ctxOf r) o) (evalSels r fuel t v 0 [] 255 o.sels) := by
    intro t v ht
    refine ((allBlamed r fuel).sels t v 0 [] 255 o.sels ht).mono ?_
    rintro ⟨msg, p⟩ ⟨q, s, h1, h2, h3⟩
    have h1 : p = q := by simpa using h1
    subst h1
    exact .selection h2 h3
  unfold evalOperation
  cases hk : o.kind with
  | subscription => exact Blamed.reportThen (.subscription hk)
  | query =>
    dsimp only
    by_cases hd : o.dirs ≠ []
    · rw [if_pos hd]; exact Blamed.reportThen (.directives hd)
    · rw [if_neg hd]; exact Blamed.bind (sels _ _ (Or.inl rfl)) (fun _ => .pure)
  | mutation =>
    dsimp only
    by_cases hd : o.dirs ≠ []
    · rw [if_pos hd]; exact Blamed.reportThen (.directives hd)
    · rw [if_neg hd]; exact Blamed.bind (sels _ _ (Or.inr (Or.inl rfl))) (fun _ => .pure)

end
end Eval
end Yarql
