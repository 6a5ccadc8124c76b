import Verif.Proofs.Blame
import Verif.Spec.CallsMade

/-! # Every call an evaluation makes is owed to a selection, and gets the arguments written there -/

namespace Yarql
namespace Eval
open Doc Resolver Yarql.Bind Binding Blame CallsMade

section
variable {F V W α β : Type}

theorem History.append {env : Env F V W} {w w1 w2 : W} {a b : List (Call F V)} (h1 : History env w a w1) (h2 : History env w1 b w2) :
    History env w (a ++ b) w2 := by
  induction h1 with
  | nil => exact h2
  | cons hc _ ih => exact .cons hc (ih h2)

/-- the world changes by calls that satisfy `P` only -/
def Made (env : Env F V W) (P : Call F V → Prop) (m : E W α) : Prop :=
  ∀ es a es', m es = some (a, es') → ∃ calls, History env es.world calls es'.world ∧ ∀ c ∈ calls, P c

variable {env : Env F V W} {P : Call F V → Prop}

theorem Made.mono {Q : Call F V → Prop} {m : E W α} (h : Made env Q m) (hq : ∀ e, Q e → P e) : Made env P m := by
  intro es a es' hm
  obtain ⟨new, h1, h2⟩ := h es a es' hm
  exact ⟨new, h1, fun e he => hq e (h2 e he)⟩

theorem Made.quiet {m : E W α} (h : ∀ es a es', m es = some (a, es') → es'.world = es.world) : Made env P m := by
  intro es a es' hm
  exact ⟨[], by rw [h es a es' hm]; exact .nil, by simp⟩

theorem Made.pure {a : α} : Made env P (Pure.pure a : E W α) := by
  refine .quiet ?_
  intro es b es' hm
  have e := E_pure.1 hm
  cases e
  rfl

theorem Made.undefined : Made env P (undefinedE (α := α)) := by
  intro es b es' hm
  cases hm

theorem Made.bind {m : E W α} {f : α → E W β} (hm : Made env P m) (hf : ∀ a, Made env P (f a)) : Made env P (m >>= f) := by
  intro es b es' h
  obtain ⟨a, es1, h1, h2⟩ := E_bind.1 h
  obtain ⟨n1, k1, k2⟩ := hm es a es1 h1
  obtain ⟨n2, l1, l2⟩ := hf a es1 b es' h2
  refine ⟨n1 ++ n2, History.append k1 l1, ?_⟩
  intro e he
  rcases List.mem_append.1 he with h | h
  · exact k2 e h
  · exact l2 e h

theorem Made.getWorld : Made env P (Eval.getWorld (W := W)) := by
  refine .quiet ?_
  intro es a es' hm
  have e : some (es.world, es) = some (a, es') := hm
  cases e
  rfl

theorem Made.report {path : List Seg} {msg : Bytes} : Made env P (Eval.report path msg) := by
  refine .quiet ?_
  intro es b es' hm
  have e1 : Option.some ((), ({ es with errs := es.errs ++ [(msg, path)] } : ES W)) = Option.some (b, es') := hm
  cases e1
  rfl

theorem Made.reportThen {path : List Seg} {msg : Bytes} {b : β} : Made env P (Eval.report path msg >>= fun _ => Pure.pure b) :=
  Made.report.bind (fun _ => .pure)

variable (r : Req F V W)

theorem callWith_made (path : List Seg) (m : Method F) (fn : V) (args : List (Bytes × Value))
    (h : ∀ inputs, Shows.Inputs (ctxOf r) m args inputs → P ⟨fn, Shows.pathArg path, inputs⟩) : Made r.env P (callWith r path m fn args) := by
  intro es a es' hm
  obtain ⟨new, h1, h2⟩ := callWith_run r (w := es.world) path m fn args es a es' rfl hm
  cases a with
  | none => exact ⟨[], by rw [h2.1]; exact .nil, by simp⟩
  | some outs =>
    obtain ⟨-, inputs, hi, hc⟩ := h2
    exact ⟨[⟨fn, Shows.pathArg path, inputs⟩], .cons hc .nil, by simpa using h inputs hi⟩

theorem evalDirectives_made (path : List Seg) (loc : UInt8) (all ds : List Directive) (hs : ∀ d ∈ ds, d ∈ all)
    (h : ∀ d ∈ all, ∀ table x inputs, lookup r.schema.directives loc = some table → table.find? (fun x => x.name = d.name) = some x →
      Shows.Inputs (ctxOf r) x.method (d.args.getD []) inputs → P ⟨x.func, Shows.pathArg path, inputs⟩) :
    Made r.env P (evalDirectives r path loc ds) := by
  induction ds with
  | nil => unfold evalDirectives; exact .pure
  | cons d ds ih =>
    unfold evalDirectives
    refine Made.bind ?_ ?_
    · unfold evalDirective
      cases hb : (lookup r.schema.directives loc).bind (fun ds => ds.find? (fun x => decide (x.name = d.name))) with
      | none =>
        dsimp only
        unfold fail
        exact Made.reportThen
      | some x =>
        obtain ⟨table, ht, hx⟩ := Option.bind_eq_some_iff.1 hb
        dsimp only
        refine Made.bind (callWith_made r path x.method x.func _ (fun inputs hi => h d (hs d (by simp)) table x inputs ht hx hi)) ?_
        · intro a
          cases a with
          | none => exact .pure
          | some outs =>
            dsimp only
            cases outs[0]? with
            | none => exact .undefined
            | some o => exact Made.bind .getWorld (fun _ => .pure)
    · intro a
      match a with
      | none => exact .pure
      | some true => exact .pure
      | some false => exact ih (fun d hd => hs d (List.mem_cons_of_mem _ hd))

theorem valueOfField_made (v : V) (f : RField F V) : Made env P (valueOfField r v f) := by
  have hsf : ∀ i, Made env P (structField r v i) := by
    intro i
    unfold structField
    refine Made.bind .getWorld ?_
    intro w
    cases r.env.view w v with
    | struct fs =>
      dsimp only
      cases fs[i]? with
      | none => exact .undefined
      | some x => exact .pure
    | _ => exact .undefined
  unfold valueOfField
  cases f.customObjValue with
  | some x => exact .pure
  | none =>
    dsimp only
    cases f.obj with
    | method m o =>
      dsimp only
      by_cases h : m.isTypeMethod = true
      · rw [if_pos h]; exact .pure
      · rw [if_neg h]; exact hsf _
    | _ => exact hsf _

theorem evalElems_made (elem : Nat → V → E W (Out × Bool)) (h : ∀ i v, Made env P (elem i v)) (i : Nat) (vs : List V) :
    Made env P (evalElems elem i vs) := by
  induction vs generalizing i with
  | nil => unfold evalElems; exact .pure
  | cons v vs ih =>
    unfold evalElems
    exact Made.bind (h i v) (fun _ => Made.bind (ih (i + 1)) (fun _ => .pure))

theorem evalResult_made (path : List Seg) (m : Method F) (outs : List V) (next : V → E W (Out × Bool)) (hnext : ∀ v, Made env P (next v)) :
    Made env P (evalResult r path m outs next) := by
  unfold evalResult
  refine Made.bind .getWorld ?_
  intro w
  cases r.env.ctxErr w with
  | some msg => exact Made.reportThen
  | none =>
    dsimp only
    cases outs[m.outNr]? with
    | none => exact .undefined
    | some x => exact hnext x

theorem evalCall_made (path : List Seg) (m : Method F) (fn : V) (args : List (Bytes × Value)) (next : V → E W (Out × Bool))
    (hnext : ∀ v, Made r.env P (next v)) (h : ∀ inputs, Shows.Inputs (ctxOf r) m args inputs → P ⟨fn, Shows.pathArg path, inputs⟩) :
    Made r.env P (evalCall r path m fn args next) := by
  unfold evalCall
  refine Made.bind (callWith_made r path m fn args h) ?_
  intro a
  cases a with
  | none => exact .pure
  | some outs =>
    dsimp only
    cases m.errorOutNr with
    | none => exact evalResult_made r path m outs next hnext
    | some nr =>
      dsimp only
      cases outs[nr]? with
      | none => exact .undefined
      | some e =>
        dsimp only
        refine Made.bind .getWorld ?_
        intro w
        cases r.env.errOf w e with
        | none => exact evalResult_made r path m outs next hnext
        | some msg => exact Made.bind .report (fun _ => evalResult_made r path m outs next hnext)

/-- a call owed to a selection below `path`, with the inputs it was given -/
def SelsC (path : List Seg) (sels : List Sel) (c : Call F V) : Prop :=
  ∃ p sel m args, Leads r.frags sels p sel ∧ For (ctxOf r) (path ++ p) c sel m args ∧ Shows.Inputs (ctxOf r) m args c.inputs

theorem SelsC.sub {path : List Seg} {sels sels' : List Sel} {c : Call F V} (h : SelsC r path sels c) (hs : ∀ x ∈ sels, x ∈ sels') :
    SelsC r path sels' c := by
  obtain ⟨p, s, m, args, h2, h3⟩ := h
  refine ⟨p, s, m, args, ?_, h3⟩
  cases h2 with
  | field h => exact .field (hs _ h)
  | spread h => exact .spread (hs _ h)
  | inline h => exact .inline (hs _ h)
  | underField h h' => exact .underField (hs _ h) h'
  | underSpread h h1 h2 h' => exact .underSpread (hs _ h) h1 h2 h'
  | underInline h h' => exact .underInline (hs _ h) h'

variable [DecidableEq F]

structure AllMade (r : Req F V W) (n : Nat) : Prop where
  sels : ∀ t v dept path room sels, IsObject r.schema t → Made r.env (SelsC r path sels) (evalSels r n t v dept path room sels)
  spread : ∀ t v dept path room name dirs, IsObject r.schema t →
    Made r.env (SelsC r path [.spread name dirs]) (evalSpread r n t v dept path room name dirs)
  inline : ∀ t v dept path room ty dirs sels, IsObject r.schema t →
    Made r.env (SelsC r path [.inline ty dirs sels]) (evalInline r n t v dept path room ty dirs sels)
  field : ∀ t v dept path room key name dirs args sels, IsObject r.schema t →
    Made r.env (SelsC r path [.field key name dirs args sels]) (evalField r n t v dept path room key (name.getD key) dirs args sels)
  data : ∀ f o v dept path room key name dirs args args' sels (idxs : List Nat), Resolves (ctxOf r) (name.getD key) f →
    (∀ m as, Callee args' o m as → Callee args f.obj m as) →
    Made r.env (SelsC r path [.field key name dirs args sels])
      (evalData r n o v dept (path ++ .key key :: idxs.map .idx) room args' sels)

theorem allMade (n : Nat) : AllMade r n := by
  induction n with
  | zero =>
    constructor
    · intros; simp only [evalSels]; exact .undefined
    · intros; simp only [evalSpread]; exact .undefined
    · intros; simp only [evalInline]; exact .undefined
    · intros; simp only [evalField]; exact .undefined
    · intros; unfold evalData; exact .undefined
  | succ n ih =>
    constructor
    · -- selections
      intro t v dept path room sels ht
      have one : ∀ sel rest e, SelsC r path [sel] e → SelsC r path (sel :: rest) e := by
        intro sel rest e h
        exact h.sub r (fun x hx => by rw [List.mem_singleton] at hx; simp [hx])
      have tail : ∀ (p : List (Bytes × Out) × Bool) (sel : Sel) (rest : List Sel), Made r.env (SelsC r path (sel :: rest)) (do
          if p.2 then return (p.1, true)
          let (ms', crit) ← evalSels r n t v dept path room rest
          return (p.1 ++ ms', crit) : E W (List (Bytes × Out) × Bool)) := by
        intro p sel rest
        by_cases hc : p.2 = true
        · rw [if_pos hc]; exact .pure
        · rw [if_neg hc]
          exact Made.bind ((ih.sels t v dept path room rest ht).mono (fun e h => h.sub r (fun x hx => List.mem_cons_of_mem _ hx)))
            (fun _ => .pure)
      match sels with
      | [] => simp only [evalSels]; exact .pure
      | .field key name dirs args sub :: rest =>
        simp only [evalSels]
        refine Made.bind ((ih.field t v dept path room key name dirs args sub ht).mono (one _ rest)) ?_
        rintro ⟨m, c⟩
        exact tail (m.toList, c) _ rest
      | .spread name dirs :: rest =>
        simp only [evalSels]
        refine Made.bind ((ih.spread t v dept path room name dirs ht).mono (one _ rest)) ?_
        rintro ⟨m, c⟩
        exact tail (m, c) _ rest
      | .inline ty dirs sub :: rest =>
        simp only [evalSels]
        refine Made.bind ((ih.inline t v dept path room ty dirs sub ht).mono (one _ rest)) ?_
        rintro ⟨m, c⟩
        exact tail (m, c) _ rest
    · -- spreads
      intro t v dept path room name dirs ht
      simp only [evalSpread]
      refine Made.bind (evalDirectives_made r path 1 dirs dirs (fun _ h => h) ?_) ?_
      · intro d hd table x inputs h1 h2 h3
        exact ⟨[], _, _, _, .spread (List.mem_singleton.2 rfl), .directive (ds := dirs) ⟨rfl, rfl⟩ hd h1 h2 rfl (by simp), h3⟩
      · intro a
        match a with
        | none => exact .pure
        | some true => exact .pure
        | some false =>
          dsimp only
          cases hf : r.frags.find? (fun f => decide (f.name = name)) with
          | none => exact Made.reportThen
          | some f =>
            dsimp only
            by_cases h : t.typeName = f.typeName
            · rw [if_pos h]
              refine (ih.sels t v dept path room f.sels ht).mono ?_
              rintro e ⟨p, s, m, as, h2, h3⟩
              exact ⟨p, s, m, as, .underSpread (List.mem_singleton.2 rfl) (List.mem_of_find?_eq_some hf) (by simpa using List.find?_some hf) h2, h3⟩
            · rw [if_neg h]; exact .pure
    · -- inline fragments
      intro t v dept path room ty dirs sels ht
      simp only [evalInline]
      refine Made.bind (evalDirectives_made r path 2 dirs dirs (fun _ h => h) ?_) ?_
      · intro d hd table x inputs h1 h2 h3
        exact ⟨[], _, _, _, .inline (List.mem_singleton.2 rfl), .directive (ds := dirs) ⟨rfl, rfl⟩ hd h1 h2 rfl (by simp), h3⟩
      · intro a
        match a with
        | none => exact .pure
        | some true => exact .pure
        | some false =>
          dsimp only
          by_cases h : t.typeName = ty
          · rw [if_pos h]
            refine (ih.sels t v dept path room sels ht).mono ?_
            rintro e ⟨p, s, m, as, h2, h3⟩
            exact ⟨p, s, m, as, .underInline (List.mem_singleton.2 rfl) h2, h3⟩
          · rw [if_neg h]; exact .pure
    · -- fields
      intro t v dept path room key name dirs args sels ht
      simp only [evalField]
      refine Made.bind (evalDirectives_made r _ 0 dirs dirs (fun _ h => h) ?_) ?_
      · intro d hd table x inputs h1 h2 h3
        exact ⟨[.key key], _, _, _, .field (idxs := []) (List.mem_singleton.2 rfl), .directive (ds := dirs) ⟨rfl, rfl⟩ hd h1 h2 rfl rfl, h3⟩
      · intro a
        match a with
        | none => exact .pure
        | some true => exact .pure
        | some false =>
          dsimp only
          cases hf : t.fields.find? (fun f => decide (f.key = fnv1 (name.getD key))) with
          | none =>
            dsimp only
            by_cases h1 : name.getD key = b%"__typename"
            · rw [if_pos h1]
              by_cases h2 : (args.isSome || !sels.isEmpty) = true
              · rw [if_pos h2]
                exact Made.reportThen
              · rw [if_neg h2]; exact .pure
            · rw [if_neg h1]
              exact Made.reportThen
          | some f =>
            cases room with
            | zero => exact .undefined
            | succ room =>
              dsimp only
              refine Made.bind (valueOfField_made r v f) ?_
              intro x
              refine Made.bind (ih.data f f.obj x dept path room key name dirs args args sels [] ⟨t, ht, hf⟩ (fun _ _ h => h)) ?_
              rintro ⟨o, c⟩
              exact .pure
    · -- values
      intro f o v dept path room key name dirs args args' sels idxs hres hcalls
      unfold evalData
      dsimp only
      by_cases ha : (args'.isSome && !takesArgs o) = true
      · rw [if_pos ha]
        exact Made.reportThen
      · rw [if_neg ha]
        cases o with
        | undefined => exact .pure
        | array inner =>
          have hnone : args' = none := by
            cases args' with
            | none => rfl
            | some a => simp [takesArgs] at ha
          subst hnone
          refine Made.bind .getWorld ?_
          intro w
          cases r.env.view w v with
          | seq vs =>
            cases vs with
            | none => exact .pure
            | some vs =>
              cases room with
              | zero => exact .undefined
              | succ room =>
                dsimp only
                refine Made.bind (evalElems_made _ ?_ 0 vs) (fun _ => .pure)
                intro i x
                have := ih.data f inner x dept path room key name dirs args none sels (idxs ++ [i]) hres (fun m as h => hcalls m as (.elem h))
                rw [List.map_append, List.map_singleton] at this
                rw [List.append_assoc]
                exact this
          | _ => exact .undefined
        | objRef typeName =>
          dsimp only
          by_cases hs : (!(args'.isSome || !sels.isEmpty)) = true
          · rw [if_pos hs]; exact Made.reportThen
          · rw [if_neg hs]
            cases hl : lookup r.schema.types typeName with
            | none => exact .pure
            | some t =>
              dsimp only
              by_cases hd : dept + 1 = r.schema.maxDepth
              · rw [if_pos hd]; exact Made.reportThen
              · rw [if_neg hd]
                refine Made.bind ((ih.sels t v (dept + 1) _ room sels (Or.inr (Or.inr ⟨_, hl⟩))).mono ?_) (fun _ => .pure)
                rintro e ⟨p, s, m, as, h2, h3, h4⟩
                rw [List.append_assoc] at h3
                exact ⟨.key key :: idxs.map .idx ++ p, s, m, as, .underField (List.mem_singleton.2 rfl) h2, h3, h4⟩
        | data isID kind =>
          dsimp only
          by_cases hs : (args'.isSome || !sels.isEmpty) = true
          · rw [if_pos hs]
            exact Made.reportThen
          · rw [if_neg hs]
            refine Made.bind .getWorld ?_
            intro w
            cases r.env.view w v with
            | scalar x =>
              dsimp only
              cases dataText r.env isID kind x with
              | none => exact .undefined
              | some t => exact .pure
            | _ => exact .undefined
        | ptr inner =>
          refine Made.bind .getWorld ?_
          intro w
          cases r.env.view w v with
          | ptr x =>
            cases x with
            | none => exact .pure
            | some x => exact ih.data f inner x dept path room key name dirs args args' sels idxs hres (fun m as h => hcalls m as (.ptr h))
          | _ => exact .undefined
        | method m out =>
          dsimp only
          have hc := evalCall_made r (P := SelsC r path [.field key name dirs args sels]) (path ++ .key key :: idxs.map .idx) m v (args'.getD [])
            (fun x => evalData r n out x dept (path ++ .key key :: idxs.map .idx) room none sels)
            (fun x => ih.data f out x dept path room key name dirs args none sels idxs hres (fun m as h => hcalls m as (.result h)))
            (fun inputs hi => ⟨.key key :: idxs.map .idx, _, m, _, .field (List.mem_singleton.2 rfl), .field hres (hcalls m _ .here) rfl, hi⟩)
          by_cases hm : (!m.isTypeMethod) = true
          · rw [if_pos hm]
            refine Made.bind .getWorld ?_
            intro w
            cases r.env.view w v with
            | func b =>
              cases b with
              | true => exact .pure
              | false => exact hc
            | _ => exact .undefined
          · rw [if_neg hm]
            exact hc
        | enum idx =>
          dsimp only
          cases r.schema.enums[idx]? with
          | none => exact .undefined
          | some e =>
            dsimp only
            refine Made.bind .getWorld ?_
            intro w
            cases r.env.view w v with
            | scalar x =>
              dsimp only
              match enumKey e x with
              | none => exact .undefined
              | some none => exact .pure
              | some (some k) => exact .pure
            | _ => exact .undefined
        | time =>
          refine Made.bind .getWorld ?_
          intro w
          cases r.env.view w v <;> exact .pure
        | interfaceRef typeName =>
          dsimp only
          by_cases hs : (!(args'.isSome || !sels.isEmpty)) = true
          · rw [if_pos hs]; exact Made.reportThen
          · rw [if_neg hs]
            cases lookup r.schema.interfaces typeName with
            | none => exact .pure
            | some impls =>
              dsimp only
              refine Made.bind .getWorld ?_
              intro w
              cases r.env.view w v with
              | iface x =>
                match x with
                | none => exact .pure
                | some (g, p, x) =>
                  cases room with
                  | zero => exact .undefined
                  | succ room =>
                    dsimp only
                    cases impls.find? (fun i => decide (i.goTypeName = g ∧ i.goPkgPath = p)) with
                    | none => exact .pure
                    | some i => exact ih.data f _ x (dept + 1) path room key name dirs args args' sels idxs hres (fun m as h => by cases h)
              | _ => exact .undefined

/-- the calls of an operation -/
theorem evalOperation_made (fuel : Nat) (o : Operation) :
    Made r.env (fun c => ∃ m args, Due (ctxOf r) o c m args ∧ Shows.Inputs (ctxOf r) m args c.inputs) (evalOperation r fuel o) := by
  have sels : ∀ t v, IsObject r.schema t → Made r.env (fun c => ∃ m args, Due (ctxOf r) o c m args ∧ Shows.Inputs (ctxOf r) m args c.inputs)
      (evalSels r fuel t v 0 [] 255 o.sels) := by
    intro t v ht
    refine ((allMade r fuel).sels t v 0 [] 255 o.sels ht).mono ?_
    rintro c ⟨q, s, m, args, h2, h3, h4⟩
    rw [List.nil_append] at h3
    exact ⟨m, args, ⟨q, s, h2, h3⟩, h4⟩
  unfold evalOperation
  cases hk : o.kind with
  | subscription => exact Made.reportThen
  | query =>
    dsimp only
    by_cases hd : o.dirs ≠ []
    · rw [if_pos hd]; exact Made.reportThen
    · rw [if_neg hd]; exact Made.bind (sels _ _ (Or.inl rfl)) (fun _ => .pure)
  | mutation =>
    dsimp only
    by_cases hd : o.dirs ≠ []
    · rw [if_pos hd]; exact Made.reportThen
    · rw [if_neg hd]; exact Made.bind (sels _ _ (Or.inr (Or.inl rfl))) (fun _ => .pure)

/-! ## What the inputs hold -/

omit [DecidableEq F] in
theorem holds_set {inputs inputs' : List (Arg F)} {a : ArgField} {old x : InVal F} (h : WithArg inputs a old x inputs') :
    Holds inputs a old ∧ Holds inputs' a x ∧
    ∀ b : ArgField, ¬ (a.inputIdx = b.inputIdx ∧ a.goFieldIdx = b.goFieldIdx) → ∀ y, Holds inputs b y ↔ Holds inputs' b y := by
  obtain ⟨v, v', h1, ⟨vs, rfl, h2, rfl⟩, rfl⟩ := h
  obtain ⟨hl1, -⟩ := List.getElem?_eq_some_iff.1 h1
  obtain ⟨hl2, -⟩ := List.getElem?_eq_some_iff.1 h2
  refine ⟨⟨vs, h1, h2⟩, ⟨vs.set a.goFieldIdx x, ?_, ?_⟩, ?_⟩
  · rw [List.getElem?_set_self hl1]
  · rw [List.getElem?_set_self hl2]
  · intro b hb y
    by_cases hi : a.inputIdx = b.inputIdx
    · have hg : a.goFieldIdx ≠ b.goFieldIdx := fun h => hb ⟨hi, h⟩
      constructor
      · rintro ⟨us, k1, k2⟩
        rw [← hi, h1] at k1
        cases k1
        exact ⟨_, by rw [← hi, List.getElem?_set_self hl1], by rw [List.getElem?_set_ne hg]; exact k2⟩
      · rintro ⟨us, k1, k2⟩
        rw [← hi, List.getElem?_set_self hl1] at k1
        cases k1
        rw [List.getElem?_set_ne hg] at k2
        exact ⟨_, by rw [← hi]; exact h1, k2⟩
    · constructor
      · rintro ⟨us, k1, k2⟩
        exact ⟨us, by rw [List.getElem?_set_ne hi]; exact k1, k2⟩
      · rintro ⟨us, k1, k2⟩
        rw [List.getElem?_set_ne hi] at k1
        exact ⟨us, k1, k2⟩

omit [DecidableEq F] in
/-- arguments fill the parameters they name and no others -/
theorem args_given {enums : List (EnumDef F)} {inTypes : List (Bytes × InStruct F)} {var : Bytes → Input → InVal F → InVal F → Bool → Prop}
    {m : Method F} (hsep : Separate m) {args : List (Bytes × Value)} {inputs inputs' : List (Arg F)}
    (h : Args env enums inTypes var m.inFields args inputs inputs') :
    (args.map (·.1)).Nodup →
    (∀ k v, (k, v) ∈ args → ∃ a ∈ m.inFields, a.key = k) ∧
    (∀ k v a, (k, v) ∈ args → m.inFields.find? (fun a => a.key = k) = some a → ∃ old x set, Holds inputs a old ∧
      Lit env enums inTypes var v a.input old x set ∧ Holds inputs' a x) ∧
    (∀ a ∈ m.inFields, a.key ∉ args.map (·.1) → ∀ y, Holds inputs a y ↔ Holds inputs' a y) := by
  induction h with
  | nil => intro _; exact ⟨by simp, by simp, fun _ _ _ _ => Iff.rfl⟩
  | @cons k v rest inputs a old x set inputs1 inputs2 hf hl hw _ ih =>
    intro hn
    rw [List.map_cons, List.nodup_cons] at hn
    obtain ⟨i1, i2, i3⟩ := ih hn.2
    obtain ⟨w1, w2, w3⟩ := holds_set hw
    have ha := List.mem_of_find?_eq_some hf
    have hk : a.key = k := by simpa using List.find?_some hf
    refine ⟨?_, ?_, ?_⟩
    · intro k' v' hm
      rcases List.mem_cons.1 hm with e | hm
      · cases e; exact ⟨a, ha, hk⟩
      · exact i1 k' v' hm
    · intro k' v' b hm hb
      rcases List.mem_cons.1 hm with e | hm
      · cases e
        rw [hf] at hb
        cases hb
        exact ⟨old, x, set, w1, hl, (i3 a ha (by rw [hk]; exact hn.1) x).1 w2⟩
      · obtain ⟨old', x', set', j1, j2, j3⟩ := i2 k' v' b hm hb
        have hbk : b.key = k' := by simpa using List.find?_some hb
        refine ⟨old', x', set', (w3 b ?_ old').2 j1, j2, j3⟩
        rintro ⟨e1, e2⟩
        have := hsep a ha b (List.mem_of_find?_eq_some hb) e1 e2
        rw [hk, hbk] at this
        subst this
        exact hn.1 (List.mem_map_of_mem (f := (·.1)) hm)
    · intro b hb hnb y
      rw [List.map_cons, List.mem_cons, not_or] at hnb
      rw [← i3 b hb hnb.2 y]
      refine w3 b ?_ y
      rintro ⟨e1, e2⟩
      exact hnb.1 (by rw [← hsep a ha b hb e1 e2, hk])

omit [DecidableEq F] in
theorem inputs_given {c : Shows.Ctx F V W} {m : Method F} (hsep : Separate m) {args : List (Bytes × Value)} {inputs : List (Arg F)}
    (h : Shows.Inputs c m args inputs) (hn : (args.map (·.1)).Nodup) : Given c m args inputs := by
  obtain ⟨h1, h2, h3⟩ := args_given hsep h hn
  exact ⟨h1, h2, fun a ha hk zero hz => (h3 a ha hk zero).1 hz⟩

end
end Eval
end Yarql
