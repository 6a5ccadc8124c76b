import Verif.Proofs.EvalErrs
import Verif.Spec.Shows

/-! # Reasoning about evaluation steps: result, world and new errors -/

namespace Yarql
namespace Eval
open Doc Resolver Yarql.Bind Binding

section
variable {F V W α β : Type}

/-- From the world `w`, a step that is defined appends errors `new` and ends with a result and world satisfying `Q`. -/
def Run (w : W) (m : E W α) (Q : α → W → List (Bytes × List Seg) → Prop) : Prop :=
  ∀ es a es', es.world = w → m es = some (a, es') → ∃ new, es'.errs = es.errs ++ new ∧ Q a es'.world new

variable {w : W} {Q : α → W → List (Bytes × List Seg) → Prop}

theorem Run.mono {m : E W α} {Q' : α → W → List (Bytes × List Seg) → Prop} (h : Run w m Q') (hq : ∀ a w' n, Q' a w' n → Q a w' n) : Run w m Q := by
  intro es a es' hw hm
  obtain ⟨new, h1, h2⟩ := h es a es' hw hm
  exact ⟨new, h1, hq _ _ _ h2⟩

theorem Run.bind {m : E W α} {f : α → E W β} {Q : β → W → List (Bytes × List Seg) → Prop}
    (h : Run w m (fun a w1 n1 => Run w1 (f a) (fun b w2 n2 => Q b w2 (n1 ++ n2)))) : Run w (m >>= f) Q := by
  intro es b es' hw hm
  obtain ⟨a, es1, h1, h2⟩ := E_bind.1 hm
  obtain ⟨n1, k1, k2⟩ := h es a es1 hw h1
  obtain ⟨n2, l1, l2⟩ := k2 es1 b es' rfl h2
  exact ⟨n1 ++ n2, by rw [l1, k1, List.append_assoc], l2⟩

theorem Run.pure {a : α} (h : Q a w []) : Run w (Pure.pure a) Q := by
  intro es b es' hw hm
  have e := E_pure.1 hm
  cases e
  subst hw
  exact ⟨[], by simp, h⟩

theorem Run.undefined : Run w (undefinedE (α := α)) Q := by
  intro es b es' hw hm
  cases hm

theorem Run.report {path : List Seg} {msg : Bytes} {Q : Unit → W → List (Bytes × List Seg) → Prop} (h : Q () w [(msg, path)]) :
    Run w (Eval.report path msg) Q := by
  intro es b es' hw hm
  have e1 : Option.some ((), ({ es with errs := es.errs ++ [(msg, path)] } : ES W)) = Option.some (b, es') := hm
  cases e1
  subst hw
  exact ⟨_, rfl, h⟩

theorem Run.getWorld {f : W → E W β} {Q : β → W → List (Bytes × List Seg) → Prop} (h : Run w (f w) Q) : Run w (Eval.getWorld >>= f) Q := by
  refine Run.bind ?_
  intro es b es' hw hm
  have e1 : Option.some (es.world, es) = Option.some (b, es') := hm
  cases e1
  subst hw
  exact ⟨[], by simp, by simpa using h⟩

theorem Run.setWorld {w1 : W} {f : Unit → E W β} {Q : β → W → List (Bytes × List Seg) → Prop} (h : Run w1 (f ()) Q) :
    Run w (Eval.setWorld w1 >>= f) Q := by
  refine Run.bind ?_
  intro es b es' hw hm
  have e1 : Option.some ((), ({ es with world := w1 } : ES W)) = Option.some (b, es') := hm
  cases e1
  exact ⟨[], by simp, by simpa using h⟩

/-- a report followed by a return -/
theorem Run.reportThen {path : List Seg} {msg : Bytes} {b : β} {Q : β → W → List (Bytes × List Seg) → Prop} (h : Q b w [(msg, path)]) :
    Run w (Eval.report path msg >>= fun _ => Pure.pure b) Q :=
  Run.bind (Run.report (Run.pure (by simpa using h)))

theorem Run.ofDelivers {path : List Seg} {m : E W (Option α)} {P : α → Prop} (h : Delivers path m P) :
    Run w m (fun a w' new => w' = w ∧ match a with | some a => P a ∧ new = [] | none => ∃ msg, new = [(msg, path)]) := by
  intro es a es' hw hm
  obtain ⟨k1, k2⟩ := h es a es' hm
  cases a with
  | none =>
    obtain ⟨msg, k⟩ := k2
    exact ⟨_, k, by rw [k1, hw], msg, rfl⟩
  | some a => exact ⟨[], by simp [k2.2], by rw [k1, hw], k2.1, rfl⟩

variable (r : Req F V W)

/-- the request as the relation `Shows` sees it -/
def ctxOf : Shows.Ctx F V W := ⟨r.schema, r.env, r.vars, r.frags, r.decls⟩

theorem pathArg_eq (path : List Seg) : jsonPath (pathText path) = Shows.pathArg path := by
  cases path with
  | nil => rfl
  | cons s ss => simp [pathText, jsonPath, Shows.pathArg]

theorem callWith_run (path : List Seg) (m : Method F) (fn : V) (args : List (Bytes × Value)) :
    Run w (callWith r path m fn args) (fun a w' new => match a with
      | some outs => new = [] ∧ ∃ inputs, Shows.Inputs (ctxOf r) m args inputs ∧ r.env.call w fn (Shows.pathArg path) inputs = some (w', outs)
      | none => w' = w ∧ ∃ msg, new = [(msg, path)]) := by
  unfold callWith
  refine Run.bind ((Run.ofDelivers (bindArgs_delivers r path m args (freshInputs m))).mono ?_)
  rintro a w1 n1 ⟨rfl, h⟩
  cases a with
  | none =>
    obtain ⟨msg, rfl⟩ := h
    exact Run.pure ⟨rfl, msg, by simp⟩
  | some inputs =>
    obtain ⟨h1, rfl⟩ := h
    refine Run.getWorld ?_
    rw [pathArg_eq]
    cases hc : r.env.call w1 fn (Shows.pathArg path) inputs with
    | none => exact Run.undefined
    | some p =>
      obtain ⟨w2, outs⟩ := p
      exact Run.setWorld (Run.pure ⟨rfl, inputs, h1, hc⟩)

theorem evalDirectives_run (path : List Seg) (loc : UInt8) (ds : List Directive) :
    Run w (evalDirectives r path loc ds) (fun a w' new => match a with
      | some b => new = [] ∧ Shows.Directives (ctxOf r) loc path w ds b w'
      | none => ∃ msg, new = [(msg, path)]) := by
  induction ds generalizing w with
  | nil => unfold evalDirectives; exact Run.pure ⟨rfl, .nil⟩
  | cons d ds ih =>
    unfold evalDirectives
    refine Run.bind ?_
    unfold evalDirective
    cases h : (lookup r.schema.directives loc).bind (fun ds => ds.find? (fun x => decide (x.name = d.name))) with
    | none =>
      refine (Run.ofDelivers (P := fun _ => False) Delivers.fail).mono ?_
      rintro a w1 n1 ⟨rfl, h⟩
      cases a with
      | none => obtain ⟨msg, rfl⟩ := h; exact Run.pure ⟨msg, by simp⟩
      | some a => exact h.1.elim
    | some x =>
      obtain ⟨table, ht, hx⟩ := Option.bind_eq_some_iff.1 h
      refine Run.bind ((callWith_run r path x.method x.func _).mono ?_)
      intro a w1 n1 h
      cases a with
      | none =>
        obtain ⟨rfl, msg, rfl⟩ := h
        exact Run.pure (Run.pure ⟨msg, by simp⟩)
      | some outs =>
        obtain ⟨rfl, inputs, h1, h2⟩ := h
        dsimp only
        cases ho : outs[0]? with
        | none => exact Run.undefined
        | some o =>
          refine Run.getWorld (Run.pure ?_)
          cases hs : r.env.skip w1 o with
          | true => exact Run.pure ⟨rfl, .skip ht hx h1 h2 ho hs⟩
          | false =>
            refine ih.mono ?_
            intro b w2 n2 h
            cases b with
            | none => obtain ⟨msg, rfl⟩ := h; exact ⟨msg, rfl⟩
            | some b => obtain ⟨rfl, h⟩ := h; exact ⟨rfl, .pass ht hx h1 h2 ho hs h⟩

theorem valueOfField_run (v : V) (f : RField F V) :
    Run w (valueOfField r v f) (fun x w' new => w' = w ∧ new = [] ∧ Shows.FieldValue (ctxOf r) w v f x) := by
  have sf : (f.customObjValue = none) → (∀ m out, f.obj = .method m out → m.isTypeMethod = false) →
      Run w (structField r v f.structFieldIdx) (fun x w' new => w' = w ∧ new = [] ∧ Shows.FieldValue (ctxOf r) w v f x) := by
    intro h1 h2
    unfold structField
    refine Run.getWorld ?_
    cases hv : r.env.view w v with
    | struct fs =>
      dsimp only
      cases hx : fs[f.structFieldIdx]? with
      | none => exact Run.undefined
      | some x => exact Run.pure ⟨rfl, rfl, .field h1 h2 hv hx⟩
    | _ => exact Run.undefined
  unfold valueOfField
  cases hc : f.customObjValue with
  | some x => exact Run.pure ⟨rfl, rfl, .fixed hc⟩
  | none =>
    dsimp only
    cases ho : f.obj with
    | method m o =>
      dsimp only
      by_cases h : m.isTypeMethod = true
      · rw [if_pos h]; exact Run.pure ⟨rfl, rfl, .method hc ho h⟩
      · rw [if_neg h]
        exact sf hc (by intro m' o' h'; rw [ho] at h'; cases h'; simpa using h)
    | _ => exact sf hc (by intro m' o' h'; rw [ho] at h'; cases h')

end
end Eval
end Yarql
