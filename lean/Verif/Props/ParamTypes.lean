import Verif.Spec.ParamTypes
import Verif.Props.EveryError
import Verif.Props.Arguments

/-! # Functions get values of their parameter types: C79, C27 -/

namespace Yarql
open Doc Resolver Eval Yarql.Bind
open Reveals hiding Reveals

namespace ParamTypes
open Delivered Binding

section
variable {F V W : Type} {env : Env F V W} {enums : List (EnumDef F)} {inTypes : List (Bytes × InStruct F)}

theorem inRange_zero (w : Width) : InRange w 0 := by unfold InRange; cases w <;> decide
theorem inURange_zero (w : Width) : InURange w 0 := by unfold InURange; cases w <;> decide

theorem of_zero (hs : StructsOK enums inTypes) (inp : Input) : Of enums inTypes inp (Zero env inTypes inp) := by
  induction inp with
  | scalar k e id =>
    cases k with
    | bool => exact .bool
    | int w => exact .int (inRange_zero w)
    | uint w => exact .uint (inURange_zero w)
    | float32 => exact .float32
    | float64 => exact .float64
    | string =>
      cases e with
      | none => exact .string
      | some e => exact .noEnum
  | time => exact .time
  | file => exact .file
  | ptr e _ => exact .nilPtr
  | slice e _ => exact .nilList
  | array n e ih => exact .array (by simp) (fun x hx => by rw [List.eq_of_mem_replicate hx]; exact ih)
  | struct n =>
    unfold Binding.Zero
    cases hl : lookup inTypes n with
    | none => exact .unknown hl
    | some d => exact (hs n d hl).2

theorem of_delivered (hs : StructsOK enums inTypes) {inp : Input} {x y : InVal F} (h : Delivered.Delivered env enums inTypes inp x y) :
    Of enums inTypes inp x → Of enums inTypes inp y := by
  induction h with
  | same => exact id
  | int h => exact fun _ => .int h
  | uint h => exact fun _ => .uint h
  | float32 => exact fun _ => .float32
  | float64 => exact fun _ => .float64
  | bool => exact fun _ => .bool
  | string => exact fun _ => .string
  | enum h =>
    obtain ⟨d, h1, -, h3⟩ := h
    exact fun _ => .enum h1 (List.mem_of_find?_eq_some h3)
  | time _ => exact fun _ => .time
  | file _ _ => exact fun _ => .file
  | ptr _ ih => exact fun _ => .ptr (ih (of_zero hs _))
  | list _ ih => exact fun _ => .list (fun y hy => ih y hy (of_zero hs _))
  | @member n d x y f old z y' hl _ hf hw _ ih1 ih2 =>
    intro hx
    obtain ⟨vs, rfl, h1, rfl⟩ := hw
    cases ih1 hx with
    | unknown h => rw [hl] at h; cases h
    | struct h2 h3 h4 =>
      rw [hl] at h2
      cases h2
      have hlt := h3 f hf
      refine .struct hl (by simpa using h3) (fun g hg x hx => ?_)
      by_cases e : f.goFieldIdx = g.goFieldIdx
      · rw [← e, List.getElem?_set_self hlt] at hx
        cases hx
        rw [← (hs n _ hl).1 f hf g hg e]
        exact ih2 (h4 f hf _ h1)
      · rw [List.getElem?_set_ne e] at hx
        exact h4 g hg x hx

theorem inputs_calledWith (hs : StructsOK enums inTypes) {m : Method F} (hm : SignatureOK enums inTypes m) {inputs : List (Arg F)}
    (h : CalledWith env enums inTypes m inputs) : Inputs enums inTypes m inputs := by
  induction h with
  | fresh => exact hm.2
  | @arg inputs a old x inputs' _ ha hw hd ih =>
    obtain ⟨v, v', h1, ⟨vs, rfl, h2, rfl⟩, rfl⟩ := hw
    intro b hb
    obtain ⟨us, z, k1, k2, k3⟩ := ih b hb
    have hlt : a.inputIdx < inputs.length := by
      rcases Nat.lt_or_ge a.inputIdx inputs.length with h | h
      · exact h
      · rw [List.getElem?_eq_none h] at h1; cases h1
    have hlt2 : a.goFieldIdx < vs.length := by
      rcases Nat.lt_or_ge a.goFieldIdx vs.length with h | h
      · exact h
      · rw [List.getElem?_eq_none h] at h2; cases h2
    by_cases e : a.inputIdx = b.inputIdx
    · rw [← e, h1] at k1
      cases k1
      by_cases e2 : a.goFieldIdx = b.goFieldIdx
      · refine ⟨_, x, by rw [← e, List.getElem?_set_self hlt], by rw [← e2, List.getElem?_set_self hlt2], ?_⟩
        rw [← hm.1 a ha b hb e e2]
        refine of_delivered hs hd ?_
        rw [← e2, h2] at k2
        cases k2
        rw [hm.1 a ha b hb e e2]
        exact k3
      · exact ⟨_, z, by rw [← e, List.getElem?_set_self hlt], by rw [List.getElem?_set_ne e2]; exact k2, k3⟩
    · exact ⟨us, z, by rw [List.getElem?_set_ne e]; exact k1, k2, k3⟩

end
end ParamTypes

section
variable {F V W : Type} [DecidableEq F]

/-- **C79, C27.** Whatever request is answered: in all calls it makes, every declared parameter of the function has a value of its type
(`Spec/ParamTypes.lean`): integers are in the range of their Go type, a string enum is empty or a registered value, and so on inside pointers, lists
and structs.  The world keeps the record of the calls; the struct types and signatures are as Go has them. -/
theorem C79_typed {fuel : Nat} {schema : RSchema F V} {env : Env F V W} {vals : UInt8 → V} {w w' : W} {req : Request} {body : Bytes}
    {es : List ReqErr} (h : resolve fuel schema env vals w req = .ok (body, es) w') (record : W → List (V × List (Arg F)))
    (hr : ∀ w fn p inputs w1 outs, env.call w fn p inputs = some (w1, outs) → record w1 = record w ++ [(fn, inputs)])
    (hs : ParamTypes.StructsOK schema.enums schema.inTypes) (hm : ∀ fn m, Signature schema fn m → ParamTypes.SignatureOK schema.enums schema.inTypes m) :
    ∃ made, record w' = record w ++ made ∧
      ∀ fn inputs, (fn, inputs) ∈ made → ∃ m, Signature schema fn m ∧ ParamTypes.Inputs schema.enums schema.inTypes m inputs := by
  obtain ⟨made, h1, h2⟩ := C79_recorded h record hr
  refine ⟨made, h1, fun fn inputs hc => ?_⟩
  obtain ⟨m, k1, k2⟩ := h2 fn inputs hc
  exact ⟨m, k1, ParamTypes.inputs_calledWith hs (hm fn m k1) k2⟩

end

/-! ## Examples -/

namespace ArgsDemo
open Demo (D)

theorem structsOK : ParamTypes.StructsOK schema.enums schema.inTypes := by
  intro n d h
  obtain ⟨rfl, rfl⟩ := lookup_pair h
  refine ⟨?_, .struct h (by decide) ?_⟩
  · intro f hf g hg e
    simp only [pair, List.mem_cons, List.not_mem_nil, or_false] at hf hg
    rcases hf with rfl | rfl <;> rcases hg with rfl | rfl <;> first | rfl | cases e
  · intro f hf x hx
    simp only [pair, List.mem_cons, List.not_mem_nil, or_false] at hf
    rcases hf with rfl | rfl
    · cases hx; exact .int (ParamTypes.inRange_zero _)
    · cases hx; exact .nilPtr

theorem signaturesOK (fn : D) (m : Method Unit) (h : Signature schema fn m) : ParamTypes.SignatureOK schema.enums schema.inTypes m := by
  have key : m ∈ methods.map (·.1) := by
    rcases h with ⟨t, f, out, ht, hf, hw⟩ | ⟨loc, table, d, hl, -⟩
    · have ht : t = type ∨ t.fields = [] := by
        rcases ht with rfl | rfl | ⟨n, h⟩
        · exact .inl rfl
        · exact .inr rfl
        · exact .inl (lookup_type h).2
      rcases ht with rfl | ht
      · simp only [type, List.mem_cons, List.not_mem_nil, or_false] at hf
        rcases hf with rfl | rfl | rfl | rfl | rfl | rfl | rfl <;> dsimp only [Demo.field] at hw <;> cases hw <;>
          first | (simp [methods]; done) | (rename_i hw; cases hw)
      · rw [ht] at hf; cases hf
    · cases hl
  simp only [methods, List.map_cons, List.map_nil, List.mem_cons, List.not_mem_nil, or_false] at key
  rcases key with rfl | rfl | rfl | rfl | rfl | rfl
  · refine ⟨fun a ha b hb e1 e2 => ?_, fun a ha => ?_⟩
    · simp [u8] at ha hb; subst ha; subst hb; rfl
    · simp [u8] at ha; subst ha; exact ⟨_, _, rfl, rfl, .uint (ParamTypes.inURange_zero _)⟩
  · refine ⟨fun a ha b hb e1 e2 => ?_, fun a ha => ?_⟩
    · simp [sum] at ha hb; rcases ha with rfl | rfl <;> rcases hb with rfl | rfl <;> first | rfl | cases e2
    · simp [sum] at ha; rcases ha with rfl | rfl
      · exact ⟨_, _, rfl, rfl, .nilList⟩
      · exact ⟨_, _, rfl, rfl, .int (ParamTypes.inRange_zero _)⟩
  · refine ⟨fun a ha b hb e1 e2 => ?_, fun a ha => ?_⟩
    · simp [opt] at ha hb; subst ha; subst hb; rfl
    · simp [opt] at ha; subst ha; exact ⟨_, _, rfl, rfl, .nilPtr⟩
  · refine ⟨fun a ha b hb e1 e2 => ?_, fun a ha => ?_⟩
    · simp [paint] at ha hb; subst ha; subst hb; rfl
    · simp [paint] at ha; subst ha; exact ⟨_, _, rfl, rfl, .int (ParamTypes.inRange_zero _)⟩
  · refine ⟨fun a ha b hb e1 e2 => ?_, fun a ha => ?_⟩
    · simp [say] at ha hb; subst ha; subst hb; rfl
    · simp [say] at ha; subst ha; exact ⟨_, _, rfl, rfl, .string⟩
  · refine ⟨fun a ha b hb e1 e2 => ?_, fun a ha => ?_⟩
    · simp [self] at ha hb; subst ha; subst hb; rfl
    · simp [self] at ha; subst ha; exact ⟨_, _, rfl, rfl, .nilList⟩

/-- the world of the example records the calls -/
theorem records (w : Demo.World) (fn : D) (p : Bytes) (inputs : List (Arg Unit)) (w1 : Demo.World) (outs : List D)
    (h : env.call w fn p inputs = some (w1, outs)) :
    w1.map (fun c => ((.fn c.1 : D), c.2.2)) = w.map (fun c => ((.fn c.1 : D), c.2.2)) ++ [(fn, inputs)] := by
  have h : call w fn p inputs = some (w1, outs) := h
  unfold call at h
  split at h
  · cases h; simp
  · cases h; simp
  · cases h

/-- so the hypotheses of `C79_typed` hold for all requests to the example -/
example {fuel : Nat} {vals : UInt8 → D} {w w' : Demo.World} {req : Request} {body : Bytes} {es : List ReqErr}
    (h : resolve fuel schema env vals w req = .ok (body, es) w') : ∃ made, w'.map (fun c => ((.fn c.1 : D), c.2.2)) = w.map (fun c => ((.fn c.1 : D), c.2.2)) ++ made ∧
      ∀ fn inputs, (fn, inputs) ∈ made → ∃ m, Signature schema fn m ∧ ParamTypes.Inputs schema.enums schema.inTypes m inputs :=
  C79_typed h (fun w => w.map (fun c => ((.fn c.1 : D), c.2.2))) records structsOK signaturesOK

end ArgsDemo
end Yarql
