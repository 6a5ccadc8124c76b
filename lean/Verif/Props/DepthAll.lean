import Verif.Proofs.DepthRun
import Verif.Props.EveryValue
import Verif.Props.Lookup

/-!
# C21 for every request

`C21_depth_partial` is about served requests with well typed data.  Without interfaces the bound holds for every request that is answered at
all: any text, accepted or not, also texts with irregular arguments or NUL bytes in strings, any target, any variables, any Go values.
-/

namespace Yarql
open Doc Resolver Eval Typed Yarql.Bind

section
variable {F V W : Type} [DecidableEq F]

/-- **C21**, for schemas without interfaces and `MaxDepth > 0`, for every request: objects nest at most `MaxDepth` deep in the data of whatever
is answered, the root object included. Nothing is assumed of the text of the request, the variables or the data. -/
theorem C21_every_request_partial (schema : RSchema F V) (env : Env F V W) (w w' : W) (req : Request) (fuel : Nat) (vals : UInt8 → V)
    (body : Bytes) (es : List ReqErr) (hi : ∀ f, IsField schema f → noInterface f.obj = true) (hm : 0 < schema.maxDepth.toNat)
    (h : resolve fuel schema env vals w req = .ok (body, es) w') :
    ∃ out, body = envelope req.noMeta (print out) es ∧ Depth.Within schema.maxDepth.toNat out := by
  have empty : ∀ b : Bytes, b = envelope req.noMeta b%"{}" es → ∃ out, b = envelope req.noMeta (print out) es ∧ Depth.Within schema.maxDepth.toNat out := by
    intro b hb
    refine ⟨.obj [], hb, ?_⟩
    obtain ⟨k, hk⟩ : ∃ k, schema.maxDepth.toNat = k + 1 := ⟨schema.maxDepth.toNat - 1, by omega⟩
    rw [hk]
    exact .obj (by simp)
  unfold resolve at h
  dsimp only at h
  cases hp : Parser.parseQuery req.query (if req.target = [] then none else some req.target) with
  | panic => rw [hp] at h; cases h
  | oof => rw [hp] at h; cases h
  | ok u s =>
    rw [hp] at h
    dsimp only at h
    by_cases he : s.errs.isEmpty = true
    · rw [if_pos he] at h
      cases ht : s.targetIdx with
      | none =>
        rw [ht] at h
        dsimp only at h
        cases h
        exact empty _ rfl
      | some p =>
        rw [ht] at h
        dsimp only at h
        cases hr : resolveOperation fuel (⟨s.res, s.frags, schema, env, req.vars⟩ : Cfg F V W) ⟨p, [], [c%'{'], [], vals, 0, false, false, 0, w⟩ with
        | panic => rw [hr] at h; cases h
        | oof => rw [hr] at h; cases h
        | ok a s1 =>
          rw [hr] at h
          obtain ⟨ms, e1, e2⟩ := DepthRun.operation_run (c := ⟨s.res, s.frags, schema, env, req.vars⟩) hi hm fuel
            (s := ⟨p, [], [c%'{'], [], vals, 0, false, false, 0, w⟩) rfl a s1 hr
          dsimp only at e1 e2
          cases h
          refine ⟨.obj ms, ?_, e2⟩
          rw [e1]
          simp [print]
    · rw [if_neg he] at h
      cases h
      exact empty _ rfl

end

/-! ## The hypotheses are met -/

namespace ArgsDemo
open Demo (D World noStack request)

/-- any answer to any request, with `MaxDepth` 60 -/
example (fuel : Nat) (vals : UInt8 → D) (w w' : World) (req : Request) (body : Bytes) (es : List ReqErr)
    (h : resolve fuel schema env vals w req = .ok (body, es) w') :
    ∃ out, body = envelope req.noMeta (print out) es ∧ Depth.Within 60 out :=
  C21_every_request_partial schema env w w' req fuel vals body es no_interfaces (by decide) h

/-- such as a fragment that selects itself below a field, over data that contain themselves: with `MaxDepth` 3 it is cut off -/
theorem cut_off : askDepth 3 (request b%"{...F} fragment F on R{self{color ...F}}") =
    some (b%"{\"data\":{\"self\":{\"color\":\"BLUE\",\"self\":{\"color\":\"BLUE\",\"self\":null}}},\"errors\":[{\"message\":\"reached max dept\",\"path\":[\"self\",\"self\",\"self\"]}],\"extensions\":{}}", 1) := by
  decide +kernel

end ArgsDemo
end Yarql
