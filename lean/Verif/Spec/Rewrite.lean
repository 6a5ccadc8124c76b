import Verif.Spec.Document

/-!
# Rewriting queries

`Rewrites pass stop frags frags' sels sels'`: `sels'` (with the fragments `frags'`) comes from `sels` (with the fragments `frags`) by
any number of these changes, at any depth:

* the directives of a selection are removed if `pass` holds of them,
* a selection is removed if `stop` holds of its directives,
* a fragment spread is replaced by an inline fragment with the fragment's type and (rewritten) selections.

No selection set that was not empty may become empty. `0`, `1`, `2` are the directive locations field, spread and inline fragment.
-/

namespace Yarql
namespace Doc

/-- directives unchanged, or removed -/
def Lighter (pass : UInt8 → List Directive → Prop) (loc : UInt8) (dirs dirs' : List Directive) : Prop :=
  dirs' = dirs ∨ (pass loc dirs ∧ dirs' = [])

/-- one selection, the selections below and behind it being related by `X` -/
inductive RewriteStep (pass stop : UInt8 → List Directive → Prop) (frags frags' : List Fragment) (X : List Sel → List Sel → Prop) : List Sel → List Sel → Prop where
  | nil : RewriteStep pass stop frags frags' X [] []
  | field {key name dirs dirs' args sub sub' rest rest'} : Lighter pass 0 dirs dirs' → (sub = [] ↔ sub' = []) →
      X sub sub' → X rest rest' →
      RewriteStep pass stop frags frags' X (.field key name dirs args sub :: rest) (.field key name dirs' args sub' :: rest')
  | stopField {key name dirs args sub rest rest'} : stop 0 dirs → X rest rest' →
      RewriteStep pass stop frags frags' X (.field key name dirs args sub :: rest) rest'
  | spread {name dirs dirs' f f' rest rest'} : Lighter pass 1 dirs dirs' → frags.find? (fun f => f.name = name) = some f →
      frags'.find? (fun f => f.name = name) = some f' → f'.typeName = f.typeName →
      X f.sels f'.sels → X rest rest' →
      RewriteStep pass stop frags frags' X (.spread name dirs :: rest) (.spread name dirs' :: rest')
  | undefined {name dirs rest rest'} : frags.find? (fun f => f.name = name) = none → frags'.find? (fun f => f.name = name) = none →
      X rest rest' →
      RewriteStep pass stop frags frags' X (.spread name dirs :: rest) (.spread name dirs :: rest')
  | expand {name dirs f sub' rest rest'} : (dirs = [] ∨ pass 1 dirs) → frags.find? (fun f => f.name = name) = some f →
      X f.sels sub' → X rest rest' →
      RewriteStep pass stop frags frags' X (.spread name dirs :: rest) (.inline f.typeName [] sub' :: rest')
  | stopSpread {name dirs rest rest'} : stop 1 dirs → X rest rest' →
      RewriteStep pass stop frags frags' X (.spread name dirs :: rest) rest'
  | inline {ty dirs dirs' sub sub' rest rest'} : Lighter pass 2 dirs dirs' → X sub sub' →
      X rest rest' →
      RewriteStep pass stop frags frags' X (.inline ty dirs sub :: rest) (.inline ty dirs' sub' :: rest')
  | stopInline {ty dirs sub rest rest'} : stop 2 dirs → X rest rest' →
      RewriteStep pass stop frags frags' X (.inline ty dirs sub :: rest) rest'

/-- The selections are related by a relation each of whose pairs is one step (fragments may be recursive: nothing has to be finite). -/
def Rewrites (pass stop : UInt8 → List Directive → Prop) (frags frags' : List Fragment) (sels sels' : List Sel) : Prop :=
  ∃ X, (∀ a b, X a b → RewriteStep pass stop frags frags' X a b) ∧ X sels sels'

section
variable {pass stop : UInt8 → List Directive → Prop} {frags frags' : List Fragment}

theorem RewriteStep.mono {X Y : List Sel → List Sel → Prop} (h : ∀ a b, X a b → Y a b) {s s' : List Sel} (hs : RewriteStep pass stop frags frags' X s s') :
    RewriteStep pass stop frags frags' Y s s' := by
  cases hs with
  | nil => exact .nil
  | field a b c d => exact .field a b (h _ _ c) (h _ _ d)
  | stopField a b => exact .stopField a (h _ _ b)
  | spread a b c d e f => exact .spread a b c d (h _ _ e) (h _ _ f)
  | undefined a b c => exact .undefined a b (h _ _ c)
  | expand a b c d => exact .expand a b (h _ _ c) (h _ _ d)
  | stopSpread a b => exact .stopSpread a (h _ _ b)
  | inline a b c => exact .inline a (h _ _ b) (h _ _ c)
  | stopInline a b => exact .stopInline a (h _ _ b)

theorem Rewrites.step {s s' : List Sel} (h : Rewrites pass stop frags frags' s s') : RewriteStep pass stop frags frags' (Rewrites pass stop frags frags') s s' := by
  obtain ⟨X, h1, h2⟩ := h
  exact (h1 _ _ h2).mono (fun a b hab => ⟨X, h1, hab⟩)

theorem Rewrites.of {s s' : List Sel} (h : RewriteStep pass stop frags frags' (Rewrites pass stop frags frags') s s') : Rewrites pass stop frags frags' s s' :=
  ⟨RewriteStep pass stop frags frags' (Rewrites pass stop frags frags'), fun _ _ h => h.mono (fun _ _ h => h.step), h⟩

theorem Rewrites.nil  : Rewrites pass stop frags frags' [] [] :=
  .of (.nil)
theorem Rewrites.field {key : Bytes} {name : Option Bytes} {dirs : List Directive} {dirs' : List Directive} {args : Option (List (Bytes × Value))} {sub : List Sel} {sub' : List Sel} {rest : List Sel} {rest' : List Sel} : Lighter pass 0 dirs dirs' → (sub = [] ↔ sub' = []) →
      Rewrites pass stop frags frags' sub sub' → Rewrites pass stop frags frags' rest rest' →
      Rewrites pass stop frags frags' (.field key name dirs args sub :: rest) (.field key name dirs' args sub' :: rest') :=
  fun h0 h1 h2 h3 => .of (.field h0 h1 h2 h3)
theorem Rewrites.stopField {key : Bytes} {name : Option Bytes} {dirs : List Directive} {args : Option (List (Bytes × Value))} {sub : List Sel} {rest : List Sel} {rest' : List Sel} : stop 0 dirs → Rewrites pass stop frags frags' rest rest' →
      Rewrites pass stop frags frags' (.field key name dirs args sub :: rest) rest' :=
  fun h0 h1 => .of (.stopField h0 h1)
theorem Rewrites.spread {name : Bytes} {dirs : List Directive} {dirs' : List Directive} {f : Fragment} {f' : Fragment} {rest : List Sel} {rest' : List Sel} : Lighter pass 1 dirs dirs' → frags.find? (fun f => f.name = name) = some f →
      frags'.find? (fun f => f.name = name) = some f' → f'.typeName = f.typeName →
      Rewrites pass stop frags frags' f.sels f'.sels → Rewrites pass stop frags frags' rest rest' →
      Rewrites pass stop frags frags' (.spread name dirs :: rest) (.spread name dirs' :: rest') :=
  fun h0 h1 h2 h3 h4 h5 => .of (.spread h0 h1 h2 h3 h4 h5)
theorem Rewrites.undefined {name : Bytes} {dirs : List Directive} {rest : List Sel} {rest' : List Sel} : frags.find? (fun f => f.name = name) = none → frags'.find? (fun f => f.name = name) = none →
      Rewrites pass stop frags frags' rest rest' →
      Rewrites pass stop frags frags' (.spread name dirs :: rest) (.spread name dirs :: rest') :=
  fun h0 h1 h2 => .of (.undefined h0 h1 h2)
theorem Rewrites.expand {name : Bytes} {dirs : List Directive} {f : Fragment} {sub' : List Sel} {rest : List Sel} {rest' : List Sel} : (dirs = [] ∨ pass 1 dirs) → frags.find? (fun f => f.name = name) = some f →
      Rewrites pass stop frags frags' f.sels sub' → Rewrites pass stop frags frags' rest rest' →
      Rewrites pass stop frags frags' (.spread name dirs :: rest) (.inline f.typeName [] sub' :: rest') :=
  fun h0 h1 h2 h3 => .of (.expand h0 h1 h2 h3)
theorem Rewrites.stopSpread {name : Bytes} {dirs : List Directive} {rest : List Sel} {rest' : List Sel} : stop 1 dirs → Rewrites pass stop frags frags' rest rest' →
      Rewrites pass stop frags frags' (.spread name dirs :: rest) rest' :=
  fun h0 h1 => .of (.stopSpread h0 h1)
theorem Rewrites.inline {ty : Bytes} {dirs : List Directive} {dirs' : List Directive} {sub : List Sel} {sub' : List Sel} {rest : List Sel} {rest' : List Sel} : Lighter pass 2 dirs dirs' → Rewrites pass stop frags frags' sub sub' →
      Rewrites pass stop frags frags' rest rest' →
      Rewrites pass stop frags frags' (.inline ty dirs sub :: rest) (.inline ty dirs' sub' :: rest') :=
  fun h0 h1 h2 => .of (.inline h0 h1 h2)
theorem Rewrites.stopInline {ty : Bytes} {dirs : List Directive} {sub : List Sel} {rest : List Sel} {rest' : List Sel} : stop 2 dirs → Rewrites pass stop frags frags' rest rest' →
      Rewrites pass stop frags frags' (.inline ty dirs sub :: rest) rest' :=
  fun h0 h1 => .of (.stopInline h0 h1)

/-- nothing is changed -/
theorem Rewrites.refl (frags : List Fragment) (sels : List Sel) : Rewrites pass stop frags frags sels sels := by
  refine ⟨Eq, ?_, rfl⟩
  rintro s _ rfl
  cases s with
  | nil => exact .nil
  | cons x rest =>
    cases x with
    | field key name dirs args sub => exact .field (Or.inl rfl) Iff.rfl rfl rfl
    | spread name dirs =>
      cases hf : frags.find? (fun f => decide (f.name = name)) with
      | none => exact .undefined hf hf rfl
      | some f => exact .spread (Or.inl rfl) hf hf rfl rfl rfl
    | inline ty dirs sub => exact .inline (Or.inl rfl) rfl rfl

end

end Doc
end Yarql
