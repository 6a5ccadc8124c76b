import Verif.Spec.Fault

/-!
# Selections that end an operation

`Ends schema frags t l sel`: the selection `sel` of an object of type `t` at nesting level `l` is one that no data can save: the schema
refuses it before any function is called. Without directives in front of it (they could skip it).
-/

namespace Yarql
namespace Fault
open Doc Resolver

variable {F V : Type}

/-- the first directive does not exist at this location -/
def UnknownDirective (schema : RSchema F V) (loc : UInt8) (dirs : List Directive) : Prop :=
  ∃ d rest, dirs = d :: rest ∧ ∀ table, lookup schema.directives loc = some table → ∀ x ∈ table, x.name ≠ d.name

inductive Ends (schema : RSchema F V) (frags : List Fragment) : RType F V → UInt8 → Sel → Prop where
  | unknownField {t l key name args sub} : (∀ f ∈ t.fields, f.key ≠ fnv1 (name.getD key)) → name.getD key ≠ b%"__typename" →
      Ends schema frags t l (.field key name [] args sub)
  | typename {t l key name args sub} : name.getD key = b%"__typename" → (∀ f ∈ t.fields, f.key ≠ fnv1 b%"__typename") →
      args ≠ none ∨ sub ≠ [] → Ends schema frags t l (.field key name [] args sub)
  | arguments {t l key name args sub f} : Names t (name.getD key) f → (∀ m out, ¬ Reaches f.obj (.method m out)) →
      Ends schema frags t l (.field key name [] (some args) sub)
  | noSelection {t l key name f k} : Names t (name.getD key) f → f.obj = .objRef k ∨ f.obj = .interfaceRef k →
      Ends schema frags t l (.field key name [] none [])
  | selection {t l key name sub f isID kind} : Names t (name.getD key) f → f.obj = .data isID kind → sub ≠ [] →
      Ends schema frags t l (.field key name [] none sub)
  | depth {t l key name sub f k t'} : Names t (name.getD key) f → f.obj = .objRef k → lookup schema.types k = some t' →
      l + 1 = schema.maxDepth → Ends schema frags t l (.field key name [] none sub)
  | fieldDirective {t l key name dirs args sub} : UnknownDirective schema 0 dirs → Ends schema frags t l (.field key name dirs args sub)
  | spreadDirective {t l name dirs} : UnknownDirective schema 1 dirs → Ends schema frags t l (.spread name dirs)
  | inlineDirective {t l ty dirs sub} : UnknownDirective schema 2 dirs → Ends schema frags t l (.inline ty dirs sub)
  | unknownFragment {t l name} : (∀ f ∈ frags, f.name ≠ name) → Ends schema frags t l (.spread name [])
  | inField {t l key name sub f k t' sel} : Names t (name.getD key) f → f.obj = .objRef k → lookup schema.types k = some t' → sel ∈ sub →
      Ends schema frags t' (l + 1) sel → Ends schema frags t l (.field key name [] none sub)
  | inSpread {t l name f sel} : frags.find? (fun f => f.name = name) = some f → f.typeName = t.typeName → sel ∈ f.sels →
      Ends schema frags t l sel → Ends schema frags t l (.spread name [])
  | inInline {t l sub sel} : sel ∈ sub → Ends schema frags t l sel → Ends schema frags t l (.inline t.typeName [] sub)

end Fault
end Yarql
