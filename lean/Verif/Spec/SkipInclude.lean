import Verif.Spec.Binding
import Verif.Spec.Rewrite
import Verif.Spec.Serving

/-!
# @skip and @include

`StandardDirectives`: the two directives `NewSchema` registers, at fields, spreads and inline fragments, with their usual meaning.
`Kept` and `Omitted`: whether a list of them keeps or omits what carries them.
-/

namespace Yarql
namespace Directives
open Doc Http Binding Resolver

section
variable {F V W : Type}

/-- A directive with the one argument `if: Boolean`, usable at all three locations, that changes nothing and skips as `skips` says. -/
def BooleanDirective (schema : RSchema F V) (env : Env F V W) (name : Bytes) (skips : Bool → Bool) : Prop :=
  ∀ loc : UInt8, loc ≤ 2 → ∃ x : DirectiveDef F V,
    (lookup schema.directives loc).bind (fun ds => ds.find? (fun x => x.name = name)) = some x ∧
    x.method.ins = [.struct (.struct [.scalar (.bool false)])] ∧
    x.method.inFields = [⟨b%"if", 0, 0, .scalar .bool none false⟩] ∧
    ∀ w path b, ∃ o rest, env.call w x.func path [.val (.struct [.scalar (.bool b)])] = some (w, o :: rest) ∧ env.skip w o = skips b

/-- `@skip(if:)` and `@include(if:)` -/
structure StandardDirectives (schema : RSchema F V) (env : Env F V W) : Prop where
  skip_ : BooleanDirective schema env b%"skip" (fun b => b)
  include_ : BooleanDirective schema env b%"include" (fun b => !b)

end

/-- The condition `v` is the boolean `b`: a literal, or a variable with a supplied or default value. -/
inductive Truth (vars : Bind.VarsSrc) (decls : List VarDef) : Value → Bool → Prop where
  | literal {b} : Truth vars decls (.bool b) b
  | supplied {n d t nn b} : decls.find? (fun d => d.name = n) = some d → d.ty = .named t nn →
      Supplied vars n = some (.bool b) → Truth vars decls (.var n) b
  | default {n d t nn b} : decls.find? (fun d => d.name = n) = some d → d.ty = .named t nn →
      Supplied vars n = none → VarsOK vars → d.default = some (.bool b) → Truth vars decls (.var n) b

/-- `@skip(if: true)` or `@include(if: false)` -/
def Omits (vars : Bind.VarsSrc) (decls : List VarDef) (d : Directive) : Prop :=
  ∃ v, d.args = some [(b%"if", v)] ∧
    ((d.name = b%"skip" ∧ Truth vars decls v true) ∨ (d.name = b%"include" ∧ Truth vars decls v false))

/-- `@skip(if: false)` or `@include(if: true)` -/
def Keeps (vars : Bind.VarsSrc) (decls : List VarDef) (d : Directive) : Prop :=
  ∃ v, d.args = some [(b%"if", v)] ∧
    ((d.name = b%"skip" ∧ Truth vars decls v false) ∨ (d.name = b%"include" ∧ Truth vars decls v true))

/-- All directives keep what carries them. -/
def Kept (vars : Bind.VarsSrc) (decls : List VarDef) (dirs : List Directive) : Prop := ∀ d ∈ dirs, Keeps vars decls d

/-- One directive omits what carries them, those before it keep it (those after it do not matter). -/
def Omitted (vars : Bind.VarsSrc) (decls : List VarDef) (dirs : List Directive) : Prop :=
  ∃ before d after, dirs = before ++ d :: after ∧ Kept vars decls before ∧ Omits vars decls d

end Directives
end Yarql
