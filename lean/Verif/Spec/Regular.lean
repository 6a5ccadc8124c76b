import Verif.Spec.Document

/-!
# Documents on which the interpreter's position arithmetic is right

The executor walks the bytecode of arguments with a position. After a list literal the position stays on the list's own end
instruction, so whatever encloses the list ends there too; after a null literal bound to a pointer it stays one byte early; a string
ends at its first NUL; a spread finds the first fragment whose name it is a prefix of.  `docRegular` excludes exactly the documents
where this matters; C08, C18 and C25 show what happens outside.
-/

namespace Yarql
namespace Doc

mutual
/-- how many end instructions the position is short of after binding a value: one for every list that ends it -/
def shift : Value → Nat
  | .list vs => shiftItems vs + 1
  | .obj fs => shiftMembers fs
  | _ => 0
def shiftItems : List Value → Nat
  | [] => 0
  | v :: vs => if vs.isEmpty then shift v else shiftItems vs
def shiftMembers : List (Bytes × Value) → Nat
  | [] => 0
  | (_, v) :: ms => if ms.isEmpty then shift v else shiftMembers ms
end

mutual
/-- no NUL in strings, no null items, and a value that ends in a list is the last item or member -/
def Value.Regular : Value → Prop
  | .str s => 0 ∉ s
  | .list vs => itemsRegular vs
  | .obj fs => membersRegular fs
  | _ => True
def itemsRegular : List Value → Prop
  | [] => True
  | v :: vs => v.Regular ∧ v ≠ .null ∧ (vs ≠ [] → shift v = 0) ∧ itemsRegular vs
def membersRegular : List (Bytes × Value) → Prop
  | [] => True
  | (_, v) :: ms => v.Regular ∧ (ms ≠ [] → shift v = 0) ∧ membersRegular ms
end

/-- the arguments of a directive must not end in a list -/
def Directive.Regular (d : Directive) : Prop :=
  match d.args with
  | none => True
  | some fs => membersRegular fs ∧ shiftMembers fs = 0

/-- among the fragment names `fs`, in the order of the document, the first that begins with `name` is `name` itself (or none does):
names longer than `name` may only come after it -/
def firstNamed (name : Bytes) : List Bytes → Prop
  | [] => True
  | f :: fs => f = name ∨ (¬ name <+: f ∧ firstNamed name fs)

mutual
/-- `frags`: the names of the document's fragments. Arguments that end in a list only on fields without selection set;
a spread is not eclipsed by an earlier fragment with a longer name that begins with the spread's. -/
def Sel.Regular (frags : List Bytes) : Sel → Prop
  | .field _ _ dirs args sels =>
    (∀ d ∈ dirs, d.Regular) ∧
    (match args with
      | none => True
      | some fs => membersRegular fs ∧ (shiftMembers fs = 0 ∨ sels = [])) ∧
    selsRegular frags sels
  | .spread name dirs => (∀ d ∈ dirs, d.Regular) ∧ firstNamed name frags
  | .inline _ dirs sels => (∀ d ∈ dirs, d.Regular) ∧ selsRegular frags sels
def selsRegular (frags : List Bytes) : List Sel → Prop
  | [] => True
  | s :: ss => s.Regular frags ∧ selsRegular frags ss
end

/-- regular definitions: selections and default values -/
def Def.Regular (frags : List Bytes) : Def → Prop
  | .op o => selsRegular frags o.sels ∧ ∀ vs, o.vars = some vs → ∀ v ∈ vs, ∀ d, v.default = some d → d.Regular
  | .frag f => selsRegular frags f.sels

def fragNames (d : List Def) : List Bytes :=
  d.filterMap (fun x => match x with | .frag f => some f.name | .op _ => none)

def docRegular (d : List Def) : Prop := ∀ x ∈ d, x.Regular (fragNames d)

/-- names no fragment's name properly begins with are first named -/
theorem firstNamed_of_all {name : Bytes} : ∀ {frags : List Bytes}, (∀ f ∈ frags, name <+: f → f = name) → firstNamed name frags
  | [], _ => trivial
  | f :: fs, h => by
    by_cases e : f = name
    · exact .inl e
    · exact .inr ⟨fun hp => e (h f (by simp) hp), firstNamed_of_all (fun g hg => h g (by simp [hg]))⟩

instance firstNamed.dec (name : Bytes) : ∀ frags : List Bytes, Decidable (firstNamed name frags)
  | [] => isTrue trivial
  | f :: fs => by
    have := firstNamed.dec name fs
    unfold firstNamed
    infer_instance

end Doc
end Yarql
