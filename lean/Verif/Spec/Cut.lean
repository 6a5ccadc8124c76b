import Verif.Spec.Regular

/-!
# Selections behind list arguments

After arguments that end in a list the position stands on an end instruction, so the selection set of the field is not
seen. `docCut` removes those selection sets from a document; `docTracked` is `docRegular` without the demand that there
are none.
-/

namespace Yarql
namespace Doc

/-- the arguments end in a list: the last value is a list, or an object whose last value is, and so on -/
def endsInList : Option (List (Bytes × Value)) → Bool
  | none => false
  | some fs => decide (0 < shiftMembers fs)

mutual
/-- drop every selection set that stands behind arguments that end in a list -/
def Sel.cut : Sel → Sel
  | .field key name dirs args sels => .field key name dirs args (if endsInList args then [] else selsCut sels)
  | .spread name dirs => .spread name dirs
  | .inline ty dirs sels => .inline ty dirs (selsCut sels)
def selsCut : List Sel → List Sel
  | [] => []
  | s :: ss => s.cut :: selsCut ss
end

def Fragment.cut (f : Fragment) : Fragment := { f with sels := selsCut f.sels }
def Operation.cut (o : Operation) : Operation := { o with sels := selsCut o.sels }
def Def.cut : Def → Def
  | .op o => .op o.cut
  | .frag f => .frag f.cut
def docCut (d : List Def) : List Def := d.map Def.cut

mutual
/-- as `Sel.Regular`, with selections allowed behind arguments that end in a list -/
def Sel.Tracked (frags : List Bytes) : Sel → Prop
  | .field _ _ dirs args sels =>
    (∀ d ∈ dirs, d.Regular) ∧
    (match args with
      | none => True
      | some fs => membersRegular fs) ∧
    selsTracked frags sels
  | .spread name dirs => (∀ d ∈ dirs, d.Regular) ∧ firstNamed name frags
  | .inline _ dirs sels => (∀ d ∈ dirs, d.Regular) ∧ selsTracked frags sels
def selsTracked (frags : List Bytes) : List Sel → Prop
  | [] => True
  | s :: ss => s.Tracked frags ∧ selsTracked frags ss
end

def Def.Tracked (frags : List Bytes) : Def → Prop
  | .op o => selsTracked frags o.sels ∧ ∀ vs, o.vars = some vs → ∀ v ∈ vs, ∀ d, v.default = some d → d.Regular
  | .frag f => selsTracked frags f.sels

def docTracked (d : List Def) : Prop := ∀ x ∈ d, x.Tracked (fragNames d)

/-! Regular documents are tracked and nothing is cut from them. -/

mutual
theorem Sel.Regular.tracked {frags : List Bytes} : ∀ {s : Sel}, s.Regular frags → s.Tracked frags
  | .field _ _ _ none _, h => ⟨h.1, trivial, selsRegular.tracked h.2.2⟩
  | .field _ _ _ (some _) _, h => ⟨h.1, h.2.1.1, selsRegular.tracked h.2.2⟩
  | .spread _ _, h => h
  | .inline _ _ _, h => ⟨h.1, selsRegular.tracked h.2⟩
theorem selsRegular.tracked {frags : List Bytes} : ∀ {ss : List Sel}, selsRegular frags ss → selsTracked frags ss
  | [], _ => trivial
  | _ :: _, h => ⟨Sel.Regular.tracked h.1, selsRegular.tracked h.2⟩
end

mutual
theorem Sel.Regular.cut {frags : List Bytes} : ∀ {s : Sel}, s.Regular frags → s.cut = s
  | .field _ _ _ none _, h => by
    simp only [Sel.cut, endsInList, Bool.false_eq_true, if_false, selsRegular.cut h.2.2]
  | .field _ _ _ (some fs) sels, h => by
    simp only [Sel.cut, endsInList, selsRegular.cut h.2.2]
    rcases h.2.1.2 with h0 | h0
    · rw [h0]; rfl
    · rw [h0]; simp
  | .spread _ _, _ => rfl
  | .inline _ _ _, h => by simp only [Sel.cut, selsRegular.cut h.2]
theorem selsRegular.cut {frags : List Bytes} : ∀ {ss : List Sel}, selsRegular frags ss → selsCut ss = ss
  | [], _ => rfl
  | _ :: _, h => by simp only [selsCut, Sel.Regular.cut h.1, selsRegular.cut h.2]
end

theorem docRegular.tracked {d : List Def} (h : docRegular d) : docTracked d := fun x hx => by
  have := h x hx
  cases x with
  | op o => exact ⟨this.1.tracked, this.2⟩
  | frag f => exact selsRegular.tracked this

theorem docRegular.cut {d : List Def} (h : docRegular d) : docCut d = d := by
  have : ∀ x ∈ d, x.cut = x := fun x hx => by
    have := h x hx
    cases x with
    | op o => show Def.op { o with sels := selsCut o.sels } = _; rw [this.1.cut]
    | frag f =>
      have h2 : selsRegular (fragNames d) f.sels := this
      show Def.frag { f with sels := selsCut f.sels } = _; rw [h2.cut]
  unfold docCut
  exact (List.map_congr_left this).trans (List.map_id _)

theorem fragNames_cut (d : List Def) : fragNames (docCut d) = fragNames d := by
  unfold fragNames docCut
  induction d with
  | nil => rfl
  | cons x ds ih =>
    cases x with
    | op o => simpa [Def.cut] using ih
    | frag f => simpa [Def.cut, Fragment.cut] using ih

mutual
/-- cutting leaves a regular document -/
theorem Sel.Tracked.cut {frags : List Bytes} : ∀ {s : Sel}, s.Tracked frags → s.cut.Regular frags
  | .field _ _ _ none _, h => ⟨h.1, trivial, by simpa [endsInList] using selsTracked.cut h.2.2⟩
  | .field _ _ _ (some fs) sels, h => by
    simp only [Sel.cut]
    by_cases h0 : shiftMembers fs = 0
    · rw [if_neg (by simp [endsInList, h0])]
      exact ⟨h.1, ⟨h.2.1, .inl h0⟩, selsTracked.cut h.2.2⟩
    · rw [if_pos (by simpa [endsInList] using Nat.pos_of_ne_zero h0)]
      exact ⟨h.1, ⟨h.2.1, .inr rfl⟩, trivial⟩
  | .spread _ _, h => h
  | .inline _ _ _, h => ⟨h.1, selsTracked.cut h.2⟩
theorem selsTracked.cut {frags : List Bytes} : ∀ {ss : List Sel}, selsTracked frags ss → selsRegular frags (selsCut ss)
  | [], _ => trivial
  | _ :: _, h => ⟨Sel.Tracked.cut h.1, selsTracked.cut h.2⟩
end

theorem docTracked.cut {d : List Def} (h : docTracked d) : docRegular (docCut d) := by
  intro x hx
  rw [fragNames_cut]
  obtain ⟨y, hy, rfl⟩ := List.mem_map.1 hx
  have := h y hy
  cases y with
  | op o => exact ⟨this.1.cut, this.2⟩
  | frag f =>
    have h2 : selsTracked (fragNames d) f.sels := this
    exact h2.cut

end Doc
end Yarql
