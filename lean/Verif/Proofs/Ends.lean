import Verif.Props.Order
import Verif.Spec.Ends

/-!
# Selections that end an operation: proofs
-/

namespace Yarql
namespace Fault
open Doc Resolver Eval

section
variable {F V W : Type} [DecidableEq F] (r : Req F V W)

/-- what `sel` alone contributes -/
def first (t : RType F V) (v : V) (dept : UInt8) (path : List Seg) (room : Nat) (fuel : Nat) : Sel → E W (List (Bytes × Out) × Bool)
  | .field key name dirs args sub => do
    let (m, crit) ← evalField r fuel t v dept path room key (name.getD key) dirs args sub
    return (m.toList, crit)
  | .spread name dirs => evalSpread r fuel t v dept path room name dirs
  | .inline ty dirs sub => evalInline r fuel t v dept path room ty dirs sub

theorem evalSels_cons (t : RType F V) (v : V) (dept : UInt8) (path : List Seg) (room : Nat) (fuel : Nat) (sel : Sel) (rest : List Sel) :
    evalSels r (fuel + 1) t v dept path room (sel :: rest) = (do
      let (ms, crit) ← first r t v dept path room fuel sel
      if crit then return (ms, true)
      let (ms', crit) ← evalSels r fuel t v dept path room rest
      return (ms ++ ms', crit)) := by
  cases sel with
  | field key name dirs args sels =>
    funext es
    rw [evalSels]
    show E.bind _ _ es = E.bind (E.bind _ _) _ es
    unfold E.bind
    cases evalField r fuel t v dept path room key (name.getD key) dirs args sels es with
    | none => rfl
    | some q => obtain ⟨⟨m, c⟩, s⟩ := q; rfl
  | spread name dirs => rw [evalSels]; rfl
  | inline ty dirs sels => rw [evalSels]; rfl

/-- evaluating `sel` always ends critically -/
def Stops (t : RType F V) (dept : UInt8) (sel : Sel) : Prop :=
  ∀ v path room fuel es ms c s, first r t v dept path room fuel sel es = some ((ms, c), s) → c = true

/-- what follows a selection that ends the operation is not evaluated -/
theorem evalSels_cut {t : RType F V} {dept : UInt8} {sel : Sel} (h : Stops r t dept sel) (v : V) (path : List Seg) (room : Nat) (b b' : List Sel) :
    ∀ (a : List Sel) (fuel : Nat), evalSels r fuel t v dept path room (a ++ sel :: b) = evalSels r fuel t v dept path room (a ++ sel :: b') := by
  intro a
  induction a with
  | nil =>
    intro fuel
    cases fuel with
    | zero => rw [evalSels, evalSels]
    | succ fuel =>
      rw [List.nil_append, List.nil_append, evalSels_cons, evalSels_cons]
      funext es
      show E.bind _ _ es = E.bind _ _ es
      unfold E.bind
      cases e : first r t v dept path room fuel sel es with
      | none => rfl
      | some q =>
        obtain ⟨⟨ms, c⟩, s⟩ := q
        have := h v path room fuel es ms c s e
        subst this
        rfl
  | cons x a ih =>
    intro fuel
    cases fuel with
    | zero => rw [evalSels, evalSels]
    | succ fuel => rw [List.cons_append, List.cons_append, evalSels_cons, evalSels_cons, ih fuel]

theorem evalSels_stops {t : RType F V} {dept : UInt8} {sel : Sel} (h : Stops r t dept sel) (v : V) (path : List Seg) (room : Nat)
    {sels : List Sel} (hm : sel ∈ sels) (fuel : Nat) (es : ES W) (ms : List (Bytes × Out)) (c : Bool) (s : ES W)
    (he : evalSels r fuel t v dept path room sels es = some ((ms, c), s)) : c = true := by
  obtain ⟨a, b, rfl⟩ := List.append_of_mem hm
  obtain ⟨ma, ca, s1, -, h2⟩ := evalSels_append r t v dept path room a (sel :: b) fuel es s _ he
  rcases h2 with ⟨-, h2, -⟩ | ⟨-, fuel', mb, cb, -, h3, h4⟩
  · injection h2
  · injection h4 with _ h4
    subst h4
    cases fuel' with
    | zero => rw [evalSels] at h3; cases h3
    | succ n =>
      rw [evalSels_cons] at h3
      obtain ⟨⟨m0, c0⟩, s0, k1, k2⟩ := E_bind.1 h3
      have := h v path room n _ m0 c0 s0 k1
      subst this
      have e := E_pure.1 k2
      injection e with e _
      injection e

omit [DecidableEq F] in
theorem takesArgs_of {o : Obj F} (h : ∀ m out, ¬ Reaches o (.method m out)) : takesArgs o = false := by
  induction o with
  | ptr o ih => exact ih (fun m out hr => h m out (.ptr hr))
  | method m o _ => exact absurd .refl (h m o)
  | _ => rfl

/-- if the value of the field always ends critically, so does the field -/
theorem stops_field {t : RType F V} {dept : UInt8} {key : Bytes} {name : Option Bytes} {args sub f} (hn : Names t (name.getD key) f)
    (hd : ∀ v path room fuel es o c s, evalData r fuel f.obj v dept path room args sub es = some ((o, c), s) → c = true) :
    Stops r t dept (.field key name [] args sub) := by
  intro v path room fuel es ms c s h
  obtain ⟨⟨m, c'⟩, s1, h1, h2⟩ := E_bind.1 h
  have e := E_pure.1 h2
  injection e with e _
  injection e with _ e
  subst e
  cases fuel with
  | zero => rw [evalField] at h1; cases h1
  | succ fuel =>
    rw [evalField] at h1
    obtain ⟨x, s2, h3, h4⟩ := E_bind.1 h1
    have e := E_pure.1 h3
    injection e with e1 e2
    subst e1; subst e2
    dsimp only at h4
    have hn' : t.fields.find? (fun f => decide (f.key = fnv1 (name.getD key))) = some f := hn
    rw [hn'] at h4
    dsimp only at h4
    cases room with
    | zero => cases h4
    | succ room =>
      dsimp only at h4
      obtain ⟨x, s3, _, h5⟩ := E_bind.1 h4
      obtain ⟨⟨o, c''⟩, s4, h6, h7⟩ := E_bind.1 h5
      have e := E_pure.1 h7
      injection e with e _
      injection e with _ e
      subst e
      exact hd _ _ _ _ _ _ _ _ h6

omit [DecidableEq F] in
theorem evalDirectives_unknown {loc : UInt8} {dirs : List Directive} (h : UnknownDirective r.schema loc dirs) (path : List Seg) (es : ES W)
    (x : Option Bool) (s : ES W) (he : evalDirectives r path loc dirs es = some (x, s)) : x = none := by
  obtain ⟨d, rest, rfl, h⟩ := h
  rw [evalDirectives] at he
  obtain ⟨y, s1, h1, h2⟩ := E_bind.1 he
  have hnone : (lookup r.schema.directives loc).bind (fun ds => ds.find? (fun x => decide (x.name = d.name))) = none := by
    cases hl : lookup r.schema.directives loc with
    | none => rfl
    | some table =>
      refine List.find?_eq_none.2 fun x hx => ?_
      have := h table hl x hx
      simpa using this
  unfold evalDirective at h1
  rw [hnone] at h1
  dsimp only at h1
  unfold fail at h1
  obtain ⟨u, s2, _, h3⟩ := E_bind.1 h1
  have e := E_pure.1 h3
  injection e with e _
  subst e
  have e := E_pure.1 h2
  injection e with e _

/-- a field that does not exist -/
theorem stops_noField {t : RType F V} {dept : UInt8} {key : Bytes} {name : Option Bytes} {args : Option (List (Bytes × Value))} {sub : List Sel}
    (hn : ∀ f ∈ t.fields, f.key ≠ fnv1 (name.getD key)) (h : name.getD key = b%"__typename" → args ≠ none ∨ sub ≠ []) :
    Stops r t dept (.field key name [] args sub) := by
  intro v path room fuel es ms c s he
  obtain ⟨⟨m, c'⟩, s1, h1, h2⟩ := E_bind.1 he
  have e := E_pure.1 h2
  injection e with e _
  injection e with _ e
  subst e
  cases fuel with
  | zero => rw [evalField] at h1; cases h1
  | succ fuel =>
    rw [evalField] at h1
    obtain ⟨x, s2, h3, h4⟩ := E_bind.1 h1
    have e := E_pure.1 h3
    injection e with e1 e2
    subst e1; subst e2
    dsimp only at h4
    have hn' : t.fields.find? (fun f => decide (f.key = fnv1 (name.getD key))) = none :=
      List.find?_eq_none.2 fun x hx => by simpa using hn x hx
    rw [hn'] at h4
    dsimp only at h4
    by_cases ht : name.getD key = b%"__typename"
    · rw [if_pos ht] at h4
      have hs : (args.isSome || !sub.isEmpty) = true := by
        rcases h ht with h | h
        · cases args with
          | none => exact absurd rfl h
          | some _ => rfl
        · cases sub with
          | nil => exact absurd rfl h
          | cons _ _ => simp
      rw [if_pos hs] at h4
      obtain ⟨_, s5, _, h5⟩ := E_bind.1 h4
      have e := E_pure.1 h5
      injection e with e _
      injection e
    · rw [if_neg ht] at h4
      obtain ⟨_, s5, _, h5⟩ := E_bind.1 h4
      have e := E_pure.1 h5
      injection e with e _
      injection e

omit [DecidableEq F] in
theorem reported {α : Type} {path : List Seg} {msg : Bytes} {a : α} {es : ES W} {o : α} {c : Bool} {s : ES W}
    (h : (do report path msg; return (a, true) : E W (α × Bool)) es = some ((o, c), s)) : c = true := by
  obtain ⟨_, s5, _, h5⟩ := E_bind.1 h
  have e := E_pure.1 h5
  injection e with e _
  injection e

theorem ends_stops {t : RType F V} {l : UInt8} {sel : Sel} (h : Ends r.schema r.frags t l sel) : Stops r t l sel := by
  induction h with
  | unknownField h1 h2 => exact stops_noField r h1 (fun h => absurd h h2)
  | typename h1 h2 h3 => exact stops_noField r (by rw [h1]; exact h2) (fun _ => h3)
  | arguments h1 h2 =>
    refine stops_field r h1 ?_
    intro v path room fuel es o c s he
    cases fuel with
    | zero => rw [evalData] at he; cases he
    | succ fuel =>
      unfold evalData at he
      dsimp only at he
      rw [takesArgs_of h2, if_pos (by rfl)] at he
      exact reported he
  | @noSelection t l key name f k h1 h2 =>
    refine stops_field r h1 ?_
    intro v path room fuel es o c s he
    cases fuel with
    | zero => rw [evalData] at he; cases he
    | succ fuel =>
      rcases h2 with h2 | h2
      · rw [h2, evalData] at he
        exact reported he
      · rw [h2, evalData] at he
        exact reported he
  | @selection t l key name sub f isID kind h1 h2 h3 =>
    refine stops_field r h1 ?_
    intro v path room fuel es o c s he
    cases fuel with
    | zero => rw [evalData] at he; cases he
    | succ fuel =>
      rw [h2, evalData] at he
      dsimp only at he
      have hs : (Option.isSome (none : Option (List (Bytes × Value))) || !sub.isEmpty) = true := by
        cases sub with
        | nil => exact absurd rfl h3
        | cons _ _ => rfl
      rw [if_neg (by simp), if_pos hs] at he
      exact reported he
  | @depth t l key name sub f k t' h1 h2 h3 h4 =>
    refine stops_field r h1 ?_
    intro v path room fuel es o c s he
    cases fuel with
    | zero => rw [evalData] at he; cases he
    | succ fuel =>
      rw [h2, evalData] at he
      dsimp only at he
      rw [if_neg (by simp)] at he
      cases sub with
      | nil => exact reported he
      | cons x xs =>
        rw [if_neg (by simp), h3] at he
        dsimp only at he
        rw [if_pos h4] at he
        exact reported he
  | @inField t l key name sub f k t' sel h1 h2 h3 h4 _ ih =>
    refine stops_field r h1 ?_
    intro v path room fuel es o c s he
    cases fuel with
    | zero => rw [evalData] at he; cases he
    | succ fuel =>
      rw [h2, evalData] at he
      dsimp only at he
      rw [if_neg (by simp)] at he
      cases sub with
      | nil => exact reported he
      | cons x xs =>
        rw [if_neg (by simp), h3] at he
        dsimp only at he
        by_cases h5 : l + 1 = r.schema.maxDepth
        · rw [if_pos h5] at he
          exact reported he
        · rw [if_neg h5] at he
          obtain ⟨⟨ms, c'⟩, s1, k1, k2⟩ := E_bind.1 he
          have e := E_pure.1 k2
          injection e with e _
          injection e with _ e
          subst e
          exact evalSels_stops r ih v path room h4 fuel es ms _ s1 k1
  | fieldDirective h1 =>
    intro v path room fuel es ms c s he
    obtain ⟨⟨m, c'⟩, s1, k1, k2⟩ := E_bind.1 he
    have e := E_pure.1 k2
    injection e with e _
    injection e with _ e
    subst e
    cases fuel with
    | zero => rw [evalField] at k1; cases k1
    | succ fuel =>
      rw [evalField] at k1
      obtain ⟨x, s2, h3, h4⟩ := E_bind.1 k1
      have := evalDirectives_unknown r h1 _ _ _ _ h3
      subst this
      have e := E_pure.1 h4
      injection e with e _
      injection e
  | spreadDirective h1 =>
    intro v path room fuel es ms c s k1
    change evalSpread _ _ _ _ _ _ _ _ _ _ = _ at k1
    cases fuel with
    | zero => rw [evalSpread] at k1; cases k1
    | succ fuel =>
      rw [evalSpread] at k1
      obtain ⟨x, s2, h3, h4⟩ := E_bind.1 k1
      have := evalDirectives_unknown r h1 _ _ _ _ h3
      subst this
      have e := E_pure.1 h4
      injection e with e _
      injection e
  | inlineDirective h1 =>
    intro v path room fuel es ms c s k1
    change evalInline _ _ _ _ _ _ _ _ _ _ _ = _ at k1
    cases fuel with
    | zero => rw [evalInline] at k1; cases k1
    | succ fuel =>
      rw [evalInline] at k1
      obtain ⟨x, s2, h3, h4⟩ := E_bind.1 k1
      have := evalDirectives_unknown r h1 _ _ _ _ h3
      subst this
      have e := E_pure.1 h4
      injection e with e _
      injection e
  | @unknownFragment t l name h1 =>
    intro v path room fuel es ms c s k1
    change evalSpread _ _ _ _ _ _ _ _ _ _ = _ at k1
    cases fuel with
    | zero => rw [evalSpread] at k1; cases k1
    | succ fuel =>
      rw [evalSpread] at k1
      obtain ⟨x, s2, h3, h4⟩ := E_bind.1 k1
      have e := E_pure.1 h3
      injection e with e1 e2
      subst e1; subst e2
      dsimp only at h4
      have hn : r.frags.find? (fun f => decide (f.name = name)) = none := List.find?_eq_none.2 fun x hx => by simpa using h1 x hx
      rw [hn] at h4
      exact reported h4
  | @inSpread t l name f sel h1 h2 h3 _ ih =>
    intro v path room fuel es ms c s k1
    change evalSpread _ _ _ _ _ _ _ _ _ _ = _ at k1
    cases fuel with
    | zero => rw [evalSpread] at k1; cases k1
    | succ fuel =>
      rw [evalSpread] at k1
      obtain ⟨x, s2, k3, h4⟩ := E_bind.1 k1
      have e := E_pure.1 k3
      injection e with e1 e2
      subst e1; subst e2
      dsimp only at h4
      rw [h1] at h4
      dsimp only at h4
      rw [if_pos h2.symm] at h4
      exact evalSels_stops r ih v path room h3 fuel _ ms _ s h4
  | @inInline t l sub sel h1 _ ih =>
    intro v path room fuel es ms c s k1
    change evalInline _ _ _ _ _ _ _ _ _ _ _ = _ at k1
    cases fuel with
    | zero => rw [evalInline] at k1; cases k1
    | succ fuel =>
      rw [evalInline] at k1
      obtain ⟨x, s2, k3, h4⟩ := E_bind.1 k1
      have e := E_pure.1 k3
      injection e with e1 e2
      subst e1; subst e2
      dsimp only at h4
      rw [if_pos rfl] at h4
      exact evalSels_stops r ih v path room h1 fuel _ ms _ s h4

end
end Fault
end Yarql
