import Verif.Spec.Serving

/-!
# Boolean checkers, for concrete examples

Each implies the property it checks; they are used only to show that concrete requests meet the hypotheses of theorems.
-/

namespace Yarql
namespace Check
open Doc Resolver

def nameStartB (c : Byte) : Bool := (c%'a' ≤ c && c ≤ c%'z') || (c%'A' ≤ c && c ≤ c%'Z') || c == c%'_'
def digitB (c : Byte) : Bool := c%'0' ≤ c && c ≤ c%'9'
def nameB : Bytes → Bool
  | [] => false
  | c :: cs => cs.length < 254 && nameStartB c && cs.all (fun x => nameStartB x || digitB x)

theorem nameStartB_ok {c : Byte} (h : nameStartB c = true) : NameStart c := by
  simpa [nameStartB, NameStart, or_assoc] using h

theorem nameB_ok {n : Bytes} (h : nameB n = true) : IsName n := by
  cases n with
  | nil => cases h
  | cons c cs =>
    simp only [nameB, Bool.and_eq_true, decide_eq_true_eq, List.all_eq_true, Bool.or_eq_true] at h
    obtain ⟨⟨h1, h2⟩, h3⟩ := h
    refine ⟨by simp; omega, c, cs, rfl, nameStartB_ok h2, fun x hx => ?_⟩
    rcases h3 x hx with h | h
    · exact Or.inl (nameStartB_ok h)
    · exact Or.inr (by simpa [digitB] using h)

def intB (b : Bytes) : Bool :=
  match b with
  | c :: cs => if c == c%'-' then cs.all digitB else (c :: cs).all digitB
  | [] => true

theorem intB_ok {b : Bytes} (h : intB b = true) : IsInt b := by
  have dg : ∀ ds : Bytes, ds.all digitB = true → Digits ds := by
    intro ds h d hd
    simpa [digitB] using List.all_eq_true.1 h d hd
  cases b with
  | nil => exact ⟨[], [], rfl, Or.inl rfl, by simp [Digits]⟩
  | cons c cs =>
    unfold intB at h
    dsimp only at h
    by_cases hc : (c == c%'-') = true
    · rw [if_pos hc] at h
      have e : c = c%'-' := by simpa using hc
      subst e
      exact ⟨[c%'-'], cs, rfl, Or.inr rfl, dg _ h⟩
    · rw [if_neg hc] at h
      exact ⟨[], c :: cs, rfl, Or.inl rfl, dg _ h⟩

mutual
/-- (floats are not checked: examples use none) -/
def valueB : Value → Bool
  | .var n => nameB n
  | .int d => intB d
  | .float _ => false
  | .str _ => true
  | .bool _ => true
  | .null => true
  | .enum n => nameB n
  | .list vs => valuesB vs
  | .obj fs => fieldsB fs
def valuesB : List Value → Bool
  | [] => true
  | v :: vs => valueB v && valuesB vs
def fieldsB : List (Bytes × Value) → Bool
  | [] => true
  | (n, v) :: fs => nameB n && valueB v && fieldsB fs
end

mutual
theorem valueB_ok : ∀ v : Value, valueB v = true → v.WF
  | .var _, h => nameB_ok h
  | .int _, h => intB_ok h
  | .float _, h => by cases h
  | .str _, _ => trivial
  | .bool _, _ => trivial
  | .null, _ => trivial
  | .enum _, h => nameB_ok h
  | .list vs, h => valuesB_ok vs h
  | .obj fs, h => fieldsB_ok fs h
theorem valuesB_ok : ∀ vs : List Value, valuesB vs = true → valuesWF vs
  | [], _ => trivial
  | v :: vs, h => by
    rw [valuesB, Bool.and_eq_true] at h
    exact ⟨valueB_ok v h.1, valuesB_ok vs h.2⟩
theorem fieldsB_ok : ∀ fs : List (Bytes × Value), fieldsB fs = true → fieldsWF fs
  | [], _ => trivial
  | (n, v) :: fs, h => by
    rw [fieldsB, Bool.and_eq_true, Bool.and_eq_true] at h
    exact ⟨nameB_ok h.1.1, valueB_ok v h.1.2, fieldsB_ok fs h.2⟩
end

def argsB : Option (List (Bytes × Value)) → Bool
  | none => true
  | some fs => fieldsB fs

theorem argsB_ok (a : Option (List (Bytes × Value))) (h : argsB a = true) : argsWF a := by
  cases a with
  | none => trivial
  | some fs => exact fieldsB_ok fs h

def dirsB (ds : List Directive) : Bool := ds.length ≤ 255 && ds.all (fun d => nameB d.name && argsB d.args)

theorem dirsB_ok (ds : List Directive) (h : dirsB ds = true) : dirsWF ds := by
  simp only [dirsB, Bool.and_eq_true, decide_eq_true_eq, List.all_eq_true] at h
  exact ⟨h.1, fun d hd => ⟨nameB_ok (h.2 d hd).1, argsB_ok _ (h.2 d hd).2⟩⟩

mutual
def selB : Sel → Bool
  | .field key name dirs args sels => nameB key && name.all nameB && dirsB dirs && argsB args && selsB sels
  | .spread name dirs => nameB name && dirsB dirs
  | .inline ty dirs sels => nameB ty && dirsB dirs && selsB sels
def selsB : List Sel → Bool
  | [] => true
  | s :: ss => selB s && selsB ss
end

mutual
theorem selB_ok : ∀ s : Sel, selB s = true → s.WF
  | .field key name dirs args sels, h => by
    simp only [selB, Bool.and_eq_true] at h
    obtain ⟨⟨⟨⟨h1, h2⟩, h3⟩, h4⟩, h5⟩ := h
    refine ⟨nameB_ok h1, ?_, dirsB_ok _ h3, argsB_ok _ h4, selsB_ok _ h5⟩
    rintro n rfl
    exact nameB_ok (by simpa using h2)
  | .spread name dirs, h => by
    simp only [selB, Bool.and_eq_true] at h
    exact ⟨nameB_ok h.1, dirsB_ok _ h.2⟩
  | .inline ty dirs sels, h => by
    simp only [selB, Bool.and_eq_true] at h
    exact ⟨nameB_ok h.1.1, dirsB_ok _ h.1.2, selsB_ok _ h.2⟩
theorem selsB_ok : ∀ ss : List Sel, selsB ss = true → selsWF ss
  | [], _ => trivial
  | s :: ss, h => by
    rw [selsB, Bool.and_eq_true] at h
    exact ⟨selB_ok s h.1, selsB_ok ss h.2⟩
end

def tyB : Ty → Bool
  | .named n _ => nameB n
  | .list t _ => tyB t

theorem tyB_ok : ∀ t : Ty, tyB t = true → t.WF
  | .named _ _, h => nameB_ok h
  | .list t _, h => tyB_ok t h

def defB : Def → Bool
  | .op o => (o.name.isEmpty || nameB o.name) && (o.vars.getD []).all (fun v => nameB v.name && tyB v.ty && v.default.all valueB) &&
      dirsB o.dirs && selsB o.sels
  | .frag f => nameB f.name && nameB f.typeName && selsB f.sels

theorem defB_ok (d : Def) (h : defB d = true) : d.WF := by
  cases d with
  | op o =>
    simp only [defB, Bool.and_eq_true, Bool.or_eq_true, List.all_eq_true] at h
    obtain ⟨⟨⟨h1, h2⟩, h3⟩, h4⟩ := h
    refine ⟨?_, ?_, dirsB_ok _ h3, selsB_ok _ h4⟩
    · rcases h1 with h | h
      · exact Or.inl (by simpa using h)
      · exact Or.inr (nameB_ok h)
    · intro vs hvs v hv
      have := h2 v (by rw [hvs]; exact hv)
      refine ⟨nameB_ok this.1.1, tyB_ok _ this.1.2, ?_⟩
      intro x hx
      have h3 := this.2
      rw [hx] at h3
      exact valueB_ok x (by simpa using h3)
  | frag f =>
    simp only [defB, Bool.and_eq_true] at h
    exact ⟨nameB_ok h.1.1, nameB_ok h.1.2, selsB_ok _ h.2⟩

mutual
def regB : Value → Bool
  | .str s => !s.contains 0
  | .list vs => itemsRegB vs
  | .obj fs => membersRegB fs
  | _ => true
def itemsRegB : List Value → Bool
  | [] => true
  | v :: vs => regB v && (match v with | .null => false | _ => true) && (vs.isEmpty || shift v == 0) && itemsRegB vs
def membersRegB : List (Bytes × Value) → Bool
  | [] => true
  | (_, v) :: ms => regB v && (ms.isEmpty || shift v == 0) && membersRegB ms
end

mutual
theorem regB_ok : ∀ v : Value, regB v = true → v.Regular
  | .var _, _ => trivial
  | .int _, _ => trivial
  | .float _, _ => trivial
  | .str s, h => by simpa [regB, Value.Regular] using h
  | .bool _, _ => trivial
  | .null, _ => trivial
  | .enum _, _ => trivial
  | .list vs, h => itemsRegB_ok vs h
  | .obj fs, h => membersRegB_ok fs h
theorem itemsRegB_ok : ∀ vs : List Value, itemsRegB vs = true → itemsRegular vs
  | [], _ => trivial
  | v :: vs, h => by
    simp only [itemsRegB, Bool.and_eq_true, Bool.or_eq_true, beq_iff_eq, List.isEmpty_iff] at h
    obtain ⟨⟨⟨h1, h2⟩, h3⟩, h4⟩ := h
    refine ⟨regB_ok v h1, ?_, fun hne => ?_, itemsRegB_ok vs h4⟩
    · rintro rfl; cases h2
    · rcases h3 with h | h
      · exact absurd h hne
      · exact h
theorem membersRegB_ok : ∀ ms : List (Bytes × Value), membersRegB ms = true → membersRegular ms
  | [], _ => trivial
  | (_, v) :: ms, h => by
    simp only [membersRegB, Bool.and_eq_true, Bool.or_eq_true, beq_iff_eq, List.isEmpty_iff] at h
    obtain ⟨⟨h1, h3⟩, h4⟩ := h
    refine ⟨regB_ok v h1, fun hne => ?_, membersRegB_ok ms h4⟩
    rcases h3 with h | h
    · exact absurd h hne
    · exact h
end

def dirRegB (d : Directive) : Bool :=
  match d.args with
  | none => true
  | some fs => membersRegB fs && shiftMembers fs == 0

theorem dirRegB_ok (d : Directive) (h : dirRegB d = true) : d.Regular := by
  unfold dirRegB at h
  unfold Directive.Regular
  cases hd : d.args with
  | none => trivial
  | some fs =>
    rw [hd] at h
    simp only [Bool.and_eq_true, beq_iff_eq] at h
    exact ⟨membersRegB_ok _ h.1, h.2⟩

mutual
def selRegB (frags : List Bytes) : Sel → Bool
  | .field _ _ dirs args sels =>
    dirs.all dirRegB && (match args with | none => true | some fs => membersRegB fs && (shiftMembers fs == 0 || sels.isEmpty)) && selsRegB frags sels
  | .spread name dirs => dirs.all dirRegB && decide (firstNamed name frags)
  | .inline _ dirs sels => dirs.all dirRegB && selsRegB frags sels
def selsRegB (frags : List Bytes) : List Sel → Bool
  | [] => true
  | s :: ss => selRegB frags s && selsRegB frags ss
end

mutual
theorem selRegB_ok (frags : List Bytes) : ∀ s : Sel, selRegB frags s = true → s.Regular frags
  | .field _ _ dirs args sels, h => by
    simp only [selRegB, Bool.and_eq_true, List.all_eq_true] at h
    obtain ⟨⟨h1, h2⟩, h3⟩ := h
    refine ⟨fun d hd => dirRegB_ok d (h1 d hd), ?_, selsRegB_ok frags sels h3⟩
    cases args with
    | none => trivial
    | some fs =>
      simp only [Bool.and_eq_true, Bool.or_eq_true, beq_iff_eq, List.isEmpty_iff] at h2
      exact ⟨membersRegB_ok _ h2.1, h2.2⟩
  | .spread name dirs, h => by
    simp only [selRegB, Bool.and_eq_true, List.all_eq_true, decide_eq_true_eq] at h
    exact ⟨fun d hd => dirRegB_ok d (h.1 d hd), h.2⟩
  | .inline _ dirs sels, h => by
    simp only [selRegB, Bool.and_eq_true, List.all_eq_true] at h
    exact ⟨fun d hd => dirRegB_ok d (h.1 d hd), selsRegB_ok frags sels h.2⟩
theorem selsRegB_ok (frags : List Bytes) : ∀ ss : List Sel, selsRegB frags ss = true → selsRegular frags ss
  | [], _ => trivial
  | s :: ss, h => by
    rw [selsRegB, Bool.and_eq_true] at h
    exact ⟨selRegB_ok frags s h.1, selsRegB_ok frags ss h.2⟩
end

def defRegB (frags : List Bytes) : Def → Bool
  | .op o => selsRegB frags o.sels && (o.vars.getD []).all (fun v => v.default.all regB)
  | .frag f => selsRegB frags f.sels

theorem defRegB_ok (frags : List Bytes) (d : Def) (h : defRegB frags d = true) : d.Regular frags := by
  cases d with
  | op o =>
    simp only [defRegB, Bool.and_eq_true, List.all_eq_true] at h
    refine ⟨selsRegB_ok _ _ h.1, ?_⟩
    intro vs hvs v hv x hx
    have := h.2 v (by rw [hvs]; exact hv)
    rw [hx] at this
    exact regB_ok x (by simpa using this)
  | frag f => exact selsRegB_ok _ _ h

/-- everything about a request except that `o` is the chosen operation -/
def servesB (req : Request) (d : List Def) : Bool :=
  (match Parser.parseQuery req.query (reqTarget req) with
    | .ok () s => s.errs.isEmpty && s.res == encDoc d && s.frags == fragPositions 0 d && s.targetIdx == selectedOp (reqTarget req) (opPositions 0 d)
    | _ => false) && d.all defB && d.all (defRegB (fragNames d)) && decide ((encDoc d).length < 2 ^ 32)

theorem serves {req : Request} {d : List Def} {o : Operation} (h : servesB req d = true) (hc : Eval.chosenOperation req.target d = some o) :
    Serves req d o := by
  simp only [servesB, Bool.and_eq_true, decide_eq_true_eq, List.all_eq_true] at h
  obtain ⟨⟨⟨h1, h2⟩, h3⟩, h4⟩ := h
  refine ⟨?_, fun x hx => defB_ok x (h2 x hx), fun x hx => defRegB_ok _ x (h3 x hx), h4, hc⟩
  cases hp : Parser.parseQuery req.query (reqTarget req) with
  | ok u s =>
    cases u
    rw [hp] at h1
    simp only [Bool.and_eq_true, List.isEmpty_iff, beq_iff_eq] at h1
    exact ⟨s, hp, h1.1.1.1, h1.1.1.2, h1.1.2, h1.2⟩
  | panic => rw [hp] at h1; cases h1
  | oof => rw [hp] at h1; cases h1

/-- fields nest at most `n` deep -/
def nestB (frags : List Fragment) : Nat → Nat → List Sel → Bool
  | _, _, [] => true
  | fuel + 1, n + 1, .field _ _ _ _ sub :: rest => nestB frags fuel n sub && nestB frags fuel (n + 1) rest
  | fuel + 1, n, .spread name _ :: rest =>
    (match frags.find? (fun f => f.name = name) with
      | some f => nestB frags fuel n f.sels
      | none => true) && nestB frags fuel n rest
  | fuel + 1, n, .inline _ _ sub :: rest => nestB frags fuel n sub && nestB frags fuel n rest
  | _, _, _ => false

theorem nestB_ok (frags : List Fragment) (fuel : Nat) : ∀ n sels, nestB frags fuel n sels = true → Typed.Nest frags n sels := by
  induction fuel with
  | zero =>
    intro n sels h
    cases sels with
    | nil => exact .nil
    | cons s ss => simp [nestB] at h
  | succ fuel ih =>
    intro n sels h
    match sels, n with
    | [], n => exact .nil
    | .field _ _ _ _ sub :: rest, 0 => simp [nestB] at h
    | .field _ _ _ _ sub :: rest, n + 1 =>
      simp only [nestB, Bool.and_eq_true] at h
      exact .field (ih _ _ h.1) (ih _ _ h.2)
    | .spread name dirs :: rest, n =>
      unfold nestB at h
      simp only [Bool.and_eq_true] at h
      cases hf : frags.find? (fun f => decide (f.name = name)) with
      | some f =>
        rw [hf] at h
        exact .spread hf (ih _ _ h.1) (ih _ _ h.2)
      | none => exact .undefined hf (ih _ _ h.2)
    | .inline _ _ sub :: rest, n =>
      unfold nestB at h
      simp only [Bool.and_eq_true] at h
      exact .inline (ih _ _ h.1) (ih _ _ h.2)

end Check
end Yarql
