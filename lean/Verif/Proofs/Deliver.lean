import Verif.Proofs.Numbers
import Verif.Proofs.VarSim
import Verif.Props.Time

/-! # Conversions deliver exactly what `Spec/Binding.lean` says -/

namespace Yarql
namespace Binding
open Doc Http Yarql.Bind

section
variable {F V W : Type} {env : Env F V W} {enums : List (EnumDef F)} {inTypes : List (Bytes × InStruct F)}

theorem assignEnum_iff (idx : Nat) (key : Bytes) (x : InVal F) :
    assignEnum enums idx key = .ok x ↔ ∃ s, x = .scalar s ∧ EnumValue enums idx key s := by
  unfold assignEnum EnumValue
  cases h : enums[idx]? with
  | none => simp
  | some e =>
    dsimp only
    cases h2 : e.entries.find? (fun x => decide (x.1 = key)) with
    | none => simp [h2]
    | some y =>
      have hy : y.1 = key := by simpa using List.find?_some h2
      obtain ⟨a, b⟩ := y
      cases hy
      dsimp only
      cases hk : e.kind <;> simp [h2, hk] <;> exact eq_comm

theorem assignID_iff (k : Kind) (s : Bytes) (x : InVal F) :
    assignID k s = .ok x ↔ ∃ y, x = .scalar y ∧ IDValue k s y := by
  unfold assignID
  cases k with
  | bool => simp; intro y _ h; cases h
  | float32 => simp; intro y _ h; cases h
  | float64 => simp; intro y _ h; cases h
  | string =>
    dsimp only
    constructor
    · intro h; cases h; exact ⟨_, rfl, .string⟩
    · rintro ⟨y, rfl, h⟩; cases h; rfl
  | int w =>
    dsimp only
    cases h : parseInt64 s with
    | none =>
      constructor
      · intro h; cases h
      · rintro ⟨y, rfl, h'⟩
        cases h' with
        | int h1 h2 h3 =>
          rw [(parseInt64_iff _ _).2 ⟨h1, h2⟩] at h; cases h
    | some i =>
      have hi := (parseInt64_iff _ _).1 h
      constructor
      · intro h; cases h; exact ⟨_, rfl, .int hi.1 hi.2 (wrapInt_truncates w i)⟩
      · rintro ⟨y, rfl, h'⟩
        cases h' with
        | int h1 h2 h3 =>
          rw [(parseInt64_iff _ _).2 ⟨h1, h2⟩] at h
          cases h
          dsimp only
          rw [(wrapInt_iff _ _ _).2 h3]
  | uint w =>
    dsimp only
    cases h : parseInt64 s with
    | none =>
      constructor
      · intro h; cases h
      · rintro ⟨y, rfl, h'⟩
        cases h' with
        | uint h1 h2 h3 =>
          rw [(parseInt64_iff _ _).2 ⟨h1, h2⟩] at h; cases h
    | some i =>
      have hi := (parseInt64_iff _ _).1 h
      dsimp only
      constructor
      · intro h'
        by_cases hn : i < 0
        · rw [if_pos hn] at h'; cases h'
        · rw [if_neg hn] at h'; cases h'
          exact ⟨_, rfl, .uint hi.1 hi.2 (by omega) ((wrapUint_iff _ _ _).1 rfl)⟩
      · rintro ⟨y, rfl, h'⟩
        cases h' with
        | uint h1 h2 h3 h4 =>
          rw [(parseInt64_iff _ _).2 ⟨h1, h2⟩] at h
          cases h
          rw [if_neg (by omega), (wrapUint_iff _ _ _).2 h4]

theorem assignTime_iff (s : Bytes) (x : InVal F) : assignTime s = .ok x ↔ ∃ t, x = .time t ∧ Time.Reads s t := by
  simp only [← Time.C31_accepts_exactly]
  unfold assignTime
  cases h : Time.parseIso8601String s with
  | none => simp
  | some t => simp; exact eq_comm

theorem assignString_iff (inp : Input) (cur : InVal F) (s : Bytes) (x : InVal F) :
    assignString env enums inp cur s = .ok x ↔ TextValue env enums s inp x := by
  unfold assignString
  match inp with
  | .scalar k (some e) id =>
    dsimp only
    rw [assignEnum_iff]
    exact ⟨fun ⟨y, h1, h2⟩ => h1 ▸ .enum h2, fun h => by cases h with | enum h => exact ⟨_, rfl, h⟩⟩
  | .scalar k none true =>
    dsimp only
    rw [assignID_iff]
    exact ⟨fun ⟨y, h1, h2⟩ => h1 ▸ .id h2, fun h => by cases h with | id h => exact ⟨_, rfl, h⟩⟩
  | .scalar k none false =>
    cases k with
    | string =>
      exact ⟨fun h => by cases h; exact .string, fun h => by cases h; rfl⟩
    | _ => exact ⟨fun h => (by cases h), fun h => (by cases h)⟩
  | .file =>
    dsimp only
    cases h : env.formFile with
    | none =>
      exact ⟨fun h => (by cases h), fun h' => by cases h' with | file h1 h2 => rw [h] at h1; cases h1⟩
    | some f =>
      dsimp only
      cases h2 : f s with
      | error e => exact ⟨fun h => (by cases h), fun h' => by cases h' with | file h1 h3 => rw [h] at h1; cases h1; rw [h2] at h3; cases h3⟩
      | ok hd =>
        exact ⟨fun h' => by cases h'; exact .file h h2, fun h' => by cases h' with | file h1 h3 => rw [h] at h1; cases h1; rw [h2] at h3; cases h3; rfl⟩
  | .time =>
    dsimp only
    rw [assignTime_iff]
    exact ⟨fun ⟨y, h1, h2⟩ => h1 ▸ .time h2, fun h => by cases h with | time h => exact ⟨_, rfl, h⟩⟩
  | .ptr _ => exact ⟨fun h => (by cases h), fun h => (by cases h)⟩
  | .slice _ => exact ⟨fun h => (by cases h), fun h => (by cases h)⟩
  | .array _ _ => exact ⟨fun h => (by cases h), fun h => (by cases h)⟩
  | .struct _ => exact ⟨fun h => (by cases h), fun h => (by cases h)⟩

theorem assignInt_iff (inp : Input) (cur : InVal F) (d : Bytes) (x : InVal F) :
    assignInt env inp cur d = .ok x ↔ ScalarLit env enums (.int d) inp x := by
  have no : ∀ {inp : Input}, (∀ k e id, inp ≠ .scalar k e id) → ¬ ScalarLit env enums (.int d) inp x := by
    intro inp hn h
    cases h <;> exact hn _ _ _ rfl
  unfold assignInt
  match inp with
  | .scalar (.int w) e id =>
    dsimp only
    cases h : parseInt64 d with
    | none =>
      refine ⟨fun h => (by cases h), fun h' => ?_⟩
      cases h' with
      | int h1 h2 => rw [(parseInt64_iff _ _).2 ⟨h1, inRange_w64 h2⟩] at h; cases h
    | some i =>
      have hi := (parseInt64_iff _ _).1 h
      dsimp only
      constructor
      · intro h'
        by_cases hw : wrapInt w i = i
        · rw [if_neg (by simpa using hw)] at h'; cases h'
          exact .int hi.1 ((wrapInt_eq _ _).1 hw)
        · rw [if_pos hw] at h'; cases h'
      · intro h'
        cases h' with
        | int h1 h2 =>
          cases intText_unique h1 hi.1
          rw [if_neg (by simpa using (wrapInt_eq _ _).2 h2)]
  | .scalar (.uint w) e id =>
    dsimp only
    cases h : parseUint64 d with
    | none =>
      refine ⟨fun h => (by cases h), fun h' => ?_⟩
      cases h' with
      | uint h1 h2 => rw [(parseUint64_iff _ _).2 ⟨h1, inURange_w64 h2⟩] at h; cases h
    | some i =>
      have hi := (parseUint64_iff _ _).1 h
      dsimp only
      constructor
      · intro h'
        by_cases hw : wrapUint w i = i
        · rw [if_neg (by simpa using hw)] at h'; cases h'
          exact .uint hi.1 ((wrapUint_eq _ _).1 hw)
        · rw [if_pos hw] at h'; cases h'
      · intro h'
        cases h' with
        | uint h1 h2 =>
          cases natText_unique h1 hi.1
          rw [if_neg (by simpa using (wrapUint_eq _ _).2 h2)]
  | .scalar .float32 e id =>
    dsimp only
    cases h : parseInt64 d with
    | none =>
      refine ⟨fun h => (by cases h), fun h' => ?_⟩
      cases h' with
      | intFloat32 h1 h2 => rw [(parseInt64_iff _ _).2 ⟨h1, h2⟩] at h; cases h
    | some i =>
      have hi := (parseInt64_iff _ _).1 h
      constructor
      · intro h'; cases h'; exact .intFloat32 hi.1 hi.2
      · intro h'
        cases h' with
        | intFloat32 h1 h2 => cases intText_unique h1 hi.1; rfl
  | .scalar .float64 e id =>
    dsimp only
    cases h : parseInt64 d with
    | none =>
      refine ⟨fun h => (by cases h), fun h' => ?_⟩
      cases h' with
      | intFloat64 h1 h2 => rw [(parseInt64_iff _ _).2 ⟨h1, h2⟩] at h; cases h
    | some i =>
      have hi := (parseInt64_iff _ _).1 h
      constructor
      · intro h'; cases h'; exact .intFloat64 hi.1 hi.2
      · intro h'
        cases h' with
        | intFloat64 h1 h2 => cases intText_unique h1 hi.1; rfl
  | .scalar .bool e id =>
    dsimp only
    cases h : parseInt64 d with
    | none =>
      refine ⟨fun h => (by cases h), fun h' => ?_⟩
      cases h' with
      | intBool h1 h2 => rw [(parseInt64_iff _ _).2 ⟨h1, h2⟩] at h; cases h
    | some i =>
      have hi := (parseInt64_iff _ _).1 h
      constructor
      · intro h'; cases h'; exact .intBool hi.1 hi.2
      · intro h'
        cases h' with
        | intBool h1 h2 => cases intText_unique h1 hi.1; rfl
  | .scalar .string e id => exact ⟨fun h => (by cases h), fun h => (by cases h)⟩
  | .time => exact ⟨fun h => (by cases h), fun h => (no (by simp) h).elim⟩
  | .file => exact ⟨fun h => (by cases h), fun h => (no (by simp) h).elim⟩
  | .ptr _ => exact ⟨fun h => (by cases h), fun h => (no (by simp) h).elim⟩
  | .slice _ => exact ⟨fun h => (by cases h), fun h => (no (by simp) h).elim⟩
  | .array _ _ => exact ⟨fun h => (by cases h), fun h => (no (by simp) h).elim⟩
  | .struct _ => exact ⟨fun h => (by cases h), fun h => (no (by simp) h).elim⟩

theorem assignFloat_iff (inp : Input) (cur : InVal F) (d : Bytes) (x : InVal F) :
    assignFloat env inp cur d = .ok x ↔ ScalarLit env enums (.float d) inp x := by
  unfold assignFloat
  match inp with
  | .scalar .float32 e id =>
    dsimp only
    cases h : env.parseFloat d with
    | none => exact ⟨fun h => (by cases h), fun h' => by cases h' with | float32 h1 => rw [h] at h1; cases h1⟩
    | some f => exact ⟨fun h' => by cases h'; exact .float32 h, fun h' => by cases h' with | float32 h1 => rw [h] at h1; cases h1; rfl⟩
  | .scalar .float64 e id =>
    dsimp only
    cases h : env.parseFloat d with
    | none => exact ⟨fun h => (by cases h), fun h' => by cases h' with | float64 h1 => rw [h] at h1; cases h1⟩
    | some f => exact ⟨fun h' => by cases h'; exact .float64 h, fun h' => by cases h' with | float64 h1 => rw [h] at h1; cases h1; rfl⟩
  | .scalar .string e id => exact ⟨fun h => (by cases h), fun h => (by cases h)⟩
  | .scalar .bool e id => exact ⟨fun h => (by cases h), fun h => (by cases h)⟩
  | .scalar (.int _) e id => exact ⟨fun h => (by cases h), fun h => (by cases h)⟩
  | .scalar (.uint _) e id => exact ⟨fun h => (by cases h), fun h => (by cases h)⟩
  | .time => exact ⟨fun h => (by cases h), fun h => (by cases h)⟩
  | .file => exact ⟨fun h => (by cases h), fun h => (by cases h)⟩
  | .ptr _ => exact ⟨fun h => (by cases h), fun h => (by cases h)⟩
  | .slice _ => exact ⟨fun h => (by cases h), fun h => (by cases h)⟩
  | .array _ _ => exact ⟨fun h => (by cases h), fun h => (by cases h)⟩
  | .struct _ => exact ⟨fun h => (by cases h), fun h => (by cases h)⟩

theorem assignBool_iff (inp : Input) (cur : InVal F) (b : Bool) (x : InVal F) :
    assignBool env inp cur b = .ok x ↔ ScalarLit env enums (.bool b) inp x := by
  unfold assignBool
  match inp with
  | .scalar .bool e id => exact ⟨fun h => by cases h; exact .bool, fun h => by cases h; rfl⟩
  | .scalar .string e id => exact ⟨fun h => (by cases h), fun h => (by cases h)⟩
  | .scalar .float32 e id => exact ⟨fun h => (by cases h), fun h => (by cases h)⟩
  | .scalar .float64 e id => exact ⟨fun h => (by cases h), fun h => (by cases h)⟩
  | .scalar (.int _) e id => exact ⟨fun h => (by cases h), fun h => (by cases h)⟩
  | .scalar (.uint _) e id => exact ⟨fun h => (by cases h), fun h => (by cases h)⟩
  | .time => exact ⟨fun h => (by cases h), fun h => (by cases h)⟩
  | .file => exact ⟨fun h => (by cases h), fun h => (by cases h)⟩
  | .ptr _ => exact ⟨fun h => (by cases h), fun h => (by cases h)⟩
  | .slice _ => exact ⟨fun h => (by cases h), fun h => (by cases h)⟩
  | .array _ _ => exact ⟨fun h => (by cases h), fun h => (by cases h)⟩
  | .struct _ => exact ⟨fun h => (by cases h), fun h => (by cases h)⟩

theorem assignEnumLit_iff (inp : Input) (n : Bytes) (x : InVal F) :
    assignEnumLit enums inp n = .ok x ↔ ScalarLit env enums (.enum n) inp x := by
  unfold assignEnumLit
  match inp with
  | .scalar k (some e) id =>
    dsimp only
    rw [assignEnum_iff]
    exact ⟨fun ⟨y, h1, h2⟩ => h1 ▸ .enum h2, fun h => by cases h with | enum h => exact ⟨_, rfl, h⟩⟩
  | .scalar _ none id => exact ⟨fun h => (by cases h), fun h => (by cases h)⟩
  | .time => exact ⟨fun h => (by cases h), fun h => (by cases h)⟩
  | .file => exact ⟨fun h => (by cases h), fun h => (by cases h)⟩
  | .ptr _ => exact ⟨fun h => (by cases h), fun h => (by cases h)⟩
  | .slice _ => exact ⟨fun h => (by cases h), fun h => (by cases h)⟩
  | .array _ _ => exact ⟨fun h => (by cases h), fun h => (by cases h)⟩
  | .struct _ => exact ⟨fun h => (by cases h), fun h => (by cases h)⟩

theorem scalarStr_iff (inp : Input) (s : Bytes) (x : InVal F) :
    ScalarLit env enums (.str s) inp x ↔ TextValue env enums s inp x :=
  ⟨fun h => by cases h with | str h => exact h, fun h => .str h⟩


/-! ## JSON values -/

theorem bindB {α β : Type} {m : B α} {f : α → B β} {b : β} : m.bind f = .ok b ↔ ∃ a, m = .ok a ∧ f a = .ok b := by
  cases m with
  | ok a => exact ⟨fun h => ⟨a, rfl, h⟩, fun ⟨a', h1, h2⟩ => by cases h1; exact h2⟩
  | err e => exact ⟨fun h => (by cases h), fun ⟨_, h, _⟩ => by cases h⟩
  | panic => exact ⟨fun h => (by cases h), fun ⟨_, h, _⟩ => by cases h⟩

theorem textOnly_iff (inp : Input) : isSpecial inp = true ↔ TextOnly inp := by
  cases inp with
  | scalar k e id => cases e <;> cases id <;> simp [isSpecial, TextOnly]
  | _ => simp [isSpecial, TextOnly]

theorem special_str (inp : Input) (s : Bytes) (x : InVal F) (set : Bool) (hs : isSpecial inp = true) :
    jsonSpecial env enums inp (.str s) = .ok (x, set) ↔ TextValue env enums s inp x ∧ set = true := by
  have lift : ∀ (b : B (InVal F)), b.bind (fun v => B.ok (v, true)) = .ok (x, set) ↔ b = .ok x ∧ set = true := by
    intro b
    rw [bindB]
    exact ⟨fun ⟨a, h1, h2⟩ => by cases h2; exact ⟨h1, rfl⟩, fun ⟨h1, h2⟩ => ⟨x, h1, by rw [h2]⟩⟩
  unfold jsonSpecial
  match inp with
  | .scalar k (some e) id =>
    dsimp only
    rw [lift, ← assignString_iff (cur := .file none)]
    rfl
  | .scalar k none true =>
    dsimp only
    rw [lift, ← assignString_iff (cur := .file none)]
    rfl
  | .scalar k none false => cases hs
  | .file =>
    dsimp only
    cases h : env.formFile with
    | none =>
      exact ⟨fun h => (by cases h), fun ⟨h', _⟩ => by cases h' with | file h1 h2 => rw [h] at h1; cases h1⟩
    | some f =>
      dsimp only
      cases h2 : f s with
      | error e => exact ⟨fun h => (by cases h), fun ⟨h', _⟩ => by cases h' with | file h1 h3 => rw [h] at h1; cases h1; rw [h2] at h3; cases h3⟩
      | ok hd =>
        exact ⟨fun h' => by cases h'; exact ⟨.file h h2, rfl⟩, fun ⟨h', e⟩ => by cases h' with | file h1 h3 => rw [h] at h1; cases h1; rw [h2] at h3; cases h3; rw [e]⟩
  | .time =>
    dsimp only
    rw [lift, ← assignString_iff (cur := .file none)]
    rfl
  | .ptr _ => cases hs
  | .slice _ => cases hs
  | .array _ _ => cases hs
  | .struct _ => cases hs

theorem special_other (inp : Input) (j : J) (x : InVal F) (set : Bool) (hj : ∀ s, j ≠ .str s) :
    jsonSpecial env enums inp j ≠ .ok (x, set) := by
  unfold jsonSpecial
  cases j with
  | str s => exact absurd rfl (hj s)
  | _ => intro h; cases h

/-- only strings are delivered to parameters that take texts only -/
theorem fromJSON_special {j : J} {inp : Input} {cur x : InVal F} {set : Bool} (h : FromJSON env enums inTypes j inp cur x set)
    (hs : isSpecial inp = true) : ∃ s, j = .str s ∧ TextValue env enums s inp x ∧ set = true := by
  cases h with
  | null h1 => exact absurd ((textOnly_iff _).1 hs) h1
  | str h => exact ⟨_, rfl, h, rfl⟩
  | _ => cases hs

theorem ptrWrap_iff (base : Input → InVal F → B (InVal F × Bool)) (j : J)
    (hbase : ∀ inp cur x set, (∀ e, inp ≠ .ptr e) → (base inp cur = .ok (x, set) ↔ FromJSON env enums inTypes j inp cur x set))
    (inp : Input) (cur x : InVal F) (set : Bool) :
    ptrWrap env inTypes base inp cur = .ok (x, set) ↔ FromJSON env enums inTypes j inp cur x set := by
  induction inp generalizing cur x set with
  | ptr e ih =>
    unfold ptrWrap
    rw [zeroOf_eq]
    cases h : ptrWrap env inTypes base e (Zero env inTypes e) with
    | ok p =>
      obtain ⟨y, b⟩ := p
      have hy := (ih _ _ _).1 h
      cases b with
      | true =>
        constructor
        · intro h'; cases h'; exact .ptr hy
        · intro h'
          cases h' with
          | null _ h2 => exact absurd rfl (h2 _)
          | ptr h2 => have := (ih _ _ _).2 h2; rw [h] at this; cases this; rfl
          | ptrNull h2 => have := (ih _ _ _).2 h2; rw [h] at this; cases this
          | str h2 => cases h2
      | false =>
        constructor
        · intro h'; cases h'; exact .ptrNull hy
        · intro h'
          cases h' with
          | null _ h2 => exact absurd rfl (h2 _)
          | ptr h2 => have := (ih _ _ _).2 h2; rw [h] at this; cases this
          | ptrNull h2 => rfl
          | str h2 => cases h2
    | err m =>
      refine ⟨fun h => (by cases h), fun h' => ?_⟩
      cases h' with
      | null _ h2 => exact absurd rfl (h2 _)
      | ptr h2 => have := (ih _ _ _).2 h2; rw [h] at this; cases this
      | ptrNull h2 => have := (ih _ _ _).2 h2; rw [h] at this; cases this
      | str h2 => cases h2
    | panic =>
      refine ⟨fun h => (by cases h), fun h' => ?_⟩
      cases h' with
      | null _ h2 => exact absurd rfl (h2 _)
      | ptr h2 => have := (ih _ _ _).2 h2; rw [h] at this; cases this
      | ptrNull h2 => have := (ih _ _ _).2 h2; rw [h] at this; cases this
      | str h2 => cases h2
  | scalar => exact hbase _ _ _ _ (by simp)
  | time => exact hbase _ _ _ _ (by simp)
  | file => exact hbase _ _ _ _ (by simp)
  | slice => exact hbase _ _ _ _ (by simp)
  | array => exact hbase _ _ _ _ (by simp)
  | struct => exact hbase _ _ _ _ (by simp)

theorem jsonNumber_iff (inp : Input) (cur : InVal F) (r : Bytes) (x : InVal F) (set : Bool) (hs : isSpecial inp = false)
    (hp : ∀ e, inp ≠ .ptr e) :
    jsonNumber env inp cur r = .ok (x, set) ↔ FromJSON env enums inTypes (.num r) inp cur x set := by
  have noInt : ∀ {i : Int}, parseInt64 r = none → IntText r i → InRange .w64 i → False := by
    intro i h h1 h2
    rw [(parseInt64_iff _ _).2 ⟨h1, h2⟩] at h
    cases h
  unfold jsonNumber
  match inp with
  | .scalar k (some e) id => cases hs
  | .scalar k none true => cases hs
  | .scalar .float32 none false => exact ⟨fun h => by cases h; exact .float32, fun h => by cases h; rfl⟩
  | .scalar .float64 none false => exact ⟨fun h => by cases h; exact .float64, fun h => by cases h; rfl⟩
  | .scalar (.int w) none false =>
    dsimp only
    cases h : parseInt64 r with
    | none => exact ⟨fun h => (by cases h), fun h' => by cases h' with | int h1 h2 h3 => exact (noInt h h1 h2).elim⟩
    | some i =>
      have hi := (parseInt64_iff _ _).1 h
      dsimp only
      constructor
      · intro h'
        by_cases hw : wrapInt w i = i
        · rw [if_neg (by simpa using hw)] at h'; cases h'
          exact .int hi.1 hi.2 ((wrapInt_eq _ _).1 hw)
        · rw [if_pos hw] at h'; cases h'
      · intro h'
        cases h' with
        | int h1 h2 h3 =>
          cases intText_unique h1 hi.1
          rw [if_neg (by simpa using (wrapInt_eq _ _).2 h3)]
  | .scalar (.uint w) none false =>
    dsimp only
    cases h : parseInt64 r with
    | none => exact ⟨fun h => (by cases h), fun h' => by cases h' with | uint h1 h2 h3 => exact (noInt h h1 h2).elim⟩
    | some i =>
      have hi := (parseInt64_iff _ _).1 h
      dsimp only
      constructor
      · intro h'
        by_cases hn : i < 0
        · rw [if_pos hn] at h'; cases h'
        · rw [if_neg hn] at h'; cases h'
          exact .uint hi.1 hi.2 (by omega) ((wrapUint_iff _ _ _).1 rfl)
      · intro h'
        cases h' with
        | uint h1 h2 h3 h4 =>
          cases intText_unique h1 hi.1
          rw [if_neg (by omega), (wrapUint_iff _ _ _).2 h4]
  | .scalar .bool none false =>
    dsimp only
    cases h : parseInt64 r with
    | none => exact ⟨fun h => (by cases h), fun h' => by cases h' with | numBool h1 h2 => exact (noInt h h1 h2).elim⟩
    | some i =>
      have hi := (parseInt64_iff _ _).1 h
      dsimp only
      constructor
      · intro h'; cases h'; exact .numBool hi.1 hi.2
      · intro h'
        cases h' with
        | numBool h1 h2 => cases intText_unique h1 hi.1; rfl
  | .scalar .string none false =>
    dsimp only
    refine ⟨fun h => ?_, fun h => (by cases h)⟩
    split at h <;> cases h
  | .time => cases hs
  | .file => cases hs
  | .ptr e => exact absurd rfl (hp e)
  | .slice _ =>
    dsimp only
    refine ⟨fun h => ?_, fun h => (by cases h)⟩
    split at h <;> cases h
  | .array _ _ =>
    dsimp only
    refine ⟨fun h => ?_, fun h => (by cases h)⟩
    split at h <;> cases h
  | .struct _ =>
    dsimp only
    refine ⟨fun h => ?_, fun h => (by cases h)⟩
    split at h <;> cases h

theorem withField_iff (cur : InVal F) (i : Nat) (c x cur' : InVal F) :
    (getField cur i = some c ∧ setField cur i x = cur') ↔ WithField cur i c x cur' := by
  unfold WithField
  cases cur with
  | struct vs =>
    constructor
    · rintro ⟨h1, h2⟩; exact ⟨vs, rfl, h1, h2.symm⟩
    · rintro ⟨vs', h, h1, h2⟩; cases h; exact ⟨h1, h2.symm⟩
  | _ =>
    constructor
    · rintro ⟨h1, _⟩; cases h1
    · rintro ⟨_, h, _⟩; cases h

mutual
theorem bindJSONBase_iff (j : J) (inp : Input) (cur x : InVal F) (set : Bool) (hp : ∀ e, inp ≠ .ptr e) :
    bindJSONBase env enums inTypes j inp cur = .ok (x, set) ↔ FromJSON env enums inTypes j inp cur x set := by
  by_cases hs : isSpecial inp = true
  · -- only strings
    cases j with
    | str s =>
      simp only [bindJSONBase]
      rw [if_pos hs, special_str _ _ _ _ hs]
      constructor
      · rintro ⟨h, rfl⟩; exact .str h
      · intro h; obtain ⟨s', h1, h2, h3⟩ := fromJSON_special h hs; cases h1; exact ⟨h2, h3⟩
    | _ =>
      simp only [bindJSONBase]
      rw [if_pos hs]
      refine ⟨fun h => absurd h (special_other _ _ _ _ (by simp)), fun h => ?_⟩
      obtain ⟨s', h1, _⟩ := fromJSON_special h hs
      cases h1
  · have hs' : isSpecial inp = false := by simpa using hs
    cases j with
    | null =>
      simp only [bindJSONBase]
      rw [if_neg hs]
      constructor
      · intro h; cases h; exact .null (fun h => hs ((textOnly_iff _).2 h)) hp
      · intro h
        cases h with
        | null => rfl
        | ptr => exact absurd rfl (hp _)
        | ptrNull => exact absurd rfl (hp _)
    | bool b =>
      simp only [bindJSONBase]
      rw [if_neg hs]
      match inp with
      | .scalar .bool none false => exact ⟨fun h => by cases h; exact .bool, fun h => by cases h; rfl⟩
      | .scalar _ (some _) _ => cases hs'
      | .scalar _ none true => cases hs'
      | .scalar .string none false => exact ⟨fun h => (by cases h), fun h => (by cases h)⟩
      | .scalar .float32 none false => exact ⟨fun h => (by cases h), fun h => (by cases h)⟩
      | .scalar .float64 none false => exact ⟨fun h => (by cases h), fun h => (by cases h)⟩
      | .scalar (.int _) none false => exact ⟨fun h => (by cases h), fun h => (by cases h)⟩
      | .scalar (.uint _) none false => exact ⟨fun h => (by cases h), fun h => (by cases h)⟩
      | .time => cases hs'
      | .file => cases hs'
      | .ptr e => exact absurd rfl (hp e)
      | .slice _ => exact ⟨fun h => (by cases h), fun h => (by cases h)⟩
      | .array _ _ => exact ⟨fun h => (by cases h), fun h => (by cases h)⟩
      | .struct _ => exact ⟨fun h => (by cases h), fun h => (by cases h)⟩
    | num r =>
      simp only [bindJSONBase]
      rw [if_neg hs]
      exact jsonNumber_iff _ _ _ _ _ hs' hp
    | str s =>
      simp only [bindJSONBase]
      rw [if_neg hs, bindB]
      constructor
      · rintro ⟨a, h1, h2⟩; cases h2; exact .str ((assignString_iff _ _ _ _).1 h1)
      · intro h
        cases h with
        | str h => exact ⟨x, (assignString_iff _ _ _ _).2 h, rfl⟩
        | ptr => exact absurd rfl (hp _)
        | ptrNull => exact absurd rfl (hp _)
    | arr js =>
      simp only [bindJSONBase]
      rw [if_neg hs]
      match inp with
      | .slice e =>
        dsimp only
        rw [bindB]
        constructor
        · rintro ⟨a, h1, h2⟩; cases h2; exact .arr ((bindJSONItems_iff js e a).1 h1)
        · intro h
          cases h with
          | arr h => exact ⟨_, (bindJSONItems_iff js e _).2 h, rfl⟩
      | .scalar _ _ _ => exact ⟨fun h => (by cases h), fun h => (by cases h)⟩
      | .time => cases hs'
      | .file => cases hs'
      | .ptr e => exact absurd rfl (hp e)
      | .array _ _ => exact ⟨fun h => (by cases h), fun h => (by cases h)⟩
      | .struct _ => exact ⟨fun h => (by cases h), fun h => (by cases h)⟩
    | obj ms =>
      simp only [bindJSONBase]
      rw [if_neg hs]
      match inp with
      | .struct n =>
        dsimp only
        cases hl : lookup inTypes n with
        | none => exact ⟨fun h => (by cases h), fun h => by cases h with | obj h1 h2 => rw [hl] at h1; cases h1⟩
        | some d =>
          dsimp only
          rw [bindB]
          constructor
          · rintro ⟨a, h1, h2⟩; cases h2; exact .obj hl ((bindJSONMembers_iff ms d.fields cur x).1 h1)
          · intro h
            cases h with
            | obj h1 h2 => rw [hl] at h1; cases h1; exact ⟨_, (bindJSONMembers_iff ms d.fields cur _).2 h2, rfl⟩
      | .scalar _ _ _ => exact ⟨fun h => (by cases h), fun h => (by cases h)⟩
      | .time => cases hs'
      | .file => cases hs'
      | .ptr e => exact absurd rfl (hp e)
      | .array _ _ => exact ⟨fun h => (by cases h), fun h => (by cases h)⟩
      | .slice _ => exact ⟨fun h => (by cases h), fun h => (by cases h)⟩
theorem bindJSONItems_iff (js : List J) (e : Input) (xs : List (InVal F)) :
    bindJSONItems env enums inTypes js e = .ok xs ↔ ItemsJSON env enums inTypes js e xs := by
  cases js with
  | nil =>
    simp only [bindJSONItems]
    exact ⟨fun h => by cases h; exact .nil, fun h => by cases h; rfl⟩
  | cons j js =>
    simp only [bindJSONItems]
    rw [bindB, zeroOf_eq]
    constructor
    · rintro ⟨⟨a, b⟩, h1, h2⟩
      obtain ⟨ys, h3, h4⟩ := bindB.1 h2
      cases h4
      exact .cons ((ptrWrap_iff _ j (fun inp cur x set hp => bindJSONBase_iff j inp cur x set hp) _ _ _ _).1 h1)
        ((bindJSONItems_iff js e ys).1 h3)
    · intro h
      cases h with
      | cons h1 h2 =>
        exact ⟨_, (ptrWrap_iff _ j (fun inp cur x set hp => bindJSONBase_iff j inp cur x set hp) _ _ _ _).2 h1,
          bindB.2 ⟨_, (bindJSONItems_iff js e _).2 h2, rfl⟩⟩
theorem bindJSONMembers_iff (ms : List (Bytes × J)) (fs : List InField) (cur x : InVal F) :
    bindJSONMembers env enums inTypes ms fs cur = .ok x ↔ MembersJSON env enums inTypes ms fs cur x := by
  cases ms with
  | nil =>
    simp only [bindJSONMembers]
    exact ⟨fun h => by cases h; exact .nil, fun h => by cases h; rfl⟩
  | cons m ms =>
    obtain ⟨k, j⟩ := m
    simp only [bindJSONMembers]
    cases hf : fs.find? (fun f => decide (f.key = k)) with
    | none => exact ⟨fun h => (by cases h), fun h => by cases h with | cons h1 => rw [hf] at h1; cases h1⟩
    | some f =>
      dsimp only
      cases hg : getField cur f.goFieldIdx with
      | none =>
        refine ⟨fun h => (by cases h), fun h => ?_⟩
        cases h with
        | cons h1 _ h3 =>
          rw [hf] at h1; cases h1
          rw [((withField_iff _ _ _ _ _).2 h3).1] at hg; cases hg
      | some c =>
        dsimp only
        rw [bindB]
        constructor
        · rintro ⟨⟨a, b⟩, h1, h2⟩
          exact .cons hf ((ptrWrap_iff _ j (fun inp cur x set hp => bindJSONBase_iff j inp cur x set hp) _ _ _ _).1 h1)
            ((withField_iff _ _ _ _ _).1 ⟨hg, rfl⟩) ((bindJSONMembers_iff ms fs _ x).1 h2)
        · intro h
          cases h with
          | cons h1 h2 h3 h4 =>
            rw [hf] at h1; cases h1
            obtain ⟨h5, h6⟩ := (withField_iff _ _ _ _ _).2 h3
            rw [h5] at hg; cases hg
            exact ⟨_, (ptrWrap_iff _ j (fun inp cur x set hp => bindJSONBase_iff j inp cur x set hp) _ _ _ _).2 h2,
              by rw [h6]; exact (bindJSONMembers_iff ms fs _ x).2 h4⟩
end

/-- A JSON value is bound exactly to what `FromJSON` says, or rejected. -/
theorem bindJSON_iff (j : J) (inp : Input) (cur x : InVal F) (set : Bool) :
    bindJSON env enums inTypes j inp cur = .ok (x, set) ↔ FromJSON env enums inTypes j inp cur x set :=
  ptrWrap_iff _ j (fun inp cur x set hp => bindJSONBase_iff j inp cur x set hp) _ _ _ _

end
end Binding
end Yarql
