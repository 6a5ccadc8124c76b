import Verif.Spec.Delivered
import Verif.Proofs.Deliver
import Verif.Proofs.ShowsSound

/-! # Conversions: what they deliver, and why they fail -/

namespace Yarql
namespace Delivered
open Binding Http Yarql.Bind

section
variable {F V W : Type} {env : Env F V W} {enums : List (EnumDef F)} {inTypes : List (Bytes × InStruct F)} {vars : VarsSrc}

theorem bitsText_eq (w : Width) : widthText w = bitsText w := by cases w <;> rfl
theorem kindName_eq (inp : Input) : kindString inp = kindName inp := by
  cases inp with
  | scalar k e id =>
    cases k with
    | int w => cases w <;> rfl
    | uint w => cases w <;> rfl
    | _ => rfl
  | _ => rfl
theorem jsonName_eq (j : J) : j.typeName = jsonName j := by
  cases j with
  | bool b => cases b <;> rfl
  | _ => rfl

theorem shown (inp : Input) (cur : InVal F) : Shown env inp (goString env inp cur) := by
  cases inp with
  | scalar k e id =>
    cases k with
    | string => exact .text
    | _ => exact .type (by intro _ _ h; cases h)
  | _ => exact .type (by intro _ _ h; cases h)

theorem delivered_text {s : Bytes} {inp : Input} {cur x : InVal F} (h : TextValue env enums s inp x) : Delivered env enums inTypes inp cur x := by
  cases h with
  | string => exact .string
  | enum h => exact .enum h
  | id h =>
    cases h with
    | string => exact .string
    | int _ _ h => exact .int h.1
    | uint _ _ _ h => exact .uint h.1
  | time h => exact .time h
  | file h1 h2 => exact .file h1 h2

theorem delivered_lit {v : Doc.Value} {inp : Input} {cur x : InVal F} (h : ScalarLit env enums v inp x) : Delivered env enums inTypes inp cur x := by
  cases h with
  | int _ h => exact .int h
  | uint _ h => exact .uint h
  | intFloat32 => exact .float32
  | intFloat64 => exact .float64
  | intBool => exact .bool
  | float32 => exact .float32
  | float64 => exact .float64
  | str h => exact delivered_text h
  | bool => exact .bool
  | enum h => exact .enum h

theorem Delivered.trans {inp : Input} {x y z : InVal F} (h : Delivered env enums inTypes inp x y) (h' : Delivered env enums inTypes inp y z) :
    Delivered env enums inTypes inp x z := by
  induction h' with
  | same => exact h
  | int k => exact .int k
  | uint k => exact .uint k
  | float32 => exact .float32
  | float64 => exact .float64
  | bool => exact .bool
  | string => exact .string
  | enum k => exact .enum k
  | time k => exact .time k
  | file h1 h2 => exact .file h1 h2
  | ptr k => exact .ptr k
  | list k => exact .list k
  | member h1 _ h3 h4 h5 ih _ => exact .member h1 (ih h) h3 h4 h5

mutual
theorem delivered_json {j : J} {inp : Input} {cur x : InVal F} {set : Bool} (h : FromJSON env enums inTypes j inp cur x set) :
    Delivered env enums inTypes inp cur x := by
  match h with
  | .null _ _ => exact .same
  | .ptr h => exact .ptr (delivered_json h)
  | .ptrNull _ => exact .same
  | .bool => exact .bool
  | .str h => exact delivered_text h
  | .int _ _ h => exact .int h
  | .uint _ _ _ h => exact .uint h.1
  | .numBool _ _ => exact .bool
  | .float32 => exact .float32
  | .float64 => exact .float64
  | .arr h => exact .list (delivered_items h)
  | .obj h1 h2 => exact delivered_members h1 (fun f hf => hf) h2
theorem delivered_items {js : List J} {e : Input} {xs : List (InVal F)} (h : ItemsJSON env enums inTypes js e xs) :
    ∀ y ∈ xs, Delivered env enums inTypes e (Zero env inTypes e) y := by
  match h with
  | .nil => simp
  | .cons h1 h2 =>
    intro y hy
    rcases List.mem_cons.1 hy with rfl | hy
    · exact delivered_json h1
    · exact delivered_items h2 y hy
theorem delivered_members {ms : List (Bytes × J)} {fs : List InField} {n : Bytes} {d : InStruct F} {cur x : InVal F} (hl : lookup inTypes n = some d)
    (hf : ∀ f ∈ fs, f ∈ d.fields) (h : MembersJSON env enums inTypes ms fs cur x) : Delivered env enums inTypes (.struct n) cur x := by
  match h with
  | .nil => exact .same
  | .cons h1 h2 h3 h4 =>
    exact Delivered.trans (.member hl .same (hf _ (List.mem_of_find?_eq_some h1)) h3 (delivered_json h2)) (delivered_members hl hf h4)
end

abbrev Rf (env : Env F V W) (enums : List (EnumDef F)) (inTypes : List (Bytes × InStruct F)) (vars : VarsSrc) := Refused env enums inTypes vars

theorem noInt64 {d : Bytes} (h : parseInt64 d = none) : ¬ ∃ i, IntText d i ∧ InRange .w64 i := by
  rintro ⟨i, h1⟩
  rw [(parseInt64_iff _ _).2 h1] at h; cases h
theorem noNat64 {d : Bytes} (h : parseUint64 d = none) : ¬ ∃ i, NatText d i ∧ InURange .w64 i := by
  rintro ⟨i, h1⟩
  rw [(parseUint64_iff _ _).2 h1] at h; cases h

theorem assignInt_err {inp : Input} {cur : InVal F} {d msg : Bytes} (h : assignInt env inp cur d = .err msg) : Rf env enums inTypes vars inp msg := by
  unfold assignInt at h
  match inp, h with
  | .scalar (.int w) e id, h =>
    dsimp only at h
    cases hp : parseInt64 d with
    | none => rw [hp] at h; cases h; exact .noNumber (by simp) (by simp) (noInt64 hp)
    | some i =>
      rw [hp] at h
      dsimp only at h
      by_cases hw : wrapInt w i = i
      · rw [if_neg (by simpa using hw)] at h; cases h
      · rw [if_pos hw] at h; cases h
        rw [bitsText_eq]
        exact .range ((parseInt64_iff _ _).1 hp).1 (fun hr => hw ((wrapInt_eq _ _).2 hr))
  | .scalar (.uint w) e id, h =>
    dsimp only at h
    cases hp : parseUint64 d with
    | none => rw [hp] at h; cases h; exact .noNatural (noNat64 hp)
    | some i =>
      rw [hp] at h
      dsimp only at h
      by_cases hw : wrapUint w i = i
      · rw [if_neg (by simpa using hw)] at h; cases h
      · rw [if_pos hw] at h; cases h
        rw [bitsText_eq]
        exact .natRange ((parseUint64_iff _ _).1 hp).1 (fun hr => hw (Nat.mod_eq_of_lt hr))
  | .scalar .float32 e id, h =>
    dsimp only at h
    cases hp : parseInt64 d with
    | none => rw [hp] at h; cases h; exact .noNumber (by simp) (by simp) (noInt64 hp)
    | some i => rw [hp] at h; cases h
  | .scalar .float64 e id, h =>
    dsimp only at h
    cases hp : parseInt64 d with
    | none => rw [hp] at h; cases h; exact .noNumber (by simp) (by simp) (noInt64 hp)
    | some i => rw [hp] at h; cases h
  | .scalar .bool e id, h =>
    dsimp only at h
    cases hp : parseInt64 d with
    | none => rw [hp] at h; cases h; exact .noNumber (by simp) (by simp) (noInt64 hp)
    | some i => rw [hp] at h; cases h
  | .scalar .string e id, h => cases h; exact .noInt (by rintro _ _ _ ⟨⟩; rfl) (shown _ _)
  | .time, h => cases h; exact .noInt (by rintro _ _ _ ⟨⟩) (shown _ _)
  | .file, h => cases h; exact .noInt (by rintro _ _ _ ⟨⟩) (shown _ _)
  | .ptr _, h => cases h; exact .noInt (by rintro _ _ _ ⟨⟩) (shown _ _)
  | .slice _, h => cases h; exact .noInt (by rintro _ _ _ ⟨⟩) (shown _ _)
  | .array _ _, h => cases h; exact .noInt (by rintro _ _ _ ⟨⟩) (shown _ _)
  | .struct _, h => cases h; exact .noInt (by rintro _ _ _ ⟨⟩) (shown _ _)

theorem assignFloat_err {inp : Input} {cur : InVal F} {d msg : Bytes} (h : assignFloat env inp cur d = .err msg) : Rf env enums inTypes vars inp msg := by
  unfold assignFloat at h
  cases inp with
  | scalar k e id =>
    cases k with
    | float32 =>
      dsimp only at h
      cases hp : env.parseFloat d with
      | none => rw [hp] at h; cases h; exact .badFloat (.inl rfl) hp
      | some i => rw [hp] at h; cases h
    | float64 =>
      dsimp only at h
      cases hp : env.parseFloat d with
      | none => rw [hp] at h; cases h; exact .badFloat (.inr rfl) hp
      | some i => rw [hp] at h; cases h
    | _ => cases h; exact .noFloat (by rintro _ _ _ ⟨⟩; simp) (shown _ _)
  | _ => cases h; exact .noFloat (by rintro _ _ _ ⟨⟩) (shown _ _)

theorem assignBool_err {inp : Input} {cur : InVal F} {b : Bool} {msg : Bytes} (h : assignBool env inp cur b = .err msg) :
    Rf env enums inTypes vars inp msg := by
  unfold assignBool at h
  cases inp with
  | scalar k e id =>
    cases k with
    | bool => cases h
    | _ => cases h; exact .noBool (by simp) (shown _ _)
  | _ => cases h; exact .noBool (by simp) (shown _ _)

theorem assignEnum_err {k : Kind} {e : Nat} {id : Bool} {key msg : Bytes} (h : assignEnum enums e key = .err msg) :
    Rf env enums inTypes vars (.scalar k (some e) id) msg := by
  unfold assignEnum at h
  cases he : enums[e]? with
  | none => rw [he] at h; cases h
  | some d =>
    rw [he] at h
    dsimp only at h
    cases hf : d.entries.find? (fun x => decide (x.1 = key)) with
    | none =>
      rw [hf] at h; cases h
      exact .unknownKey he (fun x hx => by simpa using List.find?_eq_none.1 hf x hx)
    | some x =>
      rw [hf] at h
      dsimp only at h
      cases hk : d.kind <;> rw [hk] at h <;> cases h
      all_goals exact .enumKind he (by simp [hk])

theorem assignEnumLit_err {inp : Input} {key msg : Bytes} (h : assignEnumLit enums inp key = .err msg) : Rf env enums inTypes vars inp msg := by
  unfold assignEnumLit at h
  cases inp with
  | scalar k e id =>
    cases e with
    | some e => exact assignEnum_err h
    | none => cases h; exact .noEnum (by simp)
  | _ => cases h; exact .noEnum (by simp)

theorem assignID_err {k : Kind} {s msg : Bytes} (h : assignID (F := F) k s = .err msg) : Rf env enums inTypes vars (.scalar k none true) msg := by
  unfold assignID at h
  cases k with
  | string => cases h
  | int w =>
    dsimp only at h
    cases hp : parseInt64 s with
    | none => rw [hp] at h; cases h; exact .idNumber (.inl ⟨_, rfl⟩)
    | some i => rw [hp] at h; cases h
  | uint w =>
    dsimp only at h
    cases hp : parseInt64 s with
    | none => rw [hp] at h; cases h; exact .idNumber (.inr ⟨_, rfl⟩)
    | some i =>
      rw [hp] at h
      dsimp only at h
      by_cases hn : i < 0
      · rw [if_pos hn] at h; cases h; exact .idNegative
      · rw [if_neg hn] at h; cases h
  | _ => cases h; exact .idKind (by simp)

theorem assignTime_err {s msg : Bytes} (h : assignTime (F := F) s = .err msg) : Rf env enums inTypes vars .time msg := by
  have no : ∀ t, ¬ Time.Reads s t := fun t ht => by
    have := (assignTime_iff (F := F) s (.time t)).2 ⟨t, rfl, ht⟩
    rw [h] at this; cases this
  unfold assignTime at h
  cases hp : Time.parseIso8601String s with
  | none => rw [hp] at h; cases h; exact .noTime no
  | some t => rw [hp] at h; cases h

theorem assignString_err {inp : Input} {cur : InVal F} {s msg : Bytes} (h : assignString env enums inp cur s = .err msg) :
    Rf env enums inTypes vars inp msg := by
  unfold assignString at h
  match inp, h with
  | .scalar k (some e) id, h => exact assignEnum_err h
  | .scalar k none true, h => exact assignID_err h
  | .file, h =>
    dsimp only at h
    cases hf : env.formFile with
    | none => rw [hf] at h; cases h; exact .noFiles hf
    | some f =>
      rw [hf] at h
      dsimp only at h
      cases hs : f s with
      | error e => rw [hs] at h; cases h; exact .file hf hs
      | ok x => rw [hs] at h; cases h
  | .time, h => exact assignTime_err h
  | .scalar .string none false, h => cases h
  | .scalar .bool none false, h => cases h; exact .noString (by simp [TextOnly]) (by simp) (shown _ _)
  | .scalar (.int _) none false, h => cases h; exact .noString (by simp [TextOnly]) (by simp) (shown _ _)
  | .scalar (.uint _) none false, h => cases h; exact .noString (by simp [TextOnly]) (by simp) (shown _ _)
  | .scalar .float32 none false, h => cases h; exact .noString (by simp [TextOnly]) (by simp) (shown _ _)
  | .scalar .float64 none false, h => cases h; exact .noString (by simp [TextOnly]) (by simp) (shown _ _)
  | .ptr _, h => cases h; exact .noString (by simp [TextOnly]) (by simp) (shown _ _)
  | .slice _, h => cases h; exact .noString (by simp [TextOnly]) (by simp) (shown _ _)
  | .array _ _, h => cases h; exact .noString (by simp [TextOnly]) (by simp) (shown _ _)
  | .struct _, h => cases h; exact .noString (by simp [TextOnly]) (by simp) (shown _ _)

theorem bindB_err {α β : Type} {m : B α} {f : α → B β} {msg : Bytes} (h : m.bind f = .err msg) : m = .err msg ∨ ∃ a, m = .ok a ∧ f a = .err msg := by
  cases m with
  | ok a => exact .inr ⟨a, rfl, h⟩
  | err e => cases h; exact .inl rfl
  | panic => cases h

theorem jsonSpecial_err {inp : Input} {j : J} {msg : Bytes} (hs : isSpecial inp = true) (h : jsonSpecial env enums inp j = .err msg) :
    Rf env enums inTypes vars inp msg := by
  have ok : ∀ {m : B (InVal F)}, m.bind (fun v => B.ok (v, true)) = .err msg → m = .err msg := by
    intro m h
    rcases bindB_err h with h | ⟨_, _, h⟩
    · exact h
    · cases h
  have key : (∀ s, j ≠ .str s) → ∃ what, TextKind inp what ∧ msg = b%"cannot assign " ++ jsonName j ++ b%" to " ++ what ++ b%" value" := by
    intro hj
    unfold jsonSpecial at h
    rw [← jsonName_eq]
    match inp, h with
    | .scalar k (some e) id, h => exact ⟨_, .enum, by cases j with | str s => exact absurd rfl (hj s) | _ => cases h; rfl⟩
    | .scalar k none true, h => exact ⟨_, .id, by cases j with | str s => exact absurd rfl (hj s) | _ => cases h; rfl⟩
    | .file, h => exact ⟨_, .file, by cases j with | str s => exact absurd rfl (hj s) | _ => cases h; rfl⟩
    | .time, h => exact ⟨_, .time, by cases j with | str s => exact absurd rfl (hj s) | _ => cases h; rfl⟩
    | .scalar k none false, h => cases hs
    | .ptr _, h => cases hs
    | .slice _, h => cases hs
    | .array _ _, h => cases hs
    | .struct _, h => cases hs
  by_cases hj : ∀ s, j ≠ .str s
  · obtain ⟨what, h1, rfl⟩ := key hj
    exact .jsonKind h1 hj
  · obtain ⟨s, hj⟩ := Classical.not_forall.1 hj
    have hj := Classical.not_not.1 hj
    subst hj
    clear key
    unfold jsonSpecial at h
    match inp, h with
    | .scalar k (some e) id, h => exact assignEnum_err (ok h)
    | .scalar k none true, h => exact assignID_err (ok h)
    | .file, h =>
      dsimp only at h
      cases hf : env.formFile with
      | none => rw [hf] at h; cases h
      | some f =>
        rw [hf] at h
        dsimp only at h
        cases hs : f s with
        | error e => rw [hs] at h; cases h; exact .file hf hs
        | ok x => rw [hs] at h; cases h
    | .time, h => exact assignTime_err (ok h)
    | .scalar k none false, h => cases hs
    | .ptr _, h => cases hs
    | .slice _, h => cases hs
    | .array _ _, h => cases hs
    | .struct _, h => cases hs

theorem jsonNumber_err {inp : Input} {cur : InVal F} {r msg : Bytes} (hs : isSpecial inp = false) (h : jsonNumber env inp cur r = .err msg) :
    Rf env enums inTypes vars inp msg := by
  unfold jsonNumber at h
  match inp, h with
  | .scalar k (some e) id, h => cases hs
  | .scalar k none true, h => cases hs
  | .scalar .float32 none false, h => cases h
  | .scalar .float64 none false, h => cases h
  | .scalar (.int w) none false, h =>
    dsimp only at h
    cases hp : parseInt64 r with
    | none => rw [hp] at h; cases h; exact .noJsonNumber (by rintro _ _ _ ⟨⟩; simp) (noInt64 hp)
    | some i =>
      rw [hp] at h
      dsimp only at h
      by_cases hw : wrapInt w i = i
      · rw [if_neg (by simpa using hw)] at h; cases h
      · rw [if_pos hw] at h; cases h
        rw [bitsText_eq]
        exact .jsonRange (fun hr => hw ((wrapInt_eq _ _).2 hr)) (Eval.intDigits_canon i)
  | .scalar (.uint w) none false, h =>
    dsimp only at h
    cases hp : parseInt64 r with
    | none => rw [hp] at h; cases h; exact .noJsonNumber (by rintro _ _ _ ⟨⟩; simp) (noInt64 hp)
    | some i =>
      rw [hp] at h
      dsimp only at h
      by_cases hw : i < 0
      · rw [if_pos hw] at h; cases h
        exact .negative hw (Eval.intDigits_canon i)
      · rw [if_neg hw] at h; cases h
  | .scalar .bool none false, h =>
    dsimp only at h
    cases hp : parseInt64 r with
    | none => rw [hp] at h; cases h; exact .noJsonNumber (by rintro _ _ _ ⟨⟩; simp) (noInt64 hp)
    | some i => rw [hp] at h; cases h
  | .scalar .string none false, h =>
    dsimp only at h
    cases hp : parseInt64 r with
    | none => rw [hp] at h; cases h; exact .noJsonNumber (by rintro _ _ _ ⟨⟩; simp) (noInt64 hp)
    | some i => rw [hp] at h; cases h; exact .jsonNumber (by rintro _ _ _ ⟨⟩; rfl) (shown _ _)
  | .time, h => cases hs
  | .file, h => cases hs
  | .ptr _, h =>
    dsimp only at h
    cases hp : parseInt64 r with
    | none => rw [hp] at h; cases h; exact .noJsonNumber (by rintro _ _ _ ⟨⟩) (noInt64 hp)
    | some i => rw [hp] at h; cases h; exact .jsonNumber (by rintro _ _ _ ⟨⟩) (shown _ _)
  | .slice _, h =>
    dsimp only at h
    cases hp : parseInt64 r with
    | none => rw [hp] at h; cases h; exact .noJsonNumber (by rintro _ _ _ ⟨⟩) (noInt64 hp)
    | some i => rw [hp] at h; cases h; exact .jsonNumber (by rintro _ _ _ ⟨⟩) (shown _ _)
  | .array _ _, h =>
    dsimp only at h
    cases hp : parseInt64 r with
    | none => rw [hp] at h; cases h; exact .noJsonNumber (by rintro _ _ _ ⟨⟩) (noInt64 hp)
    | some i => rw [hp] at h; cases h; exact .jsonNumber (by rintro _ _ _ ⟨⟩) (shown _ _)
  | .struct _, h =>
    dsimp only at h
    cases hp : parseInt64 r with
    | none => rw [hp] at h; cases h; exact .noJsonNumber (by rintro _ _ _ ⟨⟩) (noInt64 hp)
    | some i => rw [hp] at h; cases h; exact .jsonNumber (by rintro _ _ _ ⟨⟩) (shown _ _)

theorem ptrWrap_err {base : Input → InVal F → B (InVal F × Bool)} (hb : ∀ i c msg, base i c = .err msg → Rf env enums inTypes vars i msg)
    {inp : Input} {cur : InVal F} {msg : Bytes} (h : ptrWrap env inTypes base inp cur = .err msg) : Rf env enums inTypes vars inp msg := by
  induction inp generalizing cur with
  | ptr e ih =>
    unfold ptrWrap at h
    cases hp : ptrWrap env inTypes base e (zeroOf env inTypes e) with
    | ok p =>
      obtain ⟨v, b⟩ := p
      rw [hp] at h
      cases b <;> cases h
    | err m => rw [hp] at h; cases h; exact .inPtr (ih hp)
    | panic => rw [hp] at h; cases h
  | _ => exact hb _ _ _ h

mutual
theorem bindJSONBase_err {j : J} {inp : Input} {cur : InVal F} {msg : Bytes} (h : bindJSONBase env enums inTypes j inp cur = .err msg) :
    Rf env enums inTypes vars inp msg := by
  by_cases hs : isSpecial inp = true
  · cases j with
    | _ => simp only [bindJSONBase] at h; rw [if_pos hs] at h; exact jsonSpecial_err hs h
  · have hs' : isSpecial inp = false := by simpa using hs
    match j, h with
    | .null, h => simp only [bindJSONBase] at h; rw [if_neg hs] at h; cases h
    | .bool b, h =>
      simp only [bindJSONBase] at h
      rw [if_neg hs] at h
      split at h
      · cases h
      · rename_i hn
        cases h
        exact .noBool hn (shown _ _)
    | .num r, h => simp only [bindJSONBase] at h; rw [if_neg hs] at h; exact jsonNumber_err hs' h
    | .str s, h =>
      simp only [bindJSONBase] at h
      rw [if_neg hs] at h
      rcases bindB_err h with h | ⟨_, _, h⟩
      · exact assignString_err h
      · cases h
    | .arr items, h =>
      simp only [bindJSONBase] at h
      rw [if_neg hs] at h
      split at h
      · rcases bindB_err h with h | ⟨_, _, h⟩
        · exact .inList (bindJSONItems_err h)
        · cases h
      · rename_i hn
        cases h
        exact .jsonList hn (shown _ _)
    | .obj members, h =>
      simp only [bindJSONBase] at h
      rw [if_neg hs] at h
      split at h
      · rename_i n _
        cases hl : lookup inTypes n with
        | none => rw [hl] at h; cases h
        | some d =>
          rw [hl] at h
          dsimp only at h
          rcases bindB_err h with h | ⟨_, _, h⟩
          · exact bindJSONMembers_err hl h
          · cases h
      · rename_i hn
        cases h
        exact .jsonObject hn
theorem bindJSONItems_err {js : List J} {e : Input} {msg : Bytes} (h : bindJSONItems env enums inTypes js e = .err msg) :
    Rf env enums inTypes vars e msg := by
  match js, h with
  | [], h => simp only [bindJSONItems] at h; cases h
  | j :: js, h =>
    simp only [bindJSONItems] at h
    rcases bindB_err h with h | ⟨_, _, h⟩
    · exact ptrWrap_err (fun i c msg h => bindJSONBase_err h) h
    · rcases bindB_err h with h | ⟨_, _, h⟩
      · exact bindJSONItems_err h
      · cases h
theorem bindJSONMembers_err {ms : List (Bytes × J)} {n : Bytes} {d : InStruct F} {cur : InVal F} {msg : Bytes} (hl : lookup inTypes n = some d)
    (h : bindJSONMembers env enums inTypes ms d.fields cur = .err msg) : Rf env enums inTypes vars (.struct n) msg := by
  match ms, h with
  | [], h => simp only [bindJSONMembers] at h; cases h
  | (k, j) :: ms, h =>
    simp only [bindJSONMembers] at h
    cases hf : d.fields.find? (fun f => decide (f.key = k)) with
    | none =>
      rw [hf] at h; cases h
      exact .noMember hl (fun x hx => by simpa using List.find?_eq_none.1 hf x hx)
    | some f =>
      rw [hf] at h
      dsimp only at h
      cases hg : getField cur f.goFieldIdx with
      | none => rw [hg] at h; cases h
      | some c =>
        rw [hg] at h
        dsimp only at h
        rcases bindB_err h with h | ⟨_, _, h⟩
        · exact .inMember hl (List.mem_of_find?_eq_some hf) (ptrWrap_err (fun i c msg h => bindJSONBase_err h) h)
        · exact bindJSONMembers_err hl h
end

theorem bindJSON_err {j : J} {inp : Input} {cur : InVal F} {msg : Bytes} (h : bindJSON env enums inTypes j inp cur = .err msg) :
    Rf env enums inTypes vars inp msg := ptrWrap_err (fun i c msg h => bindJSONBase_err h) h

theorem bindJSON_ok {j : J} {inp : Input} {cur : InVal F} {r : InVal F × Bool} (h : bindJSON env enums inTypes j inp cur = .ok r) :
    Delivered env enums inTypes inp cur r.1 := by
  obtain ⟨x, set⟩ := r
  exact delivered_json ((bindJSON_iff _ _ _ _ _).1 h)

theorem checkVarType_err {inp : Input} {n msg : Bytes} (h : checkVarType enums inp n = .err msg) : Rf env enums inTypes vars inp msg := by
  have one : ∀ {x : Bytes}, (if n ≠ x then B.err (b%"expected variable type " ++ x ++ b%" but got " ++ n) else B.ok ()) = .err msg →
      n ≠ x ∧ msg = b%"expected variable type " ++ x ++ b%" but got " ++ n := by
    intro x h
    by_cases hn : n = x
    · rw [if_neg (by simpa using hn)] at h; cases h
    · rw [if_pos hn] at h; cases h; exact ⟨hn, rfl⟩
  have two : ∀ {x : Bytes}, (if n ≠ x ∧ n ≠ b%"String" then B.err (b%"expected variable type " ++ x ++ b%" but got " ++ n) else B.ok ()) = .err msg →
      ¬ (n = x ∨ n = b%"String") ∧ msg = b%"expected variable type " ++ x ++ b%" but got " ++ n := by
    intro x h
    by_cases hn : n ≠ x ∧ n ≠ b%"String"
    · rw [if_pos hn] at h; cases h; exact ⟨fun e => e.elim hn.1 hn.2, rfl⟩
    · rw [if_neg hn] at h; cases h
  unfold checkVarType at h
  match inp, h with
  | .scalar k (some e) id, h =>
    dsimp only at h
    cases he : enums[e]? with
    | none => rw [he] at h; cases h
    | some d =>
      rw [he] at h
      obtain ⟨h1, rfl⟩ := two h
      exact .otherType (.enum he) (fun ⟨d', hd, h2⟩ => by rw [he] at hd; cases hd; exact h1 h2)
  | .scalar k none true, h => obtain ⟨h1, rfl⟩ := two h; exact .otherType .id h1
  | .file, h => obtain ⟨h1, rfl⟩ := two h; exact .otherType .file h1
  | .time, h => obtain ⟨h1, rfl⟩ := two h; exact .otherType .time h1
  | .scalar .bool none false, h => cases h
  | .scalar (.int _) none false, h => obtain ⟨h1, rfl⟩ := one h; exact .otherType .int h1
  | .scalar (.uint _) none false, h => obtain ⟨h1, rfl⟩ := one h; exact .otherType .uint h1
  | .scalar .float32 none false, h => obtain ⟨h1, rfl⟩ := one h; exact .otherType .float32 h1
  | .scalar .float64 none false, h => obtain ⟨h1, rfl⟩ := one h; exact .otherType .float64 h1
  | .scalar .string none false, h => obtain ⟨h1, rfl⟩ := one h; exact .otherType .string h1
  | .array _ _, h => obtain ⟨h1, rfl⟩ := one h; exact .otherType .array h1
  | .slice _, h => obtain ⟨h1, rfl⟩ := one h; exact .otherType .list h1
  | .struct _, h => obtain ⟨h1, rfl⟩ := one h; exact .otherType .struct h1
  | .ptr _, h => cases h; exact .pointer

end
end Delivered
end Yarql
