import Verif.Proofs.CallsMade
import Verif.Spec.Depth

/-! # Objects nest at most `maxDepth` deep, if the schema has no interfaces -/

namespace Yarql
namespace Eval
open Doc Resolver Yarql.Bind Binding Blame Typed Depth

section
variable {F V W α β : Type}

/-- whatever `m` returns satisfies `P` -/
def Ret (P : α → Prop) (m : E W α) : Prop := ∀ es a es', m es = some (a, es') → P a

variable {P : α → Prop} {Q : β → Prop}

theorem Ret.pure {a : α} (h : P a) : Ret P (Pure.pure a : E W α) := by
  intro es b es' hm
  have e := E_pure.1 hm
  cases e
  exact h

theorem Ret.undefined : Ret P (undefinedE (W := W)) := by
  intro es b es' hm
  cases hm

theorem Ret.bind {m : E W α} {f : α → E W β} (hm : Ret P m) (hf : ∀ a, P a → Ret Q (f a)) : Ret Q (m >>= f) := by
  intro es b es' h
  obtain ⟨a, es1, h1, h2⟩ := E_bind.1 h
  exact hf a (hm _ _ _ h1) _ _ _ h2

theorem Ret.any {m : E W α} : Ret (fun _ => True) m := fun _ _ _ _ => trivial

theorem Ret.bind' {m : E W α} {f : α → E W β} (hf : ∀ a, Ret Q (f a)) : Ret Q (m >>= f) := Ret.any.bind (fun a _ => hf a)

variable (r : Req F V W)

theorem evalElems_ret {P : Out → Prop} (elem : Nat → V → E W (Out × Bool)) (h : ∀ i v, Ret (fun x => P x.1) (elem i v)) (i : Nat) (vs : List V) :
    Ret (fun os => ∀ o ∈ os, P o) (evalElems elem i vs) := by
  induction vs generalizing i with
  | nil => unfold evalElems; exact .pure (by simp)
  | cons v vs ih =>
    unfold evalElems
    refine Ret.bind (h i v) ?_
    intro x hx
    refine Ret.bind (ih (i + 1)) ?_
    intro os hos
    refine .pure ?_
    intro o ho
    rcases List.mem_cons.1 ho with rfl | ho
    · exact hx
    · exact hos o ho

theorem evalResult_ret {P : Out × Bool → Prop} (path : List Seg) (m : Method F) (outs : List V) (next : V → E W (Out × Bool))
    (hn : P (.null, false)) (hnext : ∀ v, Ret P (next v)) : Ret P (evalResult r path m outs next) := by
  unfold evalResult
  refine Ret.bind' ?_
  intro w
  cases r.env.ctxErr w with
  | some msg => exact Ret.bind' (fun _ => .pure hn)
  | none =>
    dsimp only
    cases outs[m.outNr]? with
    | none => exact .undefined
    | some x => exact hnext x

theorem evalCall_ret {P : Out × Bool → Prop} (path : List Seg) (m : Method F) (fn : V) (args : List (Bytes × Value)) (next : V → E W (Out × Bool))
    (hn : P (.null, false)) (hm : P (.missing, true)) (hnext : ∀ v, Ret P (next v)) : Ret P (evalCall r path m fn args next) := by
  unfold evalCall
  refine Ret.bind' ?_
  intro a
  cases a with
  | none => exact .pure hm
  | some outs =>
    dsimp only
    cases m.errorOutNr with
    | none => exact evalResult_ret r path m outs next hn hnext
    | some nr =>
      dsimp only
      cases outs[nr]? with
      | none => exact .undefined
      | some e =>
        dsimp only
        refine Ret.bind' ?_
        intro w
        cases r.env.errOf w e with
        | none => exact evalResult_ret r path m outs next hn hnext
        | some msg => exact Ret.bind' (fun _ => evalResult_ret r path m outs next hn hnext)

variable [DecidableEq F]

/-- members of at most `k` levels -/
def MembersWithin (k : Nat) (x : List (Bytes × Out) × Bool) : Prop := ∀ m ∈ x.1, Within k m.2

structure AllWithin (r : Req F V W) (n : Nat) : Prop where
  sels : ∀ t v dept path room sels k, IsObject r.schema t → dept.toNat + k + 1 = r.schema.maxDepth.toNat →
    Ret (MembersWithin k) (evalSels r n t v dept path room sels)
  spread : ∀ t v dept path room name dirs k, IsObject r.schema t → dept.toNat + k + 1 = r.schema.maxDepth.toNat →
    Ret (MembersWithin k) (evalSpread r n t v dept path room name dirs)
  inline : ∀ t v dept path room ty dirs sels k, IsObject r.schema t → dept.toNat + k + 1 = r.schema.maxDepth.toNat →
    Ret (MembersWithin k) (evalInline r n t v dept path room ty dirs sels)
  field : ∀ t v dept path room key name dirs args sels k, IsObject r.schema t → dept.toNat + k + 1 = r.schema.maxDepth.toNat →
    Ret (fun x => ∀ m ∈ x.1, Within k m.2) (evalField r n t v dept path room key name dirs args sels)
  data : ∀ o v dept path room args sels k, noInterface o = true → dept.toNat + k + 1 = r.schema.maxDepth.toNat →
    Ret (fun x => Within k x.1) (evalData r n o v dept path room args sels)

theorem allWithin (hi : ∀ f, IsField r.schema f → noInterface f.obj = true) (n : Nat) : AllWithin r n := by
  induction n with
  | zero =>
    constructor
    · intros; simp only [evalSels]; exact .undefined
    · intros; simp only [evalSpread]; exact .undefined
    · intros; simp only [evalInline]; exact .undefined
    · intros; simp only [evalField]; exact .undefined
    · intros; unfold evalData; exact .undefined
  | succ n ih =>
    constructor
    · -- selections
      intro t v dept path room sels k ht hk
      have tail : ∀ (p : List (Bytes × Out) × Bool) (rest : List Sel), MembersWithin k p → Ret (MembersWithin k) (do
          if p.2 then return (p.1, true)
          let (ms', crit) ← evalSels r n t v dept path room rest
          return (p.1 ++ ms', crit) : E W (List (Bytes × Out) × Bool)) := by
        intro p rest hp
        by_cases hc : p.2 = true
        · rw [if_pos hc]; exact .pure hp
        · rw [if_neg hc]
          refine Ret.bind (ih.sels t v dept path room rest k ht hk) ?_
          rintro ⟨ms, c⟩ hms
          refine .pure ?_
          intro m hm
          rcases List.mem_append.1 hm with h | h
          · exact hp m h
          · exact hms m h
      match sels with
      | [] => simp only [evalSels]; exact .pure (by intro m hm; cases hm)
      | .field key name dirs args sub :: rest =>
        simp only [evalSels]
        refine Ret.bind (ih.field t v dept path room key (name.getD key) dirs args sub k ht hk) ?_
        rintro ⟨m, c⟩ hm
        exact tail (m.toList, c) rest (by intro x hx; exact hm x (by simpa using hx))
      | .spread name dirs :: rest =>
        simp only [evalSels]
        refine Ret.bind (ih.spread t v dept path room name dirs k ht hk) ?_
        rintro ⟨m, c⟩ hm
        exact tail (m, c) rest hm
      | .inline ty dirs sub :: rest =>
        simp only [evalSels]
        refine Ret.bind (ih.inline t v dept path room ty dirs sub k ht hk) ?_
        rintro ⟨m, c⟩ hm
        exact tail (m, c) rest hm
    · -- spreads
      intro t v dept path room name dirs k ht hk
      have nothing : ∀ b, MembersWithin k ([], b) := by intro b m hm; cases hm
      simp only [evalSpread]
      refine Ret.bind' ?_
      intro a
      match a with
      | none => exact .pure (nothing _)
      | some true => exact .pure (nothing _)
      | some false =>
        dsimp only
        cases hf : r.frags.find? (fun f => decide (f.name = name)) with
        | none => exact Ret.bind' (fun _ => .pure (nothing _))
        | some f =>
          dsimp only
          by_cases h : t.typeName = f.typeName
          · rw [if_pos h]
            exact ih.sels t v dept path room f.sels k ht hk
          · rw [if_neg h]; exact .pure (nothing _)
    · -- inline fragments
      intro t v dept path room ty dirs sels k ht hk
      have nothing : ∀ b, MembersWithin k ([], b) := by intro b m hm; cases hm
      simp only [evalInline]
      refine Ret.bind' ?_
      intro a
      match a with
      | none => exact .pure (nothing _)
      | some true => exact .pure (nothing _)
      | some false =>
        dsimp only
        by_cases h : t.typeName = ty
        · rw [if_pos h]
          exact ih.sels t v dept path room sels k ht hk
        · rw [if_neg h]; exact .pure (nothing _)
    · -- fields
      intro t v dept path room key name dirs args sels k ht hk
      simp only [evalField]
      refine Ret.bind' ?_
      intro a
      match a with
      | none => exact .pure (by intro m hm; cases hm)
      | some true => exact .pure (by intro m hm; cases hm)
      | some false =>
        dsimp only
        cases hf : t.fields.find? (fun f => decide (f.key = fnv1 name)) with
        | none =>
          dsimp only
          by_cases h1 : name = b%"__typename"
          · rw [if_pos h1]
            by_cases h2 : (args.isSome || !sels.isEmpty) = true
            · rw [if_pos h2]
              exact Ret.bind' (fun _ => .pure (by intro m hm; cases hm; exact .missing))
            · rw [if_neg h2]; exact .pure (by intro m hm; cases hm; exact .leaf)
          · rw [if_neg h1]
            exact Ret.bind' (fun _ => .pure (by intro m hm; cases hm; exact .null))
        | some f =>
          cases room with
          | zero => exact .undefined
          | succ room =>
            dsimp only
            refine Ret.bind' ?_
            intro x
            have hfield : IsField r.schema f := by
              have hm := List.mem_of_find?_eq_some hf
              rcases ht with rfl | rfl | ⟨n, hn⟩
              · exact Or.inl hm
              · exact Or.inr (Or.inl hm)
              · unfold lookup at hn
                obtain ⟨e, h1, rfl⟩ := Option.map_eq_some_iff.1 hn
                exact Or.inr (Or.inr ⟨e.1, e.2, List.mem_of_find?_eq_some h1, hm⟩)
            refine Ret.bind (ih.data f.obj x dept _ room args sels k (hi f hfield) hk) ?_
            rintro ⟨o, c⟩ ho
            exact .pure (by intro m hm; cases hm; exact ho)
    · -- values
      intro o v dept path room args sels k ho hk
      unfold evalData
      dsimp only
      by_cases ha : (args.isSome && !takesArgs o) = true
      · rw [if_pos ha]
        exact Ret.bind' (fun _ => .pure .null)
      · rw [if_neg ha]
        cases o with
        | undefined => exact .pure .null
        | array inner =>
          refine Ret.bind' ?_
          intro w
          cases r.env.view w v with
          | seq vs =>
            cases vs with
            | none => exact .pure .null
            | some vs =>
              cases room with
              | zero => exact .undefined
              | succ room =>
                dsimp only
                refine Ret.bind (evalElems_ret _ (fun i x => ih.data inner x dept _ room args sels k ho hk) 0 vs) ?_
                intro os hos
                exact .pure (.list hos)
          | _ => exact .undefined
        | objRef typeName =>
          dsimp only
          by_cases hs : (!(args.isSome || !sels.isEmpty)) = true
          · rw [if_pos hs]; exact Ret.bind' (fun _ => .pure .null)
          · rw [if_neg hs]
            cases hl : lookup r.schema.types typeName with
            | none => exact .pure .null
            | some t =>
              dsimp only
              by_cases hd : dept + 1 = r.schema.maxDepth
              · rw [if_pos hd]; exact Ret.bind' (fun _ => .pure .null)
              · rw [if_neg hd]
                have hlt := r.schema.maxDepth.toNat_lt
                have e1 : (dept + 1).toNat = dept.toNat + 1 := by
                  rw [UInt8.toNat_add]
                  have : (1 : UInt8).toNat = 1 := rfl
                  rw [this]
                  exact Nat.mod_eq_of_lt (by omega)
                have e2 : (dept + 1).toNat ≠ r.schema.maxDepth.toNat := fun h => hd (UInt8.toNat_inj.1 h)
                obtain ⟨k', rfl⟩ : ∃ k', k = k' + 1 := ⟨k - 1, by omega⟩
                refine Ret.bind (ih.sels t v (dept + 1) _ room sels k' (Or.inr (Or.inr ⟨_, hl⟩)) (by omega)) ?_
                rintro ⟨ms, c⟩ hms
                exact .pure (.obj hms)
        | data isID kind =>
          dsimp only
          by_cases hs : (args.isSome || !sels.isEmpty) = true
          · rw [if_pos hs]
            exact Ret.bind' (fun _ => .pure .null)
          · rw [if_neg hs]
            refine Ret.bind' ?_
            intro w
            cases r.env.view w v with
            | scalar x =>
              dsimp only
              cases dataText r.env isID kind x with
              | none => exact .undefined
              | some t => exact .pure .leaf
            | _ => exact .undefined
        | ptr inner =>
          refine Ret.bind' ?_
          intro w
          cases r.env.view w v with
          | ptr x =>
            cases x with
            | none => exact .pure .null
            | some x => exact ih.data inner x dept path room args sels k ho hk
          | _ => exact .undefined
        | method m out =>
          dsimp only
          have hc := evalCall_ret r (P := fun x => Within k x.1) path m v (args.getD [])
            (fun x => evalData r n out x dept path room none sels) .null .missing
            (fun x => ih.data out x dept path room none sels k ho hk)
          by_cases hm : (!m.isTypeMethod) = true
          · rw [if_pos hm]
            refine Ret.bind' ?_
            intro w
            cases r.env.view w v with
            | func b =>
              cases b with
              | true => exact .pure .null
              | false => exact hc
            | _ => exact .undefined
          · rw [if_neg hm]
            exact hc
        | enum idx =>
          dsimp only
          cases r.schema.enums[idx]? with
          | none => exact .undefined
          | some e =>
            dsimp only
            refine Ret.bind' ?_
            intro w
            cases r.env.view w v with
            | scalar x =>
              dsimp only
              match enumKey e x with
              | none => exact .undefined
              | some none => exact .pure .null
              | some (some key) => exact .pure .leaf
            | _ => exact .undefined
        | time =>
          refine Ret.bind' ?_
          intro w
          cases r.env.view w v with
          | time t => exact .pure .leaf
          | _ => exact .pure .null
        | interfaceRef n => cases ho

theorem evalOperation_within (hi : ∀ f, IsField r.schema f → noInterface f.obj = true) (hm : 0 < r.schema.maxDepth.toNat)
    (n : Nat) (o : Doc.Operation) : Ret (fun x => Within r.schema.maxDepth.toNat x.1) (evalOperation r n o) := by
  obtain ⟨k, hk⟩ : ∃ k, r.schema.maxDepth.toNat = k + 1 := ⟨r.schema.maxDepth.toNat - 1, by omega⟩
  have empty : Within r.schema.maxDepth.toNat (.obj []) := by rw [hk]; exact .obj (by simp)
  have h0 : (0 : UInt8).toNat = 0 := rfl
  unfold evalOperation
  cases o.kind with
  | subscription => exact Ret.bind' (fun _ => .pure empty)
  | query =>
    dsimp only
    by_cases hd : o.dirs ≠ []
    · rw [if_pos hd]; exact Ret.bind' (fun _ => .pure empty)
    · rw [if_neg hd]
      refine Ret.bind ((allWithin r hi n).sels _ _ 0 _ _ _ k (Or.inl rfl) (by omega)) ?_
      rintro ⟨ms, c⟩ hms
      exact .pure (by rw [hk]; exact .obj hms)
  | mutation =>
    dsimp only
    by_cases hd : o.dirs ≠ []
    · rw [if_pos hd]; exact Ret.bind' (fun _ => .pure empty)
    · rw [if_neg hd]
      refine Ret.bind ((allWithin r hi n).sels _ _ 0 _ _ _ k (Or.inr (Or.inl rfl)) (by omega)) ?_
      rintro ⟨ms, c⟩ hms
      exact .pure (by rw [hk]; exact .obj hms)

end
end Eval
end Yarql
