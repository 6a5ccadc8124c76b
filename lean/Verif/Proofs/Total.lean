import Verif.Proofs.TotalBind
import Verif.Proofs.EvalErrs
import Verif.Spec.Serving

/-! # Evaluation is defined: well typed data, no fragment cycles, nesting that fits the value stack -/

namespace Yarql
namespace Typed
open Doc Resolver Eval Yarql.Bind Binding

section
variable {F V W : Type} [DecidableEq F]
variable {r : Req F V W} {T : Obj F → V → Prop}

abbrev Def (m : E W α) : Prop := Total m (fun _ => True)

omit [DecidableEq F] in
theorem callWith_total (hT : WellTyped r.schema r.env T) (path : List Seg) (m : Method F) (fn : V) (args : List (Bytes × Value))
    (hm : MethodOK r.schema r.env m) {Q : List V → Prop} {P : W → Prop}
    (hcall : ∀ w p inputs, P w → InputsOK r.schema m inputs → ∃ w' outs, r.env.call w fn p inputs = some (w', outs) ∧ Q outs)
    (es : ES W) (hP : P es.world) :
    ∃ a es', callWith r path m fn args es = some (a, es') ∧ Opt Q a := by
  unfold callWith
  obtain ⟨a, es1, h1, h2⟩ := bindArgs_total path hT.inTypes m hm args (freshInputs m) hm.zero es
  have hw : es1.world = es.world := (bindArgs_delivers r path m args (freshInputs m) es a es1 h1).1
  cases a with
  | none => exact ⟨none, es1, E_bind.2 ⟨none, es1, h1, rfl⟩, trivial⟩
  | some inputs =>
    obtain ⟨w', outs, h3, h4⟩ := hcall es1.world (jsonPath (pathText path)) inputs (by rw [hw]; exact hP) h2
    refine ⟨some outs, { es1 with world := w' }, E_bind.2 ⟨some inputs, es1, h1, ?_⟩, h4⟩
    refine E_bind.2 ⟨es1.world, es1, rfl, ?_⟩
    rw [h3]
    exact E_bind.2 ⟨(), { es1 with world := w' }, rfl, rfl⟩

omit [DecidableEq F] in
theorem evalDirective_total (hT : WellTyped r.schema r.env T) (path : List Seg) (loc : UInt8) (d : Directive) :
    Def (evalDirective r path loc d) := by
  unfold evalDirective
  cases hl : lookup r.schema.directives loc with
  | none => exact (Total.fail (P := fun _ => True)).mono (fun _ _ => trivial)
  | some table =>
    rw [Option.bind_some]
    cases hf : table.find? (fun x => decide (x.name = d.name)) with
    | none => exact (Total.fail (P := fun _ => True)).mono (fun _ _ => trivial)
    | some x =>
      dsimp only
      obtain ⟨hm, hc⟩ := hT.directive loc table hl x (List.mem_of_find?_eq_some hf)
      have h : Total (callWith r path x.method x.func (d.args.getD [])) (Opt (fun outs => outs ≠ [])) := fun es =>
        callWith_total hT path x.method x.func (d.args.getD []) hm (P := fun _ => True) (fun w p inputs _ hi => hc w p inputs hi) es trivial
      refine h.bind ?_
      intro a ha
      cases a with
      | none => exact .pure trivial
      | some outs =>
        dsimp only
        cases outs with
        | nil => exact absurd rfl ha
        | cons o os =>
          dsimp only [List.getElem?_cons_zero]
          exact Total.getWorld.bind (fun _ _ => .pure trivial)

omit [DecidableEq F] in
theorem evalDirectives_total (hT : WellTyped r.schema r.env T) (path : List Seg) (loc : UInt8) (ds : List Directive) :
    Def (evalDirectives r path loc ds) := by
  induction ds with
  | nil => unfold evalDirectives; exact .pure trivial
  | cons d ds ih =>
    unfold evalDirectives
    refine (evalDirective_total hT path loc d).bind ?_
    rintro (_ | _ | _) _
    · exact .pure trivial
    · exact ih
    · exact .pure trivial

omit [DecidableEq F] in
theorem structField_total (v : V) (i : Nat) {P : V → Prop} (h : ∀ w, ∃ fs x, r.env.view w v = .struct fs ∧ fs[i]? = some x ∧ P x) :
    Total (structField r v i) P := by
  intro es
  obtain ⟨fs, x, h1, h2, h3⟩ := h es.world
  refine ⟨x, es, ?_, h3⟩
  unfold structField
  refine E_bind.2 ⟨es.world, es, rfl, ?_⟩
  rw [h1]
  dsimp only
  rw [h2]
  rfl

omit [DecidableEq F] in
theorem valueOfField_total {t : RType F V} {v : V} (h : HasFields r.env T t v) {f : RField F V} (hf : f ∈ t.fields) :
    Total (valueOfField r v f) (T f.obj) := by
  obtain ⟨h1, h2⟩ := h f hf
  unfold valueOfField
  cases hc : f.customObjValue with
  | some x => exact .pure (h1 x hc)
  | none =>
    obtain ⟨h3, h4⟩ := h2 hc
    dsimp only
    cases ho : f.obj with
    | method m out =>
      dsimp only
      by_cases hm : m.isTypeMethod = true
      · rw [if_pos hm]
        exact .pure (by rw [← ho]; exact h3 m out ho hm)
      · rw [if_neg hm]
        have := h4 (by intro m' out' h; rw [ho] at h; cases h; simpa using hm)
        rw [ho] at this
        exact structField_total v _ this
    | _ =>
      have := h4 (by intro m' out' h; rw [ho] at h; cases h)
      rw [ho] at this
      exact structField_total v _ this

/-- how many layers a field's type has -/
def layers : Obj F → Nat
  | .array o => layers o + 1
  | .ptr o => layers o + 1
  | .method _ o => layers o + 1
  | _ => 0

omit [DecidableEq F] in
theorem elems_total {elem : Nat → V → E W (Out × Bool)} (vs : List V) (i : Nat) (h : ∀ i, ∀ v ∈ vs, Def (elem i v)) :
    Def (evalElems elem i vs) := by
  induction vs generalizing i with
  | nil => unfold evalElems; exact .pure trivial
  | cons v vs ih =>
    unfold evalElems
    refine (h i v (by simp)).bind ?_
    intro a _
    refine (ih (i + 1) (fun j w hw => h j w (by simp [hw]))).bind ?_
    intro b _
    exact .pure trivial

omit [DecidableEq F] in
theorem dataText_total {k : Kind} {x : Scalar F} (h : OfKind k x) (id : Bool) : ∃ t, dataText r.env id k x = some t := by
  have hs : ∃ t, scalarText r.env k x = some t := by
    cases k <;> obtain ⟨y, rfl⟩ := h <;> exact ⟨_, rfl⟩
  obtain ⟨t, ht⟩ := hs
  unfold dataText
  split
  · exact ⟨_, by rw [ht]; rfl⟩
  · exact ⟨t, ht⟩

theorem enumKey_total {e : EnumDef F} {x : Scalar F} (h : OfKind e.kind x) : ∃ k, enumKey e x = some k := by
  unfold enumKey
  cases hk : e.kind <;> rw [hk] at h <;> obtain ⟨y, rfl⟩ := h <;> exact ⟨_, rfl⟩

/-- `k`: list and interface layers any field's type has at most; `D`: layers at all -/
structure Sizes (r : Req F V W) (k D : Nat) : Prop where
  slots : ∀ f, IsField r.schema f → slots f.obj ≤ k
  layers : ∀ f, IsField r.schema f → layers f.obj ≤ D

/-- enough free entries on the value stack for selections: because the fields do not nest deeper than `n` (`lim = false`) or because the
depth limit stops them within `n` levels (`lim = true`) -/
def RoomOK (r : Req F V W) (k : Nat) (lim : Bool) (n : Nat) (dept : UInt8) (room : Nat) : Prop :=
  if lim then dept.toNat < r.schema.maxDepth.toNat ∧ r.schema.maxDepth.toNat - dept.toNat ≤ n ∧
    (r.schema.maxDepth.toNat - dept.toNat) * (k + 1) ≤ room
  else n * (k + 1) ≤ room

/-- the same for the type of a field at depth `dept` above these selections -/
def DataRoom (r : Req F V W) (k : Nat) (lim : Bool) (o : Obj F) (n : Nat) (dept : UInt8) (room : Nat) : Prop :=
  if lim then noInterface o = true ∧ dept.toNat < r.schema.maxDepth.toNat ∧ r.schema.maxDepth.toNat - dept.toNat ≤ n + 1 ∧
    slots o + (r.schema.maxDepth.toNat - dept.toNat - 1) * (k + 1) ≤ room
  else slots o + n * (k + 1) ≤ room

/-- evaluation of these selections is defined with enough fuel, for every object type of the schema -/
def SelsOK (r : Req F V W) (T : Obj F → V → Prop) (k : Nat) (lim : Bool) (n F0 : Nat) (sels : List Sel) : Prop :=
  ∀ fuel, F0 ≤ fuel → ∀ t v dept path room, (∀ f ∈ t.fields, IsField r.schema f) → HasFields r.env T t v → RoomOK r k lim n dept room →
    Def (evalSels r fuel t v dept path room sels)

omit [DecidableEq F] in
theorem fields_of_lookup {n : Bytes} {t : RType F V} (h : lookup r.schema.types n = some t) : ∀ f ∈ t.fields, IsField r.schema f := by
  intro f hf
  unfold lookup at h
  obtain ⟨e, h1, h2⟩ := Option.map_eq_some_iff.1 h
  subst h2
  exact Or.inr (Or.inr ⟨e.1, e.2, List.mem_of_find?_eq_some h1, hf⟩)

omit [DecidableEq F] in
theorem dept_succ {r : Req F V W} {dept : UInt8} (hd : dept.toNat < r.schema.maxDepth.toNat) (hne : dept + 1 ≠ r.schema.maxDepth) :
    (dept + 1).toNat = dept.toNat + 1 ∧ dept.toNat + 1 < r.schema.maxDepth.toNat := by
  have h1 := r.schema.maxDepth.toNat_lt
  have h2 : (dept + 1).toNat = dept.toNat + 1 := by
    rw [UInt8.toNat_add]
    show (dept.toNat + 1) % 256 = _
    omega
  refine ⟨h2, ?_⟩
  by_cases he : dept.toNat + 1 = r.schema.maxDepth.toNat
  · exact absurd (UInt8.toNat_inj.1 (by rw [h2, he])) hne
  · omega

theorem data_objRef (hT : WellTyped r.schema r.env T) {k : Nat} {lim : Bool} {n F0 : Nat} {sels : List Sel} (hs : SelsOK r T k lim n F0 sels)
    (ty : Bytes) (fuel : Nat) (hf : F0 + 1 ≤ fuel) (v : V) (dept : UInt8) (path : List Seg) (room : Nat) (args : Option (List (Bytes × Value)))
    (hv : T (.objRef ty) v)
    (hroom : if lim then dept.toNat < r.schema.maxDepth.toNat ∧ r.schema.maxDepth.toNat - dept.toNat ≤ n + 1 ∧
      (r.schema.maxDepth.toNat - dept.toNat - 1) * (k + 1) ≤ room else n * (k + 1) ≤ room) :
    Def (evalData r fuel (.objRef ty) v dept path room args sels) := by
  obtain ⟨fuel, rfl⟩ : ∃ g, fuel = g + 1 := ⟨fuel - 1, by omega⟩
  unfold evalData
  dsimp only
  split
  · exact .reportThen trivial
  · split
    · exact .reportThen trivial
    · cases hl : lookup r.schema.types ty with
      | none => exact .pure trivial
      | some t =>
        dsimp only
        by_cases hd : dept + 1 = r.schema.maxDepth
        · rw [if_pos hd]; exact .reportThen trivial
        · rw [if_neg hd]
          refine (hs fuel (by omega) t v (dept + 1) path room (fields_of_lookup hl) (hT.object ty v hv t hl) ?_).bind (fun _ _ => .pure trivial)
          cases lim with
          | false => exact hroom
          | true =>
            obtain ⟨h2, h1, h3⟩ := hroom
            obtain ⟨k1, k2⟩ := dept_succ h2 hd
            refine ⟨by rw [k1]; exact k2, by rw [k1]; omega, ?_⟩
            rw [k1, ← Nat.sub_sub]
            exact h3

omit [DecidableEq F] in
theorem evalResult_total {m : Method F} {outs : List V} {x : V} (path : List Seg) (ho : outs[m.outNr]? = some x) {next : V → E W (Out × Bool)}
    (hn : Def (next x)) : Def (evalResult r path m outs next) := by
  unfold evalResult
  refine Total.getWorld.bind ?_
  intro w _
  cases r.env.ctxErr w with
  | some msg => exact .reportThen trivial
  | none =>
    dsimp only
    rw [ho]
    exact hn

omit [DecidableEq F] in
theorem evalCall_total (hT : WellTyped r.schema r.env T) (path : List Seg) (m : Method F) (out : Obj F) (fn : V) (args : List (Bytes × Value))
    (hv : T (.method m out) fn) {next : V → E W (Out × Bool)} (hn : ∀ x, T out x → Def (next x)) (es : ES W)
    (hw : m.isTypeMethod = true ∨ r.env.view es.world fn = .func false) :
    ∃ a es', evalCall r path m fn args next es = some (a, es') ∧ True := by
  obtain ⟨hm, -, hc⟩ := hT.method m out fn hv
  obtain ⟨a, es1, h1, h2⟩ := callWith_total hT path m fn args hm
    (P := fun w => m.isTypeMethod = true ∨ r.env.view w fn = .func false)
    (Q := fun outs => ∃ x, outs[m.outNr]? = some x ∧ T out x ∧ ∀ nr, m.errorOutNr = some nr → nr < outs.length)
    (fun w p inputs hP hi => by
      obtain ⟨w', outs, x, k1, k2⟩ := hc w p inputs hi hP
      exact ⟨w', outs, k1, x, k2⟩) es hw
  unfold evalCall
  cases a with
  | none => exact ⟨_, es1, E_bind.2 ⟨none, es1, h1, rfl⟩, trivial⟩
  | some outs =>
    obtain ⟨x, k1, k2, k3⟩ := h2
    have rest : Def (match m.errorOutNr with
      | none => evalResult r path m outs next
      | some nr =>
        match outs[nr]? with
        | none => undefinedE
        | some e => do
          match r.env.errOf (← getWorld) e with
          | none => evalResult r path m outs next
          | some msg =>
            report path msg
            evalResult r path m outs next) := by
      have hres := evalResult_total (r := r) path k1 (hn x k2)
      cases he : m.errorOutNr with
      | none => exact hres
      | some nr =>
        dsimp only
        have hlt := k3 nr he
        rw [List.getElem?_eq_getElem hlt]
        dsimp only
        refine Total.getWorld.bind ?_
        intro w _
        cases r.env.errOf w outs[nr] with
        | none => exact hres
        | some msg => exact Total.report.bind (fun _ _ => hres)
    obtain ⟨b, es2, h3, _⟩ := rest es1
    exact ⟨b, es2, E_bind.2 ⟨some outs, es1, h1, h3⟩, trivial⟩

theorem evalData_total (hT : WellTyped r.schema r.env T) {k : Nat} {lim : Bool} {n F0 : Nat} {sels : List Sel} (hs : SelsOK r T k lim n F0 sels)
    (o : Obj F) (fuel : Nat) (hf : F0 + layers o + 2 ≤ fuel) (v : V) (dept : UInt8) (path : List Seg) (room : Nat)
    (args : Option (List (Bytes × Value))) (hv : T o v) (hroom : DataRoom r k lim o n dept room) :
    Def (evalData r fuel o v dept path room args sels) := by
  induction o generalizing fuel v path room args with
  | undefined =>
    obtain ⟨fuel, rfl⟩ : ∃ g, fuel = g + 1 := ⟨fuel - 1, by omega⟩
    unfold evalData
    dsimp only
    split
    · exact .reportThen trivial
    · exact .pure trivial
  | array o ih =>
    obtain ⟨fuel, rfl⟩ : ∃ g, fuel = g + 1 := ⟨fuel - 1, by omega⟩
    unfold evalData
    dsimp only
    split
    · exact .reportThen trivial
    · intro es
      obtain ⟨vs, h1, h2⟩ := hT.array o v hv es.world
      have step : ∀ {Q : Prop} (m : E W (Out × Bool)), (∃ a es', m es = some (a, es') ∧ Q) → (∃ a es', m es = some (a, es') ∧ Q) := fun _ h => h
      cases vs with
      | none => exact ⟨_, es, E_bind.2 ⟨es.world, es, rfl, by rw [h1]; rfl⟩, trivial⟩
      | some xs =>
        obtain ⟨room, rfl⟩ : ∃ g, room = g + 1 := by
          cases lim with
          | false => have h : slots (.array o) + n * (k + 1) ≤ room := hroom; simp only [slots] at h; exact ⟨room - 1, by omega⟩
          | true => obtain ⟨_, _, _, h⟩ := hroom; simp only [slots] at h; exact ⟨room - 1, by omega⟩
        have hel : Def (evalElems (fun i x => evalData r fuel o x dept (path ++ [Seg.idx i]) room args sels) 0 xs >>= fun os => (pure (Out.list os, false) : E W (Out × Bool))) := by
          refine (elems_total xs 0 ?_).bind (fun _ _ => .pure trivial)
          intro i x hx
          refine ih fuel (by simp only [layers] at hf; omega) x _ room args (h2 xs rfl x hx) ?_
          cases lim with
          | false =>
            have h : slots (.array o) + n * (k + 1) ≤ room + 1 := hroom
            simp only [slots] at h
            show slots o + n * (k + 1) ≤ room
            omega
          | true => obtain ⟨h1, h2, h3, h⟩ := hroom; exact ⟨h1, h2, h3, by simp only [slots] at h; omega⟩
        obtain ⟨a, es', h3, _⟩ := hel es
        exact ⟨a, es', E_bind.2 ⟨es.world, es, rfl, by rw [h1]; exact h3⟩, trivial⟩
  | objRef ty =>
    refine data_objRef hT hs ty fuel (by omega) v dept path room args hv ?_
    cases lim with
    | false =>
      have h : slots (.objRef ty : Obj F) + n * (k + 1) ≤ room := hroom
      simp only [slots] at h
      show n * (k + 1) ≤ room
      omega
    | true => obtain ⟨h1, h2, h3, h⟩ := hroom; exact ⟨h2, h3, by simp only [slots] at h; omega⟩
  | data id kd =>
    obtain ⟨fuel, rfl⟩ : ∃ g, fuel = g + 1 := ⟨fuel - 1, by omega⟩
    unfold evalData
    dsimp only
    split
    · exact .reportThen trivial
    · split
      · exact .reportThen trivial
      · intro es
        obtain ⟨x, h1, h2⟩ := hT.data id kd v hv es.world
        obtain ⟨t, h3⟩ := dataText_total (r := r) h2 id
        exact ⟨_, es, E_bind.2 ⟨es.world, es, rfl, by rw [h1]; dsimp only; rw [h3]; rfl⟩, trivial⟩
  | ptr o ih =>
    obtain ⟨fuel, rfl⟩ : ∃ g, fuel = g + 1 := ⟨fuel - 1, by omega⟩
    unfold evalData
    dsimp only
    split
    · exact .reportThen trivial
    · intro es
      obtain ⟨x, h1, h2⟩ := hT.ptr o v hv es.world
      cases x with
      | none => exact ⟨_, es, E_bind.2 ⟨es.world, es, rfl, by rw [h1]; rfl⟩, trivial⟩
      | some y =>
        have hd := ih fuel (by simp only [layers] at hf; omega) y path room args (h2 y rfl) hroom
        obtain ⟨a, es', h3, _⟩ := hd es
        exact ⟨a, es', E_bind.2 ⟨es.world, es, rfl, by rw [h1]; exact h3⟩, trivial⟩
  | method m out ih =>
    obtain ⟨fuel, rfl⟩ : ∃ g, fuel = g + 1 := ⟨fuel - 1, by omega⟩
    unfold evalData
    dsimp only
    split
    · exact .reportThen trivial
    · obtain ⟨-, hfn, -⟩ := hT.method m out v hv
      have hnext : ∀ x, T out x → Def (evalData r fuel out x dept path room none sels) := fun x hx =>
        ih fuel (by simp only [layers] at hf; omega) x path room none hx hroom
      by_cases hm : m.isTypeMethod = true
      · rw [if_neg (by simpa using hm)]
        exact fun es => evalCall_total hT path m out v _ hv hnext es (Or.inl hm)
      · rw [if_pos (by simpa using hm)]
        intro es
        obtain ⟨b, hb⟩ := (hfn.resolve_left hm) es.world
        cases b with
        | true => exact ⟨_, es, E_bind.2 ⟨es.world, es, rfl, by rw [hb]; rfl⟩, trivial⟩
        | false =>
          obtain ⟨a, es', h3, _⟩ := evalCall_total hT path m out v (args.getD []) hv hnext es (Or.inr hb)
          exact ⟨a, es', E_bind.2 ⟨es.world, es, rfl, by rw [hb]; exact h3⟩, trivial⟩
  | enum idx =>
    obtain ⟨fuel, rfl⟩ : ∃ g, fuel = g + 1 := ⟨fuel - 1, by omega⟩
    unfold evalData
    dsimp only
    split
    · exact .reportThen trivial
    · obtain ⟨e, he, hx⟩ := hT.enum idx v hv
      rw [he]
      dsimp only
      intro es
      obtain ⟨x, h1, h2⟩ := hx es.world
      obtain ⟨key, h3⟩ := enumKey_total h2
      cases key with
      | none => exact ⟨_, es, E_bind.2 ⟨es.world, es, rfl, by rw [h1]; dsimp only; rw [h3]; rfl⟩, trivial⟩
      | some key => exact ⟨_, es, E_bind.2 ⟨es.world, es, rfl, by rw [h1]; dsimp only; rw [h3]; rfl⟩, trivial⟩
  | time =>
    obtain ⟨fuel, rfl⟩ : ∃ g, fuel = g + 1 := ⟨fuel - 1, by omega⟩
    unfold evalData
    dsimp only
    split
    · exact .reportThen trivial
    · refine Total.getWorld.bind ?_
      intro w _
      split
      · exact .pure trivial
      · exact .pure trivial
  | interfaceRef ty =>
    obtain ⟨fuel, rfl⟩ : ∃ g, fuel = g + 1 := ⟨fuel - 1, by omega⟩
    unfold evalData
    dsimp only
    split
    · exact .reportThen trivial
    · split
      · exact .reportThen trivial
      · cases hl : lookup r.schema.interfaces ty with
        | none => exact .pure trivial
        | some impls =>
          dsimp only
          intro es
          obtain ⟨x, h1, h2⟩ := hT.interface ty v hv impls hl es.world
          cases x with
          | none => exact ⟨_, es, E_bind.2 ⟨es.world, es, rfl, by rw [h1]; rfl⟩, trivial⟩
          | some p =>
            obtain ⟨goName, goPkg, y⟩ := p
            cases lim with
            | true => obtain ⟨h2, _⟩ := hroom; cases h2
            | false =>
            have hroom' : 1 + n * (k + 1) ≤ room := hroom
            obtain ⟨room, rfl⟩ : ∃ g, room = g + 1 := ⟨room - 1, by omega⟩
            cases hi : impls.find? (fun i => decide (i.goTypeName = goName ∧ i.goPkgPath = goPkg)) with
            | none => exact ⟨_, es, E_bind.2 ⟨es.world, es, rfl, by rw [h1]; dsimp only; rw [hi]; rfl⟩, trivial⟩
            | some i =>
              have hp : i.goTypeName = goName ∧ i.goPkgPath = goPkg := by simpa using List.find?_some hi
              have hd := data_objRef hT hs i.typeName fuel (by omega) y (dept + 1) path room args
                (h2 goName goPkg y rfl i (List.mem_of_find?_eq_some hi) hp.1 hp.2) (show n * (k + 1) ≤ room by omega)
              obtain ⟨a, es', h3, _⟩ := hd es
              exact ⟨a, es', E_bind.2 ⟨es.world, es, rfl, by rw [h1]; dsimp only; rw [hi]; exact h3⟩, trivial⟩

/-- a field, and what stands behind it -/
theorem field_step (hT : WellTyped r.schema r.env T) {k D : Nat} (hsz : Sizes r k D) {lim : Bool}
    (hlim : lim = true → ∀ f, IsField r.schema f → noInterface f.obj = true) {n F1 F2 : Nat} {sub rest : List Sel}
    (h1 : SelsOK r T k lim n F1 sub) (h2 : SelsOK r T k lim (n + 1) F2 rest) (key : Bytes) (name : Option Bytes) (dirs : List Directive)
    (args : Option (List (Bytes × Value))) : SelsOK r T k lim (n + 1) (F1 + F2 + D + 4) (.field key name dirs args sub :: rest) := by
  refine fun fuel hf t v dept path room ht hv hroom => ?_
  obtain ⟨fuel, rfl⟩ : ∃ g, fuel = g + 2 := ⟨fuel - 2, by omega⟩
  simp only [evalSels]
  have hfield : Def (evalField r (fuel + 1) t v dept path room key (name.getD key) dirs args sub) := by
    unfold evalField
    dsimp only
    refine (evalDirectives_total hT _ 0 dirs).bind ?_
    rintro (_ | _ | _) _
    · exact .pure trivial
    · dsimp only
      cases hfd : t.fields.find? (fun f => decide (f.key = fnv1 (name.getD key))) with
      | none =>
        dsimp only
        split
        · split
          · exact .reportThen trivial
          · exact .pure trivial
        · exact .reportThen trivial
      | some f =>
        have hmem := List.mem_of_find?_eq_some hfd
        have hk := hsz.slots f (ht f hmem)
        have hd := hsz.layers f (ht f hmem)
        have hr : ∃ g, room = g + 1 ∧ DataRoom r k lim f.obj n dept g := by
          cases lim with
          | false =>
            have h : (n + 1) * (k + 1) ≤ room := hroom
            rw [Nat.succ_mul] at h
            exact ⟨room - 1, by omega, show slots f.obj + n * (k + 1) ≤ room - 1 by omega⟩
          | true =>
            obtain ⟨h2, h4, h3⟩ := hroom
            obtain ⟨q, hq⟩ : ∃ q, r.schema.maxDepth.toNat - dept.toNat = q + 1 := ⟨r.schema.maxDepth.toNat - dept.toNat - 1, by omega⟩
            rw [hq, Nat.succ_mul] at h3
            refine ⟨room - 1, by omega, hlim rfl f (ht f hmem), h2, h4, ?_⟩
            rw [hq, Nat.add_sub_cancel]
            omega
        obtain ⟨room, rfl, hr⟩ := hr
        dsimp only
        refine (valueOfField_total hv hmem).bind ?_
        intro x hx
        exact (evalData_total hT h1 f.obj fuel (by omega) x dept _ room args hx hr).bind (fun _ _ => .pure trivial)
    · exact .pure trivial
  refine hfield.bind ?_
  rintro ⟨m, crit⟩ _
  dsimp only
  split
  · exact .pure trivial
  · exact (h2 (fuel + 1) (by omega) t v dept path room ht hv hroom).bind (fun _ _ => .pure trivial)

/-- a spread of a fragment that is defined -/
theorem spread_step (hT : WellTyped r.schema r.env T) {k : Nat} {lim : Bool} {n F1 F2 : Nat} {name : Bytes} {f : Fragment} {rest : List Sel}
    (hfind : r.frags.find? (fun f => decide (f.name = name)) = some f) (h1 : SelsOK r T k lim n F1 f.sels) (h2 : SelsOK r T k lim n F2 rest)
    (dirs : List Directive) : SelsOK r T k lim n (F1 + F2 + 2) (.spread name dirs :: rest) := by
  refine fun fuel hf t v dept path room ht hv hroom => ?_
  obtain ⟨fuel, rfl⟩ : ∃ g, fuel = g + 2 := ⟨fuel - 2, by omega⟩
  simp only [evalSels]
  have hsp : Def (evalSpread r (fuel + 1) t v dept path room name dirs) := by
    unfold evalSpread
    refine (evalDirectives_total hT _ 1 dirs).bind ?_
    rintro (_ | _ | _) _
    · exact .pure trivial
    · dsimp only
      rw [hfind]
      dsimp only
      split
      · exact h1 fuel (by omega) t v dept path room ht hv hroom
      · exact .pure trivial
    · exact .pure trivial
  refine hsp.bind ?_
  rintro ⟨ms, crit⟩ _
  dsimp only
  split
  · exact .pure trivial
  · exact (h2 (fuel + 1) (by omega) t v dept path room ht hv hroom).bind (fun _ _ => .pure trivial)

/-- a spread of a fragment that is not defined -/
theorem undefined_step (hT : WellTyped r.schema r.env T) {k : Nat} {lim : Bool} {n F2 : Nat} {name : Bytes} {rest : List Sel}
    (hfind : r.frags.find? (fun f => decide (f.name = name)) = none) (h2 : SelsOK r T k lim n F2 rest)
    (dirs : List Directive) : SelsOK r T k lim n (F2 + 2) (.spread name dirs :: rest) := by
  refine fun fuel hf t v dept path room ht hv hroom => ?_
  obtain ⟨fuel, rfl⟩ : ∃ g, fuel = g + 2 := ⟨fuel - 2, by omega⟩
  simp only [evalSels]
  have hsp : Def (evalSpread r (fuel + 1) t v dept path room name dirs) := by
    unfold evalSpread
    refine (evalDirectives_total hT _ 1 dirs).bind ?_
    rintro (_ | _ | _) _
    · exact .pure trivial
    · dsimp only
      rw [hfind]
      exact .reportThen trivial
    · exact .pure trivial
  refine hsp.bind ?_
  rintro ⟨ms, crit⟩ _
  dsimp only
  split
  · exact .pure trivial
  · exact (h2 (fuel + 1) (by omega) t v dept path room ht hv hroom).bind (fun _ _ => .pure trivial)

/-- an inline fragment -/
theorem inline_step (hT : WellTyped r.schema r.env T) {k : Nat} {lim : Bool} {n F1 F2 : Nat} {sub rest : List Sel}
    (h1 : SelsOK r T k lim n F1 sub) (h2 : SelsOK r T k lim n F2 rest) (ty : Bytes)
    (dirs : List Directive) : SelsOK r T k lim n (F1 + F2 + 2) (.inline ty dirs sub :: rest) := by
  refine fun fuel hf t v dept path room ht hv hroom => ?_
  obtain ⟨fuel, rfl⟩ : ∃ g, fuel = g + 2 := ⟨fuel - 2, by omega⟩
  simp only [evalSels]
  have hsp : Def (evalInline r (fuel + 1) t v dept path room ty dirs sub) := by
    unfold evalInline
    refine (evalDirectives_total hT _ 2 dirs).bind ?_
    rintro (_ | _ | _) _
    · exact .pure trivial
    · dsimp only
      split
      · exact h1 fuel (by omega) t v dept path room ht hv hroom
      · exact .pure trivial
    · exact .pure trivial
  refine hsp.bind ?_
  rintro ⟨ms, crit⟩ _
  dsimp only
  split
  · exact .pure trivial
  · exact (h2 (fuel + 1) (by omega) t v dept path room ht hv hroom).bind (fun _ _ => .pure trivial)

theorem nil_step (k : Nat) (lim : Bool) (n : Nat) : SelsOK r T k lim n 1 [] := by
  refine fun fuel hf t v dept path room _ _ _ => ?_
  obtain ⟨fuel, rfl⟩ : ∃ g, fuel = g + 1 := ⟨fuel - 1, by omega⟩
  simp only [evalSels]
  exact .pure trivial

/-- **Totality.** Selections that nest finitely deep are evaluated, given enough fuel. -/
theorem sels_total (hT : WellTyped r.schema r.env T) {k D : Nat} (hsz : Sizes r k D) {n : Nat} {sels : List Sel}
    (h : Nest r.frags n sels) : ∃ F0, SelsOK r T k false n F0 sels := by
  induction h with
  | nil => exact ⟨1, nil_step _ _ _⟩
  | field _ _ ih1 ih2 =>
    obtain ⟨F1, h1⟩ := ih1
    obtain ⟨F2, h2⟩ := ih2
    exact ⟨_, field_step hT hsz (fun h => by cases h) h1 h2 _ _ _ _⟩
  | spread hfind _ _ ih1 ih2 =>
    obtain ⟨F1, h1⟩ := ih1
    obtain ⟨F2, h2⟩ := ih2
    exact ⟨_, spread_step hT hfind h1 h2 _⟩
  | undefined hfind _ ih2 =>
    obtain ⟨F2, h2⟩ := ih2
    exact ⟨_, undefined_step hT hfind h2 _⟩
  | inline _ _ ih1 ih2 =>
    obtain ⟨F1, h1⟩ := ih1
    obtain ⟨F2, h2⟩ := ih2
    exact ⟨_, inline_step hT h1 h2 _ _⟩

/-- ... and so are selections whose levels above the depth limit are finite. -/
theorem sels_total_limited (hT : WellTyped r.schema r.env T) {k D : Nat} (hsz : Sizes r k D)
    (hlim : ∀ f, IsField r.schema f → noInterface f.obj = true) {n : Nat} {sels : List Sel}
    (h : Unfolds r.frags n sels) : ∃ F0, SelsOK r T k true n F0 sels := by
  induction h with
  | done =>
    refine ⟨0, fun fuel hf t v dept path room _ _ hroom => ?_⟩
    obtain ⟨h1, h2, -⟩ := hroom
    omega
  | nil => exact ⟨1, nil_step _ _ _⟩
  | field _ _ ih1 ih2 =>
    obtain ⟨F1, h1⟩ := ih1
    obtain ⟨F2, h2⟩ := ih2
    exact ⟨_, field_step hT hsz (fun _ => hlim) h1 h2 _ _ _ _⟩
  | spread hfind _ _ ih1 ih2 =>
    obtain ⟨F1, h1⟩ := ih1
    obtain ⟨F2, h2⟩ := ih2
    exact ⟨_, spread_step hT hfind h1 h2 _⟩
  | undefined hfind _ ih2 =>
    obtain ⟨F2, h2⟩ := ih2
    exact ⟨_, undefined_step hT hfind h2 _⟩
  | inline _ _ ih1 ih2 =>
    obtain ⟨F1, h1⟩ := ih1
    obtain ⟨F2, h2⟩ := ih2
    exact ⟨_, inline_step hT h1 h2 _ _⟩

theorem le_max_of_mem {α : Type} (g : α → Nat) (l : List α) : ∃ D, ∀ x ∈ l, g x ≤ D := by
  induction l with
  | nil => exact ⟨0, by simp⟩
  | cons x l ih =>
    obtain ⟨D, h⟩ := ih
    refine ⟨max (g x) D, ?_⟩
    intro y hy
    rcases List.mem_cons.1 hy with rfl | hy
    · exact Nat.le_max_left _ _
    · exact Nat.le_trans (h y hy) (Nat.le_max_right _ _)

omit [DecidableEq F] in
/-- a schema is finite -/
theorem exists_layers (schema : RSchema F V) : ∃ D, ∀ f, IsField schema f → layers f.obj ≤ D := by
  obtain ⟨D1, h1⟩ := le_max_of_mem (fun f : RField F V => layers f.obj) schema.rootQuery.fields
  obtain ⟨D2, h2⟩ := le_max_of_mem (fun f : RField F V => layers f.obj) schema.rootMethod.fields
  obtain ⟨D3, h3⟩ := le_max_of_mem (fun f : RField F V => layers f.obj) (schema.types.flatMap (fun p => p.2.fields))
  refine ⟨max D1 (max D2 D3), ?_⟩
  rintro f (h | h | ⟨n, t, hm, h⟩)
  · exact Nat.le_trans (h1 f h) (by omega)
  · exact Nat.le_trans (h2 f h) (by omega)
  · exact Nat.le_trans (h3 f (List.mem_flatMap.2 ⟨(n, t), hm, h⟩)) (by omega)

theorem evalOperation_total (hT : WellTyped r.schema r.env T) (o : Operation) (h : Fits r.schema r.frags o) :
    ∃ F0, ∀ fuel, F0 ≤ fuel → Def (evalOperation r fuel o) := by
  obtain ⟨D, hD⟩ := exists_layers r.schema
  obtain ⟨k, hk, h⟩ := h
  have key : ∃ lim n F0, SelsOK r T k lim n F0 o.sels ∧ RoomOK r k lim n 0 255 := by
    rcases h with ⟨n, h, hroom⟩ | ⟨hi, hpos, hroom, h⟩
    · obtain ⟨F0, h0⟩ := sels_total hT (k := k) (D := D) ⟨hk, hD⟩ h
      exact ⟨false, n, F0, h0, hroom⟩
    · obtain ⟨F0, h0⟩ := sels_total_limited hT (k := k) (D := D) ⟨hk, hD⟩ hi h
      exact ⟨true, _, F0, h0, hpos, Nat.sub_le _ _, hroom⟩
  obtain ⟨lim, n, F0, h0, hr⟩ := key
  refine ⟨F0, fun fuel hf => ?_⟩
  unfold evalOperation
  cases o.kind with
  | subscription => exact .reportThen trivial
  | query =>
    dsimp only
    split
    · exact .reportThen trivial
    · exact (h0 fuel hf _ _ 0 [] 255 (fun f hf => Or.inl hf) hT.query hr).bind (fun _ _ => .pure trivial)
  | mutation =>
    dsimp only
    split
    · exact .reportThen trivial
    · exact (h0 fuel hf _ _ 0 [] 255 (fun f hf => Or.inr (Or.inl hf)) hT.mutation hr).bind (fun _ _ => .pure trivial)

end

theorem Nest.mono {frags : List Fragment} {n m : Nat} {sels : List Sel} (h : Nest frags n sels) (hm : n ≤ m) : Nest frags m sels := by
  induction h generalizing m with
  | nil => exact .nil
  | field _ _ ih1 ih2 =>
    obtain ⟨m, rfl⟩ : ∃ g, m = g + 1 := ⟨m - 1, by omega⟩
    exact .field (ih1 (by omega)) (ih2 hm)
  | spread h _ _ ih1 ih2 => exact .spread h (ih1 hm) (ih2 hm)
  | undefined h _ ih => exact .undefined h (ih hm)
  | inline _ _ ih1 ih2 => exact .inline (ih1 hm) (ih2 hm)

mutual
theorem nestSel {frags : List Fragment} (s : Sel) (h : ∀ name ∈ spreadsOf s, ∀ f, frags.find? (fun f => f.name = name) = some f → ∃ n, Nest frags n f.sels) :
    ∃ n, Nest frags n [s] := by
  cases s with
  | field key name dirs args sub =>
    obtain ⟨n, hn⟩ := nestSels sub (by simpa [spreadsOf] using h)
    exact ⟨n + 1, .field hn .nil⟩
  | spread name dirs =>
    cases hf : frags.find? (fun f => decide (f.name = name)) with
    | none => exact ⟨0, .undefined hf .nil⟩
    | some f =>
      obtain ⟨n, hn⟩ := h name (by simp [spreadsOf]) f hf
      exact ⟨n, .spread hf hn .nil⟩
  | inline ty dirs sub =>
    obtain ⟨n, hn⟩ := nestSels sub (by simpa [spreadsOf] using h)
    exact ⟨n, .inline hn .nil⟩
theorem nestSels {frags : List Fragment} (sels : List Sel) (h : ∀ name ∈ spreadsIn sels, ∀ f, frags.find? (fun f => f.name = name) = some f → ∃ n, Nest frags n f.sels) :
    ∃ n, Nest frags n sels := by
  cases sels with
  | nil => exact ⟨0, .nil⟩
  | cons s ss =>
    simp only [spreadsIn, List.mem_append] at h
    obtain ⟨n1, h1⟩ := nestSel s (fun name hn => h name (Or.inl hn))
    obtain ⟨n2, h2⟩ := nestSels ss (fun name hn => h name (Or.inr hn))
    refine ⟨max n1 n2 + 1, ?_⟩
    have h1 := h1.mono (m := max n1 n2 + 1) (by omega)
    have h2 := h2.mono (m := max n1 n2 + 1) (by omega)
    cases h1 with
    | field a _ => exact .field a h2
    | spread a b _ => exact .spread a b h2
    | undefined a _ => exact .undefined a h2
    | inline a _ => exact .inline a h2
end

/-- Without fragment cycles every selection nests finitely deep. -/
theorem nest_of_acyclic {frags : List Fragment} (h : Acyclic frags) (sels : List Sel) : ∃ n, Nest frags n sels := by
  obtain ⟨rank, hr⟩ := h
  have key : ∀ R, ∀ f ∈ frags, rank f.name < R → ∃ n, Nest frags n f.sels := by
    intro R
    induction R with
    | zero => intro f _ h; omega
    | succ R ih =>
      intro f hf hR
      refine nestSels f.sels (fun name hn g hg => ?_)
      have e : g.name = name := by simpa using List.find?_some hg
      have := hr f hf name hn
      exact ih g (List.mem_of_find?_eq_some hg) (by rw [e]; omega)
  exact nestSels sels (fun name _ f hf => key (rank f.name + 1) f (List.mem_of_find?_eq_some hf) (by omega))

theorem Nest.unfolds {frags : List Fragment} {n : Nat} {sels : List Sel} (h : Nest frags n sels) (m : Nat) : Unfolds frags m sels := by
  induction h generalizing m with
  | nil => exact .nil
  | field _ _ ih1 ih2 =>
    cases m with
    | zero => exact .done
    | succ m => exact .field (ih1 m) (ih2 (m + 1))
  | spread h _ _ ih1 ih2 => exact .spread h (ih1 m) (ih2 m)
  | undefined h _ ih => exact .undefined h (ih m)
  | inline _ _ ih1 ih2 => exact .inline (ih1 m) (ih2 m)

theorem Unfolds.cons {frags : List Fragment} {n : Nat} {s : Sel} {rest : List Sel} (h : Unfolds frags n [s]) (hr : Unfolds frags n rest) :
    Unfolds frags n (s :: rest) := by
  cases h with
  | done => exact .done
  | field a _ => exact .field a hr
  | spread a b _ => exact .spread a b hr
  | undefined a _ => exact .undefined a hr
  | inline a _ => exact .inline a hr

mutual
theorem unfoldsSel {frags : List Fragment} {n : Nat} (hn : ∀ sels, Unfolds frags n sels) (s : Sel)
    (h : ∀ name ∈ openSpreadsOf s, ∀ f, frags.find? (fun f => f.name = name) = some f → Unfolds frags (n + 1) f.sels) : Unfolds frags (n + 1) [s] := by
  cases s with
  | field key name dirs args sub => exact .field (hn sub) .nil
  | spread name dirs =>
    cases hf : frags.find? (fun f => decide (f.name = name)) with
    | none => exact .undefined hf .nil
    | some f => exact .spread hf (h name (by simp [openSpreadsOf]) f hf) .nil
  | inline ty dirs sub => exact .inline (unfoldsSels hn sub (by simpa [openSpreadsOf] using h)) .nil
theorem unfoldsSels {frags : List Fragment} {n : Nat} (hn : ∀ sels, Unfolds frags n sels) (sels : List Sel)
    (h : ∀ name ∈ openSpreadsIn sels, ∀ f, frags.find? (fun f => f.name = name) = some f → Unfolds frags (n + 1) f.sels) : Unfolds frags (n + 1) sels := by
  cases sels with
  | nil => exact .nil
  | cons s ss =>
    simp only [openSpreadsIn, List.mem_append] at h
    exact (unfoldsSel hn s (fun name hm => h name (Or.inl hm))).cons (unfoldsSels hn ss (fun name hm => h name (Or.inr hm)))
end

/-- If every cycle of fragments passes through a field, all levels of a selection are finite. -/
theorem unfolds_of_guarded {frags : List Fragment} (h : Guarded frags) (n : Nat) : ∀ sels, Unfolds frags n sels := by
  obtain ⟨rank, hr⟩ := h
  induction n with
  | zero => exact fun _ => .done
  | succ n ihn =>
    have key : ∀ R, ∀ f ∈ frags, rank f.name < R → Unfolds frags (n + 1) f.sels := by
      intro R
      induction R with
      | zero => intro f _ h; omega
      | succ R ih =>
        intro f hf hR
        refine unfoldsSels ihn f.sels (fun name hm g hg => ?_)
        have e : g.name = name := by simpa using List.find?_some hg
        have := hr f hf name hm
        exact ih g (List.mem_of_find?_eq_some hg) (by rw [e]; omega)
    exact fun sels => unfoldsSels ihn sels (fun name _ f hf => key (rank f.name + 1) f (List.mem_of_find?_eq_some hf) (by omega))

mutual
theorem openSpreads_subset (s : Sel) : ∀ n ∈ openSpreadsOf s, n ∈ spreadsOf s := by
  cases s with
  | field => simp [openSpreadsOf]
  | spread => simp [openSpreadsOf, spreadsOf]
  | inline ty dirs sub => simpa [openSpreadsOf, spreadsOf] using openSpreadsIn_subset sub
theorem openSpreadsIn_subset (ss : List Sel) : ∀ n ∈ openSpreadsIn ss, n ∈ spreadsIn ss := by
  cases ss with
  | nil => simp [openSpreadsIn]
  | cons s ss =>
    intro n hn
    simp only [openSpreadsIn, spreadsIn, List.mem_append] at *
    exact hn.imp (openSpreads_subset s n) (openSpreadsIn_subset ss n)
end

theorem Acyclic.guarded {frags : List Fragment} (h : Acyclic frags) : Guarded frags := by
  obtain ⟨rank, h⟩ := h
  exact ⟨rank, fun f hf n hn => h f hf n (openSpreadsIn_subset _ n hn)⟩

end Typed
end Yarql
