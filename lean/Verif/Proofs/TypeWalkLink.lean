import Verif.Proofs.TypeWalkIn

/-!
# A schema that `Parse` returned describes the program it was made from
-/

namespace Yarql
namespace TypeWalk
open GoTypes Naming Typed Resolver

variable {F V W : Type}

theorem lookup_map {K A B : Type} [DecidableEq K] (f : K → A → B) (l : List (K × A)) (k : K) :
    lookup (l.map (fun e => (e.1, f e.1 e.2))) k = (lookup l k).map (f k) := by
  induction l with
  | nil => rfl
  | cons x l ih =>
    unfold lookup at ih ⊢
    by_cases h : x.1 = k
    · subst h; simp
    · rw [List.map_cons, List.find?_cons_of_neg (by simpa using h), List.find?_cons_of_neg (by simpa using h)]
      exact ih

/-! ## What the walk has found -/

/-- The tables and the schema put together from them. -/
structure Found (prog : Program F) (d : Decl V) (schema : Schema F V) where
  q : Bytes
  m : Bytes
  inj : Option (WObj × WObj)
  s : St
  ms : List (List (BaseInput F) × List ArgField)
  i : InSt
  dirs : List (DirectiveDef F V)
  types : ∀ n e, lookup s.types n = some e → (∃ fs, IsStruct prog e.src fs) ∧ EntryOf prog s e
  interfaces : ∀ n e, lookup s.interfaces n = some e → IEntryOf prog s e
  inTypes : ∀ n e, lookup i.inTypes n = some e → (∃ fs, IsStruct prog e.src fs) ∧ InFieldsOf prog i e.src e.fields
  methods : ∀ (j : Nat) r, s.methods[j]? = some r → ∃ x, ms[j]? = some x ∧
    ParamsOf prog i (paramTypes r.sig r.isTypeMethod) x.1 x.2
  dirsOf : ∀ x ∈ dirs, ∃ e ∈ d.directives, x.name = e.name ∧ x.where_ = e.where_ ∧ x.func = e.func ∧ x.method.outNr = e.outNr ∧
      x.method.isTypeMethod = false ∧ x.method.errorOutNr = none ∧ ParamsOf prog i e.sig.ins x.method.ins x.method.inFields
  query : ∃ e, lookup s.types q = some e ∧ e.src = d.queries
  method : ∃ e, lookup s.types m = some e ∧ e.src = d.methods
  injected : ∀ o f, inj = some (o, f) → ∃ x, d.inject = some x ∧ Stands prog s x.schemaTy false o ∧
    FuncOf prog s b%"__type" x.typeSig false false f
  schemaEq : assemble prog d q m inj s ms i dirs = some schema

theorem walkRoots_good {prog : Program F} (hnc : NoClash prog) {fuel : Nat} {d : Decl V} {s s' : St} {q m : Bytes}
    {inj : Option (WObj × WObj)} (hi : Inv prog s) (h : walkRoots prog fuel d s = .ok (q, m, inj) s') :
    Post prog s s' ∧ (∃ e, lookup s'.types q = some e ∧ e.src = d.queries) ∧ (∃ e, lookup s'.types m = some e ∧ e.src = d.methods) ∧
    (∀ o f, inj = some (o, f) → ∃ x, d.inject = some x ∧ Stands prog s' x.schemaTy false o ∧
      FuncOf prog s' b%"__type" x.typeSig false false f) := by
  have hg := check_good hnc fuel
  unfold walkRoots at h
  obtain ⟨o1, s1, h1, h⟩ := bind_ok.1 h
  obtain ⟨p1, st1⟩ := hg _ _ _ _ _ hi h1
  have hx1 : ∃ n gn gp e, o1 = .objRef n gn gp ∧ lookup s1.types n = some e ∧ e.src = d.queries := by
    cases st1 with
    | struct a b c d => exact ⟨_, _, _, _, rfl, b, c⟩
    | _ => exact (fail_ok.1 h).elim
  obtain ⟨n1, gn1, gp1, e1, rfl, l1, src1⟩ := hx1
  dsimp only at h
  obtain ⟨o2, s2, h2, h⟩ := bind_ok.1 h
  obtain ⟨p2, st2⟩ := hg _ _ _ _ _ p1.inv h2
  have hx2 : ∃ n gn gp e, o2 = .objRef n gn gp ∧ lookup s2.types n = some e ∧ e.src = d.methods := by
    cases st2 with
    | struct a b c d => exact ⟨_, _, _, _, rfl, b, c⟩
    | _ => exact (fail_ok.1 h).elim
  obtain ⟨n2, gn2, gp2, e2, rfl, l2, src2⟩ := hx2
  dsimp only at h
  obtain ⟨_, _, hget, h⟩ := bind_ok.1 h
  obtain ⟨rfl, rfl⟩ := getS_ok.1 hget
  obtain ⟨e1', l1', src1'⟩ := p2.ext.types _ _ l1
  rw [l1', l2] at h; dsimp only at h
  by_cases hr : d.noEqualCheck = false ∧ e1'.pkg ++ e1'.goName = e2.pkg ++ e2.goName
  · rw [if_pos hr] at h; exact (fail_ok.1 h).elim
  rw [if_neg hr] at h
  cases hinj : d.inject with
  | none =>
    rw [hinj] at h; dsimp only at h
    obtain ⟨e, e'⟩ := pure_ok.1 h
    injection e with e3 e4; injection e4 with e4 e5
    subst e'; subst e3; subst e4; subst e5
    exact ⟨p1.trans prog p2, ⟨_, l1', src1'.trans src1⟩, ⟨_, l2, src2⟩, fun _ _ h => (by cases h)⟩
  | some x =>
    rw [hinj] at h; dsimp only at h
    obtain ⟨o3, s3, h3, h⟩ := bind_ok.1 h
    obtain ⟨p3, st3⟩ := hg _ _ _ _ _ p2.inv h3
    obtain ⟨o4, s4, h4, h⟩ := bind_ok.1 h
    obtain ⟨p4, f4⟩ := checkOuts_good hg p3.inv h4
    obtain ⟨e, e'⟩ := pure_ok.1 h
    injection e with e3 e4; injection e4 with e4 e5
    subst e'; subst e3; subst e4; subst e5
    have p34 := p3.trans prog p4
    obtain ⟨e1'', l1'', src1''⟩ := p34.ext.types _ _ l1'
    obtain ⟨e2'', l2'', src2''⟩ := p34.ext.types _ _ l2
    refine ⟨(p1.trans prog p2).trans prog p34, ⟨_, l1'', src1''.trans (src1'.trans src1)⟩, ⟨_, l2'', src2''.trans src2⟩, ?_⟩
    intro o f hof
    injection hof with hof
    injection hof with ho hf
    subst ho; subst hf
    exact ⟨x, rfl, st3.mono p4.ext, f4⟩

theorem parse_found {prog : Program F} (hd : Distinct prog) {fuel : Nat} {d : Decl V} {schema : Schema F V}
    (h : parse prog fuel d = .ok schema) : Nonempty (Found prog d schema) := by
  unfold parse at h
  cases hr : walkRoots prog fuel d ⟨[], [], 0, []⟩ with
  | err e => rw [hr] at h; cases h
  | panic => rw [hr] at h; cases h
  | oof => rw [hr] at h; cases h
  | ok a s =>
  obtain ⟨q, m, inj⟩ := a
  rw [hr] at h; dsimp only at h
  have hinv0 : Inv prog ⟨[], [], 0, []⟩ := ⟨fun n e l => (by cases l), fun n e l => (by cases l)⟩
  obtain ⟨p1, hq, hm, hi⟩ := walkRoots_good hd.noClash hinv0 hr
  cases ha : allIns prog (checkInput prog (fun n => (lookup s.types n).isSome) fuel) s.methods [] ⟨[], 0⟩ with
  | err e => rw [ha] at h; cases h
  | panic => rw [ha] at h; cases h
  | oof => rw [ha] at h; cases h
  | ok ms i =>
  rw [ha] at h; dsimp only at h
  have hg := checkInput_good (isType := fun n => (lookup s.types n).isSome) hd fuel
  obtain ⟨p2, hms⟩ := allIns_good hg s.methods [] [] ⟨[], 0⟩ ms i ⟨fun n e l => (by cases l)⟩ rfl (fun _ _ h => (by cases h)) ha
  cases hdi : dirIns prog (checkInput prog (fun n => (lookup s.types n).isSome) fuel) d.directives [] i with
  | err e => rw [hdi] at h; cases h
  | panic => rw [hdi] at h; cases h
  | oof => rw [hdi] at h; cases h
  | ok dirs i' =>
  rw [hdi] at h; dsimp only at h
  obtain ⟨p3, hdirs⟩ := dirIns_good hg d.directives [] i dirs i' p2.inv hdi
  cases has : assemble prog d q m inj s ms i' dirs with
  | none => rw [has] at h; cases h
  | some sc =>
  rw [has] at h
  injection h with h; subst h
  refine ⟨⟨q, m, inj, s, ms, i', dirs, ?_, ?_, ?_, ?_, ?_, hq, hm, hi, has⟩⟩
  · intro n e l
    refine ⟨(p1.inv.types n e l).1, ?_⟩
    rcases p1.done.types n e l with h | h
    · exact h
    · cases h
  · intro n e l
    rcases p1.done.interfaces n e l with h | h
    · exact h
    · cases h
  · intro n e l
    refine ⟨(p3.inv.types n e l).1, ?_⟩
    rcases (p2.trans _ _ p3).done n e l with h | h
    · exact h
    · cases h
  · intro j r hj
    obtain ⟨x, hx, hp⟩ := hms j r hj
    exact ⟨x, hx, paramsOf_mono p3.ext hp⟩
  · intro x hx
    rcases hdirs x hx with h | h
    · cases h
    · exact h

/-! ## Inputs -/

section
variable {prog : Program F} {env : Env F V W} {HasTy : V → Ty → Prop} {schema : RSchema F V} {i : InSt}

theorem known_of (hen : schema.enums = prog.enums) (hin : ∀ n e, lookup i.inTypes n = some e → (lookup schema.inTypes n).isSome = true)
    (hff : env.formFile.isSome = true) {t id x} (h : StandsIn prog i t id x) : Known schema env x := by
  induction h with
  | enum a b =>
    intro j hj
    injection hj with hj; subst hj
    unfold enumIndex at b
    rw [a] at b; dsimp only at b
    split at b
    · cases b
    · rw [hen]
      exact (List.findIdx?_eq_some_iff_getElem.1 b).1
  | scalar a b c => intro j hj; cases hj
  | file a b => exact hff
  | ptr a b _ ih => exact ih
  | array a _ ih => exact ih
  | slice a _ ih => exact ih
  | time a b => trivial
  | struct a b c => exact hin _ _ b

theorem shaped_of (hgo : GoLike prog env HasTy) {inTypes : List (Bytes × InStruct F)}
    (hty : ∀ n e, lookup i.inTypes n = some e → InFieldsOf prog i e.src e.fields)
    (hin : ∀ n e, lookup i.inTypes n = some e → lookup inTypes n = some ⟨e.fields, prog.zero e.src⟩) :
    ∀ k t id x, sizeOf (prog.zero t) < k → StandsIn prog i t id x → Shaped inTypes x (prog.zero t) := by
  intro k
  induction k with
  | zero => intro t id x h; exact absurd h (Nat.not_lt_zero _)
  | succ k ih =>
    intro t id x hk h
    cases h with
    | enum a b => exact .other (fun _ h => (by cases h))
    | scalar a b c => exact .other (fun _ h => (by cases h))
    | file a b => exact .other (fun _ h => (by cases h))
    | ptr a b _ => exact .other (fun _ h => (by cases h))
    | array a _ => exact .other (fun _ h => (by cases h))
    | slice a _ => exact .other (fun _ h => (by cases h))
    | time a b => exact .other (fun _ h => (by cases h))
    | @struct _ _ fs n e a b c =>
      have hz := hgo.zero t fs a.1
      rw [hz]
      have hI := hty _ _ b
      rw [c] at hI
      have key : ∀ f ∈ e.fields, ∃ gf id, fs[f.goFieldIdx]? = some gf ∧ StandsIn prog i gf.ty id f.input := by
        intro f hf
        obtain ⟨fs', hst, gf, id, h1, h2, h3, h4⟩ := hI.sound f hf
        have := hst.1.symm.trans a.1
        injection this with this; subst this
        exact ⟨gf, id, h1, h4⟩
      refine .struct (fun f => prog.zero ((fs[f.goFieldIdx]?.map GoField.ty).getD 0)) (hin _ _ b) ?_ ?_
      · intro f hf
        obtain ⟨gf, id, h1, h2⟩ := key f hf
        rw [List.getElem?_map, h1]; rfl
      · intro f hf
        obtain ⟨gf, id, h1, h2⟩ := key f hf
        rw [h1]
        refine ih gf.ty id f.input ?_ h2
        have hmem : prog.zero gf.ty ∈ fs.map (fun f => prog.zero f.ty) := List.mem_map.2 ⟨gf, List.mem_of_getElem? h1, rfl⟩
        have h3 := List.sizeOf_lt_of_mem hmem
        rw [hz] at hk
        simp only [InVal.struct.sizeOf_spec] at hk
        omega

theorem inputs_of {r : List (BaseInput F) × List ArgField} {tys : List Ty} (hp : ParamsOf prog i tys r.1 r.2)
    (hkn : ∀ {t id x}, StandsIn prog i t id x → Known schema env x)
    (hsh : ∀ {t id x}, StandsIn prog i t id x → Shaped schema.inTypes x (prog.zero t)) (hgo : GoLike prog env HasTy)
    {m : Method F} (h1 : m.ins = r.1) (h2 : m.inFields = r.2) : MethodOK schema env m := by
  refine ⟨?_, ⟨by simp [zeroInputs], ?_⟩, ?_⟩
  · intro a ha
    rw [h2] at ha
    obtain ⟨t, fs, _, _, _, gf, id, _, _, _, hst⟩ := hp.sound a ha
    exact hkn hst
  · intro a ha
    rw [h2] at ha
    obtain ⟨t, fs, ht, hc, hs, gf, id, hgf, _, _, hst⟩ := hp.sound a ha
    rcases hp.kind _ t ht with ⟨h, _⟩ | ⟨_, _, hk⟩
    · exact absurd h hc
    · refine ⟨fs.map (fun f => prog.zero f.ty), prog.zero gf.ty, ?_, ?_, hsh hst⟩
      · simp only [zeroInputs, h1, List.getElem?_map, hk, Option.map_some, hgo.zero t fs hs]
      · rw [List.getElem?_map, hgf]; rfl
  · intro a ha b hb e1 e2
    rw [h2] at ha hb
    obtain ⟨t, fs, ht, _, hs, gf, id, hgf, _, hn, _⟩ := hp.sound a ha
    obtain ⟨t', fs', ht', _, hs', gf', id', hgf', _, hn', _⟩ := hp.sound b hb
    rw [e1, ht'] at ht; injection ht with ht; subst ht
    rw [hs] at hs'; injection hs' with hs'; subst hs'
    rw [e2, hgf'] at hgf; injection hgf with hgf; subst hgf
    rw [hn] at hn'; injection hn' with hn' _
    rw [hp.unique a ha b hb hn']

end

/-! ## Values -/

section
variable {prog : Program F} {env : Env F V W} {HasTy : V → Ty → Prop}

/-- a value of the object `x`: of the Go type it stands for, or a function of its signature -/
def ValueOf (prog : Program F) (env : Env F V W) (HasTy : V → Ty → Prop) (s : St) (x : WObj) (v : V) : Prop :=
  (∃ t id, Stands prog s t id x ∧ HasTy v t) ∨
  (∃ nm sig tag, FuncOf prog s nm sig false tag x ∧ IsFunc env HasTy sig v) ∨
  (∃ nm sig u t fs j, FuncOf prog s nm sig true false x ∧ HasTy u t ∧ IsStruct prog t fs ∧ (prog.get t).methods[j]? = some (nm, sig) ∧
    v = env.method u j)

theorem finObj_method {ms : List (List (BaseInput F) × List ArgField)} {x : WObj} {m : Method F} {out : Obj F}
    (h : finObj ms x = .method m out) : ∃ idx isT outNr errNr o r, x = .method idx isT outNr errNr o ∧ ms[idx]? = some r ∧
      m = ⟨isT, r.1, r.2, outNr, errNr⟩ ∧ out = finObj ms o := by
  cases x with
  | method idx isT outNr errNr o =>
    simp only [finObj] at h
    cases hm : ms[idx]? with
    | none => rw [hm] at h; cases h
    | some r =>
      rw [hm] at h
      injection h with h1 h2
      exact ⟨idx, isT, outNr, errNr, o, r, rfl, hm, h1.symm, h2.symm⟩
  | _ => simp [finObj] at h

theorem stands_not_method {s : St} {t : Ty} {id : Bool} {idx outNr : Nat} {isT : Bool} {errNr : Option Nat} {o : WObj} :
    ¬ Stands prog s t id (.method idx isT outNr errNr o) := by
  intro h; cases h

theorem stands_objRef {s : St} {t : Ty} {id : Bool} {n gn gp : Bytes} (h : Stands prog s t id (.objRef n gn gp)) :
    gn = (prog.get t).name ∧ gp = (prog.get t).pkg := by
  generalize he : WObj.objRef n gn gp = o at h
  cases h with
  | struct a b c d => injection he with _ h1 h2; exact ⟨h1, h2⟩
  | _ => cases he

/-- the schema type `o` of a value -/
def TypeOf (prog : Program F) (env : Env F V W) (HasTy : V → Ty → Prop) (s : St) (ms : List (List (BaseInput F) × List ArgField))
    (o : Obj F) (v : V) : Prop := ∃ x, finObj ms x = o ∧ ValueOf prog env HasTy s x v

theorem TypeOf.stands {s : St} {ms : List (List (BaseInput F) × List ArgField)} {o : Obj F} {v : V}
    (hm : ∀ (j : Nat) r, s.methods[j]? = some r → ∃ x, ms[j]? = some x)
    (h : TypeOf prog env HasTy s ms o v) (hno : ∀ m out, o ≠ .method m out) :
    ∃ x t id, finObj ms x = o ∧ Stands prog s t id x ∧ HasTy v t := by
  have no : ∀ nm sig b tag x, finObj ms x = o → FuncOf prog s nm sig b tag x → False := by
    intro nm sig b tag x hx ⟨idx, outNr, en, out, ty, id, h1, h2, _⟩
    obtain ⟨r, hr⟩ := hm _ _ h2
    subst h1
    simp only [finObj, hr] at hx
    exact hno _ _ hx.symm
  obtain ⟨x, hx, ⟨t, id, hs, ht⟩ | ⟨nm, sig, tag, hf, _⟩ | ⟨nm, sig, _, _, _, _, hf, _⟩⟩ := h
  · exact ⟨x, t, id, hx, hs, ht⟩
  · exact (no _ _ _ _ _ hx hf).elim
  · exact (no _ _ _ _ _ hx hf).elim

/-- the fields of an entry -/
theorem hasFields_of {s : St} {ms : List (List (BaseInput F) × List ArgField)} (hgo : GoLike prog env HasTy)
    (hm : ∀ (j : Nat) r, s.methods[j]? = some r → ∃ x, ms[j]? = some x)
    {e : Entry} (he : EntryOf prog s e) {fs : List GoField} (hst : IsStruct prog e.src fs) {v : V} (hv : HasTy v e.src)
    {f : WField} (hf : f ∈ e.fields) :
    (∀ m out, finObj ms f.obj = .method m out → m.isTypeMethod = true →
      TypeOf prog env HasTy s ms (finObj ms f.obj) (env.method v f.structFieldIdx)) ∧
    ((∀ m out, finObj ms f.obj = .method m out → m.isTypeMethod = false) →
        ∀ w, ∃ fs x, env.view w v = .struct fs ∧ fs[f.structFieldIdx]? = some x ∧ TypeOf prog env HasTy s ms (finObj ms f.obj) x) := by
  have hF := (he.1.sound f hf).2
  constructor
  · intro m out ho hT
    obtain ⟨idx, isT, outNr, errNr, o, r, hx, hr, hm', _⟩ := finObj_method ho
    subst hm'
    refine ⟨f.obj, rfl, ?_⟩
    cases hF with
    | plain a b c d e' g => rw [hx] at g; exact (stands_not_method g).elim
    | func a b c d e' g =>
      obtain ⟨idx', _, _, _, _, _, h1, _⟩ := g
      rw [hx] at h1; injection h1 with _ h1
      rw [h1] at hT; cases hT
    | method a b c => exact .inr (.inr ⟨_, _, v, e.src, fs, _, c, hv, hst, a, rfl⟩)
  · intro hno w
    obtain ⟨xs, hv1, hv2⟩ := hgo.struct v e.src fs hv hst w
    cases hF with
    | plain a b c d e' g =>
      have := a.1.symm.trans hst.1
      injection this with this; subst this
      obtain ⟨x, hx, hT⟩ := hv2 _ _ b
      exact ⟨xs, x, hv1, hx, f.obj, rfl, .inl ⟨_, _, g, hT⟩⟩
    | func a b c d e' g =>
      have := a.1.symm.trans hst.1
      injection this with this; subst this
      obtain ⟨x, hx, hT⟩ := hv2 _ _ b
      exact ⟨xs, x, hv1, hx, f.obj, rfl, .inr (.inl ⟨_, _, _, g, hgo.func _ _ _ hT e'⟩)⟩
    | method a b c =>
      obtain ⟨idx, outNr, en, out, ty, id, h1, h2, _⟩ := c
      obtain ⟨r, hr⟩ := hm _ _ h2
      have := hno ⟨true, r.1, r.2, outNr, en⟩ (finObj ms out) (by rw [h1]; simp only [finObj, hr])
      cases this

theorem isFunc_call {s : St} {nm sig b x} {m : Method F} {out : Obj F} {ms : List (List (BaseInput F) × List ArgField)}
    (hf : FuncOf prog s nm sig b tag x) (ho : finObj ms x = .method m out) {outs : List V} (hlen : outs.length = sig.outs.length)
    (hty : ∀ (i : Nat) (u : Ty), sig.outs[i]? = some u → ∃ x, outs[i]? = some x ∧ HasTy x u) :
    ∃ x, outs[m.outNr]? = some x ∧ TypeOf prog env HasTy s ms out x ∧ ∀ nr, m.errorOutNr = some nr → nr < outs.length := by
  obtain ⟨idx, isT, outNr, errNr, o, r, hx, hr, hm', hout⟩ := finObj_method ho
  obtain ⟨idx', outNr', en', out', ty, id, h1, h2, h3, h4, _, _, h5, _⟩ := hf
  rw [hx] at h1
  injection h1 with e1 e2 e3 e4 e5
  subst e1; subst e2; subst e3; subst e4; subst e5; subst hm'; subst hout
  obtain ⟨y, hy, hT⟩ := hty _ _ h3
  refine ⟨y, hy, ⟨o, rfl, .inl ⟨_, _, h4, hT⟩⟩, ?_⟩
  intro nr hnr
  obtain ⟨u, hu, _⟩ := h5 nr hnr
  rw [hlen]
  exact (List.getElem?_eq_some_iff.1 hu).1

end

/-- The values the program hands to `Parse` have the types it declares. -/
structure RootsTyped (env : Env F V W) (HasTy : V → Ty → Prop) (d : Decl V) : Prop where
  query : HasTy d.queryValue d.queries
  mutation : HasTy d.methodValue d.methods
  schema : ∀ x, d.inject = some x → HasTy x.schemaValue x.schemaTy
  type : ∀ x, d.inject = some x → IsFunc env HasTy x.typeSig x.typeValue
  directives : ∀ e ∈ d.directives, ∀ w p inputs, inputs.length = e.sig.ins.length →
    ∃ w' outs, env.call w e.func p inputs = some (w', outs) ∧ outs ≠ []

theorem finalType_cases (d : Decl V) (q : Bytes) (inj : Option (WObj × WObj)) (ms : List (List (BaseInput F) × List ArgField)) (n : Bytes)
    (e : Entry) : finalType d q inj ms n e = finType ms n e ∨ ∃ o f x, inj = some (o, f) ∧ d.inject = some x ∧
      finalType d q inj ms n e =
        addHidden (addHidden (finType ms n e) b%"__schema" x.schemaValue (finObj ms o)) b%"__type" x.typeValue (finObj ms f) := by
  unfold finalType
  by_cases hq : n = q
  · rw [if_pos hq]
    cases inj with
    | none => exact .inl rfl
    | some p =>
      obtain ⟨o, f⟩ := p
      cases hd : d.inject with
      | none => exact .inl rfl
      | some x => exact .inr ⟨o, f, x, rfl, rfl, rfl⟩
  · rw [if_neg hq]; exact .inl rfl

theorem found_wellTyped {prog : Program F} {env : Env F V W} {HasTy : V → Ty → Prop} {d : Decl V} {schema : Schema F V}
    (hid : Identified prog) (hek : EnumKinds prog) (hgo : GoLike prog env HasTy) (hroots : RootsTyped env HasTy d)
    (hff : env.formFile.isSome = true) (fd : Found prog d schema) :
    WellTyped (viewSchema schema) env (TypeOf prog env HasTy fd.s fd.ms) := by
  obtain ⟨q, m, inj, s, ms, i, dirs, htypes, hifaces, hin, hmeth, hdirs, ⟨eq, lq, sq⟩, ⟨em, lm, sm⟩, hinj, heq⟩ := fd
  dsimp only
  unfold assemble at heq
  rw [lq, lm] at heq
  dsimp only at heq
  injection heq with heq
  have hen : (viewSchema schema).enums = prog.enums := by rw [← heq]; rfl
  have hlin : ∀ n, lookup (viewSchema schema).inTypes n = (lookup i.inTypes n).map (fun e => ⟨e.fields, prog.zero e.src⟩) := by
    intro n
    rw [← heq]
    exact lookup_map (fun _ e => (⟨e.fields, prog.zero e.src⟩ : InStruct F)) i.inTypes n
  have hkn : ∀ {t id x}, StandsIn prog i t id x → Known (viewSchema schema) env x := fun h =>
    known_of hen (fun n e l => (by rw [hlin, l]; rfl)) hff h
  have hsh : ∀ {t id x}, StandsIn prog i t id x → Shaped (viewSchema schema).inTypes x (prog.zero t) := fun h =>
    shaped_of hgo (fun n e l => (hin n e l).2) (fun n e l => (by rw [hlin, l]; rfl)) _ _ _ _ (Nat.lt_succ_self _) h
  have hms : ∀ (j : Nat) r, s.methods[j]? = some r → ∃ x, ms[j]? = some x := fun j r h => by
    obtain ⟨x, hx, _⟩ := hmeth j r h
    exact ⟨x, hx⟩
  -- fields of a type, hidden ones included
  have hfields : ∀ n e, lookup s.types n = some e → ∀ v, HasTy v e.src → ∀ t : TypeDef F V,
      (t = finType ms n e ∨ ∃ o f x, inj = some (o, f) ∧ d.inject = some x ∧
        t = addHidden (addHidden (finType ms n e) b%"__schema" x.schemaValue (finObj ms o)) b%"__type" x.typeValue (finObj ms f)) →
      HasFields env (TypeOf prog env HasTy s ms) (viewType t) v := by
    intro n e l v hv t ht
    obtain ⟨⟨fs, hst⟩, he⟩ := htypes n e l
    have plain : ∀ g ∈ e.fields.map (finField (V := V) ms), (∀ x, (viewField g).customObjValue = some x → TypeOf prog env HasTy s ms (viewField g).obj x) ∧
        ((viewField g).customObjValue = none →
          (∀ m out, (viewField g).obj = .method m out → m.isTypeMethod = true →
            TypeOf prog env HasTy s ms (viewField g).obj (env.method v (viewField g).structFieldIdx)) ∧
          ((∀ m out, (viewField g).obj = .method m out → m.isTypeMethod = false) →
            ∀ w, ∃ fs x, env.view w v = .struct fs ∧ fs[(viewField g).structFieldIdx]? = some x ∧
              TypeOf prog env HasTy s ms (viewField g).obj x)) := by
      intro g hg
      obtain ⟨f, hf, rfl⟩ := List.mem_map.1 hg
      exact ⟨fun x hx => (by cases hx), fun _ => hasFields_of hgo hms he hst hv hf⟩
    intro f hf
    obtain ⟨g, hg, rfl⟩ := List.mem_map.1 hf
    rcases ht with rfl | ⟨o, fo, x, hi, hx, rfl⟩
    · exact plain g hg
    · obtain ⟨x', hx', hso, hfo⟩ := hinj o fo hi
      rw [hx] at hx'; injection hx' with hx'; subst hx'
      rcases List.mem_cons.1 hg with rfl | hg
      · refine ⟨?_, fun h => (by cases h)⟩
        intro y hy
        injection hy with hy; subst hy
        exact ⟨fo, rfl, .inr (.inl ⟨_, _, _, hfo, hroots.type x hx⟩)⟩
      · have hg := (List.mem_filter.1 hg).1
        rcases List.mem_cons.1 hg with rfl | hg
        · refine ⟨?_, fun h => (by cases h)⟩
          intro y hy
          injection hy with hy; subst hy
          exact ⟨o, rfl, .inl ⟨_, _, hso, hroots.schema x hx⟩⟩
        · exact plain g (List.mem_filter.1 hg).1
  refine ⟨?_, ?_, ?_, ?_, ?_, ?_, ?_, ?_, ?_, ?_, ?_⟩
  · -- inTypes
    intro n dd l
    rw [hlin] at l
    cases hl : lookup i.inTypes n with
    | none => rw [hl] at l; cases l
    | some e =>
    rw [hl] at l
    simp only [Option.map_some, Option.some.injEq] at l
    subst l
    obtain ⟨⟨fs, hst⟩, hI⟩ := hin n e hl
    refine ⟨?_, hsh (id := false) (.struct hst hl rfl), ?_⟩
    · intro f hf
      obtain ⟨_, _, gf, id, _, _, _, h⟩ := hI.sound f hf
      exact hkn h
    · intro f hf g hg hfg
      obtain ⟨fs1, st1, gf1, id1, a1, _, c1, _⟩ := hI.sound f hf
      obtain ⟨fs2, st2, gf2, id2, a2, _, c2, _⟩ := hI.sound g hg
      have := st1.1.symm.trans st2.1
      injection this with this; subst this
      rw [hfg, a2] at a1; injection a1 with a1; subst a1
      rw [c1] at c2; injection c2 with c2 _
      rw [hI.unique f hf g hg c2]
  · -- array
    intro o v h w
    obtain ⟨x, t, id, hx, hs, ht⟩ := h.stands hms (fun _ _ h => (by cases h))
    cases hs with
    | array a b c =>
      simp only [finObj, Obj.array.injEq] at hx
      obtain ⟨vs, h1, h2⟩ := hgo.array v _ _ _ ht b w
      exact ⟨vs, h1, fun xs hxs y hy => ⟨_, hx, .inl ⟨_, _, c, h2 xs hxs y hy⟩⟩⟩
    | slice a b c =>
      simp only [finObj, Obj.array.injEq] at hx
      obtain ⟨vs, h1, h2⟩ := hgo.slice v _ _ ht b w
      exact ⟨vs, h1, fun xs hxs y hy => ⟨_, hx, .inl ⟨_, _, c, h2 xs hxs y hy⟩⟩⟩
    | _ => simp [finObj] at hx
  · -- ptr
    intro o v h w
    obtain ⟨x, t, id, hx, hs, ht⟩ := h.stands hms (fun _ _ h => (by cases h))
    cases hs with
    | ptr a b c =>
      simp only [finObj, Obj.ptr.injEq] at hx
      obtain ⟨vs, h1, h2⟩ := hgo.ptr v _ _ ht b w
      exact ⟨vs, h1, fun y hy => ⟨_, hx, .inl ⟨_, _, c, h2 y hy⟩⟩⟩
    | _ => simp [finObj] at hx
  · -- object
    intro n v h t lt
    obtain ⟨x, u, id, hx, hs, ht⟩ := h.stands hms (fun _ _ h => (by cases h))
    cases hs with
    | struct a b c dd =>
      simp only [finObj, Obj.objRef.injEq] at hx
      subst hx
      rename_i fs n e
      have hl : lookup (viewSchema schema).types n = some (viewType (finalType d q inj ms n e)) := by
        rw [← heq]
        refine (lookup_map (fun _ => viewType) (s.types.map (fun e => (e.1, finalType d q inj ms e.1 e.2))) n).trans ?_
        rw [lookup_map (finalType d q inj ms), b]; rfl
      rw [hl] at lt
      injection lt with lt
      subst lt
      exact hfields n e b v (c ▸ ht) _ (finalType_cases ..)
    | _ => simp [finObj] at hx
  · -- data
    intro id k v h w
    obtain ⟨x, t, id', hx, hs, ht⟩ := h.stands hms (fun _ _ h => (by cases h))
    cases hs with
    | data a b c dd =>
      simp only [finObj, Obj.data.injEq] at hx
      obtain ⟨_, rfl⟩ := hx
      exact hgo.scalar v _ _ ht b w
    | _ => simp [finObj] at hx
  · -- enum
    intro j v h
    obtain ⟨x, t, id', hx, hs, ht⟩ := h.stands hms (fun _ _ h => (by cases h))
    cases hs with
    | enum a b c =>
      simp only [finObj, Obj.enum.injEq] at hx
      subst hx
      obtain ⟨e, he, hk⟩ := hek _ _ _ b c
      refine ⟨e, by rw [hen]; exact he, fun w => ?_⟩
      rw [hk]
      exact hgo.scalar v _ _ ht b w
    | _ => simp [finObj] at hx
  · -- method
    rintro mm out v ⟨x, hx, hv⟩
    have hok : ∀ nm sig b tag, FuncOf prog s nm sig b tag x → mm.isTypeMethod = b ∧ MethodOK (viewSchema schema) env mm ∧
        ∀ inputs, InputsOK (viewSchema schema) mm inputs → inputs.length = (paramTypes sig b).length := by
      intro nm sig b tag hf
      obtain ⟨idx, isT, outNr, errNr, o, r, hxe, hr, hm', hout⟩ := finObj_method hx
      obtain ⟨idx', outNr', en', out', ty, id, h1, h2, h3⟩ := hf
      rw [hxe] at h1
      injection h1 with e1 e2 e3 e4 e5
      subst e1; subst e2
      obtain ⟨r', hr', hp⟩ := hmeth _ _ h2
      rw [hr] at hr'; injection hr' with hr'; subst hr'
      subst hm'
      refine ⟨rfl, inputs_of hp hkn hsh hgo rfl rfl, ?_⟩
      intro inputs hi
      rw [hi.1]; exact hp.length
    rcases hv with ⟨t, id, hs, _⟩ | ⟨nm, sig, tag, hf, hfn⟩ | ⟨nm, sig, u, t, fs, j, hf, hu, hst, hj, rfl⟩
    · obtain ⟨_, _, _, _, _, _, hxe, _⟩ := finObj_method hx
      rw [hxe] at hs
      exact (stands_not_method hs).elim
    · obtain ⟨hb, hmo, hlen⟩ := hok _ _ _ _ hf
      refine ⟨hmo, .inr (fun w => (hfn w).1), ?_⟩
      intro w p inputs hi hn
      have hn : env.view w v = .func false := by
        rcases hn with h | h
        · rw [hb] at h; cases h
        · exact h
      obtain ⟨w', outs, h1, h2, h3⟩ := (hfn w).2 hn p inputs (hlen inputs hi)
      obtain ⟨y, hy⟩ := isFunc_call (env := env) hf hx h2 h3
      exact ⟨w', outs, y, h1, hy⟩
    · obtain ⟨hb, hmo, hlen⟩ := hok _ _ _ _ hf
      refine ⟨hmo, .inl hb, ?_⟩
      intro w p inputs hi _
      obtain ⟨w', outs, h1, h2, h3⟩ := hgo.method u t fs j nm sig hu hst hj w p inputs (hlen inputs hi)
      obtain ⟨y, hy⟩ := isFunc_call (env := env) hf hx h2 h3
      exact ⟨w', outs, y, h1, hy⟩
  · -- interface
    intro n v h impls li w
    obtain ⟨x, t, id', hx, hs, ht⟩ := h.stands hms (fun _ _ h => (by cases h))
    cases hs with
    | iface a b c l hsrc =>
      simp only [finObj, Obj.interfaceRef.injEq] at hx
      subst hx
      rename_i e
      obtain ⟨y, h1, h2⟩ := hgo.iface v _ ht a w
      refine ⟨y, h1, ?_⟩
      intro gn gp z hy k hk e1 e2
      have hl : lookup (viewSchema schema).interfaces (qlName prog (prog.get t).name) = some e.impls := by
        rw [← heq]
        refine (lookup_map (fun _ (e : IfaceDef F V) => e.implementations) (s.interfaces.map (fun e => (e.1, finIface ms e.1 e.2))) _).trans ?_
        rw [lookup_map (finIface ms), l]; rfl
      rw [hl] at li
      injection li with li
      subst li
      obtain ⟨_, us, _, hi, _⟩ := hifaces _ _ l
      obtain ⟨u, hu, ⟨hun, _⟩, hst⟩ := hi k hk
      obtain ⟨u', hT, hn', hp'⟩ := h2 gn gp z hy
      obtain ⟨n1, n2⟩ := stands_objRef hst
      have : u = u' := hid u u' hun (n1.symm.trans (e1.trans hn'.symm)) (n2.symm.trans (e2.trans hp'.symm))
      subst this
      exact ⟨_, rfl, .inl ⟨u, false, hst, hT⟩⟩
    | _ => simp [finObj] at hx
  · -- directive
    intro loc table hl x hx
    have hxd : x ∈ dirs := by
      rw [← heq] at hl
      simp only [viewSchema, dirTables] at hl
      unfold lookup at hl
      rw [Option.map_eq_some_iff] at hl
      obtain ⟨p, hp, rfl⟩ := hl
      obtain ⟨l, _, rfl⟩ := List.mem_map.1 (List.mem_of_find?_eq_some hp)
      exact (List.mem_filter.1 hx).1
    obtain ⟨e, he, _, _, hfn, _, _, _, hp⟩ := hdirs x hxd
    refine ⟨inputs_of (r := (x.method.ins, x.method.inFields)) hp hkn hsh hgo rfl rfl, ?_⟩
    intro w p inputs hi
    rw [hfn]
    exact hroots.directives e he w p inputs (by rw [hi.1]; exact hp.length)
  · -- query
    have : (viewSchema schema).rootQuery = viewType (finalType d q inj ms q eq) ∧ (viewSchema schema).rootQueryValue = d.queryValue := by
      rw [← heq]; exact ⟨rfl, rfl⟩
    rw [this.1, this.2]
    exact hfields q eq lq _ (sq ▸ hroots.query) _ (finalType_cases ..)
  · -- mutation
    have : (viewSchema schema).rootMethod = viewType (finalType d q inj ms m em) ∧ (viewSchema schema).rootMethodValue = d.methodValue := by
      rw [← heq]; exact ⟨rfl, rfl⟩
    rw [this.1, this.2]
    exact hfields m em lm _ (sm ▸ hroots.mutation) _ (finalType_cases ..)

end TypeWalk
end Yarql
