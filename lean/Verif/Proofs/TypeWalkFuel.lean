import Verif.Proofs.TypeWalkGen

/-!
# More fuel does not change the outcome of a walk that returned
-/

namespace Yarql
namespace TypeWalk
open GoTypes Naming

variable {F V W : Type}

/-- `m'` does what `m` does wherever `m` returns -/
structure Le {S α : Type} (m m' : M S α) : Prop where
  eq : ∀ s, m s ≠ .oof → m' s = m s

theorem Le.refl {S α : Type} (m : M S α) : Le m m := ⟨fun _ _ => rfl⟩

theorem Le.bind {S α β : Type} {m m' : M S α} {f f' : α → M S β} (h : Le m m') (hf : ∀ a, Le (f a) (f' a)) : Le (m >>= f) (m' >>= f') := by
  refine ⟨fun s hs => ?_⟩
  change M.bind m f s ≠ .oof at hs
  change M.bind m' f' s = M.bind m f s
  unfold M.bind at hs ⊢
  cases hm : m s with
  | oof => rw [hm] at hs; exact absurd rfl hs
  | ok a s' =>
    rw [hm] at hs
    rw [h.eq s (by rw [hm]; simp), hm]
    exact (hf a).eq s' hs
  | err e => rw [h.eq s (by rw [hm]; simp), hm]
  | panic => rw [h.eq s (by rw [hm]; simp), hm]

theorem Le.oof {S α : Type} (m : M S α) : Le oofW m := ⟨fun _ h => absurd rfl h⟩

section
variable {prog : Program F}

theorem checkOuts_le {chk chk' : Ty → Bool → M St WObj} (h : ∀ t id, Le (chk t id) (chk' t id)) (nm sig b id) :
    Le (checkOuts prog chk nm sig b id) (checkOuts prog chk' nm sig b id) := by
  unfold checkOuts
  by_cases h1 : sig.variadic = true
  · rw [if_pos h1, if_pos h1]; exact .refl _
  rw [if_neg h1, if_neg h1]
  by_cases h2 : sig.outs = []
  · rw [if_pos h2, if_pos h2]; exact .refl _
  rw [if_neg h2, if_neg h2]
  cases scanOuts prog 0 sig.outs ⟨none, none, id⟩ with
  | error e => exact .refl _
  | ok o =>
    dsimp only
    cases o.outNr with
    | none => exact .refl _
    | some nr =>
      dsimp only
      cases sig.outs[nr]? with
      | none => exact .refl _
      | some t => exact .bind (h _ _) (fun a => .refl _)

theorem walkMethods_le {chk chk' : Ty → Bool → M St WObj} (h : ∀ t id, Le (chk t id) (chk' t id)) : ∀ ms i acc,
    Le (walkMethods prog chk i ms acc) (walkMethods prog chk' i ms acc) := by
  intro ms
  induction ms with
  | nil => intro i acc; exact .refl _
  | cons x ms ih =>
    intro i acc
    obtain ⟨nm, sig⟩ := x
    simp only [walkMethods]
    cases methodName nm with
    | panic => exact .refl _
    | ignored => exact ih _ _
    | exposed ql => exact .bind (checkOuts_le h ..) (fun a => ih _ _)

theorem walkFields_le {chk chk' : Ty → Bool → M St WObj} (h : ∀ t id, Le (chk t id) (chk' t id)) : ∀ fs i acc,
    Le (walkFields prog chk i fs acc) (walkFields prog chk' i fs acc) := by
  intro fs
  induction fs with
  | nil => intro i acc; exact .refl _
  | cons f fs ih =>
    intro i acc
    simp only [walkFields]
    by_cases he : f.embedded = true
    · rw [if_pos he, if_pos he]; exact ih _ _
    rw [if_neg he, if_neg he]
    cases fieldName f.name f.tag with
    | err => exact .refl _
    | ignored => exact ih _ _
    | named ql id =>
      refine .bind ?_ (fun a => ih _ _)
      unfold checkField
      cases (prog.get f.ty).shape <;> first | exact checkOuts_le h .. | exact h _ _

theorem walkStructImpls_le {chk chk' : Ty → Bool → M St WObj} (h : ∀ t id, Le (chk t id) (chk' t id)) : ∀ ts acc,
    Le (walkStructImpls chk ts acc) (walkStructImpls chk' ts acc) := by
  intro ts
  induction ts with
  | nil => intro acc; exact .refl _
  | cons t ts ih =>
    intro acc
    simp only [walkStructImpls]
    refine .bind (h _ _) (fun a => ?_)
    cases a <;> exact ih _

theorem newStruct_le {chk chk' : Ty → Bool → M St WObj} (h : ∀ t id, Le (chk t id) (chk' t id)) (t n fields impls) :
    Le (newStruct prog chk t n fields impls) (newStruct prog chk' t n fields impls) := by
  unfold newStruct
  exact .bind (.refl _) (fun a => .bind (.refl _) (fun b => .bind (walkFields_le h ..) (fun c => .bind (walkMethods_le h ..) (fun d => .refl _))))

theorem checkStruct_le {chk chk' : Ty → Bool → M St WObj} (h : ∀ t id, Le (chk t id) (chk' t id)) (t fields id) :
    Le (checkStruct prog chk t fields id) (checkStruct prog chk' t fields id) := by
  unfold checkStruct
  dsimp only
  by_cases h1 : id = true
  · rw [if_pos h1, if_pos h1]; exact .refl _
  rw [if_neg h1, if_neg h1]
  by_cases h2 : (prog.get t).name = []
  · rw [if_pos h2, if_pos h2]
    exact .bind (.refl _) (fun a => .bind (.refl _) (fun b => newStruct_le h ..))
  rw [if_neg h2, if_neg h2]
  refine .bind (.refl _) (fun a => ?_)
  cases lookup a.types (qlName prog (prog.get t).name) with
  | some v => exact .refl _
  | none => exact .bind (walkStructImpls_le h ..) (fun b => newStruct_le h ..)

theorem walkIfaceImpls_le {chk chk' : Ty → Bool → M St WObj} (h : ∀ t id, Le (chk t id) (chk' t id)) (t) : ∀ us acc,
    Le (walkIfaceImpls prog chk t us acc) (walkIfaceImpls prog chk' t us acc) := by
  intro us
  induction us with
  | nil => intro acc; exact .refl _
  | cons u us ih =>
    intro acc
    simp only [walkIfaceImpls]
    by_cases h1 : isStruct (prog.get u) = false
    · rw [if_pos h1, if_pos h1]; exact .refl _
    rw [if_neg h1, if_neg h1]
    by_cases h2 : (prog.get u).name = []
    · rw [if_pos h2, if_pos h2]; exact .refl _
    rw [if_neg h2, if_neg h2]
    by_cases h3 : prog.implements u t = false
    · rw [if_pos h3, if_pos h3]; exact .refl _
    rw [if_neg h3, if_neg h3]
    refine .bind (h _ _) (fun a => ?_)
    cases a <;> exact ih _

theorem checkIface_le {chk chk' : Ty → Bool → M St WObj} (h : ∀ t id, Le (chk t id) (chk' t id)) (t id) :
    Le (checkIface prog chk t id) (checkIface prog chk' t id) := by
  unfold checkIface
  dsimp only
  by_cases h1 : id = true
  · rw [if_pos h1, if_pos h1]; exact .refl _
  rw [if_neg h1, if_neg h1]
  by_cases h2 : (prog.get t).name = []
  · rw [if_pos h2, if_pos h2]; exact .refl _
  rw [if_neg h2, if_neg h2]
  refine .bind (.refl _) (fun a => ?_)
  cases lookup a.interfaces (qlName prog (prog.get t).name) with
  | some v => exact .refl _
  | none =>
    refine .bind (.refl _) (fun b => ?_)
    cases prog.implMap (prog.get t).name with
    | none => exact .refl _
    | some us => exact .bind (walkIfaceImpls_le h ..) (fun c => .bind (walkMethods_le h ..) (fun d => .refl _))

theorem check_le : ∀ fuel t id, Le (check prog fuel t id) (check prog (fuel + 1) t id) := by
  intro fuel
  induction fuel with
  | zero => intro t id; exact .oof _
  | succ n ih =>
    intro t id
    change Le (checkBody prog (check prog n) t id) (checkBody prog (check prog (n + 1)) t id)
    unfold checkBody
    by_cases h1 : isTime (prog.get t) = true
    · rw [if_pos h1, if_pos h1]; exact .refl _
    rw [if_neg h1, if_neg h1]
    cases (prog.get t).shape with
    | struct fields => exact checkStruct_le ih ..
    | array n e => exact .bind (ih _ _) (fun a => .refl _)
    | slice e => exact .bind (ih _ _) (fun a => .refl _)
    | ptr e => exact .bind (ih _ _) (fun a => .refl _)
    | iface => exact checkIface_le ih ..
    | _ => exact .refl _

theorem walkRoots_le (fuel : Nat) (d : Decl V) : Le (walkRoots prog fuel d) (walkRoots prog (fuel + 1) d) := by
  unfold walkRoots
  refine .bind (check_le _ _ _) (fun a => ?_)
  cases a with
  | objRef n1 g1 p1 =>
    refine .bind (check_le _ _ _) (fun a => ?_)
    cases a with
    | objRef n2 g2 p2 =>
      refine .bind (.refl _) (fun s => ?_)
      cases lookup s.types n1 with
      | none => exact .refl _
      | some e1 =>
      cases lookup s.types n2 with
      | none => exact .refl _
      | some e2 =>
      dsimp only
      by_cases hr : d.noEqualCheck = false ∧ e1.pkg ++ e1.goName = e2.pkg ++ e2.goName
      · rw [if_pos hr, if_pos hr]; exact .refl _
      rw [if_neg hr, if_neg hr]
      cases d.inject with
      | none => exact .refl _
      | some x => exact .bind (check_le _ _ _) (fun a => .bind (checkOuts_le (check_le fuel) ..) (fun b => .refl _))
    | _ => exact .refl _
  | _ => exact .refl _

theorem walkInFields_le {chk chk' : Ty → Bool → M InSt Input} (h : ∀ t id, Le (chk t id) (chk' t id)) : ∀ fs i acc,
    Le (walkInFields chk i fs acc) (walkInFields chk' i fs acc) := by
  intro fs
  induction fs with
  | nil => intro i acc; exact .refl _
  | cons f fs ih =>
    intro i acc
    simp only [walkInFields]
    by_cases he : f.embedded = true
    · rw [if_pos he, if_pos he]; exact ih _ _
    rw [if_neg he, if_neg he]
    cases fieldName f.name f.tag with
    | err => exact .refl _
    | ignored => exact ih _ _
    | named ql id => exact .bind (h _ _) (fun a => ih _ _)

variable {isType : Bytes → Bool}

theorem checkInStruct_le {chk chk' : Ty → Bool → M InSt Input} (h : ∀ t id, Le (chk t id) (chk' t id)) (t fields) :
    Le (checkInStruct prog isType chk t fields) (checkInStruct prog isType chk' t fields) := by
  unfold checkInStruct
  by_cases h1 : isTime (prog.get t) = true
  · rw [if_pos h1, if_pos h1]; exact .refl _
  rw [if_neg h1, if_neg h1]
  refine .bind (.refl _) (fun a => ?_)
  have step : ∀ (n : Bytes) (s : InSt), Le
      (match lookup s.inTypes n with
        | some _ => (return Input.struct n : M InSt Input)
        | none => do
          setS { s with inTypes := mapSet s.inTypes n ⟨t, []⟩ }
          let fs ← walkInFields chk 0 fields []
          let s ← getS
          setS { s with inTypes := mapSet s.inTypes n ⟨t, fs⟩ }
          return .struct n)
      (match lookup s.inTypes n with
        | some _ => (return Input.struct n : M InSt Input)
        | none => do
          setS { s with inTypes := mapSet s.inTypes n ⟨t, []⟩ }
          let fs ← walkInFields chk' 0 fields []
          let s ← getS
          setS { s with inTypes := mapSet s.inTypes n ⟨t, fs⟩ }
          return .struct n) := by
    intro n s
    cases lookup s.inTypes n with
    | some v => exact .refl _
    | none => exact .bind (.refl _) (fun b => .bind (walkInFields_le h ..) (fun c => .refl _))
  by_cases h2 : (prog.get t).name = []
  · simp only [if_pos h2]
    exact .bind (.refl _) (fun b => .bind (.refl _) (fun s => step _ s))
  · simp only [if_neg h2]
    exact .bind (.refl _) (fun s => step _ s)

theorem checkInput_le : ∀ fuel t id, Le (checkInput prog isType fuel t id) (checkInput prog isType (fuel + 1) t id) := by
  intro fuel
  induction fuel with
  | zero => intro t id; exact .oof _
  | succ n ih =>
    intro t id
    change Le (checkInputBody prog isType (checkInput prog isType n) t id) (checkInputBody prog isType (checkInput prog isType (n + 1)) t id)
    unfold checkInputBody
    cases (prog.get t).shape with
    | struct fields => exact checkInStruct_le ih ..
    | array n e => exact .bind (ih _ _) (fun a => .refl _)
    | slice e => exact .bind (ih _ _) (fun a => .refl _)
    | ptr e =>
      dsimp only
      by_cases h1 : isFileHeader (prog.get e) = true
      · rw [if_pos h1, if_pos h1]; exact .refl _
      rw [if_neg h1, if_neg h1]
      exact .bind (ih _ _) (fun a => .refl _)
    | _ => exact .refl _

theorem argFieldsOf_le {chk chk' : Ty → Bool → M InSt Input} (h : ∀ t id, Le (chk t id) (chk' t id)) (idx : Nat) : ∀ fs i acc,
    Le (argFieldsOf chk idx i fs acc) (argFieldsOf chk' idx i fs acc) := by
  intro fs
  induction fs with
  | nil => intro i acc; exact .refl _
  | cons f fs ih =>
    intro i acc
    simp only [argFieldsOf]
    by_cases he : f.embedded = true
    · rw [if_pos he, if_pos he]; exact ih _ _
    rw [if_neg he, if_neg he]
    cases fieldName f.name f.tag with
    | err => exact .refl _
    | ignored => exact ih _ _
    | named ql id => exact .bind (h _ _) (fun a => ih _ _)

theorem insOf_le {chk chk' : Ty → Bool → M InSt Input} (h : ∀ t id, Le (chk t id) (chk' t id)) : ∀ ts i ins acc,
    Le (insOf prog chk i ts ins acc) (insOf prog chk' i ts ins acc) := by
  intro ts
  induction ts with
  | nil => intro i ins acc; exact .refl _
  | cons t ts ih =>
    intro i ins acc
    simp only [insOf]
    by_cases h1 : isCtxPtr prog t = true
    · rw [if_pos h1, if_pos h1]; exact ih _ _ _
    rw [if_neg h1, if_neg h1]
    by_cases h2 : isCtx (prog.get t) = true
    · rw [if_pos h2, if_pos h2]; exact .refl _
    rw [if_neg h2, if_neg h2]
    cases (prog.get t).shape with
    | struct fields => exact .bind (argFieldsOf_le h ..) (fun a => ih _ _ _)
    | _ => exact .refl _

theorem allIns_le {chk chk' : Ty → Bool → M InSt Input} (h : ∀ t id, Le (chk t id) (chk' t id)) : ∀ ms acc,
    Le (allIns prog chk ms acc) (allIns prog chk' ms acc) := by
  intro ms
  induction ms with
  | nil => intro acc; exact .refl _
  | cons m ms ih => intro acc; exact .bind (insOf_le h ..) (fun a => ih _)

theorem dirIns_le {chk chk' : Ty → Bool → M InSt Input} (h : ∀ t id, Le (chk t id) (chk' t id)) : ∀ (ds : List (DirDecl V)) acc,
    Le (dirIns prog chk ds acc) (dirIns prog chk' ds acc) := by
  intro ds
  induction ds with
  | nil => intro acc; exact .refl _
  | cons m ms ih => intro acc; exact .bind (insOf_le h ..) (fun a => ih _)

theorem parse_succ {fuel : Nat} {d : Decl V} (h : parse prog fuel d ≠ .oof) : parse prog (fuel + 1) d = parse prog fuel d := by
  unfold parse at h ⊢
  cases hr : walkRoots prog fuel d ⟨[], [], 0, []⟩ with
  | oof => rw [hr] at h; exact absurd rfl h
  | err e => rw [(walkRoots_le fuel d).eq _ (by rw [hr]; simp), hr]
  | panic => rw [(walkRoots_le fuel d).eq _ (by rw [hr]; simp), hr]
  | ok a s =>
  obtain ⟨q, m, inj⟩ := a
  rw [hr] at h
  rw [(walkRoots_le fuel d).eq _ (by rw [hr]; simp), hr]
  dsimp only at h ⊢
  cases ha : allIns prog (checkInput prog (fun n => (lookup s.types n).isSome) fuel) s.methods [] ⟨[], 0⟩ with
  | oof => rw [ha] at h; exact absurd rfl h
  | err e => rw [(allIns_le (checkInput_le fuel) _ _).eq _ (by rw [ha]; simp), ha]
  | panic => rw [(allIns_le (checkInput_le fuel) _ _).eq _ (by rw [ha]; simp), ha]
  | ok ms i =>
  rw [ha] at h
  rw [(allIns_le (checkInput_le fuel) _ _).eq _ (by rw [ha]; simp), ha]
  dsimp only at h ⊢
  cases hd : dirIns prog (checkInput prog (fun n => (lookup s.types n).isSome) fuel) d.directives [] i with
  | oof => rw [hd] at h; exact absurd rfl h
  | err e => rw [(dirIns_le (checkInput_le fuel) _ _).eq _ (by rw [hd]; simp), hd]
  | panic => rw [(dirIns_le (checkInput_le fuel) _ _).eq _ (by rw [hd]; simp), hd]
  | ok dirs i' => rw [(dirIns_le (checkInput_le fuel) _ _).eq _ (by rw [hd]; simp), hd]

theorem parse_more {fuel : Nat} {d : Decl V} (h : parse prog fuel d ≠ .oof) : ∀ k, parse prog (fuel + k) d = parse prog fuel d := by
  intro k
  induction k with
  | zero => rfl
  | succ k ih =>
    rw [← ih] at h ⊢
    exact parse_succ h

end
end TypeWalk
end Yarql
