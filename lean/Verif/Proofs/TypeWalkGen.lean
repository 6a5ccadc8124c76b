import Verif.Proofs.TypeWalk

/-!
# Anything the single steps of the walk preserve, the walk preserves
-/

namespace Yarql
namespace TypeWalk
open GoTypes Naming

variable {F V W : Type}

/-- a relation between states that holds of the single steps on behalf of types in `R` -/
structure Steps (prog : Program F) (R : Ty → Prop) (P : St → St → Prop) : Prop where
  refl : ∀ s, P s s
  trans : ∀ a b c, P a b → P b c → P a c
  setType : ∀ s t n fs impls, R t → P s { s with types := mapSet s.types n ⟨t, (prog.get t).pkg, (prog.get t).name, fs, impls⟩ }
  setIface : ∀ s t n fs impls, R t → P s { s with interfaces := mapSet s.interfaces n ⟨t, (prog.get t).pkg, (prog.get t).name, fs, impls⟩ }
  addMethod : ∀ s m, P s { s with methods := s.methods ++ [m] }
  unknown : ∀ s, P s { s with unknownTypes := s.unknownTypes + 1 }

/-- what `check` has to satisfy -/
def Keeps (R : Ty → Prop) (P : St → St → Prop) (chk : Ty → Bool → M St WObj) : Prop :=
  ∀ t id s o s', R t → chk t id s = .ok o s' → P s s'

section
variable {prog : Program F} {R : Ty → Prop} {P : St → St → Prop}

theorem checkOuts_keeps (hP : Steps prog R P) {chk : Ty → Bool → M St WObj} (hg : Keeps R P chk) {nm sig b id s o s'}
    (hR : ∀ u, Result prog sig u → R u) (h : checkOuts prog chk nm sig b id s = .ok o s') : P s s' := by
  unfold checkOuts at h
  cases hv : sig.variadic with
  | true => rw [hv, if_pos rfl] at h; exact (fail_ok.1 h).elim
  | false =>
  rw [hv, if_neg (by simp)] at h
  by_cases ho : sig.outs = []
  · rw [if_pos ho] at h; exact (fail_ok.1 h).elim
  rw [if_neg ho] at h
  cases hsc : scanOuts prog 0 sig.outs ⟨none, none, id⟩ with
  | error e => rw [hsc] at h; exact (fail_ok.1 h).elim
  | ok oo =>
  rw [hsc] at h; dsimp only at h
  have hS := scanOuts_spec (outs := sig.outs) (tag := id) sig.outs 0 _ oo (by simp) (by
    refine Scanned.mk ?_ ?_ ?_ ?_
    · intro _ h; cases h
    · intro _ h; cases h
    · intro _ _ h; exact absurd h (Nat.not_lt_zero _)
    · constructor
      · intro h; exact .inl h
      · rintro (h | ⟨_, _, h, _⟩)
        · exact h
        · exact absurd h (Nat.not_lt_zero _)) hsc
  cases hnr : oo.outNr with
  | none => rw [hnr] at h; exact (fail_ok.1 h).elim
  | some nr =>
  rw [hnr] at h; dsimp only at h
  obtain ⟨_, u, hu, hue, hua⟩ := hS.out nr hnr
  rw [hu] at h; dsimp only at h
  obtain ⟨out, s1, h1, h⟩ := bind_ok.1 h
  obtain ⟨s1', s1'', h2, h⟩ := bind_ok.1 h
  obtain ⟨rfl, rfl⟩ := getS_ok.1 h2
  obtain ⟨u', s2, h3, h⟩ := bind_ok.1 h
  have e3 := setS_ok.1 h3
  obtain ⟨e4, e5⟩ := pure_ok.1 h
  subst e4; subst e5; subst e3
  exact hP.trans _ _ _ (hg _ _ _ _ _ (hR u ⟨List.mem_of_getElem? hu, hue, hua⟩) h1) (hP.addMethod _ _)

theorem walkFields_keeps (hP : Steps prog R P) {chk : Ty → Bool → M St WObj} (hg : Keeps R P chk) :
    ∀ (fs : List GoField) (i : Nat) (acc : List WField) (s : St) (r : List WField) (s' : St),
    (∀ (j : Nat) (gf : GoField) n id, fs[j]? = some gf → gf.embedded = false → fieldName gf.name gf.tag = .named n id →
      ((∀ sig, (prog.get gf.ty).shape ≠ .func sig) → R gf.ty) ∧
      ∀ sig, (prog.get gf.ty).shape = .func sig → ∀ u, Result prog sig u → R u) →
    walkFields prog chk i fs acc s = .ok r s' → P s s' := by
  intro fs
  induction fs with
  | nil =>
    intro i acc s r s' hR h
    obtain ⟨rfl, rfl⟩ := pure_ok.1 h
    exact hP.refl _
  | cons f fs ih =>
    intro i acc s r s' hR h
    have hR' := fun (j : Nat) gf n id h => hR (j + 1) gf n id h
    simp only [walkFields] at h
    cases hem : f.embedded with
    | true =>
      rw [hem, if_pos rfl] at h
      exact ih (i + 1) acc s r s' hR' h
    | false =>
      rw [hem, if_neg (by simp)] at h
      cases hn : fieldName f.name f.tag with
      | err => rw [hn] at h; exact (fail_ok.1 h).elim
      | ignored => rw [hn] at h; dsimp only at h; exact ih (i + 1) acc s r s' hR' h
      | named ql isID =>
        rw [hn] at h; dsimp only at h
        obtain ⟨o, s1, h1, h⟩ := bind_ok.1 h
        obtain ⟨r1, r2⟩ := hR 0 f ql isID rfl hem hn
        refine hP.trans _ _ _ ?_ (ih (i + 1) _ s1 r s' hR' h)
        unfold checkField at h1
        cases hsh : (prog.get f.ty).shape with
        | func sig =>
          rw [hsh] at h1
          exact checkOuts_keeps hP hg (r2 sig hsh) h1
        | _ =>
          rw [hsh] at h1
          exact hg _ _ _ _ _ (r1 (fun sig e => (by rw [hsh] at e; cases e))) h1

theorem walkMethods_keeps (hP : Steps prog R P) {chk : Ty → Bool → M St WObj} (hg : Keeps R P chk) :
    ∀ (ms : List (Bytes × Sig)) (i : Nat) (acc : List WField) (s : St) (r : List WField) (s' : St),
    (∀ (j : Nat) nm sig n, ms[j]? = some (nm, sig) → methodName nm = .exposed n → ∀ u, Result prog sig u → R u) →
    walkMethods prog chk i ms acc s = .ok r s' → P s s' := by
  intro ms
  induction ms with
  | nil =>
    intro i acc s r s' hR h
    obtain ⟨rfl, rfl⟩ := pure_ok.1 h
    exact hP.refl _
  | cons x ms ih =>
    intro i acc s r s' hR h
    obtain ⟨nm, sig⟩ := x
    have hR' := fun (j : Nat) nm sig n h => hR (j + 1) nm sig n h
    simp only [walkMethods] at h
    cases hn : methodName nm with
    | panic => rw [hn] at h; exact (panic_ok.1 h).elim
    | ignored => rw [hn] at h; dsimp only at h; exact ih (i + 1) acc s r s' hR' h
    | exposed ql =>
      rw [hn] at h; dsimp only at h
      obtain ⟨o, s1, h1, h⟩ := bind_ok.1 h
      exact hP.trans _ _ _ (checkOuts_keeps hP hg (hR 0 nm sig ql rfl hn) h1) (ih (i + 1) _ s1 r s' hR' h)

theorem walkStructImpls_keeps (hP : Steps prog R P) {chk : Ty → Bool → M St WObj} (hg : Keeps R P chk) :
    ∀ (ts : List Ty) (acc : List Bytes) (s : St) (r : List Bytes) (s' : St), (∀ u ∈ ts, R u) →
    walkStructImpls chk ts acc s = .ok r s' → P s s' := by
  intro ts
  induction ts with
  | nil =>
    intro acc s r s' hR h
    obtain ⟨rfl, rfl⟩ := pure_ok.1 h
    exact hP.refl _
  | cons t ts ih =>
    intro acc s r s' hR h
    simp only [walkStructImpls] at h
    obtain ⟨o, s1, h1, h⟩ := bind_ok.1 h
    have p1 := hg _ _ _ _ _ (hR t (List.mem_cons_self ..)) h1
    have hR' := fun u hu => hR u (List.mem_cons_of_mem _ hu)
    cases o <;> exact hP.trans _ _ _ p1 (ih _ _ _ _ hR' h)

theorem newStruct_keeps (hP : Steps prog R P) {chk : Ty → Bool → M St WObj} (hg : Keeps R P chk) {t : Ty} {n : Bytes}
    {fields : List GoField} {impls : List Bytes} {s s' : St} {o : WObj} (hst : IsStruct prog t fields) (hR : R t)
    (hc : ∀ u, Child prog t u → R u) (h : newStruct prog chk t n fields impls s = .ok o s') : P s s' := by
  unfold newStruct at h
  obtain ⟨_, _, hget, h⟩ := bind_ok.1 h
  obtain ⟨rfl, rfl⟩ := getS_ok.1 hget
  obtain ⟨_, s1, hset, h⟩ := bind_ok.1 h
  have e1 := setS_ok.1 hset
  obtain ⟨fs1, s2, hw1, h⟩ := bind_ok.1 h
  obtain ⟨fs2, s3, hw2, h⟩ := bind_ok.1 h
  obtain ⟨_, _, hget, h⟩ := bind_ok.1 h
  obtain ⟨rfl, rfl⟩ := getS_ok.1 hget
  obtain ⟨_, s4, hset, h⟩ := bind_ok.1 h
  have e4 := setS_ok.1 hset
  obtain ⟨e5, e6⟩ := pure_ok.1 h
  subst e5; subst e6
  have p1 : P s s1 := by rw [e1]; exact hP.setType s t n [] impls hR
  have p2 := walkFields_keeps hP hg fields 0 [] s1 fs1 s2 (fun j gf n id h1 h2 h3 =>
    ⟨fun h4 => hc _ (.field hst h1 h2 h3 h4), fun sig h4 u hu => hc _ (.func hst h1 h2 h3 h4 hu)⟩) hw1
  have p3 := walkMethods_keeps hP hg _ 0 fs1 s2 fs2 s3 (fun j nm sig n h1 h2 u hu => hc _ (.method ⟨hst.2, .inl ⟨_, hst.1⟩⟩ h1 h2 hu)) hw2
  have p4 : P s3 s4 := by rw [e4]; exact hP.setType s3 t n fs2 impls hR
  exact hP.trans _ _ _ p1 (hP.trans _ _ _ p2 (hP.trans _ _ _ p3 p4))

theorem checkStruct_keeps (hP : Steps prog R P) (hR : Closed prog R) {chk : Ty → Bool → M St WObj} (hg : Keeps R P chk) {t : Ty}
    {fields : List GoField} {id : Bool} {s s' : St} {o : WObj} (hst : IsStruct prog t fields) (ht : R t)
    (h : checkStruct prog chk t fields id s = .ok o s') : P s s' := by
  unfold checkStruct at h
  cases id with
  | true => simp [fail] at h
  | false =>
  dsimp only at h
  rw [if_neg (by simp)] at h
  by_cases hnm : (prog.get t).name = []
  · rw [if_pos hnm] at h
    obtain ⟨_, _, hget, h⟩ := bind_ok.1 h
    obtain ⟨rfl, rfl⟩ := getS_ok.1 hget
    obtain ⟨_, s1, hset, h⟩ := bind_ok.1 h
    have e1 := setS_ok.1 hset
    refine hP.trans _ s1 _ ?_ (newStruct_keeps hP hg hst ht (fun u hu => hR.child t u ht hu) h)
    rw [e1]; exact hP.unknown s
  · rw [if_neg hnm] at h
    obtain ⟨_, _, hget, h⟩ := bind_ok.1 h
    obtain ⟨rfl, rfl⟩ := getS_ok.1 hget
    cases hl : lookup s.types (qlName prog (prog.get t).name) with
    | some v =>
      rw [hl] at h; dsimp only at h
      by_cases hp : v.pkg ≠ (prog.get t).pkg
      · rw [if_pos hp] at h; exact (fail_ok.1 h).elim
      · rw [if_neg hp] at h
        obtain ⟨e1, e2⟩ := pure_ok.1 h
        subst e1; subst e2
        exact hP.refl _
    | none =>
      rw [hl] at h; dsimp only at h
      obtain ⟨impls, s1, h1, h⟩ := bind_ok.1 h
      exact hP.trans _ _ _ (walkStructImpls_keeps hP hg _ _ _ _ _ (fun u hu => hR.implements t fields u ht hst hnm hu) h1)
        (newStruct_keeps hP hg hst ht (fun u hu => hR.child t u ht hu) h)

theorem walkIfaceImpls_keeps (hP : Steps prog R P) {chk : Ty → Bool → M St WObj} (hg : Keeps R P chk) {t : Ty} :
    ∀ (us : List Ty) (acc : List Impl) (s : St) (r : List Impl) (s' : St), (∀ u ∈ us, R u) →
    walkIfaceImpls prog chk t us acc s = .ok r s' → P s s' := by
  intro us
  induction us with
  | nil =>
    intro acc s r s' hR h
    obtain ⟨rfl, rfl⟩ := pure_ok.1 h
    exact hP.refl _
  | cons u us ih =>
    intro acc s r s' hR h
    simp only [walkIfaceImpls] at h
    cases hs : isStruct (prog.get u) with
    | false => rw [hs, if_pos rfl] at h; exact (fail_ok.1 h).elim
    | true =>
    rw [hs, if_neg (by simp)] at h
    by_cases hn : (prog.get u).name = []
    · rw [if_pos hn] at h; exact (fail_ok.1 h).elim
    rw [if_neg hn] at h
    cases him : prog.implements u t with
    | false => rw [him, if_pos rfl] at h; exact (fail_ok.1 h).elim
    | true =>
    rw [him, if_neg (by simp)] at h
    obtain ⟨o, s1, h1, h⟩ := bind_ok.1 h
    have p1 := hg _ _ _ _ _ (hR u (List.mem_cons_self ..)) h1
    have hR' := fun u hu => hR u (List.mem_cons_of_mem _ hu)
    cases o <;> exact hP.trans _ _ _ p1 (ih _ _ _ _ hR' h)

theorem checkIface_keeps (hP : Steps prog R P) (hR : Closed prog R) {chk : Ty → Bool → M St WObj} (hg : Keeps R P chk) {t : Ty}
    (htm : isTime (prog.get t) = false) (hsh : (prog.get t).shape = .iface) {id : Bool} {s s' : St} {o : WObj} (ht : R t)
    (h : checkIface prog chk t id s = .ok o s') : P s s' := by
  unfold checkIface at h
  cases id with
  | true => simp [fail] at h
  | false =>
  dsimp only at h
  rw [if_neg (by simp)] at h
  by_cases hnm : (prog.get t).name = []
  · rw [if_pos hnm] at h; exact (fail_ok.1 h).elim
  rw [if_neg hnm] at h
  obtain ⟨_, _, hget, h⟩ := bind_ok.1 h
  obtain ⟨rfl, rfl⟩ := getS_ok.1 hget
  cases hl : lookup s.interfaces (qlName prog (prog.get t).name) with
  | some v =>
    rw [hl] at h; dsimp only at h
    by_cases hp : v.pkg ≠ (prog.get t).pkg
    · rw [if_pos hp] at h; exact (fail_ok.1 h).elim
    · rw [if_neg hp] at h
      obtain ⟨e1, e2⟩ := pure_ok.1 h
      subst e1; subst e2
      exact hP.refl _
  | none =>
    rw [hl] at h; dsimp only at h
    obtain ⟨_, s1, hset, h⟩ := bind_ok.1 h
    have e1 := setS_ok.1 hset
    cases him : prog.implMap (prog.get t).name with
    | none => rw [him] at h; exact (fail_ok.1 h).elim
    | some us =>
    rw [him] at h; dsimp only at h
    obtain ⟨impls, s2, hw1, h⟩ := bind_ok.1 h
    obtain ⟨fs, s3, hw2, h⟩ := bind_ok.1 h
    obtain ⟨_, _, hget, h⟩ := bind_ok.1 h
    obtain ⟨rfl, rfl⟩ := getS_ok.1 hget
    obtain ⟨_, s4, hset, h⟩ := bind_ok.1 h
    have e4 := setS_ok.1 hset
    obtain ⟨e5, e6⟩ := pure_ok.1 h
    subst e5; subst e6
    have p1 : P s s1 := by rw [e1]; exact hP.setIface s t _ [] [] ht
    have p2 := walkIfaceImpls_keeps hP hg us [] s1 impls s2 (fun u hu => hR.impl t us u ht htm hsh him hu) hw1
    have p3 := walkMethods_keeps hP hg _ 0 [] s2 fs s3 (fun j nm sig n h1 h2 u hu => hR.child t u ht (.method ⟨htm, .inr hsh⟩ h1 h2 hu)) hw2
    have p4 : P s3 s4 := by rw [e4]; exact hP.setIface s3 t _ fs impls ht
    exact hP.trans _ _ _ p1 (hP.trans _ _ _ p2 (hP.trans _ _ _ p3 p4))

theorem checkBody_keeps (hP : Steps prog R P) (hR : Closed prog R) {chk : Ty → Bool → M St WObj} (hg : Keeps R P chk) :
    Keeps R P (checkBody prog chk) := by
  intro t id s o s' ht h
  unfold checkBody at h
  cases htm : isTime (prog.get t) with
  | true =>
    rw [htm, if_pos rfl] at h
    obtain ⟨rfl, rfl⟩ := pure_ok.1 h
    exact hP.refl _
  | false =>
  rw [htm, if_neg (by simp)] at h
  cases hsh : (prog.get t).shape with
  | struct fields => rw [hsh] at h; exact checkStruct_keeps hP hR hg ⟨hsh, htm⟩ ht h
  | array n e =>
    rw [hsh] at h; dsimp only at h
    obtain ⟨x, s1, h1, h⟩ := bind_ok.1 h
    obtain ⟨rfl, rfl⟩ := pure_ok.1 h
    exact hg _ _ _ _ _ (hR.array t n e ht htm hsh) h1
  | slice e =>
    rw [hsh] at h; dsimp only at h
    obtain ⟨x, s1, h1, h⟩ := bind_ok.1 h
    obtain ⟨rfl, rfl⟩ := pure_ok.1 h
    exact hg _ _ _ _ _ (hR.slice t e ht htm hsh) h1
  | ptr e =>
    rw [hsh] at h; dsimp only at h
    obtain ⟨x, s1, h1, h⟩ := bind_ok.1 h
    obtain ⟨rfl, rfl⟩ := pure_ok.1 h
    exact hg _ _ _ _ _ (hR.ptr t e ht htm hsh) h1
  | iface => rw [hsh] at h; exact checkIface_keeps hP hR hg htm hsh ht h
  | func sig => rw [hsh] at h; exact (fail_ok.1 h).elim
  | other => rw [hsh] at h; exact (fail_ok.1 h).elim
  | scalar k =>
    rw [hsh] at h; dsimp only at h
    unfold checkScalar at h
    cases he : enumIndex prog t with
    | some i =>
      rw [he] at h
      obtain ⟨rfl, rfl⟩ := pure_ok.1 h
      exact hP.refl _
    | none =>
      rw [he] at h; dsimp only at h
      by_cases hc : (id && !validIDKind k) = true
      · rw [if_pos hc] at h; exact (fail_ok.1 h).elim
      · rw [if_neg hc] at h
        obtain ⟨rfl, rfl⟩ := pure_ok.1 h
        exact hP.refl _

theorem check_keeps (hP : Steps prog R P) (hR : Closed prog R) : ∀ fuel, Keeps R P (check prog fuel) := by
  intro fuel
  induction fuel with
  | zero => intro t id s o s' _ h; cases h
  | succ n ih => exact checkBody_keeps hP hR ih

theorem walkRoots_keeps (hP : Steps prog R P) (hR : Closed prog R) {fuel : Nat} {d : Decl V} (hroot : ∀ t, Root prog d t → R t)
    {s s' : St} {r : Bytes × Bytes × Option (WObj × WObj)} (h : walkRoots prog fuel d s = .ok r s') : P s s' := by
  have hg := check_keeps hP hR fuel
  unfold walkRoots at h
  obtain ⟨o1, s1, h1, h⟩ := bind_ok.1 h
  have p1 := hg _ _ _ _ _ (hroot _ .query) h1
  cases o1 with
  | objRef n1 gn1 gp1 =>
    dsimp only at h
    obtain ⟨o2, s2, h2, h⟩ := bind_ok.1 h
    have p2 := hg _ _ _ _ _ (hroot _ .mutation) h2
    cases o2 with
    | objRef n2 gn2 gp2 =>
      dsimp only at h
      obtain ⟨_, _, hget, h⟩ := bind_ok.1 h
      obtain ⟨rfl, rfl⟩ := getS_ok.1 hget
      have p12 := hP.trans _ _ _ p1 p2
      cases l1 : lookup s2.types n1 with
      | none => rw [l1] at h; exact (panic_ok.1 h).elim
      | some e1 =>
      cases l2 : lookup s2.types n2 with
      | none => rw [l1, l2] at h; exact (panic_ok.1 h).elim
      | some e2 =>
      rw [l1, l2] at h; dsimp only at h
      by_cases hr : d.noEqualCheck = false ∧ e1.pkg ++ e1.goName = e2.pkg ++ e2.goName
      · rw [if_pos hr] at h; exact (fail_ok.1 h).elim
      rw [if_neg hr] at h
      cases hinj : d.inject with
      | none =>
        rw [hinj] at h; dsimp only at h
        obtain ⟨_, e'⟩ := pure_ok.1 h
        subst e'
        exact p12
      | some x =>
        rw [hinj] at h; dsimp only at h
        obtain ⟨o3, s3, h3, h⟩ := bind_ok.1 h
        have p3 := hg _ _ _ _ _ (hroot _ (.schema hinj)) h3
        obtain ⟨o4, s4, h4, h⟩ := bind_ok.1 h
        have p4 := checkOuts_keeps hP hg (fun u hu => hroot u (.type hinj hu)) h4
        obtain ⟨_, e'⟩ := pure_ok.1 h
        subst e'
        exact hP.trans _ _ _ p12 (hP.trans _ _ _ p3 p4)
    | _ => exact (fail_ok.1 h).elim
  | _ => exact (fail_ok.1 h).elim

end
end TypeWalk
end Yarql
