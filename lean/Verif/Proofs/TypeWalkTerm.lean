import Verif.Proofs.TypeWalkFuel

/-!
# The walk returns
-/

namespace Yarql
namespace TypeWalk
open GoTypes Naming

variable {F V W : Type}

theorem ret_bind {S α β : Type} {m : M S α} {f : α → M S β} {s : S} (h : m s ≠ .oof) (hf : ∀ a s', m s = .ok a s' → f a s' ≠ .oof) :
    (m >>= f) s ≠ .oof := by
  change M.bind m f s ≠ .oof
  unfold M.bind
  cases hm : m s with
  | oof => exact absurd hm h
  | ok a s' => exact hf a s' hm
  | err e => simp
  | panic => simp

theorem ret_pure {S α : Type} (a : α) (s : S) : (pure a : M S α) s ≠ .oof := by
  change WR.ok a s ≠ .oof; simp
theorem ret_fail {S α : Type} (e : WErr) (s : S) : (fail e : M S α) s ≠ .oof := by
  change WR.err e ≠ .oof; simp
theorem ret_panic {S α : Type} (s : S) : (panicW : M S α) s ≠ .oof := by
  change WR.panic ≠ .oof; simp
theorem ret_get {S : Type} (s : S) : (getS : M S S) s ≠ .oof := by
  change WR.ok s s ≠ .oof; simp
theorem ret_set {S : Type} (x s : S) : (setS x : M S Unit) s ≠ .oof := by
  change WR.ok () x ≠ .oof; simp

/-! ## Names that are still free -/

/-- how many names of `univ` have no entry -/
def free {A : Type} (univ : List Bytes) (m : List (Bytes × A)) : Nat := (univ.filter (fun n => (lookup m n).isNone)).length

theorem free_mapSet {A : Type} (univ : List Bytes) (m : List (Bytes × A)) (k : Bytes) (a : A) : free univ (mapSet m k a) ≤ free univ m := by
  unfold free
  induction univ with
  | nil => exact Nat.le_refl _
  | cons n univ ih =>
    by_cases h : n = k
    · subst h
      rw [List.filter_cons_of_neg (by simp [lookup_mapSet_self])]
      refine Nat.le_trans ih ?_
      by_cases h2 : (lookup m n).isNone = true
      · rw [List.filter_cons_of_pos (by simpa using h2)]; simp
      · rw [List.filter_cons_of_neg (by simpa using h2)]; exact Nat.le_refl _
    · by_cases h2 : (lookup m n).isNone = true
      · rw [List.filter_cons_of_pos (by simpa [lookup_mapSet_ne h] using h2), List.filter_cons_of_pos (by simpa using h2)]
        simpa using ih
      · rw [List.filter_cons_of_neg (by simpa [lookup_mapSet_ne h] using h2), List.filter_cons_of_neg (by simpa using h2)]
        exact ih

theorem free_mapSet_lt {A : Type} {univ : List Bytes} {m : List (Bytes × A)} {k : Bytes} (a : A) (hk : k ∈ univ) (hl : lookup m k = none) :
    free univ (mapSet m k a) < free univ m := by
  unfold free
  induction univ with
  | nil => cases hk
  | cons n univ ih =>
    by_cases h : n = k
    · subst h
      rw [List.filter_cons_of_neg (by simp [lookup_mapSet_self]), List.filter_cons_of_pos (by simp [hl])]
      have := free_mapSet univ m n a
      unfold free at this
      simp only [List.length_cons]
      omega
    · have ih := ih (by rcases List.mem_cons.1 hk with e | e; exact absurd e.symm h; exact e)
      by_cases h2 : (lookup m n).isNone = true
      · rw [List.filter_cons_of_pos (by simpa [lookup_mapSet_ne h] using h2), List.filter_cons_of_pos (by simpa using h2)]
        simpa using ih
      · rw [List.filter_cons_of_neg (by simpa [lookup_mapSet_ne h] using h2), List.filter_cons_of_neg (by simpa using h2)]
        exact ih

theorem free_mono {A : Type} {univ : List Bytes} {m m' : List (Bytes × A)}
    (h : ∀ n, (lookup m n).isSome = true → (lookup m' n).isSome = true) : free univ m' ≤ free univ m := by
  unfold free
  induction univ with
  | nil => exact Nat.le_refl _
  | cons n univ ih =>
    have := h n
    cases h1 : lookup m n <;> cases h2 : lookup m' n <;> simp_all [List.filter_cons] <;> omega

theorem free_lt_of {A : Type} {univ : List Bytes} {m m' : List (Bytes × A)} {k : Bytes} {a : A} (hk : k ∈ univ) (hl : lookup m k = none)
    (ha : lookup m' k = some a) (h : ∀ n, (lookup m n).isSome = true → (lookup m' n).isSome = true) : free univ m' < free univ m := by
  have h1 := free_mapSet_lt a hk hl
  refine Nat.lt_of_le_of_lt (free_mono ?_) h1
  intro n hn
  by_cases e : n = k
  · subst e; rw [ha]; rfl
  · rw [lookup_mapSet_ne e] at hn; exact h n hn

theorem free_le {A : Type} (univ : List Bytes) (m : List (Bytes × A)) : free univ m ≤ univ.length := List.length_filter_le _ _

/-! ## Output types -/

section
variable {prog : Program F} {univ : List Bytes} {rank : Ty → Nat} {K : Nat}

def pot (univ : List Bytes) (s : St) : Nat := free univ s.types + free univ s.interfaces

theorem pot_steps (prog : Program F) (univ : List Bytes) : Steps prog (fun _ => True) (fun s s' => pot univ s' ≤ pot univ s) where
  refl _ := Nat.le_refl _
  trans _ _ _ h1 h2 := Nat.le_trans h2 h1
  setType s t n fs impls _ := Nat.add_le_add_right (free_mapSet ..) _
  setIface s t n fs impls _ := Nat.add_le_add_left (free_mapSet ..) _
  addMethod _ _ := Nat.le_refl _
  unknown _ := Nat.le_refl _

/-- names once taken stay taken -/
theorem taken_steps (prog : Program F) (_univ : List Bytes) : Steps prog (fun _ => True) (fun s s' =>
    (∀ n, (lookup s.types n).isSome = true → (lookup s'.types n).isSome = true) ∧
    (∀ n, (lookup s.interfaces n).isSome = true → (lookup s'.interfaces n).isSome = true)) where
  refl _ := ⟨fun _ h => h, fun _ h => h⟩
  trans _ _ _ h1 h2 := ⟨fun n h => h2.1 n (h1.1 n h), fun n h => h2.2 n (h1.2 n h)⟩
  setType s t n fs impls _ := ⟨fun m h => (by
    by_cases e : m = n
    · subst e; simp [lookup_mapSet_self]
    · simpa [lookup_mapSet_ne e] using h), fun _ h => h⟩
  setIface s t n fs impls _ := ⟨fun _ h => h, fun m h => (by
    by_cases e : m = n
    · subst e; simp [lookup_mapSet_self]
    · simpa [lookup_mapSet_ne e] using h)⟩
  addMethod _ _ := ⟨fun _ h => h, fun _ h => h⟩
  unknown _ := ⟨fun _ h => h, fun _ h => h⟩

theorem closed_true (prog : Program F) : Closed prog (fun _ => True) :=
  ⟨fun _ _ _ _ => trivial, fun _ _ _ _ _ _ => trivial, fun _ _ _ _ _ => trivial, fun _ _ _ _ _ => trivial,
    fun _ _ _ _ _ _ _ _ => trivial, fun _ _ _ _ _ _ _ => trivial⟩

/-- `chk` returns on types of a small enough rank, and keeps names taken -/
structure Fine (univ : List Bytes) (rank : Ty → Nat) (K B : Nat) (chk : Ty → Bool → M St WObj) : Prop where
  ret : ∀ t id s, pot univ s * (K + 1) + rank t < B → chk t id s ≠ .oof
  keeps : Keeps (fun _ => True) (fun s s' => pot univ s' ≤ pot univ s) chk

theorem pot_bound {s s' : St} {r B : Nat} (h : pot univ s' ≤ pot univ s) (hb : pot univ s * (K + 1) + r ≤ B) :
    pot univ s' * (K + 1) + r ≤ B := Nat.le_trans (Nat.add_le_add_right (Nat.mul_le_mul_right _ h) _) hb

theorem checkOuts_ret {B r : Nat} {chk : Ty → Bool → M St WObj} (hf : Fine univ rank K B chk) {nm sig b id} {s : St}
    (hr : ∀ u, Result prog sig u → rank u < r) (hb : pot univ s * (K + 1) + r ≤ B) : checkOuts prog chk nm sig b id s ≠ .oof := by
  unfold checkOuts
  by_cases h1 : sig.variadic = true
  · rw [if_pos h1]; exact ret_fail _ _
  rw [if_neg h1]
  by_cases h2 : sig.outs = []
  · rw [if_pos h2]; exact ret_fail _ _
  rw [if_neg h2]
  cases hsc : scanOuts prog 0 sig.outs ⟨none, none, id⟩ with
  | error e => exact ret_fail _ _
  | ok oo =>
  have hS := scanOuts_spec (outs := sig.outs) (tag := id) sig.outs 0 _ oo (by simp) (by
    refine Scanned.mk ?_ ?_ ?_ ?_
    · intro _ h; cases h
    · intro _ h; cases h
    · intro _ _ h; exact absurd h (Nat.not_lt_zero _)
    · constructor
      · intro h; exact .inl h
      · rintro (h | ⟨_, _, h, _⟩)
        · exact h
        · exact absurd h (Nat.not_lt_zero _)) hsc
  dsimp only
  cases hnr : oo.outNr with
  | none => exact ret_fail _ _
  | some nr =>
  dsimp only
  obtain ⟨_, u, hu, hue, hua⟩ := hS.out nr hnr
  rw [hu]
  dsimp only
  refine ret_bind (hf.ret _ _ _ ?_) (fun a s' _ => ret_bind (ret_get _) (fun _ _ _ => ret_bind (ret_set _ _) (fun _ _ _ => ret_pure _ _)))
  have := hr u ⟨List.mem_of_getElem? hu, hue, hua⟩
  omega

theorem walkMethods_ret {B r : Nat} {chk : Ty → Bool → M St WObj} (hf : Fine univ rank K B chk) :
    ∀ (ms : List (Bytes × Sig)) (i : Nat) (acc : List WField) (s : St),
    (∀ (j : Nat) nm sig n, ms[j]? = some (nm, sig) → methodName nm = .exposed n → ∀ u, Result prog sig u → rank u < r) →
    pot univ s * (K + 1) + r ≤ B → walkMethods prog chk i ms acc s ≠ .oof := by
  intro ms
  induction ms with
  | nil => intro i acc s _ _; exact ret_pure _ _
  | cons x ms ih =>
    intro i acc s hr hb
    obtain ⟨nm, sig⟩ := x
    have hr' := fun (j : Nat) nm sig n h => hr (j + 1) nm sig n h
    simp only [walkMethods]
    cases hn : methodName nm with
    | panic => exact ret_panic _
    | ignored => exact ih _ _ _ hr' hb
    | exposed ql =>
      have h0 := hr 0 nm sig ql rfl hn
      refine ret_bind (checkOuts_ret hf h0 hb) (fun a s' h => ih _ _ _ hr' (pot_bound ?_ hb))
      exact checkOuts_keeps (pot_steps prog univ) hf.keeps (fun _ _ => trivial) h

theorem walkFields_ret {B r : Nat} {chk : Ty → Bool → M St WObj} (hf : Fine univ rank K B chk) :
    ∀ (fs : List GoField) (i : Nat) (acc : List WField) (s : St),
    (∀ (j : Nat) (gf : GoField) n id, fs[j]? = some gf → gf.embedded = false → fieldName gf.name gf.tag = .named n id →
      ((∀ sig, (prog.get gf.ty).shape ≠ .func sig) → rank gf.ty < r) ∧
      ∀ sig, (prog.get gf.ty).shape = .func sig → ∀ u, Result prog sig u → rank u < r) →
    pot univ s * (K + 1) + r ≤ B → walkFields prog chk i fs acc s ≠ .oof := by
  intro fs
  induction fs with
  | nil => intro i acc s _ _; exact ret_pure _ _
  | cons f fs ih =>
    intro i acc s hr hb
    have hr' := fun (j : Nat) gf n id h => hr (j + 1) gf n id h
    simp only [walkFields]
    cases he : f.embedded with
    | true => rw [if_pos rfl]; exact ih _ _ _ hr' hb
    | false =>
    rw [if_neg (by simp)]
    cases hn : fieldName f.name f.tag with
    | err => exact ret_fail _ _
    | ignored => exact ih _ _ _ hr' hb
    | named ql id =>
      obtain ⟨h0, h1⟩ := hr 0 f ql id rfl he hn
      dsimp only
      have hc : checkField prog chk f id s ≠ .oof ∧ ∀ a s', checkField prog chk f id s = .ok a s' → pot univ s' ≤ pot univ s := by
        unfold checkField
        cases hsh : (prog.get f.ty).shape with
        | func sig =>
          exact ⟨checkOuts_ret hf (h1 sig hsh) hb, fun a s' h => checkOuts_keeps (pot_steps prog univ) hf.keeps (fun _ _ => trivial) h⟩
        | _ =>
          have := h0 (fun sig e => (by rw [hsh] at e; cases e))
          exact ⟨hf.ret _ _ _ (by omega), fun a s' h => hf.keeps _ _ _ _ _ trivial h⟩
      exact ret_bind hc.1 (fun a s' h => ih _ _ _ hr' (pot_bound (hc.2 a s' h) hb))

theorem walkStructImpls_ret {B r : Nat} {chk : Ty → Bool → M St WObj} (hf : Fine univ rank K B chk) :
    ∀ (ts : List Ty) (acc : List Bytes) (s : St), (∀ u ∈ ts, rank u < r) → pot univ s * (K + 1) + r ≤ B →
    walkStructImpls chk ts acc s ≠ .oof := by
  intro ts
  induction ts with
  | nil => intro acc s _ _; exact ret_pure _ _
  | cons t ts ih =>
    intro acc s hr hb
    simp only [walkStructImpls]
    have := hr t (List.mem_cons_self ..)
    refine ret_bind (hf.ret _ _ _ (by omega)) (fun a s' h => ?_)
    have hb' := pot_bound (hf.keeps _ _ _ _ _ trivial h) hb
    cases a <;> exact ih _ _ (fun u hu => hr u (List.mem_cons_of_mem _ hu)) hb'

theorem newStruct_ret {B r : Nat} {chk : Ty → Bool → M St WObj} (hf : Fine univ rank K B chk) {t : Ty} {n : Bytes} {fields : List GoField}
    {impls : List Bytes} {s : St} (hst : IsStruct prog t fields) (hr : ∀ u, Child prog t u → rank u < r)
    (hb : ∀ p, p ≤ pot univ { s with types := mapSet s.types n ⟨t, (prog.get t).pkg, (prog.get t).name, [], impls⟩ } → p * (K + 1) + r ≤ B) :
    newStruct prog chk t n fields impls s ≠ .oof := by
  unfold newStruct
  refine ret_bind (ret_get _) (fun a s0 h0 => ?_)
  obtain ⟨rfl, rfl⟩ := getS_ok.1 h0
  refine ret_bind (ret_set _ _) (fun _ s1 h1 => ?_)
  have e1 := setS_ok.1 h1
  have b1 : pot univ s1 * (K + 1) + r ≤ B := hb _ (by rw [e1]; exact Nat.le_refl _)
  refine ret_bind (walkFields_ret hf fields 0 [] s1 (fun j gf n id h1 h2 h3 =>
    ⟨fun h4 => hr _ (.field hst h1 h2 h3 h4), fun sig h4 u hu => hr _ (.func hst h1 h2 h3 h4 hu)⟩) b1) (fun fs1 s2 h2 => ?_)
  have k2 := walkFields_keeps (pot_steps prog univ) hf.keeps fields 0 [] s1 fs1 s2
    (fun _ _ _ _ _ _ _ => ⟨fun _ => trivial, fun _ _ _ _ => trivial⟩) h2
  refine ret_bind (walkMethods_ret hf _ 0 fs1 s2 (fun j nm sig n h1 h2 u hu => hr _ (.method ⟨hst.2, .inl ⟨_, hst.1⟩⟩ h1 h2 hu)) (pot_bound k2 b1)) (fun fs2 s3 h3 => ?_)
  exact ret_bind (ret_get _) (fun _ _ _ => ret_bind (ret_set _ _) (fun _ _ _ => ret_pure _ _))

theorem walkIfaceImpls_ret {B r : Nat} {chk : Ty → Bool → M St WObj} (hf : Fine univ rank K B chk) {t : Ty} :
    ∀ (us : List Ty) (acc : List Impl) (s : St), (∀ u ∈ us, rank u < r) → pot univ s * (K + 1) + r ≤ B →
    walkIfaceImpls prog chk t us acc s ≠ .oof := by
  intro us
  induction us with
  | nil => intro acc s _ _; exact ret_pure _ _
  | cons u us ih =>
    intro acc s hr hb
    simp only [walkIfaceImpls]
    by_cases h1 : isStruct (prog.get u) = false
    · rw [if_pos h1]; exact ret_fail _ _
    rw [if_neg h1]
    by_cases h2 : (prog.get u).name = []
    · rw [if_pos h2]; exact ret_fail _ _
    rw [if_neg h2]
    by_cases h3 : prog.implements u t = false
    · rw [if_pos h3]; exact ret_fail _ _
    rw [if_neg h3]
    have := hr u (List.mem_cons_self ..)
    refine ret_bind (hf.ret _ _ _ (by omega)) (fun a s' h => ?_)
    have hb' := pot_bound (hf.keeps _ _ _ _ _ trivial h) hb
    cases a <;> exact ih _ _ (fun u hu => hr u (List.mem_cons_of_mem _ hu)) hb'

/-- one name less leaves room for any rank -/
theorem room {p q K B : Nat} (hp : p < q) (hb : q * (K + 1) ≤ B) : p * (K + 1) + (K + 1) ≤ B := by
  have : (p + 1) * (K + 1) ≤ q * (K + 1) := Nat.mul_le_mul_right _ hp
  rw [Nat.add_mul] at this
  omega

theorem check_fine (hG : Grounded prog univ rank K) : ∀ fuel, Fine univ rank K fuel (check prog fuel) := by
  intro fuel
  induction fuel with
  | zero => exact ⟨fun t id s h => absurd h (Nat.not_lt_zero _), check_keeps (pot_steps prog univ) (closed_true prog) 0⟩
  | succ n ih =>
    refine ⟨?_, check_keeps (pot_steps prog univ) (closed_true prog) (n + 1)⟩
    intro t id s hb
    change checkBody prog (check prog n) t id s ≠ .oof
    unfold checkBody
    cases htm : isTime (prog.get t) with
    | true => rw [if_pos rfl]; exact ret_pure _ _
    | false =>
    rw [if_neg (by simp)]
    have hq : pot univ s * (K + 1) ≤ n := by omega
    cases hsh : (prog.get t).shape with
    | array m e =>
      have := hG.array t m e hsh
      exact ret_bind (ih.ret _ _ _ (by omega)) (fun _ _ _ => ret_pure _ _)
    | slice e =>
      have := hG.slice t e hsh
      exact ret_bind (ih.ret _ _ _ (by omega)) (fun _ _ _ => ret_pure _ _)
    | ptr e =>
      have := hG.ptr t e hsh
      exact ret_bind (ih.ret _ _ _ (by omega)) (fun _ _ _ => ret_pure _ _)
    | func sig => exact ret_fail _ _
    | other => exact ret_fail _ _
    | scalar k =>
      dsimp only
      unfold checkScalar
      cases enumIndex prog t with
      | some i => exact ret_pure _ _
      | none =>
        dsimp only
        by_cases hc : (id && !validIDKind k) = true
        · rw [if_pos hc]; exact ret_fail _ _
        · rw [if_neg hc]; exact ret_pure _ _
    | struct fields =>
      dsimp only
      have hst : IsStruct prog t fields := ⟨hsh, htm⟩
      unfold checkStruct
      dsimp only
      by_cases h1 : id = true
      · rw [if_pos h1]; exact ret_fail _ _
      rw [if_neg h1]
      by_cases hnm : (prog.get t).name = []
      · rw [if_pos hnm]
        refine ret_bind (ret_get _) (fun a s0 h0 => ?_)
        obtain ⟨rfl, rfl⟩ := getS_ok.1 h0
        refine ret_bind (ret_set _ _) (fun _ s1 h1 => ?_)
        have e1 := setS_ok.1 h1
        have hu := (hG.unnamed t fields hsh hnm).1
        refine newStruct_ret (r := rank t) ih hst hu ?_
        intro p hp
        have h2 : pot univ { s1 with types := mapSet s1.types (b%"__UnknownType" ++ natDigits (s.unknownTypes + 1)) ⟨t, (prog.get t).pkg, (prog.get t).name, [], []⟩ } ≤ pot univ s1 :=
          (pot_steps prog univ).setType s1 t _ [] [] trivial
        have h3 : pot univ s1 = pot univ s := by rw [e1]; rfl
        rw [h3] at h2
        have h4 : p * (K + 1) ≤ pot univ s * (K + 1) := Nat.mul_le_mul_right _ (Nat.le_trans hp h2)
        omega
      · rw [if_neg hnm]
        refine ret_bind (ret_get _) (fun a s0 h0 => ?_)
        obtain ⟨rfl, rfl⟩ := getS_ok.1 h0
        cases hl : lookup s.types (qlName prog (prog.get t).name) with
        | some v =>
          dsimp only
          by_cases hp : v.pkg ≠ (prog.get t).pkg
          · rw [if_pos hp]; exact ret_fail _ _
          · rw [if_neg hp]; exact ret_pure _ _
        | none =>
          dsimp only
          have hin := hG.names t hnm
          refine ret_bind (walkStructImpls_ret (r := rank t) ih _ _ _ (fun u hu => hG.implements t u hnm hu) (by omega)) (fun impls s1 h1 => ?_)
          have k1 := walkStructImpls_keeps (pot_steps prog univ) ih.keeps _ _ _ _ _ (fun _ _ => trivial) h1
          refine newStruct_ret (r := K + 1) ih hst (fun u _ => Nat.lt_succ_of_le (hG.bound u)) ?_
          intro p hp
          refine room (q := pot univ s) (Nat.lt_of_le_of_lt hp ?_) hq
          -- the name was free before and is taken now
          have g1 := walkStructImpls_keeps (taken_steps prog univ) (check_keeps (taken_steps prog univ) (closed_true prog) n) _ _ _ _ _
            (fun _ _ => trivial) h1
          unfold pot
          have a1 := g1.1 (qlName prog (prog.get t).name)
          exact Nat.lt_of_lt_of_le (Nat.add_lt_add_right (free_lt_of hin hl (lookup_mapSet_self _ _ _)
            (fun m hm => (by
              by_cases e : m = qlName prog (prog.get t).name
              · subst e; rw [hl] at hm; cases hm
              · rw [lookup_mapSet_ne e]; exact g1.1 m hm))) _) (Nat.add_le_add_left (free_mono g1.2) _)
    | iface =>
      dsimp only
      unfold checkIface
      dsimp only
      by_cases h1 : id = true
      · rw [if_pos h1]; exact ret_fail _ _
      rw [if_neg h1]
      by_cases hnm : (prog.get t).name = []
      · rw [if_pos hnm]; exact ret_fail _ _
      rw [if_neg hnm]
      refine ret_bind (ret_get _) (fun a s0 h0 => ?_)
      obtain ⟨rfl, rfl⟩ := getS_ok.1 h0
      cases hl : lookup s.interfaces (qlName prog (prog.get t).name) with
      | some v =>
        dsimp only
        by_cases hp : v.pkg ≠ (prog.get t).pkg
        · rw [if_pos hp]; exact ret_fail _ _
        · rw [if_neg hp]; exact ret_pure _ _
      | none =>
        dsimp only
        refine ret_bind (ret_set _ _) (fun _ s1 h1 => ?_)
        have e1 := setS_ok.1 h1
        have b1 : pot univ s1 * (K + 1) + (K + 1) ≤ n := by
          refine room (q := pot univ s) ?_ hq
          rw [e1]
          exact Nat.add_lt_add_left (free_mapSet_lt _ (hG.names t hnm) hl) _
        cases prog.implMap (prog.get t).name with
        | none => exact ret_fail _ _
        | some us =>
          dsimp only
          refine ret_bind (walkIfaceImpls_ret (r := K + 1) ih us [] s1 (fun u _ => Nat.lt_succ_of_le (hG.bound u)) b1) (fun impls s2 h2 => ?_)
          have k2 := walkIfaceImpls_keeps (pot_steps prog univ) ih.keeps _ _ _ _ _ (fun _ _ => trivial) h2
          refine ret_bind (walkMethods_ret (r := K + 1) ih _ 0 [] s2 (fun _ _ _ _ _ _ u _ => Nat.lt_succ_of_le (hG.bound u)) (pot_bound k2 b1))
            (fun fs2 s3 h3 => ?_)
          exact ret_bind (ret_get _) (fun _ _ _ => ret_bind (ret_set _ _) (fun _ _ _ => ret_pure _ _))

end
end TypeWalk
end Yarql
