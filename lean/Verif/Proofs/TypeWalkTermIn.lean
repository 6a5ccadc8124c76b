import Verif.Proofs.TypeWalkTerm

/-!
# The walk over the inputs returns, and so does `Parse`
-/

namespace Yarql
namespace TypeWalk
open GoTypes Naming

variable {F V W : Type}

/-- names once taken stay taken, and no name gets taken twice -/
structure KeepI (s s' : InSt) : Prop where
  taken : ∀ n, (lookup s.inTypes n).isSome = true → (lookup s'.inTypes n).isSome = true
  once : (s.inTypes.map (·.1)).Nodup → (s'.inTypes.map (·.1)).Nodup

theorem KeepI.refl (s : InSt) : KeepI s s := ⟨fun _ h => h, fun h => h⟩
theorem KeepI.trans {a b c : InSt} (h : KeepI a b) (h' : KeepI b c) : KeepI a c := ⟨fun n x => h'.taken n (h.taken n x), fun x => h'.once (h.once x)⟩
theorem KeepI.set (s : InSt) (n : Bytes) (x : InEntry) : KeepI s { s with inTypes := mapSet s.inTypes n x } := by
  refine ⟨fun m h => ?_, nodup_mapSet⟩
  by_cases e : m = n
  · subst e; simp [lookup_mapSet_self]
  · simpa [lookup_mapSet_ne e] using h

/-- `chk` keeps names taken -/
def KeepsI (chk : Ty → Bool → M InSt Input) : Prop := ∀ t id s a s', chk t id s = .ok a s' → KeepI s s'

section
variable {prog : Program F} {isType : Bytes → Bool}

theorem walkInFields_keepI {chk : Ty → Bool → M InSt Input} (hg : KeepsI chk) : ∀ (fs : List GoField) (i : Nat) (acc : List InField)
    (s : InSt) (a : List InField) (s' : InSt), walkInFields chk i fs acc s = .ok a s' → KeepI s s' := by
  intro fs
  induction fs with
  | nil => intro i acc s a s' h; obtain ⟨_, e⟩ := pure_ok.1 h; subst e; exact .refl _
  | cons f fs ih =>
    intro i acc s a s' h
    simp only [walkInFields] at h
    cases he : f.embedded with
    | true => rw [if_pos he] at h; exact ih _ _ _ _ _ h
    | false =>
    rw [if_neg (by simp [he])] at h
    cases hn : fieldName f.name f.tag with
    | err => rw [hn] at h; exact (fail_ok.1 h).elim
    | ignored => rw [hn] at h; exact ih _ _ _ _ _ h
    | named ql id =>
      rw [hn] at h
      obtain ⟨x, s1, h1, h⟩ := bind_ok.1 h
      exact (hg _ _ _ _ _ h1).trans (ih _ _ _ _ _ h)

theorem argFieldsOf_keepI {chk : Ty → Bool → M InSt Input} (hg : KeepsI chk) {idx : Nat} : ∀ (fs : List GoField) (i : Nat)
    (acc : List ArgField) (s : InSt) (a : List ArgField) (s' : InSt), argFieldsOf chk idx i fs acc s = .ok a s' → KeepI s s' := by
  intro fs
  induction fs with
  | nil => intro i acc s a s' h; obtain ⟨_, e⟩ := pure_ok.1 h; subst e; exact .refl _
  | cons f fs ih =>
    intro i acc s a s' h
    simp only [argFieldsOf] at h
    cases he : f.embedded with
    | true => rw [if_pos he] at h; exact ih _ _ _ _ _ h
    | false =>
    rw [if_neg (by simp [he])] at h
    cases hn : fieldName f.name f.tag with
    | err => rw [hn] at h; exact (fail_ok.1 h).elim
    | ignored => rw [hn] at h; exact ih _ _ _ _ _ h
    | named ql id =>
      rw [hn] at h
      obtain ⟨x, s1, h1, h⟩ := bind_ok.1 h
      exact (hg _ _ _ _ _ h1).trans (ih _ _ _ _ _ h)

/-- the part of `checkInStruct` after the name is known -/
theorem inTable_keepI {chk : Ty → Bool → M InSt Input} (hg : KeepsI chk) {t : Ty} {name : Bytes} {fields : List GoField} {s s' : InSt} {a : Input}
    (h : (match lookup s.inTypes name with
      | some _ => (pure (.struct name) : M InSt Input)
      | none => do
        setS { s with inTypes := mapSet s.inTypes name ⟨t, []⟩ }
        let fs ← walkInFields chk 0 fields []
        let s ← getS
        setS { s with inTypes := mapSet s.inTypes name ⟨t, fs⟩ }
        return .struct name) s = .ok a s') : KeepI s s' := by
  cases hl : lookup s.inTypes name with
  | some e => rw [hl] at h; obtain ⟨_, e⟩ := pure_ok.1 h; subst e; exact .refl _
  | none =>
    rw [hl] at h; dsimp only at h
    obtain ⟨_, s1, h1, h⟩ := bind_ok.1 h
    have e1 := setS_ok.1 h1
    obtain ⟨fs, s2, h2, h⟩ := bind_ok.1 h
    obtain ⟨_, _, h3, h⟩ := bind_ok.1 h
    obtain ⟨rfl, rfl⟩ := getS_ok.1 h3
    obtain ⟨_, s4, h4, h⟩ := bind_ok.1 h
    have e4 := setS_ok.1 h4
    obtain ⟨_, e5⟩ := pure_ok.1 h
    have k1 : KeepI s s1 := by rw [e1]; exact .set ..
    have k4 : KeepI s2 s4 := by rw [e4]; exact .set ..
    subst e5
    exact (k1.trans (walkInFields_keepI hg _ _ _ _ _ _ h2)).trans k4

theorem checkInStruct_keepI {chk : Ty → Bool → M InSt Input} (hg : KeepsI chk) {t : Ty} {fields : List GoField} {s s' : InSt} {a : Input}
    (h : checkInStruct prog isType chk t fields s = .ok a s') : KeepI s s' := by
  unfold checkInStruct at h
  cases htm : isTime (prog.get t) with
  | true => rw [if_pos htm] at h; obtain ⟨_, e⟩ := pure_ok.1 h; subst e; exact .refl _
  | false =>
  rw [if_neg (by simp [htm])] at h
  obtain ⟨_, _, h1, h⟩ := bind_ok.1 h
  obtain ⟨rfl, rfl⟩ := getS_ok.1 h1
  by_cases hnm : (prog.get t).name = []
  · simp only [if_pos hnm] at h
    obtain ⟨_, s1, h1, h⟩ := bind_ok.1 h
    have e1 := setS_ok.1 h1
    obtain ⟨_, _, h2, h⟩ := bind_ok.1 h
    obtain ⟨rfl, rfl⟩ := getS_ok.1 h2
    have k1 : KeepI s s1 := by rw [e1]; exact ⟨fun _ h => h, fun h => h⟩
    exact k1.trans (inTable_keepI hg h)
  · simp only [if_neg hnm] at h
    obtain ⟨_, _, h2, h⟩ := bind_ok.1 h
    obtain ⟨rfl, rfl⟩ := getS_ok.1 h2
    exact inTable_keepI hg h

theorem checkInput_keepI : ∀ fuel, KeepsI (checkInput prog isType fuel) := by
  intro fuel
  induction fuel with
  | zero => intro t id s a s' h; exact absurd h (by change WR.oof ≠ _; simp)
  | succ n ih =>
    intro t id s a s' h
    change checkInputBody prog isType (checkInput prog isType n) t id s = _ at h
    unfold checkInputBody at h
    cases hsh : (prog.get t).shape with
    | scalar k =>
      rw [hsh] at h; dsimp only at h
      cases he : enumIndex prog t with
      | some i => rw [he] at h; obtain ⟨_, e⟩ := pure_ok.1 h; subst e; exact .refl _
      | none =>
        rw [he] at h; dsimp only at h
        by_cases hc : (id && !validIDKind k) = true
        · rw [if_pos hc] at h; exact (fail_ok.1 h).elim
        · rw [if_neg hc] at h; obtain ⟨_, e⟩ := pure_ok.1 h; subst e; exact .refl _
    | ptr e =>
      rw [hsh] at h; dsimp only at h
      cases hf : isFileHeader (prog.get e) with
      | true => rw [if_pos hf] at h; obtain ⟨_, e⟩ := pure_ok.1 h; subst e; exact .refl _
      | false =>
        rw [if_neg (by simp [hf])] at h
        obtain ⟨x, s1, h1, h⟩ := bind_ok.1 h
        obtain ⟨_, e⟩ := pure_ok.1 h; subst e
        exact ih _ _ _ _ _ h1
    | array m e =>
      rw [hsh] at h; dsimp only at h
      obtain ⟨x, s1, h1, h⟩ := bind_ok.1 h
      obtain ⟨_, e⟩ := pure_ok.1 h; subst e
      exact ih _ _ _ _ _ h1
    | slice e =>
      rw [hsh] at h; dsimp only at h
      obtain ⟨x, s1, h1, h⟩ := bind_ok.1 h
      obtain ⟨_, e⟩ := pure_ok.1 h; subst e
      exact ih _ _ _ _ _ h1
    | struct fields => rw [hsh] at h; exact checkInStruct_keepI ih h
    | iface => rw [hsh] at h; exact (fail_ok.1 h).elim
    | func sig => rw [hsh] at h; exact (fail_ok.1 h).elim
    | other => rw [hsh] at h; exact (fail_ok.1 h).elim

end

/-! ## Returning -/

section
variable {prog : Program F} {isType : Bytes → Bool} {univ : List Bytes} {rank : Ty → Nat} {K : Nat}

/-- the names of input types -/
def univI (univ : List Bytes) : List Bytes := univ ++ univ.map (· ++ b%"__input")

def potI (univ : List Bytes) (s : InSt) : Nat := free (univI univ) s.inTypes

theorem KeepI.pot {s s' : InSt} (h : KeepI s s') : potI univ s' ≤ potI univ s := free_mono h.taken

theorem potI_bound {s s' : InSt} {r B : Nat} (h : KeepI s s') (hb : potI univ s * (K + 1) + r ≤ B) :
    potI univ s' * (K + 1) + r ≤ B := Nat.le_trans (Nat.add_le_add_right (Nat.mul_le_mul_right _ h.pot) _) hb

/-- `chk` returns on types of a small enough rank, and keeps names taken -/
structure FineI (univ : List Bytes) (rank : Ty → Nat) (K B : Nat) (chk : Ty → Bool → M InSt Input) : Prop where
  ret : ∀ t id s, potI univ s * (K + 1) + rank t < B → chk t id s ≠ .oof
  keeps : KeepsI chk

theorem walkInFields_ret {B r : Nat} {chk : Ty → Bool → M InSt Input} (hf : FineI univ rank K B chk) :
    ∀ (fs : List GoField) (i : Nat) (acc : List InField) (s : InSt), (∀ gf ∈ fs, rank gf.ty < r) →
    potI univ s * (K + 1) + r ≤ B → walkInFields chk i fs acc s ≠ .oof := by
  intro fs
  induction fs with
  | nil => intro i acc s _ _; exact ret_pure _ _
  | cons f fs ih =>
    intro i acc s hr hb
    have hr' := fun gf h => hr gf (List.mem_cons_of_mem _ h)
    have h0 := hr f (List.mem_cons_self ..)
    simp only [walkInFields]
    cases he : f.embedded with
    | true => rw [if_pos rfl]; exact ih _ _ _ hr' hb
    | false =>
    rw [if_neg (by simp)]
    cases hn : fieldName f.name f.tag with
    | err => exact ret_fail _ _
    | ignored => exact ih _ _ _ hr' hb
    | named ql id =>
      exact ret_bind (hf.ret _ _ _ (by omega)) (fun a s' h => ih _ _ _ hr' (potI_bound (hf.keeps _ _ _ _ _ h) hb))

theorem argFieldsOf_ret {B r : Nat} {chk : Ty → Bool → M InSt Input} (hf : FineI univ rank K B chk) {idx : Nat} :
    ∀ (fs : List GoField) (i : Nat) (acc : List ArgField) (s : InSt), (∀ gf ∈ fs, rank gf.ty < r) →
    potI univ s * (K + 1) + r ≤ B → argFieldsOf chk idx i fs acc s ≠ .oof := by
  intro fs
  induction fs with
  | nil => intro i acc s _ _; exact ret_pure _ _
  | cons f fs ih =>
    intro i acc s hr hb
    have hr' := fun gf h => hr gf (List.mem_cons_of_mem _ h)
    have h0 := hr f (List.mem_cons_self ..)
    simp only [argFieldsOf]
    cases he : f.embedded with
    | true => rw [if_pos rfl]; exact ih _ _ _ hr' hb
    | false =>
    rw [if_neg (by simp)]
    cases hn : fieldName f.name f.tag with
    | err => exact ret_fail _ _
    | ignored => exact ih _ _ _ hr' hb
    | named ql id =>
      exact ret_bind (hf.ret _ _ _ (by omega)) (fun a s' h => ih _ _ _ hr' (potI_bound (hf.keeps _ _ _ _ _ h) hb))

theorem inTable_ret {B r : Nat} {chk : Ty → Bool → M InSt Input} (hf : FineI univ rank K B chk) {t : Ty} {name : Bytes} {fields : List GoField}
    {s : InSt} (hr : ∀ gf ∈ fields, rank gf.ty < r)
    (hb : lookup s.inTypes name = none → potI univ { s with inTypes := mapSet s.inTypes name ⟨t, []⟩ } * (K + 1) + r ≤ B) :
    (match lookup s.inTypes name with
      | some _ => (pure (.struct name) : M InSt Input)
      | none => do
        setS { s with inTypes := mapSet s.inTypes name ⟨t, []⟩ }
        let fs ← walkInFields chk 0 fields []
        let s ← getS
        setS { s with inTypes := mapSet s.inTypes name ⟨t, fs⟩ }
        return .struct name) s ≠ .oof := by
  cases hl : lookup s.inTypes name with
  | some e => exact ret_pure _ _
  | none =>
    dsimp only
    refine ret_bind (ret_set _ _) (fun _ s1 h1 => ?_)
    have e1 := setS_ok.1 h1
    refine ret_bind (walkInFields_ret hf fields 0 [] s1 hr (by rw [e1]; exact hb hl)) (fun fs s2 h2 => ?_)
    exact ret_bind (ret_get _) (fun _ _ _ => ret_bind (ret_set _ _) (fun _ _ _ => ret_pure _ _))

theorem inputName_mem (hG : Grounded prog univ rank K) {t : Ty} (h : (prog.get t).name ≠ []) :
    inputName prog isType (prog.get t).name ∈ univI univ := by
  unfold inputName univI
  by_cases hi : isType (qlName prog (prog.get t).name) = true
  · rw [if_pos hi]; exact List.mem_append_right _ (List.mem_map.2 ⟨_, hG.names t h, rfl⟩)
  · rw [if_neg hi]; exact List.mem_append_left _ (hG.names t h)

theorem checkInStruct_ret (hG : Grounded prog univ rank K) {n : Nat} {chk : Ty → Bool → M InSt Input} (hf : FineI univ rank K n chk) {t : Ty}
    {fields : List GoField} {s : InSt} (hsh : (prog.get t).shape = .struct fields) (hb : potI univ s * (K + 1) + rank t < n + 1) :
    checkInStruct prog isType chk t fields s ≠ .oof := by
  unfold checkInStruct
  cases htm : isTime (prog.get t) with
  | true => rw [if_pos rfl]; exact ret_pure _ _
  | false =>
  rw [if_neg (by simp)]
  refine ret_bind (ret_get _) (fun _ _ h1 => ?_)
  obtain ⟨rfl, rfl⟩ := getS_ok.1 h1
  by_cases hnm : (prog.get t).name = []
  · simp only [if_pos hnm]
    refine ret_bind (ret_set _ _) (fun _ s1 h1 => ?_)
    have e1 := setS_ok.1 h1
    refine ret_bind (ret_get _) (fun _ _ h2 => ?_)
    obtain ⟨rfl, rfl⟩ := getS_ok.1 h2
    refine inTable_ret (r := rank t) hf ((hG.unnamed t fields hsh hnm).2) (fun _ => ?_)
    have h3 : potI univ { s1 with inTypes := mapSet s1.inTypes (b%"__UnknownInput" ++ natDigits (s.unknownInputs + 1)) ⟨t, []⟩ } ≤ potI univ s := by
      refine Nat.le_trans (KeepI.pot (KeepI.set s1 _ _)) ?_
      rw [e1]; exact Nat.le_refl _
    have h4 := Nat.mul_le_mul_right (K + 1) h3
    omega
  · simp only [if_neg hnm]
    refine ret_bind (ret_get _) (fun _ _ h2 => ?_)
    obtain ⟨rfl, rfl⟩ := getS_ok.1 h2
    refine inTable_ret (r := K + 1) hf (fun gf _ => Nat.lt_succ_of_le (hG.bound gf.ty)) (fun hl => ?_)
    exact room (q := potI univ s) (free_mapSet_lt _ (inputName_mem hG hnm) hl) (by omega)

theorem checkInput_fine (hG : Grounded prog univ rank K) : ∀ fuel, FineI univ rank K fuel (checkInput prog isType fuel) := by
  intro fuel
  induction fuel with
  | zero => exact ⟨fun t id s h => absurd h (Nat.not_lt_zero _), checkInput_keepI 0⟩
  | succ n ih =>
    refine ⟨?_, checkInput_keepI (n + 1)⟩
    intro t id s hb
    change checkInputBody prog isType (checkInput prog isType n) t id s ≠ .oof
    unfold checkInputBody
    cases hsh : (prog.get t).shape with
    | scalar k =>
      dsimp only
      cases enumIndex prog t with
      | some i => exact ret_pure _ _
      | none =>
        dsimp only
        by_cases hc : (id && !validIDKind k) = true
        · rw [if_pos hc]; exact ret_fail _ _
        · rw [if_neg hc]; exact ret_pure _ _
    | ptr e =>
      have := hG.ptr t e hsh
      dsimp only
      cases hf : isFileHeader (prog.get e) with
      | true => rw [if_pos rfl]; exact ret_pure _ _
      | false =>
        rw [if_neg (by simp)]
        exact ret_bind (ih.ret _ _ _ (by omega)) (fun _ _ _ => ret_pure _ _)
    | array m e =>
      have := hG.array t m e hsh
      exact ret_bind (ih.ret _ _ _ (by omega)) (fun _ _ _ => ret_pure _ _)
    | slice e =>
      have := hG.slice t e hsh
      exact ret_bind (ih.ret _ _ _ (by omega)) (fun _ _ _ => ret_pure _ _)
    | struct fields => exact checkInStruct_ret hG ih hsh hb
    | iface => exact ret_fail _ _
    | func sig => exact ret_fail _ _
    | other => exact ret_fail _ _

/-- enough fuel for every state -/
def Enough (univ : List Bytes) (K B : Nat) : Prop := (univI univ).length * (K + 1) + (K + 1) ≤ B

theorem enough_state {B : Nat} (h : Enough univ K B) (s : InSt) : potI univ s * (K + 1) + (K + 1) ≤ B :=
  Nat.le_trans (Nat.add_le_add_right (Nat.mul_le_mul_right _ (free_le _ _)) _) h

theorem insOf_ret (hG : Grounded prog univ rank K) {B : Nat} {chk : Ty → Bool → M InSt Input} (hf : FineI univ rank K B chk) (hB : Enough univ K B) :
    ∀ (ts : List Ty) (i : Nat) (ins : List (BaseInput F)) (acc : List ArgField) (s : InSt), insOf prog chk i ts ins acc s ≠ .oof := by
  intro ts
  induction ts with
  | nil => intro i ins acc s; exact ret_pure _ _
  | cons t ts ih =>
    intro i ins acc s
    simp only [insOf]
    by_cases h1 : isCtxPtr prog t = true
    · rw [if_pos h1]; exact ih _ _ _ _
    rw [if_neg h1]
    by_cases h2 : isCtx (prog.get t) = true
    · rw [if_pos h2]; exact ret_fail _ _
    rw [if_neg h2]
    cases hsh : (prog.get t).shape with
    | struct fields =>
      exact ret_bind (argFieldsOf_ret (r := K + 1) hf fields 0 acc s (fun gf _ => Nat.lt_succ_of_le (hG.bound gf.ty)) (enough_state hB s))
        (fun _ _ _ => ih _ _ _ _)
    | _ => exact ret_fail _ _

theorem insOf_keepI {chk : Ty → Bool → M InSt Input} (hg : KeepsI chk) :
    ∀ (ts : List Ty) (i : Nat) (ins : List (BaseInput F)) (acc : List ArgField) (s : InSt) a (s' : InSt),
      insOf prog chk i ts ins acc s = .ok a s' → KeepI s s' := by
  intro ts
  induction ts with
  | nil => intro i ins acc s a s' h; obtain ⟨_, e⟩ := pure_ok.1 h; subst e; exact .refl _
  | cons t ts ih =>
    intro i ins acc s a s' h
    simp only [insOf] at h
    by_cases h1 : isCtxPtr prog t = true
    · rw [if_pos h1] at h; exact ih _ _ _ _ _ _ h
    rw [if_neg h1] at h
    by_cases h2 : isCtx (prog.get t) = true
    · rw [if_pos h2] at h; exact (fail_ok.1 h).elim
    rw [if_neg h2] at h
    cases hsh : (prog.get t).shape with
    | struct fields =>
      rw [hsh] at h; dsimp only at h
      obtain ⟨x, s1, h1, h⟩ := bind_ok.1 h
      exact (argFieldsOf_keepI hg _ _ _ _ _ _ h1).trans (ih _ _ _ _ _ _ h)
    | _ => rw [hsh] at h; exact (fail_ok.1 h).elim

theorem allIns_keepI {chk : Ty → Bool → M InSt Input} (hg : KeepsI chk) :
    ∀ (ms : List MethodRec) acc (s : InSt) a (s' : InSt), allIns prog chk ms acc s = .ok a s' → KeepI s s' := by
  intro ms
  induction ms with
  | nil => intro acc s a s' h; obtain ⟨_, e⟩ := pure_ok.1 h; subst e; exact .refl _
  | cons m ms ih =>
    intro acc s a s' h
    simp only [allIns] at h
    obtain ⟨x, s1, h1, h⟩ := bind_ok.1 h
    exact (insOf_keepI hg _ _ _ _ _ _ _ h1).trans (ih _ _ _ _ h)

theorem dirIns_keepI {chk : Ty → Bool → M InSt Input} (hg : KeepsI chk) :
    ∀ (ds : List (DirDecl V)) acc (s : InSt) a (s' : InSt), dirIns prog chk ds acc s = .ok a s' → KeepI s s' := by
  intro ds
  induction ds with
  | nil => intro acc s a s' h; obtain ⟨_, e⟩ := pure_ok.1 h; subst e; exact .refl _
  | cons m ms ih =>
    intro acc s a s' h
    simp only [dirIns] at h
    obtain ⟨x, s1, h1, h⟩ := bind_ok.1 h
    exact (insOf_keepI hg _ _ _ _ _ _ _ h1).trans (ih _ _ _ _ h)

theorem allIns_ret (hG : Grounded prog univ rank K) {B : Nat} {chk : Ty → Bool → M InSt Input} (hf : FineI univ rank K B chk) (hB : Enough univ K B) :
    ∀ (ms : List MethodRec) acc (s : InSt), allIns prog chk ms acc s ≠ .oof := by
  intro ms
  induction ms with
  | nil => intro acc s; exact ret_pure _ _
  | cons m ms ih => intro acc s; exact ret_bind (insOf_ret hG hf hB _ _ _ _ _) (fun _ _ _ => ih _ _)

theorem dirIns_ret (hG : Grounded prog univ rank K) {B : Nat} {chk : Ty → Bool → M InSt Input} (hf : FineI univ rank K B chk) (hB : Enough univ K B) :
    ∀ (ds : List (DirDecl V)) acc (s : InSt), dirIns prog chk ds acc s ≠ .oof := by
  intro ds
  induction ds with
  | nil => intro acc s; exact ret_pure _ _
  | cons m ms ih => intro acc s; exact ret_bind (insOf_ret hG hf hB _ _ _ _ _) (fun _ _ _ => ih _ _)

theorem enough_out {B : Nat} (h : Enough univ K B) (s : St) : pot univ s * (K + 1) + (K + 1) ≤ B := by
  refine Nat.le_trans (Nat.add_le_add_right (Nat.mul_le_mul_right _ ?_) _) h
  unfold pot univI
  rw [List.length_append, List.length_map]
  exact Nat.add_le_add (free_le _ _) (free_le _ _)

theorem walkRoots_ret (hG : Grounded prog univ rank K) {B : Nat} (hB : Enough univ K B) (d : Decl V) (s : St) : walkRoots prog B d s ≠ .oof := by
  have hf := check_fine hG B
  have hret : ∀ t id s, check prog B t id s ≠ .oof := fun t id s => hf.ret t id s (by
    have h1 := enough_out hB s
    have h2 := hG.bound t
    omega)
  unfold walkRoots
  refine ret_bind (hret _ _ _) (fun o s1 _ => ?_)
  cases o with
  | objRef q _ _ =>
    dsimp only
    refine ret_bind (hret _ _ _) (fun o s2 _ => ?_)
    cases o with
    | objRef m _ _ =>
      dsimp only
      refine ret_bind (ret_get _) (fun _ _ h => ?_)
      obtain ⟨rfl, rfl⟩ := getS_ok.1 h
      cases lookup s2.types q with
      | none => exact ret_panic _
      | some eq =>
      cases lookup s2.types m with
      | none => exact ret_panic _
      | some em =>
      dsimp only
      by_cases hr : d.noEqualCheck = false ∧ eq.pkg ++ eq.goName = em.pkg ++ em.goName
      · rw [if_pos hr]; exact ret_fail _ _
      rw [if_neg hr]
      cases d.inject with
      | none => exact ret_pure _ _
      | some inj =>
        exact ret_bind (hret _ _ _) (fun _ s3 _ => ret_bind
          (checkOuts_ret (r := K + 1) hf (fun u _ => Nat.lt_succ_of_le (hG.bound u)) (enough_out hB s3)) (fun _ _ _ => ret_pure _ _))
    | _ => exact ret_fail _ _
  | _ => exact ret_fail _ _

/-- `Parse` returns. -/
theorem parse_ret (hG : Grounded prog univ rank K) {B : Nat} (hB : Enough univ K B) (d : Decl V) : parse prog B d ≠ .oof := by
  unfold parse
  have h1 := walkRoots_ret hG hB d ⟨[], [], 0, []⟩
  cases hw : walkRoots prog B d ⟨[], [], 0, []⟩ with
  | oof => exact absurd hw h1
  | err e => simp
  | panic => simp
  | ok r s =>
    obtain ⟨q, m, inj⟩ := r
    dsimp only
    have hf := checkInput_fine (isType := fun n => (lookup s.types n).isSome) hG B
    have h2 := allIns_ret hG hf hB s.methods [] ⟨[], 0⟩
    cases ha : allIns prog (checkInput prog (fun n => (lookup s.types n).isSome) B) s.methods [] ⟨[], 0⟩ with
    | oof => exact absurd ha h2
    | err e => simp
    | panic => simp
    | ok ms i =>
      dsimp only
      have h3 := dirIns_ret hG hf hB d.directives [] i
      cases hd : dirIns prog (checkInput prog (fun n => (lookup s.types n).isSome) B) d.directives [] i with
      | oof => exact absurd hd h3
      | err e => simp
      | panic => simp
      | ok dirs i =>
        dsimp only
        cases assemble prog d q m inj s ms i dirs <;> simp

end
end TypeWalk
end Yarql
