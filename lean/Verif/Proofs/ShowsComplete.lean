import Verif.Proofs.ShowsSound
import Verif.Proofs.Total

/-!
# What the specification shows is what is evaluated

If `Shows` describes a response to selections that stay within the depth limit, evaluation (where it is defined, see
`Proofs/Total.lean`) reports no error, changes the world the same way and gives the same response up to the spelling of JSON strings.
-/

namespace Yarql
namespace Eval
open Doc Resolver Yarql.Bind Binding Typed
open Shows (Same SameItems SameMembers)

section
variable {F V W α β : Type}

/-! ## Texts -/

theorem canon_unique (t : Bytes) : ∀ n, Shows.NatCanon t n → t = natDigits n := by
  induction ht : t.length using Nat.strongRecOn generalizing t with
  | ind L ih =>
    intro n h
    obtain ⟨⟨h1, h2, h3⟩, h4⟩ := h
    rcases List.eq_nil_or_concat t with rfl | ⟨s, b, rfl⟩
    · exact absurd rfl h1
    · rw [List.concat_eq_append] at *
      have hb := h2 b (by simp)
      have hb1 : 48 ≤ b.toNat := UInt8.le_iff_toNat_le.1 hb.1
      have hb2 : b.toNat ≤ 57 := UInt8.le_iff_toNat_le.1 hb.2
      have hd : decVal (s ++ [b]) = n := h3
      rw [decVal_snoc] at hd
      have edig : digit n = b := by
        apply UInt8.toNat_inj.1
        rw [digit_toNat]
        omega
      by_cases hs : s = []
      · subst hs
        have : decVal [] = 0 := rfl
        rw [natDigits_small (by omega), edig]
        rfl
      · have hcan : Shows.NatCanon s (decVal s) := by
          refine ⟨⟨hs, fun d hd => h2 d (by simp [hd]), rfl⟩, fun hh => ?_⟩
          have : (s ++ [b]).head? = some c%'0' := by
            cases s with
            | nil => exact absurd rfl hs
            | cons a s => simpa using hh
          have := h4 this
          cases s with
          | nil => exact absurd rfl hs
          | cons a s => simp at this
        have e := ih s.length (by simp at ht; omega) s rfl _ hcan
        have hpos : decVal s ≠ 0 := by
          intro h0
          rw [h0] at e
          have e : s = [48] := e
          subst e
          have := h4 rfl
          cases this
        rw [natDigits_step (by omega), edig]
        have : n / 10 = decVal s := by omega
        rw [this, ← e]

theorem pad_unique {w n : Nat} {s : Bytes} (h : Shows.PadText w n s) : s = Time.pad w n := by
  obtain ⟨t, ht, rfl⟩ := h
  rw [canon_unique t n ht]
  rfl

theorem time_unique {t : Time.T} {s : Bytes} (h : Shows.TimeText t s) : s = Time.timeToIso8601String [] t := by
  obtain ⟨y, mo, d, hh, mi, se, ms, ⟨y', h1, rfl⟩, h2, h3, h4, h5, h6, h7, rfl⟩ := h
  rw [pad_unique h1, pad_unique h2, pad_unique h3, pad_unique h4, pad_unique h5, pad_unique h6, pad_unique h7]
  simp [Time.timeToIso8601String, Time.padYear]

theorem canonInt_unique {t : Bytes} {i : Int} (h : Shows.IntCanon t i) : t = intDigits i := by
  unfold intDigits
  rcases h with ⟨h1, h2⟩ | ⟨h1, ds, rfl, h2⟩
  · rw [if_neg (by omega), canon_unique t _ h2]
    congr 1; omega
  · rw [if_pos h1, canon_unique ds _ h2]
    congr 2; omega

theorem text_same (env : Env F V W) {k : Kind} {x : Scalar F} {t t' : Bytes} (h : Shows.Text env k x t) (h' : scalarText env k x = some t') :
    t = t' ∨ (k = .string ∧ Same (.leaf t) (.leaf t')) := by
  cases h with
  | string hr hj =>
    have e := scalarText_shows env _ _ _ h'
    cases e with
    | string hr' hj' =>
      have := JsonString.reads_unique hr hr'
      subst this
      exact Or.inr ⟨rfl, .string hj hj'⟩
  | true => exact Or.inl (Option.some.inj h')
  | false => exact Or.inl (Option.some.inj h')
  | int h => exact Or.inl ((canonInt_unique h).trans (Option.some.inj h'))
  | uint h => exact Or.inl ((canon_unique _ _ h).trans (Option.some.inj h'))
  | float32 => exact Or.inl (Option.some.inj h')
  | float64 => exact Or.inl (Option.some.inj h')

theorem dataText_same (env : Env F V W) {isID : Bool} {k : Kind} {x : Scalar F} {t t' : Bytes} (h : Shows.Scalar env isID k x t)
    (h' : dataText env isID k x = some t') : Same (.leaf t) (.leaf t') := by
  unfold dataText at h'
  cases h with
  | plain hc ht =>
    rw [if_neg (by rcases hc with rfl | rfl <;> simp)] at h'
    rcases text_same env ht h' with rfl | ⟨-, h⟩
    · exact .leaf
    · exact h
  | id hc ht =>
    rw [if_pos (by simpa using hc)] at h'
    obtain ⟨t1, h1, rfl⟩ := Option.map_eq_some_iff.1 h'
    rcases text_same env ht h1 with rfl | ⟨hk, -⟩
    · exact .leaf
    · exact absurd hk hc

theorem sameMembers_append {a a' b b' : List (Bytes × Out)} (h1 : SameMembers a a') (h2 : SameMembers b b') : SameMembers (a ++ b) (a' ++ b') := by
  induction a generalizing a' with
  | nil => cases h1; exact h2
  | cons x xs ih =>
    cases h1 with
    | cons h h' => exact .cons h (ih h')

/-! ## Evaluation -/

/-- nothing reported, the world ends as `w'` -/
def Q0 (P : α → Prop) (w' : W) : α → W → List (Bytes × List Seg) → Prop := fun a w1 new => new = [] ∧ w1 = w' ∧ P a

variable (r : Req F V W)

theorem args_complete (hu : Usable r.vars) (path : List Seg) (m : Method F) {args : List (Bytes × Value)} {ins outs : List (Arg F)}
    (h : Args r.env r.schema.enums r.schema.inTypes (Var r.env r.schema.enums r.schema.inTypes r.vars r.decls) m.inFields args ins outs) :
    Succeeds (bindArgs r path m args ins) outs := by
  induction h with
  | nil => unfold bindArgs; exact .some
  | cons hf hl hw _ ih =>
    obtain ⟨w1, w2⟩ := (withArg_iff _ _ _ _ _).2 hw
    unfold bindArgs
    rw [hf]
    dsimp only
    rw [w1]
    dsimp only
    refine .bind (lit_complete r path (fun n cur inp x set hv => var_complete r path hu n cur inp x set hv) hl) ?_
    dsimp only
    rw [w2]
    exact ih

theorem callWith_clean (hu : Usable r.vars) (path : List Seg) (m : Method F) (fn : V) {args : List (Bytes × Value)} {inputs : List (Arg F)}
    {w w1 : W} {outs : List V} (h : Shows.Inputs (ctxOf r) m args inputs) (hc : r.env.call w fn (Shows.pathArg path) inputs = some (w1, outs)) :
    Run w (callWith r path m fn args) (Q0 (fun a => a = some outs) w1) := by
  unfold callWith
  refine Run.bind (Run.mono (Q' := Q0 (fun a => a = some inputs) w) ?_ ?_)
  · intro es a es' hw hm
    obtain ⟨es1, h1⟩ := args_complete r hu path m h es
    have h1 : bindArgs r path m args (freshInputs m) es = _ := h1
    rw [h1] at hm
    cases hm
    have h2 := bindArgs_delivers r path m args (freshInputs m) es (some inputs) es' h1
    exact ⟨[], by rw [h2.2.2]; simp, rfl, by rw [h2.1, hw], rfl⟩
  · rintro a _ _ ⟨rfl, rfl, rfl⟩
    refine Run.getWorld ?_
    rw [pathArg_eq, hc]
    exact Run.setWorld (Run.pure ⟨rfl, rfl, rfl⟩)

theorem directives_complete (hu : Usable r.vars) (path : List Seg) (loc : UInt8) {w w' : W} {ds : List Directive} {b : Bool}
    (h : Shows.Directives (ctxOf r) loc path w ds b w') :
    Run w (evalDirectives r path loc ds) (Q0 (fun a => a = some b) w') := by
  induction h with
  | nil => unfold evalDirectives; exact Run.pure ⟨rfl, rfl, rfl⟩
  | skip ht hx hi hc ho hs =>
    unfold evalDirectives evalDirective
    have e : (lookup r.schema.directives loc).bind _ = some _ := Option.bind_eq_some_iff.2 ⟨_, ht, hx⟩
    rw [e]
    dsimp only
    refine Run.bind (Run.bind ((callWith_clean r hu path _ _ hi hc).mono ?_))
    rintro a _ _ ⟨rfl, rfl, rfl⟩
    dsimp only
    rw [ho]
    refine Run.getWorld (Run.pure ?_)
    have hs : r.env.skip _ _ = true := hs
    rw [hs]
    exact Run.pure ⟨rfl, rfl, rfl⟩
  | pass ht hx hi hc ho hs _ ih =>
    unfold evalDirectives evalDirective
    have e : (lookup r.schema.directives loc).bind _ = some _ := Option.bind_eq_some_iff.2 ⟨_, ht, hx⟩
    rw [e]
    dsimp only
    refine Run.bind (Run.bind ((callWith_clean r hu path _ _ hi hc).mono ?_))
    rintro a _ _ ⟨rfl, rfl, rfl⟩
    dsimp only
    rw [ho]
    refine Run.getWorld (Run.pure ?_)
    have hs : r.env.skip _ _ = false := hs
    rw [hs]
    exact ih

theorem fieldValue_complete {w : W} {v x : V} {f : RField F V} (h : Shows.FieldValue (ctxOf r) w v f x) :
    Run w (valueOfField r v f) (Q0 (fun a => a = x) w) := by
  unfold valueOfField
  cases h with
  | fixed h => rw [h]; exact Run.pure ⟨rfl, rfl, rfl⟩
  | method h1 h2 h3 => rw [h1]; dsimp only; rw [h2]; dsimp only; rw [if_pos h3]; exact Run.pure ⟨rfl, rfl, rfl⟩
  | @field fs _ h1 h2 h3 h4 =>
    rw [h1]
    have sf : Run w (structField r v f.structFieldIdx) (Q0 (fun a => a = x) w) := by
      unfold structField
      refine Run.getWorld ?_
      have h3 : r.env.view w v = .struct fs := h3
      rw [h3]
      dsimp only
      rw [h4]
      exact Run.pure ⟨rfl, rfl, rfl⟩
    dsimp only
    cases ho : f.obj with
    | method m o => dsimp only; rw [if_neg (by rw [h2 m o ho]; simp)]; exact sf
    | _ => exact sf

theorem callable_takesArgs {o : Obj F} (h : Shows.Callable o) : takesArgs o = true := by
  induction h with
  | method => rfl
  | ptr _ ih => exact ih

theorem shows_takesArgs {w w' : W} {o : Obj F} {v : V} {p : List Seg} {args : List (Bytes × Value)} {sels : List Sel} {out : Out}
    (h : Shows.Shows (ctxOf r) w o v p (some args) sels out w') : takesArgs o = true := by
  induction o generalizing v w with
  | ptr o ih =>
    cases h with
    | nilPtr _ hc =>
      rcases hc with hc | hc
      · cases hc
      · exact callable_takesArgs (.ptr hc)
    | ptr _ h => exact ih h
  | method => rfl
  | _ => cases h

variable [DecidableEq F]

theorem enumKey_shown {e : EnumDef F} {x : Scalar F} {k : Bytes} {pre post : List (Bytes × Scalar F)} {y : Option Bytes}
    (hk : e.kind ≠ .bool ∧ e.kind ≠ .float32 ∧ e.kind ≠ .float64) (he : e.entries = pre ++ (k, x) :: post) (hp : ∀ z ∈ pre, z.2 ≠ x)
    (h : enumKey e x = some y) : y = some k := by
  have find : (e.entries.find? (fun y => decide (y.2 = x))).map (·.1) = some k := by
    rw [he, List.find?_append, List.find?_eq_none.2 (fun z hz => by simpa using hp z hz)]
    simp
  unfold enumKey at h
  split at h
  · rw [find] at h; exact (Option.some.inj h).symm
  · rw [find] at h; exact (Option.some.inj h).symm
  · rw [find] at h; exact (Option.some.inj h).symm
  · cases h
  · cases h
  · cases h
  · rename_i k1 k2 k3 h1 h2 h3
    exfalso
    cases hkk : e.kind with
    | bool => exact hk.1 hkk
    | float32 => exact hk.2.1 hkk
    | float64 => exact hk.2.2 hkk
    | int w => exact k1 _ hkk
    | uint w => exact k2 _ hkk
    | string => exact k3 hkk

theorem enumKey_unshown {e : EnumDef F} {x : Scalar F} {y : Option Bytes}
    (hk : (∀ z ∈ e.entries, z.2 ≠ x) ∨ e.kind = .bool ∨ e.kind = .float32 ∨ e.kind = .float64)
    (h : enumKey e x = some y) : y = none := by
  have find : (∀ z ∈ e.entries, z.2 ≠ x) → (e.entries.find? (fun y => decide (y.2 = x))).map (·.1) = none := by
    intro hp
    rw [List.find?_eq_none.2 (fun z hz => by simpa using hp z hz)]
    rfl
  unfold enumKey at h
  split at h
  · rename_i h1; rw [h1] at hk; rw [find (by simpa using hk)] at h; exact (Option.some.inj h).symm
  · rename_i h1; rw [h1] at hk; rw [find (by simpa using hk)] at h; exact (Option.some.inj h).symm
  · rename_i h1; rw [h1] at hk; rw [find (by simpa using hk)] at h; exact (Option.some.inj h).symm
  · cases h
  · cases h
  · cases h
  · exact (Option.some.inj h).symm

omit [DecidableEq F] in
theorem nest_pos {frags : List Fragment} {n : Nat} {key : Bytes} {name : Option Bytes} {dirs : List Directive} {args : Option (List (Bytes × Value))}
    {sub rest : List Sel} (h : Nest frags n (.field key name dirs args sub :: rest)) : ∃ m, n = m + 1 ∧ Nest frags m sub ∧ Nest frags n rest := by
  cases h with
  | field h1 h2 => exact ⟨_, rfl, h1, h2⟩

omit [DecidableEq F] in
theorem dept_succ {dept : UInt8} {M : UInt8} (h : dept.toNat + 1 < M.toNat) : (dept + 1).toNat = dept.toNat + 1 ∧ dept + 1 ≠ M := by
  have hM : M.toNat < 256 := M.toNat_lt
  have e : (dept + 1).toNat = dept.toNat + 1 := by
    rw [UInt8.toNat_add]
    show (dept.toNat + 1) % 256 = _
    omega
  refine ⟨e, fun h' => ?_⟩
  rw [← h', e] at h
  omega

/-- depth levels an object behind this type adds -/
def levels (o : Obj F) : Nat := if noInterface o then 1 else 2

/-- At most `c` levels per field. -/
def LevelsOK (c : Nat) : Prop := 1 ≤ c ∧ ∀ f, IsField r.schema f → levels f.obj ≤ c

/-- the result of showing a value -/
def Shown (out : Out) (w' : W) : Out × Bool → W → List (Bytes × List Seg) → Prop := Q0 (fun a => a.2 = false ∧ Same out a.1) w'
def ShownSels (ms : List (Bytes × Out)) (w' : W) : List (Bytes × Out) × Bool → W → List (Bytes × List Seg) → Prop :=
  Q0 (fun a => a.2 = false ∧ SameMembers ms a.1) w'

/-- a type whose fields are fields of the schema -/
def IsType (t : RType F V) : Prop := ∀ f ∈ t.fields, IsField r.schema f

/-- what is to be shown, at one fuel -/
structure Complete (c fuel : Nat) : Prop where
  data : ∀ {w w' : W} {o : Obj F} {v : V} {p : List Seg} {args : Option (List (Bytes × Value))} {sels : List Sel} {out : Out},
    Shows.Shows (ctxOf r) w o v p args sels out w' → ∀ (dept : UInt8) (room n : Nat), Nest r.frags n sels →
    dept.toNat + levels o + c * n < r.schema.maxDepth.toNat → Run w (evalData r fuel o v dept p room args sels) (Shown out w')
  sels : ∀ {w w' : W} {t : RType F V} {v : V} {p : List Seg} {sels : List Sel} {ms : List (Bytes × Out)},
    Shows.Selects (ctxOf r) t v p w sels ms w' → IsType r t → ∀ (dept : UInt8) (room n : Nat), Nest r.frags n sels →
    dept.toNat + c * n < r.schema.maxDepth.toNat → Run w (evalSels r fuel t v dept p room sels) (ShownSels ms w')

theorem elems_complete (elem : Nat → V → E W (Out × Bool)) {o : Obj F} {p : List Seg} {sels : List Sel}
    (helem : ∀ {w w' v i out}, Shows.Shows (ctxOf r) w o v (p ++ [.idx i]) none sels out w' → Run w (elem i v) (Shown out w')) (vs : List V)
    {w w' : W} {i : Nat} {os : List Out} (h : Shows.Elems (ctxOf r) o p sels w i vs os w') :
    Run w (evalElems elem i vs) (Q0 (fun a => SameItems os a) w') := by
  induction vs generalizing w i os with
  | nil => cases h; unfold evalElems; exact Run.pure ⟨rfl, rfl, .nil⟩
  | cons v vs ih =>
    cases h with
    | cons h1 h2 =>
      unfold evalElems
      refine Run.bind ((helem h1).mono ?_)
      rintro ⟨x, cr⟩ _ _ ⟨rfl, rfl, rfl, hs⟩
      dsimp only
      refine Run.bind ((ih h2).mono ?_)
      rintro xs _ _ ⟨rfl, rfl, hs2⟩
      exact Run.pure ⟨rfl, rfl, .cons hs hs2⟩

theorem complete (hu : Usable r.vars) {c : Nat} (hc : LevelsOK r c) (fuel : Nat) : Complete r c fuel := by
  induction fuel using Nat.strongRecOn with
  | ind fuel ih =>
  constructor
  · intro w w' o v p args sels out h dept room n hn hd
    match fuel with
    | 0 => unfold evalData; exact .undefined
    | fuel + 1 =>
    unfold evalData
    have harg : ¬ (args.isSome && !takesArgs o) = true := by
      cases args with
      | none => simp
      | some a => simp [shows_takesArgs r h]
    rw [if_neg harg]
    match h with
    | .undefined => exact Run.pure ⟨rfl, rfl, rfl, .null⟩
    | .nilList hv =>
      refine Run.getWorld ?_
      have hv : r.env.view w v = _ := hv
      rw [hv]
      exact Run.pure ⟨rfl, rfl, rfl, .null⟩
    | .list (o := oi) hv he =>
      refine Run.getWorld ?_
      have hv : r.env.view w v = _ := hv
      rw [hv]
      cases room with
      | zero => exact Run.undefined
      | succ room =>
        dsimp only
        refine Run.bind ((elems_complete r _ (fun h => (ih fuel (by omega)).data h dept room n hn (show dept.toNat + levels oi + c * n < _ from hd)) _ he).mono ?_)
        rintro os _ _ ⟨rfl, rfl, hs⟩
        exact Run.pure ⟨rfl, rfl, rfl, .list hs⟩
    | .nilPtr hv _ =>
      refine Run.getWorld ?_
      have hv : r.env.view w v = _ := hv
      rw [hv]
      exact Run.pure ⟨rfl, rfl, rfl, .null⟩
    | .ptr hv hs =>
      refine Run.getWorld ?_
      have hv : r.env.view w v = _ := hv
      rw [hv]
      exact (ih fuel (by omega)).data hs dept room n hn hd
    | .object hne ht hs =>
      have ht : lookup r.schema.types _ = _ := ht
      dsimp only
      rw [if_neg (by cases sels <;> simp_all), ht]
      dsimp only
      have hlev : dept.toNat + 1 + c * n < r.schema.maxDepth.toNat := hd
      obtain ⟨e1, e2⟩ := dept_succ (dept := dept) (M := r.schema.maxDepth) (by omega)
      rw [if_neg e2]
      refine Run.bind (((ih fuel (by omega)).sels hs ?_ (dept + 1) room n hn (by rw [e1]; exact hlev)).mono ?_)
      · exact Typed.fields_of_lookup ht
      · rintro ⟨ms, cr⟩ _ _ ⟨rfl, rfl, rfl, hs⟩
        exact Run.pure ⟨rfl, rfl, rfl, .obj hs⟩
    | .noObject hne ht =>
      have ht : lookup r.schema.types _ = _ := ht
      dsimp only
      rw [if_neg (by cases sels <;> simp_all), ht]
      exact Run.pure ⟨rfl, rfl, rfl, .null⟩
    | .scalar hv ht =>
      dsimp only
      rw [if_neg (by simp)]
      refine Run.getWorld ?_
      have hv : r.env.view w v = _ := hv
      rw [hv]
      dsimp only
      split
      · exact Run.pure ⟨rfl, rfl, rfl, dataText_same r.env ht (by assumption)⟩
      · exact Run.undefined
    | .enum (e := e) (x := x) he hv hk hp hpre =>
      have he : r.schema.enums[_]? = _ := he
      have hv : r.env.view w v = _ := hv
      dsimp only
      rw [he]
      refine Run.getWorld ?_
      rw [hv]
      dsimp only
      cases hy : enumKey e x with
      | none => exact Run.undefined
      | some y =>
        cases enumKey_shown hk hp hpre hy
        exact Run.pure ⟨rfl, rfl, rfl, .leaf⟩
    | .noEnum (e := e) (x := x) he hv hk =>
      have he : r.schema.enums[_]? = _ := he
      have hv : r.env.view w v = _ := hv
      dsimp only
      rw [he]
      refine Run.getWorld ?_
      rw [hv]
      dsimp only
      cases hy : enumKey e x with
      | none => exact Run.undefined
      | some y =>
        cases enumKey_unshown hk hy
        exact Run.pure ⟨rfl, rfl, rfl, .null⟩
    | .time hv ht =>
      refine Run.getWorld ?_
      have hv : r.env.view w v = _ := hv
      rw [time_unique ht]
      rw [hv]
      exact Run.pure ⟨rfl, rfl, rfl, .leaf⟩
    | .noTime hv =>
      refine Run.getWorld ?_
      have hv : ∀ t, r.env.view w v ≠ .time t := hv
      split
      · rename_i t ht; exact absurd ht (hv t)
      · exact Run.pure ⟨rfl, rfl, rfl, .null⟩
    | .noInterface hne ht =>
      have ht : lookup r.schema.interfaces _ = _ := ht
      dsimp only
      rw [if_neg (by cases sels <;> simp_all), ht]
      exact Run.pure ⟨rfl, rfl, rfl, .null⟩
    | .nilInterface hne ht hv =>
      have ht : lookup r.schema.interfaces _ = _ := ht
      have hv : r.env.view w v = _ := hv
      dsimp only
      rw [if_neg (by cases sels <;> simp_all), ht]
      dsimp only
      refine Run.getWorld ?_
      rw [hv]
      exact Run.pure ⟨rfl, rfl, rfl, .null⟩
    | .interface ht hv hf hs =>
      have ht : lookup r.schema.interfaces _ = _ := ht
      have hv : r.env.view w v = _ := hv
      have hne : sels ≠ [] := by cases hs <;> assumption
      dsimp only
      rw [if_neg (by cases sels <;> simp_all), ht]
      dsimp only
      refine Run.getWorld ?_
      rw [hv]
      dsimp only
      cases room with
      | zero => exact Run.undefined
      | succ room =>
        dsimp only
        rw [hf]
        have hd : dept.toNat + 2 + c * n < r.schema.maxDepth.toNat := hd
        obtain ⟨e1, e2⟩ := dept_succ (dept := dept) (M := r.schema.maxDepth) (by omega)
        refine (ih fuel (by omega)).data hs (dept + 1) room n hn ?_
        show (dept + 1).toNat + 1 + c * n < _
        omega
    | .unregistered hne ht hv hf =>
      have ht : lookup r.schema.interfaces _ = _ := ht
      have hv : r.env.view w v = _ := hv
      dsimp only
      rw [if_neg (by cases sels <;> simp_all), ht]
      dsimp only
      refine Run.getWorld ?_
      rw [hv]
      dsimp only
      cases room with
      | zero => exact Run.undefined
      | succ room =>
        dsimp only
        rw [List.find?_eq_none.2 (fun i hi => by simpa using hf i hi)]
        exact Run.pure ⟨rfl, rfl, rfl, .null⟩
    | .nilFunc hm hv =>
      have hv : r.env.view w v = _ := hv
      dsimp only
      rw [if_pos (by simp [hm])]
      refine Run.getWorld ?_
      rw [hv]
      exact Run.pure ⟨rfl, rfl, rfl, .null⟩
    | .call (m := m) (out := out') (w1 := w1) (outs := outs) (x := x) hm hi hcall herr hctx hx hs =>
      have hctx : r.env.ctxErr w1 = none := hctx
      have next : Run w1 (evalResult r p m outs (fun x => evalData r fuel out' x dept p room none sels)) (Shown out w') := by
        unfold evalResult
        refine Run.getWorld ?_
        rw [hctx]
        dsimp only
        rw [hx]
        exact (ih fuel (by omega)).data hs dept room n hn hd
      have call : Run w (evalCall r p m v (args.getD []) (fun x => evalData r fuel out' x dept p room none sels)) (Shown out w') := by
        unfold evalCall
        refine Run.bind ((callWith_clean r hu p m v hi hcall).mono ?_)
        rintro a _ _ ⟨rfl, rfl, rfl⟩
        dsimp only
        cases he : m.errorOutNr with
        | none => exact next
        | some nr =>
          obtain ⟨e, h1, h2⟩ := herr nr he
          dsimp only
          rw [h1]
          refine Run.getWorld ?_
          have h2 : r.env.errOf _ e = none := h2
          rw [h2]
          exact next
      dsimp only
      cases hmt : m.isTypeMethod with
      | true => exact call
      | false =>
        rw [if_pos (by simp)]
        refine Run.getWorld ?_
        rcases hm with hm | hv
        · rw [hm] at hmt; cases hmt
        · have hv : r.env.view w v = _ := hv
          rw [hv]
          exact call
  · intro w w' t v p sels ms h ht dept room n hn hd
    match fuel with
    | 0 => simp only [evalSels]; exact .undefined
    | 1 =>
      match h with
      | .nil => simp only [evalSels]; exact Run.pure ⟨rfl, rfl, rfl, .nil⟩
      | .field .. | .typename .. | .skipField .. => simp only [evalSels, evalField]; exact .undefined
      | .spread .. | .spreadOther .. | .skipSpread .. => simp only [evalSels, evalSpread]; exact .undefined
      | .inline .. | .inlineOther .. | .skipInline .. => simp only [evalSels, evalInline]; exact .undefined
    | fuel + 2 =>
    match h with
    | .nil => simp only [evalSels]; exact Run.pure ⟨rfl, rfl, rfl, .nil⟩
    | .field (key := key) (w1 := w1) (w2 := w2) (out := out) hdir hf hv hs hrest =>
      obtain ⟨m, rfl, hn1, hn2⟩ := nest_pos hn
      have hlev := hc.2 _ (ht _ (List.mem_of_find?_eq_some hf))
      simp only [evalSels, evalField]
      refine Run.bind (Run.mono (Q' := Q0 (fun a => ∃ o, a = (some (key, o), false) ∧ Same out o) w2) ?_ ?_)
      · refine Run.bind ((directives_complete r hu _ _ hdir).mono ?_)
        rintro a _ _ ⟨rfl, rfl, rfl⟩
        dsimp only
        rw [hf]
        dsimp only
        cases room with
        | zero => exact .undefined
        | succ room =>
          dsimp only
          refine Run.bind ((fieldValue_complete r hv).mono ?_)
          rintro x _ _ ⟨rfl, rfl, rfl⟩
          refine Run.bind (((ih fuel (by omega)).data hs dept room m hn1 ?_).mono ?_)
          · rw [Nat.mul_succ] at hd; omega
          · rintro ⟨o, cr⟩ _ _ ⟨rfl, rfl, rfl, hs⟩
            exact Run.pure ⟨rfl, rfl, _, rfl, hs⟩
      · rintro a _ _ ⟨rfl, rfl, o, rfl, hsame⟩
        dsimp only
        rw [if_neg (by simp)]
        refine Run.bind (((ih (fuel + 1) (by omega)).sels hrest ht dept room _ hn2 hd).mono ?_)
        rintro ⟨xs, cr⟩ _ _ ⟨rfl, rfl, rfl, hs2⟩
        exact Run.pure ⟨rfl, rfl, rfl, .cons hsame hs2⟩
    | .typename (key := key) (w1 := w1) hdir hname hf hrest =>
      obtain ⟨m, rfl, hn1, hn2⟩ := nest_pos hn
      simp only [evalSels, evalField]
      refine Run.bind (Run.mono (Q' := Q0 (fun a => a = (some (key, .leaf (Shows.quoted t.typeName)), false)) w1) ?_ ?_)
      · refine Run.bind ((directives_complete r hu _ _ hdir).mono ?_)
        rintro a _ _ ⟨rfl, rfl, rfl⟩
        dsimp only
        rw [hname, hf]
        dsimp only
        rw [if_pos rfl, if_neg (by simp)]
        exact Run.pure ⟨rfl, rfl, rfl⟩
      · rintro a _ _ ⟨rfl, rfl, rfl⟩
        dsimp only
        rw [if_neg (by simp)]
        refine Run.bind (((ih (fuel + 1) (by omega)).sels hrest ht dept room _ hn2 hd).mono ?_)
        rintro ⟨xs, cr⟩ _ _ ⟨rfl, rfl, rfl, hs2⟩
        exact Run.pure ⟨rfl, rfl, rfl, .cons .leaf hs2⟩
    | .skipField (w1 := w1) hdir hrest =>
      obtain ⟨m, rfl, hn1, hn2⟩ := nest_pos hn
      simp only [evalSels, evalField]
      refine Run.bind (Run.mono (Q' := Q0 (fun a => a = (none, false)) w1) ?_ ?_)
      · refine Run.bind ((directives_complete r hu _ _ hdir).mono ?_)
        rintro a _ _ ⟨rfl, rfl, rfl⟩
        exact Run.pure ⟨rfl, rfl, rfl⟩
      · rintro a _ _ ⟨rfl, rfl, rfl⟩
        dsimp only
        rw [if_neg (by simp)]
        refine Run.bind (((ih (fuel + 1) (by omega)).sels hrest ht dept room _ hn2 hd).mono ?_)
        rintro ⟨xs, cr⟩ _ _ ⟨rfl, rfl, rfl, hs2⟩
        exact Run.pure ⟨rfl, rfl, rfl, hs2⟩
    | .spread (rest := rest) (name := name) (f := f) (ms := ms1) (w2 := w2) hdir hf hty hs hrest =>
      have hf : r.frags.find? (fun f => decide (f.name = name)) = some f := hf
      have hn' : Nest r.frags n f.sels ∧ Nest r.frags n rest := by
        cases hn with
        | spread a b c => rw [hf] at a; cases a; exact ⟨b, c⟩
        | undefined a _ => rw [hf] at a; cases a
      simp only [evalSels, evalSpread]
      refine Run.bind (Run.mono (Q' := ShownSels ms1 w2) ?_ ?_)
      · refine Run.bind ((directives_complete r hu _ _ hdir).mono ?_)
        rintro a _ _ ⟨rfl, rfl, rfl⟩
        dsimp only
        rw [hf]
        dsimp only
        rw [if_pos hty.symm]
        exact (ih fuel (by omega)).sels hs ht dept room n hn'.1 hd
      · rintro ⟨xs, cr⟩ _ _ ⟨rfl, rfl, rfl, h1⟩
        dsimp only
        rw [if_neg (by simp)]
        refine Run.bind (((ih (fuel + 1) (by omega)).sels hrest ht dept room n hn'.2 hd).mono ?_)
        rintro ⟨ys, cr⟩ _ _ ⟨rfl, rfl, rfl, h2⟩
        exact Run.pure ⟨rfl, rfl, rfl, sameMembers_append h1 h2⟩
    | .spreadOther (rest := rest) (name := name) (f := f) (w1 := w1) hdir hf hty hrest =>
      have hf : r.frags.find? (fun f => decide (f.name = name)) = some f := hf
      have hn' : Nest r.frags n rest := by
        cases hn with
        | spread a b c => exact c
        | undefined a c => exact c
      simp only [evalSels, evalSpread]
      refine Run.bind (Run.mono (Q' := Q0 (fun a => a = ([], false)) w1) ?_ ?_)
      · refine Run.bind ((directives_complete r hu _ _ hdir).mono ?_)
        rintro a _ _ ⟨rfl, rfl, rfl⟩
        dsimp only
        rw [hf]
        dsimp only
        rw [if_neg (fun h => hty h.symm)]
        exact Run.pure ⟨rfl, rfl, rfl⟩
      · rintro _ _ _ ⟨rfl, rfl, rfl⟩
        dsimp only
        rw [if_neg (by simp)]
        refine Run.bind (((ih (fuel + 1) (by omega)).sels hrest ht dept room n hn' hd).mono ?_)
        rintro ⟨ys, cr⟩ _ _ ⟨rfl, rfl, rfl, h2⟩
        exact Run.pure ⟨rfl, rfl, rfl, h2⟩
    | .skipSpread (rest := rest) (w1 := w1) hdir hrest =>
      have hn' : Nest r.frags n rest := by
        cases hn with
        | spread a b c => exact c
        | undefined a c => exact c
      simp only [evalSels, evalSpread]
      refine Run.bind (Run.mono (Q' := Q0 (fun a => a = ([], false)) w1) ?_ ?_)
      · refine Run.bind ((directives_complete r hu _ _ hdir).mono ?_)
        rintro a _ _ ⟨rfl, rfl, rfl⟩
        exact Run.pure ⟨rfl, rfl, rfl⟩
      · rintro _ _ _ ⟨rfl, rfl, rfl⟩
        dsimp only
        rw [if_neg (by simp)]
        refine Run.bind (((ih (fuel + 1) (by omega)).sels hrest ht dept room n hn' hd).mono ?_)
        rintro ⟨ys, cr⟩ _ _ ⟨rfl, rfl, rfl, h2⟩
        exact Run.pure ⟨rfl, rfl, rfl, h2⟩
    | .inline (rest := rest) (sub := sub) (ms := ms1) (w2 := w2) hdir hty hs hrest =>
      have hn' : Nest r.frags n sub ∧ Nest r.frags n rest := by
        cases hn with
        | inline b c => exact ⟨b, c⟩
      simp only [evalSels, evalInline]
      refine Run.bind (Run.mono (Q' := ShownSels ms1 w2) ?_ ?_)
      · refine Run.bind ((directives_complete r hu _ _ hdir).mono ?_)
        rintro a _ _ ⟨rfl, rfl, rfl⟩
        dsimp only
        rw [if_pos hty.symm]
        exact (ih fuel (by omega)).sels hs ht dept room n hn'.1 hd
      · rintro ⟨xs, cr⟩ _ _ ⟨rfl, rfl, rfl, h1⟩
        dsimp only
        rw [if_neg (by simp)]
        refine Run.bind (((ih (fuel + 1) (by omega)).sels hrest ht dept room n hn'.2 hd).mono ?_)
        rintro ⟨ys, cr⟩ _ _ ⟨rfl, rfl, rfl, h2⟩
        exact Run.pure ⟨rfl, rfl, rfl, sameMembers_append h1 h2⟩
    | .inlineOther (rest := rest) (w1 := w1) hdir hty hrest =>
      have hn' : Nest r.frags n rest := by
        cases hn with
        | inline b c => exact c
      simp only [evalSels, evalInline]
      refine Run.bind (Run.mono (Q' := Q0 (fun a => a = ([], false)) w1) ?_ ?_)
      · refine Run.bind ((directives_complete r hu _ _ hdir).mono ?_)
        rintro a _ _ ⟨rfl, rfl, rfl⟩
        dsimp only
        rw [if_neg (fun h => hty h.symm)]
        exact Run.pure ⟨rfl, rfl, rfl⟩
      · rintro _ _ _ ⟨rfl, rfl, rfl⟩
        dsimp only
        rw [if_neg (by simp)]
        refine Run.bind (((ih (fuel + 1) (by omega)).sels hrest ht dept room n hn' hd).mono ?_)
        rintro ⟨ys, cr⟩ _ _ ⟨rfl, rfl, rfl, h2⟩
        exact Run.pure ⟨rfl, rfl, rfl, h2⟩
    | .skipInline (rest := rest) (w1 := w1) hdir hrest =>
      have hn' : Nest r.frags n rest := by
        cases hn with
        | inline b c => exact c
      simp only [evalSels, evalInline]
      refine Run.bind (Run.mono (Q' := Q0 (fun a => a = ([], false)) w1) ?_ ?_)
      · refine Run.bind ((directives_complete r hu _ _ hdir).mono ?_)
        rintro a _ _ ⟨rfl, rfl, rfl⟩
        exact Run.pure ⟨rfl, rfl, rfl⟩
      · rintro _ _ _ ⟨rfl, rfl, rfl⟩
        dsimp only
        rw [if_neg (by simp)]
        refine Run.bind (((ih (fuel + 1) (by omega)).sels hrest ht dept room n hn' hd).mono ?_)
        rintro ⟨ys, cr⟩ _ _ ⟨rfl, rfl, rfl, h2⟩
        exact Run.pure ⟨rfl, rfl, rfl, h2⟩

/-- Operations. -/
theorem operation_complete (hu : Usable r.vars) {c : Nat} (hc : LevelsOK r c) (fuel : Nat) {w w' : W} {o : Operation} {out : Out}
    (h : Shows.Operation (ctxOf r) w o out w') {n : Nat} (hn : Nest r.frags n o.sels) (hd : c * n < r.schema.maxDepth.toNat) :
    Run w (evalOperation r fuel o) (Shown out w') := by
  have hd : (0 : UInt8).toNat + c * n < r.schema.maxDepth.toNat := by simpa using hd
  unfold evalOperation
  cases h with
  | query hk hdir hs =>
    rw [hk]
    dsimp only
    rw [if_neg (by simpa using hdir)]
    refine Run.bind (((complete r hu hc fuel).sels hs (fun f hf => Or.inl hf) 0 255 n hn hd).mono ?_)
    rintro ⟨ms, cr⟩ _ _ ⟨rfl, rfl, rfl, hs⟩
    exact Run.pure ⟨rfl, rfl, rfl, .obj hs⟩
  | mutation hk hdir hs =>
    rw [hk]
    dsimp only
    rw [if_neg (by simpa using hdir)]
    refine Run.bind (((complete r hu hc fuel).sels hs (fun f hf => Or.inr (Or.inl hf)) 0 255 n hn hd).mono ?_)
    rintro ⟨ms, cr⟩ _ _ ⟨rfl, rfl, rfl, hs⟩
    exact Run.pure ⟨rfl, rfl, rfl, .obj hs⟩

end
end Eval
end Yarql
