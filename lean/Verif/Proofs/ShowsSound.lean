import Verif.Proofs.EvalRun
import Verif.Proofs.Decimal
import Verif.Props.Text

/-! # Error-free evaluation shows exactly what `Spec/Shows.lean` says; errors are located in the response -/

namespace Yarql
namespace Eval
open Doc Resolver Yarql.Bind Binding

section
variable {F V W : Type}

/-! ## Texts -/

theorem decVal_decimal (t : Bytes) : decVal t = decimal t := rfl

theorem natDigits_canon (n : Nat) : Shows.NatCanon (natDigits n) n := by
  refine ⟨⟨natDigits_ne_nil n, ?_, decVal_natDigits n⟩, ?_⟩
  · intro d hd
    obtain ⟨h1, h2⟩ := natDigits_digits n d hd
    exact ⟨UInt8.le_iff_toNat_le.2 h1, UInt8.le_iff_toNat_le.2 h2⟩
  · intro h
    by_cases hn : n = 0
    · subst hn; rfl
    · exact absurd h (natDigits_head n hn)

theorem pad_text (w n : Nat) : Shows.PadText w n (Time.pad w n) := ⟨natDigits n, natDigits_canon n, rfl⟩

theorem time_text (t : Time.T) : Shows.TimeText t (Time.timeToIso8601String [] t) := by
  refine ⟨Time.padYear t.year, _, _, _, _, _, _, ⟨_, pad_text _ _, rfl⟩, pad_text _ _, pad_text _ _, pad_text _ _, pad_text _ _,
    pad_text _ _, pad_text _ _, ?_⟩
  simp [Time.timeToIso8601String]

theorem intDigits_canon (i : Int) : Shows.IntCanon (intDigits i) i := by
  unfold intDigits Shows.IntCanon
  by_cases h : i < 0
  · rw [if_pos h]
    refine Or.inr ⟨h, _, rfl, ?_⟩
    rw [show (-i).toNat = i.natAbs by omega]
    exact natDigits_canon _
  · rw [if_neg h]
    refine Or.inl ⟨by omega, ?_⟩
    rw [show i.toNat = i.natAbs by omega]
    exact natDigits_canon _

theorem scalarText_shows (env : Env F V W) (k : Kind) (x : Scalar F) (t : Bytes) (h : scalarText env k x = some t) : Shows.Text env k x t := by
  unfold scalarText at h
  split at h
  · cases h
    rename_i s
    obtain ⟨lit, cs, h1, h2, h3, _⟩ := C13_json_string s []
    rw [h1]
    exact .string h2 h3
  · cases h
    rename_i b
    cases b
    · exact .false
    · exact .true
  · cases h; exact .int (intDigits_canon _)
  · cases h; exact .uint (natDigits_canon _)
  · cases h; exact .float32
  · cases h; exact .float64
  · cases h

theorem dataText_shows (env : Env F V W) (isID : Bool) (k : Kind) (x : Scalar F) (t : Bytes) (h : dataText env isID k x = some t) :
    Shows.Scalar env isID k x t := by
  unfold dataText at h
  by_cases hk : (isID && k != .string) = true
  · rw [if_pos hk] at h
    obtain ⟨t', h1, rfl⟩ := Option.map_eq_some_iff.1 h
    rw [Bool.and_eq_true] at hk
    obtain ⟨rfl, hk⟩ := hk
    exact .id (by simpa using hk) (scalarText_shows env k x t' h1)
  · rw [if_neg hk] at h
    refine .plain ?_ (scalarText_shows env k x t h)
    cases isID with
    | false => exact Or.inl rfl
    | true => exact Or.inr (by simpa using hk)

/-! ## Located errors -/

theorem At.mono {ms ms' : List (Bytes × Out)} {p : List Seg} {x : Out} (h : At (.obj ms) p x) (hm : ∀ m ∈ ms, m ∈ ms') :
    (∃ x, At (.obj ms') p x) ∧ (∀ ms1, x = .obj ms1 → ∃ ms2, At (.obj ms') p (.obj ms2)) := by
  cases h with
  | here => exact ⟨⟨_, .here⟩, fun _ _ => ⟨_, .here⟩⟩
  | key h1 h2 => exact ⟨⟨_, .key (hm _ h1) h2⟩, fun ms1 e => ⟨ms1, e ▸ .key (hm _ h1) h2⟩⟩

theorem Located.mono {ms ms' : List (Bytes × Out)} {p : List Seg} (h : Located (.obj ms) p) (hm : ∀ m ∈ ms, m ∈ ms') :
    Located (.obj ms') p := by
  rcases h with ⟨x, h⟩ | ⟨q, k, ms1, e, h⟩
  · exact Or.inl (h.mono hm).1
  · obtain ⟨ms2, h2⟩ := (h.mono hm).2 ms1 rfl
    exact Or.inr ⟨q, k, ms2, e, h2⟩

theorem Located.here {o : Out} : Located o [] := Or.inl ⟨o, .here⟩

theorem Located.key {ms : List (Bytes × Out)} {k : Bytes} {x : Out} {p : List Seg} (hm : (k, x) ∈ ms) (h : Located x p) :
    Located (.obj ms) (.key k :: p) := by
  rcases h with ⟨y, h⟩ | ⟨q, k', ms1, e, h⟩
  · exact Or.inl ⟨y, .key hm h⟩
  · exact Or.inr ⟨.key k :: q, k', ms1, by rw [e]; rfl, .key hm h⟩

theorem Located.absent {ms : List (Bytes × Out)} {k : Bytes} : Located (.obj ms) [.key k] :=
  Or.inr ⟨[], k, ms, rfl, .here⟩

theorem Located.idx {items : List Out} {i : Nat} {x : Out} {p : List Seg} (hm : items[i]? = some x) (h : Located x p) :
    Located (.list items) (.idx i :: p) := by
  rcases h with ⟨y, h⟩ | ⟨q, k', ms1, e, h⟩
  · exact Or.inl ⟨y, .idx hm h⟩
  · exact Or.inr ⟨.idx i :: q, k', ms1, by rw [e]; rfl, .idx hm h⟩

/-- all new errors are located in the value at `path` -/
def ErrsIn (path : List Seg) (o : Out) (new : List (Bytes × List Seg)) : Prop :=
  ∀ e ∈ new, ∃ q, e.2 = path ++ q ∧ Located o q

theorem ErrsIn.nil {path : List Seg} {o : Out} : ErrsIn path o [] := by intro e he; cases he

theorem ErrsIn.one {path : List Seg} {o : Out} {msg : Bytes} : ErrsIn path o [(msg, path)] := by
  intro e he
  cases List.mem_singleton.1 he
  exact ⟨[], by simp, .here⟩

theorem ErrsIn.append {path : List Seg} {o : Out} {a b : List (Bytes × List Seg)} (ha : ErrsIn path o a) (hb : ErrsIn path o b) :
    ErrsIn path o (a ++ b) := by
  intro e he
  rcases List.mem_append.1 he with h | h
  · exact ha e h
  · exact hb e h

theorem ErrsIn.mono {path : List Seg} {ms ms' : List (Bytes × Out)} {a : List (Bytes × List Seg)} (ha : ErrsIn path (.obj ms) a)
    (hm : ∀ m ∈ ms, m ∈ ms') : ErrsIn path (.obj ms') a := by
  intro e he
  obtain ⟨q, h1, h2⟩ := ha e he
  exact ⟨q, h1, h2.mono hm⟩

/-! ## The evaluation functions -/

variable (r : Req F V W)

def DataQ (w : W) (o : Obj F) (v : V) (path : List Seg) (args : Option (List (Bytes × Value))) (sels : List Sel) :
    Out × Bool → W → List (Bytes × List Seg) → Prop := fun a w' new =>
  (new = [] → a.2 = false ∧ Shows.Shows (ctxOf r) w o v path args sels a.1 w') ∧ ErrsIn path a.1 new

def SelsQ (w : W) (t : RType F V) (v : V) (path : List Seg) (sels : List Sel) :
    List (Bytes × Out) × Bool → W → List (Bytes × List Seg) → Prop := fun a w' new =>
  (new = [] → a.2 = false ∧ Shows.Selects (ctxOf r) t v path w sels a.1 w') ∧ ErrsIn path (.obj a.1) new

/-- a field: nothing, or its member -/
def FieldQ (w : W) (t : RType F V) (v : V) (path : List Seg) (key name : Bytes) (dirs : List Directive)
    (args : Option (List (Bytes × Value))) (sels : List Sel) :
    Option (Bytes × Out) × Bool → W → List (Bytes × List Seg) → Prop := fun a w' new =>
  (new = [] → a.2 = false ∧ match a.1 with
    | none => Shows.Directives (ctxOf r) 0 (path ++ [.key key]) w dirs true w'
    | some (k, o) => k = key ∧ ∃ w1, Shows.Directives (ctxOf r) 0 (path ++ [.key key]) w dirs false w1 ∧
      ((∃ f x, t.fields.find? (fun f => f.key = fnv1 name) = some f ∧ Shows.FieldValue (ctxOf r) w1 v f x ∧
          Shows.Shows (ctxOf r) w1 f.obj x (path ++ [.key key]) args sels o w') ∨
       (name = b%"__typename" ∧ t.fields.find? (fun f => f.key = fnv1 b%"__typename") = none ∧ args = none ∧ sels = [] ∧
          o = .leaf (Shows.quoted t.typeName) ∧ w' = w1))) ∧
  ErrsIn path (.obj a.1.toList) new

/-- a spread or inline fragment: what it contributes -/
def PartQ (w : W) (t : RType F V) (v : V) (path : List Seg) (sel : Sel) :
    List (Bytes × Out) × Bool → W → List (Bytes × List Seg) → Prop := fun a w' new =>
  (new = [] → a.2 = false ∧ ∀ rest ms w3, Shows.Selects (ctxOf r) t v path w' rest ms w3 →
    Shows.Selects (ctxOf r) t v path w (sel :: rest) (a.1 ++ ms) w3) ∧ ErrsIn path (.obj a.1) new

theorem evalElems_run (o : Obj F) (path : List Seg) (sels : List Sel) (elem : Nat → V → E W (Out × Bool))
    (h : ∀ w i v, Run w (elem i v) (DataQ r w o v (path ++ [.idx i]) none sels)) (i : Nat) (vs : List V) (w : W) :
    Run w (evalElems elem i vs) (fun os w' new => (new = [] → Shows.Elems (ctxOf r) o path sels w i vs os w') ∧
      ∀ e ∈ new, ∃ j x q, os[j]? = some x ∧ e.2 = path ++ [.idx (i + j)] ++ q ∧ Located x q) := by
  induction vs generalizing i w with
  | nil => unfold evalElems; exact Run.pure ⟨fun _ => .nil, by simp⟩
  | cons v vs ih =>
    unfold evalElems
    refine Run.bind ((h w i v).mono ?_)
    rintro ⟨x, c⟩ w1 n1 ⟨h1, h2⟩
    dsimp only
    refine Run.bind ((ih (i + 1) w1).mono ?_)
    rintro os w2 n2 ⟨k1, k2⟩
    refine Run.pure ⟨?_, ?_⟩
    · intro h0
      rw [List.append_nil] at h0
      obtain ⟨e1, e2⟩ := List.append_eq_nil_iff.1 h0
      exact .cons (h1 e1).2 (k1 e2)
    · intro e he
      rw [List.append_nil] at he
      rcases List.mem_append.1 he with h | h
      · obtain ⟨q, e1, e2⟩ := h2 e h
        exact ⟨0, x, q, rfl, by simpa using e1, e2⟩
      · obtain ⟨j, y, q, e1, e2, e3⟩ := k2 e h
        exact ⟨j + 1, y, q, by simpa using e1, by rw [e2]; simp; omega, e3⟩

theorem evalResult_run (path : List Seg) (m : Method F) (outs : List V) (next : V → E W (Out × Bool)) (out : Obj F) (sels : List Sel)
    (w : W) (h : ∀ w v, Run w (next v) (DataQ r w out v path none sels)) :
    Run w (evalResult r path m outs next) (fun a w' new =>
      (new = [] → a.2 = false ∧ r.env.ctxErr w = none ∧ ∃ x, outs[m.outNr]? = some x ∧ Shows.Shows (ctxOf r) w out x path none sels a.1 w') ∧
      ErrsIn path a.1 new) := by
  unfold evalResult
  refine Run.getWorld ?_
  cases hc : r.env.ctxErr w with
  | some msg => exact Run.reportThen ⟨by simp, .one⟩
  | none =>
    dsimp only
    cases ho : outs[m.outNr]? with
    | none => exact Run.undefined
    | some x =>
      refine (h w x).mono ?_
      rintro ⟨o, c⟩ w' n ⟨h1, h2⟩
      exact ⟨fun e => ⟨(h1 e).1, rfl, x, rfl, (h1 e).2⟩, h2⟩

theorem evalCall_run (path : List Seg) (m : Method F) (out : Obj F) (fn : V) (args : Option (List (Bytes × Value))) (sels : List Sel)
    (next : V → E W (Out × Bool)) (w : W) (hfn : m.isTypeMethod = true ∨ r.env.view w fn = .func false)
    (h : ∀ w v, Run w (next v) (DataQ r w out v path none sels)) :
    Run w (evalCall r path m fn (args.getD []) next) (DataQ r w (.method m out) fn path args sels) := by
  unfold evalCall
  refine Run.bind ((callWith_run r path m fn _).mono ?_)
  intro a w1 n1 ha
  cases a with
  | none =>
    obtain ⟨rfl, msg, rfl⟩ := ha
    exact Run.pure ⟨by simp, by rw [List.append_nil]; exact .one⟩
  | some outs =>
    obtain ⟨rfl, inputs, h1, h2⟩ := ha
    dsimp only
    cases he : m.errorOutNr with
    | none =>
      refine (evalResult_run r path m outs next out sels w1 h).mono ?_
      rintro ⟨o, c⟩ w' n ⟨k1, k2⟩
      refine ⟨fun e => ⟨(k1 e).1, ?_⟩, k2⟩
      obtain ⟨_, hc, x, hx, hs⟩ := k1 e
      exact .call hfn h1 h2 (by rw [he]; intro nr h; cases h) hc hx hs
    | some nr =>
      dsimp only
      cases hn : outs[nr]? with
      | none => exact Run.undefined
      | some e =>
        refine Run.getWorld ?_
        cases herr : r.env.errOf w1 e with
        | none =>
          refine (evalResult_run r path m outs next out sels w1 h).mono ?_
          rintro ⟨o, c⟩ w' n ⟨k1, k2⟩
          refine ⟨fun e => ⟨(k1 e).1, ?_⟩, k2⟩
          obtain ⟨_, hc, x, hx, hs⟩ := k1 e
          exact .call hfn h1 h2 (by rw [he]; intro nr' h; cases h; exact ⟨_, hn, herr⟩) hc hx hs
        | some msg =>
          refine Run.bind (Run.report ((evalResult_run r path m outs next out sels w1 h).mono ?_))
          rintro ⟨o, c⟩ w' n ⟨k1, k2⟩
          exact ⟨by simp, by simpa using ErrsIn.append (a := [(msg, path)]) .one k2⟩

theorem takesArgs_callable {o : Obj F} (h : takesArgs o = true) : Shows.Callable o := by
  induction o with
  | ptr o ih => exact .ptr (ih h)
  | method => exact .method
  | _ => cases h

variable [DecidableEq F]

theorem enumKey_cases (e : EnumDef F) (x : Scalar F) :
    (∀ k, enumKey e x = some (some k) → (e.kind ≠ .bool ∧ e.kind ≠ .float32 ∧ e.kind ≠ .float64) ∧
      ∃ pre post, e.entries = pre ++ (k, x) :: post ∧ ∀ y ∈ pre, y.2 ≠ x) ∧
    (enumKey e x = some none → (∀ y ∈ e.entries, y.2 ≠ x) ∨ e.kind = .bool ∨ e.kind = .float32 ∨ e.kind = .float64) := by
  have find : ∀ k, (e.entries.find? (fun y => decide (y.2 = x))).map (·.1) = some k →
      ∃ pre post, e.entries = pre ++ (k, x) :: post ∧ ∀ y ∈ pre, y.2 ≠ x := by
    intro k h
    obtain ⟨y, h1, h2⟩ := Option.map_eq_some_iff.1 h
    obtain ⟨h3, pre, post, h4, h5⟩ := List.find?_eq_some_iff_append.1 h1
    have h3 : y.2 = x := by simpa using h3
    obtain ⟨a, b⟩ := y
    cases h2
    cases h3
    exact ⟨pre, post, h4, fun y hy => by simpa using h5 y hy⟩
  have none' : (e.entries.find? (fun y => decide (y.2 = x))).map (·.1) = none → ∀ y ∈ e.entries, y.2 ≠ x := by
    intro h y hy
    have := List.find?_eq_none.1 (Option.map_eq_none_iff.1 h) y hy
    simpa using this
  unfold enumKey
  constructor
  · intro k h
    split at h
    · rename_i hk; exact ⟨by rw [hk]; simp, find k (by simpa using h)⟩
    · rename_i hk; exact ⟨by rw [hk]; simp, find k (by simpa using h)⟩
    · rename_i hk; exact ⟨by rw [hk]; simp, find k (by simpa using h)⟩
    all_goals cases h
  · intro h
    split at h
    · exact Or.inl (none' (by simpa using h))
    · exact Or.inl (none' (by simpa using h))
    · exact Or.inl (none' (by simpa using h))
    · cases h
    · cases h
    · cases h
    · rename_i k1 k2 k3 h1 h2 h3
      refine Or.inr ?_
      cases hk : e.kind with
      | bool => simp
      | float32 => simp
      | float64 => simp
      | int w => exact (k1 _ hk).elim
      | uint w => exact (k2 _ hk).elim
      | string => exact (k3 hk).elim

/-- all five evaluation functions, at one fuel -/
structure AllRun (r : Req F V W) (n : Nat) : Prop where
  sels : ∀ w t v dept path room sels, Run w (evalSels r n t v dept path room sels) (SelsQ r w t v path sels)
  spread : ∀ w t v dept path room name dirs, Run w (evalSpread r n t v dept path room name dirs) (PartQ r w t v path (.spread name dirs))
  inline : ∀ w t v dept path room ty dirs sels, Run w (evalInline r n t v dept path room ty dirs sels) (PartQ r w t v path (.inline ty dirs sels))
  field : ∀ w t v dept path room key name dirs args sels,
    Run w (evalField r n t v dept path room key name dirs args sels) (FieldQ r w t v path key name dirs args sels)
  data : ∀ w o v dept path room args sels, Run w (evalData r n o v dept path room args sels) (DataQ r w o v path args sels)

theorem allRun (n : Nat) : AllRun r n := by
  induction n with
  | zero =>
    constructor
    · intros; simp only [evalSels]; exact .undefined
    · intros; simp only [evalSpread]; exact .undefined
    · intros; simp only [evalInline]; exact .undefined
    · intros; simp only [evalField]; exact .undefined
    · intros; unfold evalData; exact .undefined
  | succ n ih =>
    constructor
    · -- selections
      intro w t v dept path room sels
      match sels with
      | [] => simp only [evalSels]; exact Run.pure ⟨fun _ => ⟨rfl, .nil⟩, .nil⟩
      | .field key name dirs args sub :: rest =>
        simp only [evalSels]
        refine Run.bind ((ih.field w t v dept path room key (name.getD key) dirs args sub).mono ?_)
        rintro ⟨m, c⟩ w1 n1 ⟨h1, h2⟩
        dsimp only at h1 h2 ⊢
        by_cases hc : c = true
        · rw [if_pos hc]
          refine Run.pure ⟨fun h0 => ?_, by rw [List.append_nil]; exact h2⟩
          rw [List.append_nil] at h0
          have := (h1 h0).1
          rw [hc] at this; cases this
        · rw [if_neg hc]
          refine Run.bind ((ih.sels w1 t v dept path room rest).mono ?_)
          rintro ⟨ms, c2⟩ w2 n2 ⟨k1, k2⟩
          refine Run.pure ⟨fun h0 => ?_, ?_⟩
          · rw [List.append_nil] at h0
            obtain ⟨e1, e2⟩ := List.append_eq_nil_iff.1 h0
            obtain ⟨l1, l2⟩ := k1 e2
            refine ⟨l1, ?_⟩
            obtain ⟨-, h3⟩ := h1 e1
            cases m with
            | none => exact .skipField h3 l2
            | some p =>
              obtain ⟨k, o⟩ := p
              obtain ⟨rfl, w', hd, h4⟩ := h3
              rcases h4 with ⟨f, x, h5, h6, h7⟩ | ⟨h5, h6, rfl, rfl, rfl, rfl⟩
              · exact .field hd h5 h6 h7 l2
              · exact .typename hd h5 h6 l2
          · rw [List.append_nil]
            exact ErrsIn.append (h2.mono (fun _ h => List.mem_append_left _ h)) (k2.mono (fun _ h => List.mem_append_right _ h))
      | .spread name dirs :: rest =>
        simp only [evalSels]
        refine Run.bind ((ih.spread w t v dept path room name dirs).mono ?_)
        rintro ⟨m, c⟩ w1 n1 ⟨h1, h2⟩
        dsimp only at h1 h2 ⊢
        by_cases hc : c = true
        · rw [if_pos hc]
          refine Run.pure ⟨fun h0 => ?_, by rw [List.append_nil]; exact h2⟩
          rw [List.append_nil] at h0
          have := (h1 h0).1
          rw [hc] at this; cases this
        · rw [if_neg hc]
          refine Run.bind ((ih.sels w1 t v dept path room rest).mono ?_)
          rintro ⟨ms, c2⟩ w2 n2 ⟨k1, k2⟩
          refine Run.pure ⟨fun h0 => ?_, ?_⟩
          · rw [List.append_nil] at h0
            obtain ⟨e1, e2⟩ := List.append_eq_nil_iff.1 h0
            obtain ⟨l1, l2⟩ := k1 e2
            exact ⟨l1, (h1 e1).2 _ _ _ l2⟩
          · rw [List.append_nil]
            exact ErrsIn.append (h2.mono (fun _ h => List.mem_append_left _ h)) (k2.mono (fun _ h => List.mem_append_right _ h))
      | .inline ty dirs sub :: rest =>
        simp only [evalSels]
        refine Run.bind ((ih.inline w t v dept path room ty dirs sub).mono ?_)
        rintro ⟨m, c⟩ w1 n1 ⟨h1, h2⟩
        dsimp only at h1 h2 ⊢
        by_cases hc : c = true
        · rw [if_pos hc]
          refine Run.pure ⟨fun h0 => ?_, by rw [List.append_nil]; exact h2⟩
          rw [List.append_nil] at h0
          have := (h1 h0).1
          rw [hc] at this; cases this
        · rw [if_neg hc]
          refine Run.bind ((ih.sels w1 t v dept path room rest).mono ?_)
          rintro ⟨ms, c2⟩ w2 n2 ⟨k1, k2⟩
          refine Run.pure ⟨fun h0 => ?_, ?_⟩
          · rw [List.append_nil] at h0
            obtain ⟨e1, e2⟩ := List.append_eq_nil_iff.1 h0
            obtain ⟨l1, l2⟩ := k1 e2
            exact ⟨l1, (h1 e1).2 _ _ _ l2⟩
          · rw [List.append_nil]
            exact ErrsIn.append (h2.mono (fun _ h => List.mem_append_left _ h)) (k2.mono (fun _ h => List.mem_append_right _ h))
    · -- spreads
      intro w t v dept path room name dirs
      simp only [evalSpread]
      refine Run.bind ((evalDirectives_run r path 1 dirs).mono ?_)
      intro a w1 n1 ha
      match a with
      | none =>
        obtain ⟨msg, rfl⟩ := ha
        exact Run.pure ⟨by simp, by rw [List.append_nil]; exact .one⟩
      | some true =>
        obtain ⟨rfl, hd⟩ := ha
        exact Run.pure ⟨fun _ => ⟨rfl, fun rest ms w3 h => .skipSpread hd h⟩, .nil⟩
      | some false =>
        obtain ⟨rfl, hd⟩ := ha
        dsimp only
        cases hf : r.frags.find? (fun f => decide (f.name = name)) with
        | none => exact Run.reportThen ⟨by simp, .one⟩
        | some f =>
          dsimp only
          by_cases h : t.typeName = f.typeName
          · rw [if_pos h]
            refine (ih.sels w1 t v dept path room f.sels).mono ?_
            rintro ⟨ms, c⟩ w2 n2 ⟨h1, h2⟩
            exact ⟨fun e => ⟨(h1 e).1, fun rest ms' w3 h3 => .spread hd hf h.symm (h1 e).2 h3⟩, h2⟩
          · rw [if_neg h]
            exact Run.pure ⟨fun _ => ⟨rfl, fun rest ms w3 h3 => .spreadOther hd hf (fun e => h e.symm) h3⟩, .nil⟩
    · -- inline fragments
      intro w t v dept path room ty dirs sels
      simp only [evalInline]
      refine Run.bind ((evalDirectives_run r path 2 dirs).mono ?_)
      intro a w1 n1 ha
      match a with
      | none =>
        obtain ⟨msg, rfl⟩ := ha
        exact Run.pure ⟨by simp, by rw [List.append_nil]; exact .one⟩
      | some true =>
        obtain ⟨rfl, hd⟩ := ha
        exact Run.pure ⟨fun _ => ⟨rfl, fun rest ms w3 h => .skipInline hd h⟩, .nil⟩
      | some false =>
        obtain ⟨rfl, hd⟩ := ha
        dsimp only
        by_cases h : t.typeName = ty
        · rw [if_pos h]
          refine (ih.sels w1 t v dept path room sels).mono ?_
          rintro ⟨ms, c⟩ w2 n2 ⟨h1, h2⟩
          exact ⟨fun e => ⟨(h1 e).1, fun rest ms' w3 h3 => .inline hd h.symm (h1 e).2 h3⟩, h2⟩
        · rw [if_neg h]
          exact Run.pure ⟨fun _ => ⟨rfl, fun rest ms w3 h3 => .inlineOther hd (fun e => h e.symm) h3⟩, .nil⟩
    · -- fields
      intro w t v dept path room key name dirs args sels
      simp only [evalField]
      have absent : ∀ msg, ErrsIn path (.obj []) [(msg, path ++ [Seg.key key])] := by
        intro msg e he
        cases List.mem_singleton.1 he
        exact ⟨_, rfl, .absent⟩
      have atKey : ∀ (o : Out) (new : List (Bytes × List Seg)), ErrsIn (path ++ [Seg.key key]) o new → ErrsIn path (.obj [(key, o)]) new := by
        intro o new h e he
        obtain ⟨q, h1, h2⟩ := h e he
        exact ⟨.key key :: q, by rw [h1]; simp, .key List.mem_cons_self h2⟩
      refine Run.bind ((evalDirectives_run r _ 0 dirs).mono ?_)
      intro a w1 n1 ha
      match a with
      | none =>
        obtain ⟨msg, rfl⟩ := ha
        exact Run.pure ⟨by simp, by rw [List.append_nil]; exact absent msg⟩
      | some true =>
        obtain ⟨rfl, hd⟩ := ha
        exact Run.pure ⟨fun _ => ⟨rfl, hd⟩, .nil⟩
      | some false =>
        obtain ⟨rfl, hd⟩ := ha
        dsimp only
        cases hf : t.fields.find? (fun f => decide (f.key = fnv1 name)) with
        | none =>
          dsimp only
          by_cases h1 : name = b%"__typename"
          · rw [if_pos h1]
            by_cases h2 : (args.isSome || !sels.isEmpty) = true
            · rw [if_pos h2]
              exact Run.reportThen ⟨by simp, atKey _ _ .one⟩
            · rw [if_neg h2]
              refine Run.pure ⟨fun _ => ⟨rfl, rfl, w1, hd, Or.inr ⟨h1, h1 ▸ hf, ?_, ?_, rfl, rfl⟩⟩, .nil⟩
              · cases args with
                | none => rfl
                | some a => simp at h2
              · cases sels with
                | nil => rfl
                | cons a b => simp at h2
          · rw [if_neg h1]
            exact Run.reportThen ⟨by simp, atKey _ _ .one⟩
        | some f =>
          cases room with
          | zero => exact Run.undefined
          | succ room =>
            dsimp only
            refine Run.bind ((valueOfField_run r v f).mono ?_)
            rintro x w2 n2 ⟨rfl, rfl, hx⟩
            refine Run.bind ((ih.data w2 f.obj x dept _ room args sels).mono ?_)
            rintro ⟨o, c⟩ w3 n3 ⟨h1, h2⟩
            refine Run.pure ⟨fun h0 => ?_, ?_⟩
            · have h0 : n3 = [] := by simpa using h0
              exact ⟨(h1 h0).1, rfl, w2, hd, Or.inl ⟨f, x, hf, hx, (h1 h0).2⟩⟩
            · simpa using atKey _ _ h2
    · -- values
      intro w o v dept path room args sels
      unfold evalData
      dsimp only
      by_cases ha : (args.isSome && !takesArgs o) = true
      · rw [if_pos ha]; exact Run.reportThen ⟨by simp, .one⟩
      · rw [if_neg ha]
        have noArgs : takesArgs o = false → args = none := by
          intro h
          rw [h] at ha
          cases args with
          | none => rfl
          | some a => simp at ha
        have sub : args = none → (args.isSome || !sels.isEmpty) = true → sels ≠ [] := by
          rintro rfl h rfl
          simp at h
        cases o with
        | undefined =>
          cases noArgs rfl
          exact Run.pure ⟨fun _ => ⟨rfl, .undefined⟩, .nil⟩
        | array inner =>
          cases noArgs rfl
          refine Run.getWorld ?_
          cases hv : r.env.view w v with
          | seq vs =>
            cases vs with
            | none => exact Run.pure ⟨fun _ => ⟨rfl, .nilList hv⟩, .nil⟩
            | some vs =>
              cases room with
              | zero => exact Run.undefined
              | succ room =>
                dsimp only
                refine Run.bind ((evalElems_run r inner path sels _ (fun w i x => ih.data w inner x dept _ room none sels) 0 vs w).mono ?_)
                rintro os w1 n1 ⟨h1, h2⟩
                refine Run.pure ⟨fun h0 => ?_, ?_⟩
                · rw [List.append_nil] at h0
                  exact ⟨rfl, .list hv (h1 h0)⟩
                · rw [List.append_nil]
                  intro e he
                  obtain ⟨j, x, q, k1, k2, k3⟩ := h2 e he
                  exact ⟨.idx j :: q, by rw [k2]; simp, .idx k1 k3⟩
          | _ => exact Run.undefined
        | objRef typeName =>
          cases noArgs rfl
          dsimp only
          by_cases hs : (!((none : Option (List (Bytes × Value))).isSome || !sels.isEmpty)) = true
          · rw [if_pos hs]; exact Run.reportThen ⟨by simp, .one⟩
          · rw [if_neg hs]
            have hne := sub rfl (by simpa using hs)
            cases ht : lookup r.schema.types typeName with
            | none => exact Run.pure ⟨fun _ => ⟨rfl, .noObject hne ht⟩, .nil⟩
            | some t =>
              dsimp only
              by_cases hd : dept + 1 = r.schema.maxDepth
              · rw [if_pos hd]; exact Run.reportThen ⟨by simp, .one⟩
              · rw [if_neg hd]
                refine Run.bind ((ih.sels w t v (dept + 1) path room sels).mono ?_)
                rintro ⟨ms, c⟩ w1 n1 ⟨h1, h2⟩
                refine Run.pure ⟨fun h0 => ?_, by rw [List.append_nil]; exact h2⟩
                rw [List.append_nil] at h0
                exact ⟨(h1 h0).1, .object hne ht (h1 h0).2⟩
        | data isID kind =>
          cases noArgs rfl
          dsimp only
          by_cases hs : ((none : Option (List (Bytes × Value))).isSome || !sels.isEmpty) = true
          · rw [if_pos hs]; exact Run.reportThen ⟨by simp, .one⟩
          · rw [if_neg hs]
            have : sels = [] := by cases sels with
              | nil => rfl
              | cons a b => simp at hs
            subst this
            refine Run.getWorld ?_
            cases hv : r.env.view w v with
            | scalar x =>
              dsimp only
              cases hd : dataText r.env isID kind x with
              | none => exact Run.undefined
              | some t => exact Run.pure ⟨fun _ => ⟨rfl, .scalar hv (dataText_shows _ _ _ _ _ hd)⟩, .nil⟩
            | _ => exact Run.undefined
        | ptr inner =>
          refine Run.getWorld ?_
          cases hv : r.env.view w v with
          | ptr x =>
            cases x with
            | none =>
              refine Run.pure ⟨fun _ => ⟨rfl, .nilPtr hv ?_⟩, .nil⟩
              by_cases ht : takesArgs inner = true
              · exact Or.inr (takesArgs_callable ht)
              · exact Or.inl (noArgs (by simpa [takesArgs] using ht))
            | some x =>
              refine (ih.data w inner x dept path room args sels).mono ?_
              rintro ⟨o, c⟩ w1 n1 ⟨h1, h2⟩
              exact ⟨fun e => ⟨(h1 e).1, .ptr hv (h1 e).2⟩, h2⟩
          | _ => exact Run.undefined
        | method m out =>
          dsimp only
          by_cases hm : (!m.isTypeMethod) = true
          · rw [if_pos hm]
            refine Run.getWorld ?_
            cases hv : r.env.view w v with
            | func b =>
              cases b with
              | true => exact Run.pure ⟨fun _ => ⟨rfl, .nilFunc (by simpa using hm) hv⟩, .nil⟩
              | false =>
                exact evalCall_run r path m out v args sels _ w (Or.inr hv) (fun w x => ih.data w out x dept path room none sels)
            | _ => exact Run.undefined
          · rw [if_neg hm]
            exact evalCall_run r path m out v args sels _ w (Or.inl (by simpa using hm)) (fun w x => ih.data w out x dept path room none sels)
        | enum idx =>
          cases noArgs rfl
          dsimp only
          cases he : r.schema.enums[idx]? with
          | none => exact Run.undefined
          | some e =>
            refine Run.getWorld ?_
            cases hv : r.env.view w v with
            | scalar x =>
              dsimp only
              obtain ⟨c1, c2⟩ := enumKey_cases e x
              match hk : enumKey e x with
              | none => exact Run.undefined
              | some (some k) =>
                obtain ⟨h1, pre, post, h2, h3⟩ := c1 k hk
                exact Run.pure ⟨fun _ => ⟨rfl, .enum he hv h1 h2 h3⟩, .nil⟩
              | some none => exact Run.pure ⟨fun _ => ⟨rfl, .noEnum he hv (c2 hk)⟩, .nil⟩
            | _ => exact Run.undefined
        | time =>
          cases noArgs rfl
          refine Run.getWorld ?_
          cases hv : r.env.view w v with
          | time t => exact Run.pure ⟨fun _ => ⟨rfl, .time hv (time_text t)⟩, .nil⟩
          | _ => exact Run.pure ⟨fun _ => ⟨rfl, .noTime (by intro t h; rw [show (ctxOf r).env.view w v = _ from hv] at h; cases h)⟩, .nil⟩
        | interfaceRef typeName =>
          cases noArgs rfl
          dsimp only
          by_cases hs : (!((none : Option (List (Bytes × Value))).isSome || !sels.isEmpty)) = true
          · rw [if_pos hs]; exact Run.reportThen ⟨by simp, .one⟩
          · rw [if_neg hs]
            have hne := sub rfl (by simpa using hs)
            cases hi : lookup r.schema.interfaces typeName with
            | none => exact Run.pure ⟨fun _ => ⟨rfl, .noInterface hne hi⟩, .nil⟩
            | some impls =>
              refine Run.getWorld ?_
              cases hv : r.env.view w v with
              | iface x =>
                match x with
                | none => exact Run.pure ⟨fun _ => ⟨rfl, .nilInterface hne hi hv⟩, .nil⟩
                | some (goName, goPkg, x) =>
                  cases room with
                  | zero => exact Run.undefined
                  | succ room =>
                    dsimp only
                    cases hf : impls.find? (fun i => decide (i.goTypeName = goName ∧ i.goPkgPath = goPkg)) with
                    | none =>
                      refine Run.pure ⟨fun _ => ⟨rfl, .unregistered hne hi hv ?_⟩, .nil⟩
                      intro i him
                      simpa using List.find?_eq_none.1 hf i him
                    | some i =>
                      refine (ih.data w (.objRef i.typeName) x (dept + 1) path room none sels).mono ?_
                      rintro ⟨o, c⟩ w1 n1 ⟨h1, h2⟩
                      exact ⟨fun e => ⟨(h1 e).1, .interface hi hv hf (h1 e).2⟩, h2⟩
              | _ => exact Run.undefined

/-- Operations: error-free evaluation shows what `Shows.Operation` says; errors are located in the response. -/
theorem evalOperation_run (fuel : Nat) (o : Operation) (w : W) :
    Run w (evalOperation r fuel o) (fun a w' new =>
      (new = [] → a.2 = false ∧ Shows.Operation (ctxOf r) w o a.1 w') ∧ ErrsIn [] a.1 new) := by
  have hs := (allRun r fuel).sels w
  unfold evalOperation
  cases hk : o.kind with
  | subscription => exact Run.reportThen ⟨by simp, .one⟩
  | query =>
    dsimp only
    by_cases hd : o.dirs = []
    · rw [if_neg (by simpa using hd)]
      refine Run.bind ((hs _ _ _ _ _ _).mono ?_)
      rintro ⟨ms, c⟩ w1 n1 ⟨h1, h2⟩
      refine Run.pure ⟨fun h0 => ?_, by rw [List.append_nil]; exact h2⟩
      rw [List.append_nil] at h0
      exact ⟨(h1 h0).1, .query hk hd (h1 h0).2⟩
    · rw [if_pos hd]; exact Run.reportThen ⟨by simp, .one⟩
  | mutation =>
    dsimp only
    by_cases hd : o.dirs = []
    · rw [if_neg (by simpa using hd)]
      refine Run.bind ((hs _ _ _ _ _ _).mono ?_)
      rintro ⟨ms, c⟩ w1 n1 ⟨h1, h2⟩
      refine Run.pure ⟨fun h0 => ?_, by rw [List.append_nil]; exact h2⟩
      rw [List.append_nil] at h0
      exact ⟨(h1 h0).1, .mutation hk hd (h1 h0).2⟩
    · rw [if_pos hd]; exact Run.reportThen ⟨by simp, .one⟩

end
end Eval
end Yarql
