import Verif.Proofs.Blame
import Verif.Proofs.JsonText
import Verif.Spec.Holes
import Verif.Props.Text

/-! # Response values are JSON, unless an error of a certain kind was reported -/

namespace Yarql
namespace Eval
open Doc Resolver Yarql.Bind Binding Blame Json

section
variable {F V W α β : Type}

/-! ## Texts of scalars -/

theorem digit_bounds {b : Byte} (h : c%'0' ≤ b ∧ b ≤ c%'9') : IsDigit b := by
  have h1 := UInt8.le_iff_toNat_le.1 h.1
  have h2 := UInt8.le_iff_toNat_le.1 h.2
  exact ⟨h1, h2⟩

theorem natDigits_int (n : Nat) : JInt (natDigits n) := by
  obtain ⟨⟨h1, h2, -⟩, h3⟩ := natDigits_canon n
  exact ⟨⟨h1, fun b hb => digit_bounds (h2 b hb)⟩, h3⟩

theorem nat_number (n : Nat) : JNumber (natDigits n) :=
  ⟨[], natDigits n, [], [], by simp, Or.inl rfl, natDigits_int n, Or.inl rfl, Or.inl rfl⟩

theorem int_number (i : Int) : JNumber (intDigits i) := by
  unfold intDigits
  split
  · exact ⟨[c%'-'], natDigits i.natAbs, [], [], by simp, Or.inr rfl, natDigits_int _, Or.inl rfl, Or.inl rfl⟩
  · exact nat_number _

theorem digits_plain {t : Bytes} (h : JDigits t) : Plain t := by
  intro b hb
  have := h.2 b hb
  unfold IsDigit at this
  refine ⟨by omega, by omega, ?_, ?_⟩ <;> (rintro rfl; revert this; decide)

theorem number_plain {t : Bytes} (h : JNumber t) : Plain t := by
  obtain ⟨sign, i, f, e, rfl, hs, hi, hf, he⟩ := h
  refine Plain.append (Plain.append (Plain.append ?_ (digits_plain hi.1)) ?_) ?_
  · rcases hs with rfl | rfl <;> (unfold Plain; decide)
  · rcases hf with rfl | ⟨ds, rfl, hd⟩
    · unfold Plain; decide
    · exact Plain.append (a := [c%'.']) (by unfold Plain; decide) (digits_plain hd)
  · rcases he with rfl | ⟨x, sg, ds, rfl, hx, hsg, hd⟩
    · unfold Plain; decide
    · refine Plain.append (a := x :: sg) ?_ (digits_plain hd)
      rcases hx with rfl | rfl <;> rcases hsg with rfl | rfl | rfl <;> (unfold Plain; decide)

theorem digit_bytes (n : Nat) : IsDigit (digit n) := by
  unfold digit IsDigit
  have : n % 10 < 10 := Nat.mod_lt _ (by omega)
  rw [show (UInt8.ofNat (48 + n % 10)).toNat = 48 + n % 10 from by rw [UInt8.toNat_ofNat', Nat.mod_eq_of_lt (by omega)]]
  omega

theorem nat_plain (n : Nat) : Plain (natDigits n) := digits_plain (natDigits_int n).1

theorem pad_plain (w n : Nat) : Plain (Time.pad w n) := by
  unfold Time.pad
  refine Plain.append ?_ (nat_plain n)
  intro b hb
  rw [List.eq_of_mem_replicate hb]
  decide

theorem time_plain (t : Time.T) : Plain (Time.timeToIso8601String [] t) := by
  unfold Time.timeToIso8601String
  have sep : ∀ (c : Byte) (x : Bytes), (0x20 ≤ c.toNat ∧ c.toNat < 0x7F ∧ c ≠ c%'"' ∧ c ≠ c%'\\') → Plain x → Plain (c :: x) := by
    intro c x hc hx b hb
    rcases List.mem_cons.1 hb with rfl | hb
    · exact hc
    · exact hx b hb
  have hy : Plain (Time.padYear t.year) := by
    unfold Time.padYear
    split
    · exact sep _ _ (by decide) (pad_plain _ _)
    · exact pad_plain _ _
  simp only [List.nil_append, List.append_assoc, List.cons_append]
  refine hy.append (sep _ _ (by decide) ((pad_plain _ _).append (sep _ _ (by decide) ((pad_plain _ _).append (sep _ _ (by decide)
    ((pad_plain _ _).append (sep _ _ (by decide) ((pad_plain _ _).append (sep _ _ (by decide) ((pad_plain _ _).append (sep _ _ (by decide)
    ((pad_plain _ _).append (by unfold Plain; decide)))))))))))))

theorem scalarText_json (env : Env F V W) (hfl : ∀ b f, JNumber (env.floatText b f)) {k : Kind} {x : Scalar F} {t : Bytes}
    (h : scalarText env k x = some t) : JText t ∧ (k ≠ .string → Plain t) := by
  have num : ∀ {t}, JNumber t → JText t ∧ (k ≠ .string → Plain t) := fun h => ⟨.number h, fun _ => number_plain h⟩
  unfold scalarText at h
  split at h
  · cases h
    obtain ⟨lit, cs, h1, -, h2, -⟩ := C13_json_string ‹_› []
    rw [h1, List.nil_append]
    exact ⟨.string h2, fun h => absurd rfl h⟩
  · rename_i b
    cases h
    cases b
    · exact ⟨.false, fun _ => by unfold Plain; decide⟩
    · exact ⟨.true, fun _ => by unfold Plain; decide⟩
  · cases h; exact num (int_number _)
  · cases h; exact num (nat_number _)
  · cases h; exact num (hfl _ _)
  · cases h; exact num (hfl _ _)
  · cases h

theorem dataText_json (env : Env F V W) (hfl : ∀ b f, JNumber (env.floatText b f)) {isID : Bool} {k : Kind} {x : Scalar F} {t : Bytes}
    (h : dataText env isID k x = some t) : JText t := by
  unfold dataText at h
  by_cases hk : (isID && k != .string) = true
  · rw [if_pos hk] at h
    obtain ⟨t', h1, rfl⟩ := Option.map_eq_some_iff.1 h
    have hk : k ≠ .string := by simpa using (Bool.and_eq_true_iff.1 hk).2
    exact .string (plain_string ((scalarText_json env hfl h1).2 hk))
  · rw [if_neg hk] at h
    exact (scalarText_json env hfl h).1

theorem name_plain {n : Bytes} (h : IsName n) : Plain n := by
  obtain ⟨-, c, cs, rfl, h1, h2⟩ := h
  have key : ∀ b : Byte, NameChar b → 0x20 ≤ b.toNat ∧ b.toNat < 0x7F ∧ b ≠ c%'"' ∧ b ≠ c%'\\' := by
    intro b hb
    rcases hb with (⟨h, h'⟩ | ⟨h, h'⟩ | rfl) | ⟨h, h'⟩
    · have h1 := UInt8.le_iff_toNat_le.1 h
      have h2 := UInt8.le_iff_toNat_le.1 h'
      simp only [show (97 : UInt8).toNat = 97 from rfl, show (122 : UInt8).toNat = 122 from rfl] at h1 h2
      refine ⟨by omega, by omega, ?_, ?_⟩ <;> (rintro rfl; revert h1; decide)
    · have h1 := UInt8.le_iff_toNat_le.1 h
      have h2 := UInt8.le_iff_toNat_le.1 h'
      simp only [show (65 : UInt8).toNat = 65 from rfl, show (90 : UInt8).toNat = 90 from rfl] at h1 h2
      refine ⟨by omega, by omega, ?_, ?_⟩ <;> (rintro rfl; revert h1 h2; decide)
    · decide
    · have h1 := UInt8.le_iff_toNat_le.1 h
      have h2 := UInt8.le_iff_toNat_le.1 h'
      simp only [show (48 : UInt8).toNat = 48 from rfl, show (57 : UInt8).toNat = 57 from rfl] at h1 h2
      refine ⟨by omega, by omega, ?_, ?_⟩ <;> (rintro rfl; revert h1 h2; decide)
  intro b hb
  rcases List.mem_cons.1 hb with rfl | hb
  · exact key _ (Or.inl h1)
  · exact key _ (h2 b hb)

/-! ## Evaluation -/

/-- the result is good, or one of the new errors satisfies `P` -/
def Fills (P : Bytes × List Seg → Prop) (m : E W α) (good : α → Prop) : Prop :=
  ∀ es a es', m es = some (a, es') → ∃ new, es'.errs = es.errs ++ new ∧ (good a ∨ ∃ e ∈ new, P e)

variable {P : Bytes × List Seg → Prop}

theorem Fills.mono {m : E W α} {g g' : α → Prop} {Q : Bytes × List Seg → Prop} (h : Fills Q m g) (hq : ∀ e, Q e → P e) (hg : ∀ a, g a → g' a) :
    Fills P m g' := by
  intro es a es' hm
  obtain ⟨new, h1, h2⟩ := h es a es' hm
  refine ⟨new, h1, ?_⟩
  rcases h2 with h | ⟨e, he, h⟩
  · exact Or.inl (hg a h)
  · exact Or.inr ⟨e, he, hq e h⟩

theorem Fills.pure {a : α} {g : α → Prop} (h : g a) : Fills (W := W) P (Pure.pure a) g := by
  intro es b es' hm
  have e := E_pure.1 hm
  cases e
  exact ⟨[], by simp, Or.inl h⟩

theorem Fills.undefined {g : α → Prop} : Fills (W := W) P (undefinedE (α := α)) g := by
  intro es b es' hm
  cases hm

theorem Fills.bind {m : E W α} {f : α → E W β} {g : α → Prop} {g' : β → Prop} (hm : Fills P m g) (hf : ∀ a, Fills P (f a) (fun b => g a → g' b)) :
    Fills P (m >>= f) g' := by
  intro es b es' h
  obtain ⟨a, es1, h1, h2⟩ := E_bind.1 h
  obtain ⟨n1, k1, k2⟩ := hm es a es1 h1
  obtain ⟨n2, l1, l2⟩ := hf a es1 b es' h2
  refine ⟨n1 ++ n2, by rw [l1, k1, List.append_assoc], ?_⟩
  rcases k2 with k2 | ⟨e, he, k2⟩
  · rcases l2 with l2 | ⟨e, he, l2⟩
    · exact Or.inl (l2 k2)
    · exact Or.inr ⟨e, List.mem_append_right _ he, l2⟩
  · exact Or.inr ⟨e, List.mem_append_left _ he, k2⟩

/-- steps whose result does not matter -/
theorem Fills.bindR {path : List Seg} {c : α → Prop} {m : E W α} {f : α → E W β} {g' : β → Prop} (hm : Reports path m c) (hf : ∀ a, Fills P (f a) g') :
    Fills P (m >>= f) g' := by
  refine Fills.bind (g := fun _ => True) ?_ (fun a => (hf a).mono (fun _ h => h) (fun _ h _ => h))
  intro es a es' h
  obtain ⟨new, h1, -⟩ := hm es a es' h
  exact ⟨new, h1, Or.inl trivial⟩

theorem Fills.reportThen {path : List Seg} {msg : Bytes} {b : β} {g : β → Prop} (h : g b) :
    Fills (W := W) P (Eval.report path msg >>= fun _ => Pure.pure b) g :=
  Fills.bindR (Reports.report (List.prefix_refl path)) (fun _ => .pure h)

theorem Fills.reportHole {path : List Seg} {msg : Bytes} {b : β} {g : β → Prop} (h : P (msg, path)) :
    Fills (W := W) P (Eval.report path msg >>= fun _ => Pure.pure b) g := by
  intro es b es' hm
  obtain ⟨u, es1, h1, h2⟩ := E_bind.1 hm
  have e1 : Option.some ((), ({ es with errs := es.errs ++ [(msg, path)] } : ES W)) = Option.some (u, es1) := h1
  cases e1
  have e := E_pure.1 h2
  cases e
  exact ⟨[(msg, path)], rfl, Or.inr ⟨_, by simp, h⟩⟩

theorem evalElems_fills (elem : Nat → V → E W (Out × Bool)) (h : ∀ i v, Fills P (elem i v) (fun a => OutOK a.1)) (i : Nat) (vs : List V) :
    Fills P (evalElems elem i vs) ItemsOK := by
  induction vs generalizing i with
  | nil => unfold evalElems; exact .pure .nil
  | cons v vs ih =>
    unfold evalElems
    refine Fills.bind (h i v) ?_
    rintro ⟨o, b⟩
    dsimp only
    exact Fills.bind (ih (i + 1)) (fun os => .pure (fun h1 h2 => .cons h2 h1))

variable (r : Req F V W)

theorem evalResult_fills (path : List Seg) (m : Method F) (outs : List V) (next : V → E W (Out × Bool))
    (h : ∀ v, Fills P (next v) (fun a => OutOK a.1)) : Fills P (evalResult r path m outs next) (fun a => OutOK a.1) := by
  unfold evalResult
  refine Fills.bindR (path := []) getWorld_quiet ?_
  intro w
  cases r.env.ctxErr w with
  | some msg => exact Fills.reportThen .null
  | none =>
    dsimp only
    cases outs[m.outNr]? with
    | none => exact .undefined
    | some x => exact h x

theorem evalCall_fills (path : List Seg) (m : Method F) (fn : V) (args : List (Bytes × Value)) (next : V → E W (Out × Bool))
    (hnext : ∀ v, Fills P (next v) (fun a => OutOK a.1)) (hunb : args ≠ [] → Unbound (ctxOf r) m args → ∀ msg, P (msg, path)) :
    Fills P (evalCall r path m fn args next) (fun a => OutOK a.1) := by
  unfold evalCall
  refine Fills.bind (g := fun a => a ≠ none) ?_ ?_
  · intro es a es' hm
    obtain ⟨new, h1, h2⟩ := callWith_run r (w := es.world) path m fn args es a es' rfl hm
    refine ⟨new, h1, ?_⟩
    cases a with
    | some outs => exact Or.inl (by simp)
    | none =>
      obtain ⟨-, msg, rfl⟩ := h2
      obtain ⟨k1, k2⟩ := callWith_unbound r path m fn args hm
      exact Or.inr ⟨_, by simp, hunb k1 k2 msg⟩
  · intro a
    cases a with
    | none => exact .pure (fun h => absurd rfl h)
    | some outs =>
      dsimp only
      have hr := (evalResult_fills r path m outs next hnext).mono (fun _ h => h)
        (g' := fun b => (some outs : Option (List V)) ≠ none → OutOK b.1) (fun _ h _ => h)
      cases m.errorOutNr with
      | none => exact hr
      | some nr =>
        dsimp only
        cases outs[nr]? with
        | none => exact .undefined
        | some e =>
          dsimp only
          refine Fills.bindR (path := []) getWorld_quiet ?_
          intro w
          cases r.env.errOf w e with
          | none => exact hr
          | some msg => exact Fills.bindR (Reports.report (List.prefix_refl path)) (fun _ => hr)

/-- a reported error is about a selection that has no value -/
def SelsH (path : List Seg) (sels : List Sel) (e : Bytes × List Seg) : Prop :=
  ∃ p sel, e.2 = path ++ p ∧ Leads r.frags sels p sel ∧ Hole (ctxOf r) sel

theorem leads_sub {frags : List Fragment} {sels sels' : List Sel} {p : List Seg} {s : Sel} (h : Leads frags sels p s) (hs : ∀ x ∈ sels, x ∈ sels') :
    Leads frags sels' p s := by
  cases h with
  | field h => exact .field (hs _ h)
  | spread h => exact .spread (hs _ h)
  | inline h => exact .inline (hs _ h)
  | underField h h' => exact .underField (hs _ h) h'
  | underSpread h h1 h2 h' => exact .underSpread (hs _ h) h1 h2 h'
  | underInline h h' => exact .underInline (hs _ h) h'

theorem SelsH.sub {path : List Seg} {sels sels' : List Sel} {e : Bytes × List Seg} (h : SelsH r path sels e) (hs : ∀ x ∈ sels, x ∈ sels') :
    SelsH r path sels' e := by
  obtain ⟨p, s, h1, h2, h3⟩ := h
  exact ⟨p, s, h1, leads_sub h2 hs, h3⟩

variable [DecidableEq F]

structure AllFill (r : Req F V W) (n : Nat) : Prop where
  sels : ∀ t v dept path room sels, IsObject r.schema t → selsWF sels →
    Fills (SelsH r path sels) (evalSels r n t v dept path room sels) (fun a => MembersOK a.1)
  spread : ∀ t v dept path room name dirs, IsObject r.schema t →
    Fills (SelsH r path [.spread name dirs]) (evalSpread r n t v dept path room name dirs) (fun a => MembersOK a.1)
  inline : ∀ t v dept path room ty dirs sels, IsObject r.schema t → selsWF sels →
    Fills (SelsH r path [.inline ty dirs sels]) (evalInline r n t v dept path room ty dirs sels) (fun a => MembersOK a.1)
  field : ∀ t v dept path room key name dirs args sels, IsObject r.schema t → IsName key → selsWF sels →
    Fills (SelsH r path [.field key name dirs args sels]) (evalField r n t v dept path room key (name.getD key) dirs args sels)
      (fun a => MembersOK a.1.toList)
  data : ∀ f o v dept path room key name dirs args args' sels (idxs : List Nat), Resolves (ctxOf r) (name.getD key) f →
    (∀ m, Calls m o → Calls m f.obj) → (args' = args ∨ args' = none) → selsWF sels →
    Fills (SelsH r path [.field key name dirs args sels])
      (evalData r n o v dept (path ++ .key key :: idxs.map .idx) room args' sels) (fun a => OutOK a.1)

theorem allFill (hfl : ∀ b f, JNumber (r.env.floatText b f)) (hp : PlainSchema r.schema) (hfr : ∀ f ∈ r.frags, selsWF f.sels) (n : Nat) :
    AllFill r n := by
  induction n with
  | zero =>
    constructor
    · intros; simp only [evalSels]; exact .undefined
    · intros; simp only [evalSpread]; exact .undefined
    · intros; simp only [evalInline]; exact .undefined
    · intros; simp only [evalField]; exact .undefined
    · intros; unfold evalData; exact .undefined
  | succ n ih =>
    constructor
    · -- selections
      intro t v dept path room sels ht hwf
      have tail : ∀ (p : List (Bytes × Out) × Bool) (sel : Sel) (rest : List Sel), selsWF rest → Fills (SelsH r path (sel :: rest)) (do
          if p.2 then return (p.1, true)
          let (ms', crit) ← evalSels r n t v dept path room rest
          return (p.1 ++ ms', crit) : E W (List (Bytes × Out) × Bool)) (fun a => MembersOK p.1 → MembersOK a.1) := by
        intro p sel rest hwf
        by_cases hc : p.2 = true
        · rw [if_pos hc]; exact .pure (fun h => h)
        · rw [if_neg hc]
          refine Fills.bind ((ih.sels t v dept path room rest ht hwf).mono (fun e h => h.sub r (fun x hx => List.mem_cons_of_mem _ hx)) (fun _ h => h)) ?_
          rintro ⟨ms, c⟩
          exact .pure (fun h1 h2 => h2.append h1)
      have one : ∀ sel rest e, SelsH r path [sel] e → SelsH r path (sel :: rest) e := by
        intro sel rest e h
        exact h.sub r (by simp)
      match sels with
      | [] => simp only [evalSels]; exact .pure .nil
      | .field key name dirs args sub :: rest =>
        simp only [selsWF, Sel.WF] at hwf
        simp only [evalSels]
        refine Fills.bind ((ih.field t v dept path room key name dirs args sub ht hwf.1.1 hwf.1.2.2.2.2).mono (one _ rest) (fun _ h => h)) ?_
        rintro ⟨m, c⟩
        exact tail (m.toList, c) _ rest hwf.2
      | .spread name dirs :: rest =>
        simp only [selsWF, Sel.WF] at hwf
        simp only [evalSels]
        refine Fills.bind ((ih.spread t v dept path room name dirs ht).mono (one _ rest) (fun _ h => h)) ?_
        rintro ⟨m, c⟩
        exact tail (m, c) _ rest hwf.2
      | .inline ty dirs sub :: rest =>
        simp only [selsWF, Sel.WF] at hwf
        simp only [evalSels]
        refine Fills.bind ((ih.inline t v dept path room ty dirs sub ht hwf.1.2.2).mono (one _ rest) (fun _ h => h)) ?_
        rintro ⟨m, c⟩
        exact tail (m, c) _ rest hwf.2
    · -- spreads
      intro t v dept path room name dirs ht
      simp only [evalSpread]
      refine Fills.bindR (evalDirectives_reports r path 1 dirs) ?_
      intro a
      match a with
      | none => exact .pure .nil
      | some true => exact .pure .nil
      | some false =>
        dsimp only
        cases hf : r.frags.find? (fun f => decide (f.name = name)) with
        | none => exact Fills.reportThen .nil
        | some f =>
          dsimp only
          by_cases h : t.typeName = f.typeName
          · rw [if_pos h]
            refine (ih.sels t v dept path room f.sels ht (hfr f (List.mem_of_find?_eq_some hf))).mono ?_ (fun _ h => h)
            rintro e ⟨p, s, h1, h2, h3⟩
            exact ⟨p, s, h1, .underSpread (List.mem_singleton.2 rfl) (List.mem_of_find?_eq_some hf) (by simpa using List.find?_some hf) h2, h3⟩
          · rw [if_neg h]; exact .pure .nil
    · -- inline fragments
      intro t v dept path room ty dirs sels ht hwf
      simp only [evalInline]
      refine Fills.bindR (evalDirectives_reports r path 2 dirs) ?_
      intro a
      match a with
      | none => exact .pure .nil
      | some true => exact .pure .nil
      | some false =>
        dsimp only
        by_cases h : t.typeName = ty
        · rw [if_pos h]
          refine (ih.sels t v dept path room sels ht hwf).mono ?_ (fun _ h => h)
          rintro e ⟨p, s, h1, h2, h3⟩
          exact ⟨p, s, h1, .underInline (List.mem_singleton.2 rfl) h2, h3⟩
        · rw [if_neg h]; exact .pure .nil
    · -- fields
      intro t v dept path room key name dirs args sels ht hk hwf
      have one : ∀ {x}, OutOK x → MembersOK (Option.some (key, x)).toList := fun h => .cons (name_plain hk) h .nil
      simp only [evalField]
      refine Fills.bindR (evalDirectives_reports r _ 0 dirs) ?_
      intro a
      match a with
      | none => exact .pure .nil
      | some true => exact .pure .nil
      | some false =>
        dsimp only
        cases hf : t.fields.find? (fun f => decide (f.key = fnv1 (name.getD key))) with
        | none =>
          dsimp only
          by_cases h1 : name.getD key = b%"__typename"
          · rw [if_pos h1]
            by_cases h2 : (args.isSome || !sels.isEmpty) = true
            · rw [if_pos h2]
              refine Fills.reportHole ⟨[.key key], _, rfl, .field (idxs := []) (List.mem_singleton.2 rfl), .typename h1 ?_⟩
              rcases Bool.or_eq_true_iff.1 h2 with h | h
              · exact Or.inl (by cases args <;> simp_all)
              · exact Or.inr (by cases sels <;> simp_all)
            · rw [if_neg h2]
              exact .pure (one (.leaf (.string (plain_string (hp.types t ht)))))
          · rw [if_neg h1]
            exact Fills.reportThen (one .null)
        | some f =>
          cases room with
          | zero => exact .undefined
          | succ room =>
            dsimp only
            refine Fills.bindR (valueOfField_quiet r [] v f) ?_
            intro x
            refine Fills.bind (ih.data f f.obj x dept path room key name dirs args args sels [] ⟨t, ht, hf⟩ (fun _ h => h) (Or.inl rfl) hwf) ?_
            rintro ⟨o, c⟩
            exact .pure (fun h => one h)
    · -- values
      intro f o v dept path room key name dirs args args' sels idxs hres hcalls hargs hwf
      unfold evalData
      dsimp only
      by_cases ha : (args'.isSome && !takesArgs o) = true
      · rw [if_pos ha]
        exact Fills.reportThen .null
      · rw [if_neg ha]
        cases o with
        | undefined => exact .pure .null
        | array inner =>
          refine Fills.bindR (path := []) getWorld_quiet ?_
          intro w
          cases r.env.view w v with
          | seq vs =>
            cases vs with
            | none => exact .pure .null
            | some vs =>
              cases room with
              | zero => exact .undefined
              | succ room =>
                dsimp only
                refine Fills.bind (evalElems_fills _ ?_ 0 vs) (fun _ => .pure (fun h => .list h))
                intro i x
                have := ih.data f inner x dept path room key name dirs args args' sels (idxs ++ [i]) hres (fun m h => hcalls m (.array h)) hargs hwf
                rw [List.map_append, List.map_singleton] at this
                rw [List.append_assoc]
                exact this
          | _ => exact .undefined
        | objRef typeName =>
          dsimp only
          by_cases hs : (!(args'.isSome || !sels.isEmpty)) = true
          · rw [if_pos hs]; exact Fills.reportThen .null
          · rw [if_neg hs]
            cases hl : lookup r.schema.types typeName with
            | none => exact .pure .null
            | some t =>
              dsimp only
              by_cases hd : dept + 1 = r.schema.maxDepth
              · rw [if_pos hd]; exact Fills.reportThen .null
              · rw [if_neg hd]
                refine Fills.bind (((ih.sels t v (dept + 1) _ room sels (Or.inr (Or.inr ⟨_, hl⟩))) hwf).mono ?_ (fun _ h => h))
                  (fun _ => .pure (fun h => .obj h))
                rintro e ⟨p, s, h1, h2, h3⟩
                exact ⟨.key key :: idxs.map .idx ++ p, s, by rw [h1]; simp, .underField (List.mem_singleton.2 rfl) h2, h3⟩
        | data isID kind =>
          dsimp only
          by_cases hs : (args'.isSome || !sels.isEmpty) = true
          · rw [if_pos hs]
            exact Fills.reportThen .null
          · rw [if_neg hs]
            refine Fills.bindR (path := []) getWorld_quiet ?_
            intro w
            cases r.env.view w v with
            | scalar x =>
              dsimp only
              cases hd : dataText r.env isID kind x with
              | none => exact .undefined
              | some t => exact .pure (.leaf (dataText_json r.env hfl hd))
            | _ => exact .undefined
        | ptr inner =>
          refine Fills.bindR (path := []) getWorld_quiet ?_
          intro w
          cases r.env.view w v with
          | ptr x =>
            cases x with
            | none => exact .pure .null
            | some x => exact ih.data f inner x dept path room key name dirs args args' sels idxs hres (fun m h => hcalls m (.ptr h)) hargs hwf
          | _ => exact .undefined
        | method m out =>
          dsimp only
          have hcall := hcalls m .here
          have hc := evalCall_fills r (P := SelsH r path [.field key name dirs args sels]) (path ++ .key key :: idxs.map .idx) m v (args'.getD [])
            (fun x => evalData r n out x dept (path ++ .key key :: idxs.map .idx) room none sels)
            (fun x => ih.data f out x dept path room key name dirs args none sels idxs hres (fun m h => hcalls m (.result h)) (Or.inr rfl) hwf)
            (by
              intro h1 h2 msg
              refine ⟨.key key :: idxs.map .idx, _, rfl, .field (List.mem_singleton.2 rfl), ?_⟩
              rcases hargs with rfl | rfl
              · cases args' with
                | none => exact absurd rfl h1
                | some args => exact .unbound hres hcall h2
              · exact absurd rfl h1)
          by_cases hm : (!m.isTypeMethod) = true
          · rw [if_pos hm]
            refine Fills.bindR (path := []) getWorld_quiet ?_
            intro w
            cases r.env.view w v with
            | func b =>
              cases b with
              | true => exact .pure .null
              | false => exact hc
            | _ => exact .undefined
          · rw [if_neg hm]
            exact hc
        | enum idx =>
          dsimp only
          cases he : r.schema.enums[idx]? with
          | none => exact .undefined
          | some e =>
            dsimp only
            refine Fills.bindR (path := []) getWorld_quiet ?_
            intro w
            cases r.env.view w v with
            | scalar x =>
              dsimp only
              match hk : enumKey e x with
              | none => exact .undefined
              | some none => exact .pure .null
              | some (some k) =>
                obtain ⟨-, pre, post, h1, -⟩ := (enumKey_cases e x).1 k hk
                have hm : e ∈ r.schema.enums := List.mem_of_getElem? he
                exact .pure (.leaf (.string (plain_string (hp.enums e hm (k, x) (by rw [h1]; simp)))))
            | _ => exact .undefined
        | time =>
          refine Fills.bindR (path := []) getWorld_quiet ?_
          intro w
          cases r.env.view w v with
          | time t => exact .pure (.leaf (.string (plain_string (time_plain t))))
          | _ => exact .pure .null
        | interfaceRef typeName =>
          dsimp only
          by_cases hs : (!(args'.isSome || !sels.isEmpty)) = true
          · rw [if_pos hs]; exact Fills.reportThen .null
          · rw [if_neg hs]
            cases lookup r.schema.interfaces typeName with
            | none => exact .pure .null
            | some impls =>
              dsimp only
              refine Fills.bindR (path := []) getWorld_quiet ?_
              intro w
              cases r.env.view w v with
              | iface x =>
                match x with
                | none => exact .pure .null
                | some (g, p, x) =>
                  cases room with
                  | zero => exact .undefined
                  | succ room =>
                    dsimp only
                    cases impls.find? (fun i => decide (i.goTypeName = g ∧ i.goPkgPath = p)) with
                    | none => exact .pure .null
                    | some i => exact ih.data f _ x (dept + 1) path room key name dirs args args' sels idxs hres (fun m h => by cases h) hargs hwf
              | _ => exact .undefined

theorem evalOperation_fills (hfl : ∀ b f, JNumber (r.env.floatText b f)) (hp : PlainSchema r.schema) (hfr : ∀ f ∈ r.frags, selsWF f.sels)
    (fuel : Nat) (o : Operation) (hwf : selsWF o.sels) :
    Fills (fun e => ∃ sel, Leads r.frags o.sels e.2 sel ∧ Hole (ctxOf r) sel) (evalOperation r fuel o) (fun a => OutOK a.1) := by
  have sels : ∀ t v, IsObject r.schema t → Fills (fun e => ∃ sel, Leads r.frags o.sels e.2 sel ∧ Hole (ctxOf r) sel)
      (evalSels r fuel t v 0 [] 255 o.sels) (fun a => MembersOK a.1) := by
    intro t v ht
    refine ((allFill r hfl hp hfr fuel).sels t v 0 [] 255 o.sels ht hwf).mono ?_ (fun _ h => h)
    rintro ⟨msg, p⟩ ⟨q, s, h1, h2, h3⟩
    have h1 : p = q := by simpa using h1
    subst h1
    exact ⟨s, h2, h3⟩
  unfold evalOperation
  cases hk : o.kind with
  | subscription => exact Fills.reportThen (.obj .nil)
  | query =>
    dsimp only
    by_cases hd : o.dirs ≠ []
    · rw [if_pos hd]; exact Fills.reportThen (.obj .nil)
    · rw [if_neg hd]; exact Fills.bind (sels _ _ (Or.inl rfl)) (fun _ => .pure (fun h => .obj h))
  | mutation =>
    dsimp only
    by_cases hd : o.dirs ≠ []
    · rw [if_pos hd]; exact Fills.reportThen (.obj .nil)
    · rw [if_neg hd]; exact Fills.bind (sels _ _ (Or.inr (Or.inl rfl))) (fun _ => .pure (fun h => .obj h))

end
end Eval
end Yarql
