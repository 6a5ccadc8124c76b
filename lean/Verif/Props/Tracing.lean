import Verif.Proofs.TraceInv
import Verif.Props.WellFormed
import Verif.Props.TypeWalk
import Verif.Props.Introspect

/-!
# C61, C62, C63: tracing

`Resolve` with `opts.Tracing` on a schema returned by `Parse`.
-/

namespace Yarql
open Resolver Tracing
open Doc (Def Operation Sel)
open Eval
open Typed
open Json
open Reflects (Names Mirrors ObjOf FuncObj)
open TypeWalk (Program Decl)
open GoTypes (NoClash Distinct)

section
variable {F V W : Type}

/-! ## References of a parsed schema -/

theorem objOf_type {prog : Program F} {N : Names} {Par : List TypeWalk.Ty → Method F → Prop} {d : Decl V} {schema : Schema F V}
    (hN : Mirrors prog N Par d schema) {t : TypeWalk.Ty} {id : Bool} {o : Obj F} (h : ObjOf prog N t id o) :
    Introspect.objToQLType schema o ≠ none := by
  induction h with
  | time _ => simp [Introspect.objToQLType]
  | @struct t fs n _ hn =>
    have := hN.typeNames n
    rw [hn] at this
    obtain ⟨x, hx⟩ := Option.isSome_iff_exists.1 this.symm
    simp [Introspect.objToQLType, hx]
  | @iface t n _ _ hn =>
    have := hN.ifaceNames n
    rw [hn] at this
    obtain ⟨x, hx⟩ := Option.isSome_iff_exists.1 this.symm
    simp [Introspect.objToQLType, hx]
  | array _ _ _ ih => simpa [Introspect.objToQLType] using ih
  | slice _ _ _ ih => simpa [Introspect.objToQLType] using ih
  | ptr _ _ _ ih => simpa [Introspect.objToQLType] using ih
  | @enum t id k i _ _ he =>
    obtain ⟨_, _, _, _, _, e, he, _⟩ := (C58_enum_by_name_partial prog t i).1 he
    simp [Introspect.objToQLType, hN.enums, he]
  | data _ _ _ _ => simp [Introspect.objToQLType]

theorem funcObj_type {prog : Program F} {N : Names} {Par : List TypeWalk.Ty → Method F → Prop} {d : Decl V} {schema : Schema F V}
    (hN : Mirrors prog N Par d schema) {sig : TypeWalk.Sig} {b tag : Bool} {o : Obj F} (h : FuncObj prog N Par sig b tag o) :
    Introspect.objToQLType schema o ≠ none := by
  obtain ⟨m, out, ty, id, rfl, -, -, -, -, -, -, h, -, -⟩ := h
  simpa [Introspect.objToQLType] using objOf_type hN h

/-- every field of a schema that `Parse` returns has a type that introspection and tracing can show -/
theorem parsed_printable (prog : Program F) (fuel : Nat) (d : Decl V) (schema : Schema F V) (hnc : NoClash prog)
    (h : TypeWalk.parse prog fuel d = .ok schema) : Printable (viewSchema schema) (Introspect.objToQlTypeName schema) := by
  obtain ⟨N, hN⟩ := C48_registered_partial prog fuel d schema hnc h
  have key : ∀ n td, lookup schema.types n = some td → ∀ f ∈ td.fields, Introspect.objToQLType schema f.obj ≠ none := by
    intro n td hl f hf
    have hn := hN.typeNames n
    rw [hl] at hn
    obtain ⟨t, ht⟩ := Option.isSome_iff_exists.1 hn
    obtain ⟨-, -, -, hfs, -⟩ := hN.typeDef n t td ht hl
    rcases hfs.sound f hf with ⟨-, -, hi⟩ | ⟨-, -, hi⟩
    · cases hi with
      | schema _ _ _ ho => exact objOf_type hN ho
      | type _ _ _ ho => exact funcObj_type hN ho
    · cases hi with
      | plain _ _ _ _ _ ho => exact objOf_type hN ho
      | func _ _ _ _ _ ho => exact funcObj_type hN ho
      | method _ _ ho => exact funcObj_type hN ho
  have key2 : ∀ td n, lookup schema.types n = some td → ∀ f ∈ (viewType td).fields, Introspect.objToQlTypeName schema f.obj ≠ none := by
    intro td n hl f hf
    obtain ⟨g, hg, rfl⟩ := List.mem_map.1 hf
    have := key n td hl g hg
    simpa [Introspect.objToQlTypeName, viewField] using this
  rintro t (rfl | rfl | ⟨n, hl⟩)
  · exact key2 _ _ hN.query.2.1
  · exact key2 _ _ hN.mutation.2.1
  · have hv := TypeWalk.lookup_map (fun _ d => viewType d) schema.types n
    have hl : lookup (schema.types.map (fun e => (e.1, viewType e.2))) n = some t := hl
    rw [hv] at hl
    obtain ⟨td, h1, rfl⟩ := Option.map_eq_some_iff.1 hl
    exact key2 _ _ h1

/-! ## C61 -/

variable [DecidableEq F]

theorem resolveT_erases (fuel : Nat) (s : Schema F V) (env : Env F V W) (clock : Nat → Int) (marshal : Tracer → Option Bytes)
    (vals : UInt8 → V) (w : W) (req : Request) (hT : Printable (viewSchema s) (Introspect.objToQlTypeName s)) :
    match resolveT fuel s env clock marshal vals w req with
    | .ok r w' => ∃ data, (∀ b, resolve fuel (viewSchema s) env vals w { req with noMeta := b } = .ok (envelope b data r.errs, r.errs) w') ∧
        r.body = envelopeT req.noMeta data r.errs (marshal r.tracer)
    | .panic => resolve fuel (viewSchema s) env vals w req = .panic
    | .oof => resolve fuel (viewSchema s) env vals w req = .oof := by
  unfold resolveT resolve
  dsimp only
  cases hp : Parser.parseQuery req.query (if req.target = [] then none else some req.target) with
  | panic => rfl
  | oof => rfl
  | ok u p =>
    dsimp only
    by_cases he : p.errs.isEmpty = true
    · rw [if_pos he, if_pos he]
      cases ht : p.targetIdx with
      | none =>
        dsimp only
        exact ⟨b%"{}", fun b => by rw [hp]; dsimp only; rw [if_pos he, ht], rfl⟩
      | some at_ =>
        dsimp only
        have h := erases_operation (c := ⟨⟨p.res, p.frags, viewSchema s, env, req.vars⟩, true, clock, clock 0, Introspect.objToQlTypeName s⟩)
          hT fuel ⟨⟨at_, [], [c%'{'], [], vals, 0, false, false, 0, w⟩, 4, clock 1, []⟩
        revert h
        cases hr : resolveOperationT fuel (⟨⟨p.res, p.frags, viewSchema s, env, req.vars⟩, true, clock, clock 0, Introspect.objToQlTypeName s⟩ :
          TCfg F V W) ⟨⟨at_, [], [c%'{'], [], vals, 0, false, false, 0, w⟩, 4, clock 1, []⟩ with
        | panic => intro h; rw [show resolveOperation fuel _ _ = .panic from h]
        | oof => intro h; rw [show resolveOperation fuel _ _ = .oof from h]
        | ok a st =>
          intro h
          dsimp only
          refine ⟨_, fun b => ?_, rfl⟩
          rw [hp]
          dsimp only
          rw [if_pos he, ht]
          dsimp only
          rw [show resolveOperation fuel _ _ = .ok a st.rs from h]
    · rw [if_neg he, if_neg he]
      dsimp only
      exact ⟨b%"{}", fun b => by rw [hp]; dsimp only; rw [if_neg he], rfl⟩

/-- **C61** Tracing only adds. On a schema returned by `Parse` (no clash of names), whatever the clock does: a traced request is answered
if and only if the untraced one is, with the same data, the same errors and the same effects; the body differs in the value of
`extensions` only (and not at all with `NoMeta`). -/
theorem C61_tracing_only_adds (prog : Program F) (n : Nat) (d : Decl V) (s : Schema F V) (hnc : NoClash prog)
    (hp : TypeWalk.parse prog n d = .ok s) (fuel : Nat) (env : Env F V W) (clock : Nat → Int) (marshal : Tracer → Option Bytes)
    (vals : UInt8 → V) (w : W) (req : Request) :
    (∀ r w', resolveT fuel s env clock marshal vals w req = .ok r w' →
      ∃ data ext, resolve fuel (viewSchema s) env vals w req = .ok (envelope req.noMeta data r.errs, r.errs) w' ∧
        ext = (marshal r.tracer).getD b%"null" ∧
        r.body = if req.noMeta then data else b%"{\"data\":" ++ data ++
          (if r.errs.isEmpty then [] else b%",\"errors\":[" ++ errorsJSON r.errs ++ b%"]") ++
          b%",\"extensions\":{\"tracing\":" ++ ext ++ b%"}}") ∧
    (∀ body es w', resolve fuel (viewSchema s) env vals w req = .ok (body, es) w' →
      ∃ r, resolveT fuel s env clock marshal vals w req = .ok r w' ∧ r.errs = es) ∧
    (resolveT fuel s env clock marshal vals w req = .panic ↔ resolve fuel (viewSchema s) env vals w req = .panic) := by
  have h := resolveT_erases fuel s env clock marshal vals w req (parsed_printable prog n d s hnc hp)
  revert h
  cases hr : resolveT fuel s env clock marshal vals w req with
  | ok r w1 =>
    rintro ⟨data, h1, h2⟩
    have h1 : resolve fuel (viewSchema s) env vals w req = _ := h1 req.noMeta
    refine ⟨fun r' w' e => ?_, fun body es w' e => ?_, ?_⟩
    · injection e with e1 e2
      subst e1 e2
      exact ⟨data, _, h1, rfl, h2⟩
    · rw [h1] at e
      injection e with e1 e2
      injection e1 with e3 e4
      subst e2
      exact ⟨r, rfl, e4⟩
    · rw [h1]; constructor <;> intro e <;> cases e
  | panic =>
    intro h
    dsimp only at h
    rw [h]
    exact ⟨(fun _ _ e => nomatch e), (fun _ _ _ e => nomatch e), Iff.intro (fun _ => rfl) (fun _ => rfl)⟩
  | oof =>
    intro h
    dsimp only at h
    rw [h]
    exact ⟨(fun _ _ e => nomatch e), (fun _ _ _ e => nomatch e), Iff.intro (fun e => nomatch e) (fun e => nomatch e)⟩

/-! ## C62 -/

/-- what C62 asks of an entry: it is about a field of a type of the schema, and lies between the end of parsing and the end of the request -/
structure EntryOK (s : Schema F V) (t : Tracer) (e : Tracing.Entry) : Prop where
  field : ∃ td f, (td = s.rootQuery ∨ td = s.rootMethod ∨ ∃ n, lookup s.types n = some td) ∧ f ∈ td.fields ∧
    e.parentType = td.typeName ∧ Introspect.objToQlTypeName s f.obj = some e.returnType
  after : t.parsingOffset + t.parsingDuration ≤ e.startOffset
  duration : 0 ≤ e.duration
  before : e.startOffset + e.duration ≤ t.duration

/-- what holds of the tracer during execution -/
structure TraceOK (s : Schema F V) (clock : Nat → Int) (st : TS V W) : Prop where
  reads : 4 ≤ st.reads
  entry : ∀ e ∈ st.entries, (∃ td f, (td = s.rootQuery ∨ td = s.rootMethod ∨ ∃ n, lookup s.types n = some td) ∧ f ∈ td.fields ∧
      e.parentType = td.typeName ∧ Introspect.objToQlTypeName s f.obj = some e.returnType) ∧
    clock 2 - clock 0 ≤ e.startOffset ∧ 0 ≤ e.duration ∧ e.startOffset + e.duration ≤ clock st.reads - clock 0
  order : st.entries.Pairwise (fun a b => a.startOffset + a.duration ≤ b.startOffset + b.duration)

omit [DecidableEq F] in
theorem known_view {s : Schema F V} {t : RType F V} (h : KnownType (viewSchema s) t) :
    ∃ td, t = viewType td ∧ (td = s.rootQuery ∨ td = s.rootMethod ∨ ∃ n, lookup s.types n = some td) := by
  rcases h with rfl | rfl | ⟨n, hl⟩
  · exact ⟨_, rfl, .inl rfl⟩
  · exact ⟨_, rfl, .inr (.inl rfl)⟩
  · have hv := TypeWalk.lookup_map (fun _ d => viewType d) s.types n
    have hl : lookup (s.types.map (fun e => (e.1, viewType e.2))) n = some t := hl
    rw [hv] at hl
    obtain ⟨td, h1, rfl⟩ := Option.map_eq_some_iff.1 hl
    exact ⟨td, rfl, .inr (.inr ⟨n, h1⟩)⟩

theorem traceOK_stable (s : Schema F V) (cfg : Cfg F V W) (hc : cfg.schema = viewSchema s) (clock : Nat → Int)
    (hm : ∀ i j, i ≤ j → clock i ≤ clock j) :
    Stable 4 (⟨cfg, true, clock, clock 0, Introspect.objToQlTypeName s⟩ : TCfg F V W) (TraceOK s clock) where
  enabled := rfl
  low _ h := h.reads
  rs _ _ h := ⟨h.reads, h.entry, h.order⟩
  start st h := by
    refine ⟨Nat.le_succ_of_le h.reads, fun e he => ?_, h.order⟩
    obtain ⟨h1, h2, h3, h4⟩ := h.entry e he
    have := hm st.reads (st.reads + 1) (Nat.le_succ _)
    exact ⟨h1, h2, h3, by dsimp only; omega⟩
  record st t f name ret hk hf hx hst h := by
    have hmono := hm st.reads (st.reads + 1) (Nat.le_succ _)
    obtain ⟨k, k1, k2, k3⟩ := hst
    dsimp only at k3 hx hk
    have hk' := hm k st.reads (Nat.le_of_lt k2)
    have hk2 := hm 2 k (by omega)
    refine ⟨Nat.le_succ_of_le h.reads, fun e he => ?_, ?_⟩
    · dsimp only at he
      rcases List.mem_append.1 he with he | he
      · obtain ⟨h1, h2, h3, h4⟩ := h.entry e he
        exact ⟨h1, h2, h3, by dsimp only; omega⟩
      · rw [List.mem_singleton.1 he]
        refine ⟨?_, ?_, ?_, ?_⟩
        · obtain ⟨td, rfl, htd⟩ := known_view (hc ▸ hk)
          obtain ⟨g, hg, rfl⟩ := List.mem_map.1 hf
          exact ⟨td, g, htd, hg, rfl, hx⟩
        · dsimp only [entryOf]; omega
        · dsimp only [entryOf]; omega
        · dsimp only [entryOf]; omega
    · dsimp only
      rw [List.pairwise_append]
      refine ⟨h.order, List.pairwise_singleton _ _, fun a ha b hb => ?_⟩
      rw [List.mem_singleton.1 hb]
      have := (h.entry a ha).2.2.2
      dsimp only [entryOf]; omega

/-- **C62** (partial) The times a trace reports are consistent if the clock does not go backwards: the request ends after it starts, parsing lies
within it, every reported field is one of the schema's, with its parent type and return type, starts after parsing, takes
no negative time and ends before the request does; the fields are reported in the order they end. Missing: the span of a
field does not enclose those of its subfields (`C62_refuted_nesting`). -/
theorem C62_times_partial (s : Schema F V) (fuel : Nat) (env : Env F V W) (clock : Nat → Int) (marshal : Tracer → Option Bytes)
    (vals : UInt8 → V) (w w' : W) (req : Request) (r : Response) (hm : ∀ i j, i ≤ j → clock i ≤ clock j)
    (h : resolveT fuel s env clock marshal vals w req = .ok r w') :
    r.tracer.duration = r.tracer.endTime - r.tracer.startTime ∧ 0 ≤ r.tracer.parsingOffset ∧ 0 ≤ r.tracer.parsingDuration ∧
    r.tracer.parsingOffset + r.tracer.parsingDuration ≤ r.tracer.duration ∧ 0 ≤ r.tracer.validationOffset ∧
    (∀ e ∈ r.tracer.resolvers, EntryOK s r.tracer e) ∧
    r.tracer.resolvers.Pairwise (fun a b => a.startOffset + a.duration ≤ b.startOffset + b.duration) := by
  have h01 := hm 0 1 (by omega)
  have h12 := hm 1 2 (by omega)
  have h13 := hm 1 3 (by omega)
  have h24 := hm 2 4 (by omega)
  unfold resolveT at h
  dsimp only at h
  cases hp : Parser.parseQuery req.query (if req.target = [] then none else some req.target) with
  | panic => rw [hp] at h; cases h
  | oof => rw [hp] at h; cases h
  | ok u p =>
    rw [hp] at h
    dsimp only at h
    have short : ∀ (data : Bytes) (errs : List ReqErr), R.ok (σ := W) (⟨envelopeT req.noMeta data errs
        (marshal ⟨clock 0, clock 4, clock 4 - clock 0, clock 1 - clock 0, clock 2 - clock 1, clock 3 - clock 1, []⟩), errs,
        ⟨clock 0, clock 4, clock 4 - clock 0, clock 1 - clock 0, clock 2 - clock 1, clock 3 - clock 1, []⟩⟩ : Response) w = .ok r w' →
        r.tracer.duration = r.tracer.endTime - r.tracer.startTime ∧ 0 ≤ r.tracer.parsingOffset ∧ 0 ≤ r.tracer.parsingDuration ∧
        r.tracer.parsingOffset + r.tracer.parsingDuration ≤ r.tracer.duration ∧ 0 ≤ r.tracer.validationOffset ∧
        (∀ e ∈ r.tracer.resolvers, EntryOK s r.tracer e) ∧
        r.tracer.resolvers.Pairwise (fun a b => a.startOffset + a.duration ≤ b.startOffset + b.duration) := by
      intro data errs e
      injection e with e1 _
      rw [← e1]
      refine ⟨rfl, ?_, ?_, ?_, ?_, (fun e he => nomatch he), List.Pairwise.nil⟩ <;> dsimp only <;> omega
    by_cases he : p.errs.isEmpty = true
    · rw [if_pos he] at h
      cases ht : p.targetIdx with
      | none => rw [ht] at h; exact short _ _ h
      | some at_ =>
        rw [ht] at h
        dsimp only at h
        have hk := keeps_operation (traceOK_stable s ⟨p.res, p.frags, viewSchema s, env, req.vars⟩ rfl clock hm) fuel
          ⟨⟨at_, [], [c%'{'], [], vals, 0, false, false, 0, w⟩, 4, clock 1, []⟩ ⟨Nat.le_refl _, (fun e he => nomatch he), List.Pairwise.nil⟩
        cases hr : resolveOperationT fuel (⟨⟨p.res, p.frags, viewSchema s, env, req.vars⟩, true, clock, clock 0, Introspect.objToQlTypeName s⟩ :
          TCfg F V W) ⟨⟨at_, [], [c%'{'], [], vals, 0, false, false, 0, w⟩, 4, clock 1, []⟩ with
        | panic => rw [hr] at h; cases h
        | oof => rw [hr] at h; cases h
        | ok a st =>
          have ok := hk a st hr
          rw [hr] at h
          dsimp only at h
          injection h with h1 _
          have h2r := hm 2 st.reads (by have := ok.reads; omega)
          rw [← h1]
          refine ⟨rfl, ?_, ?_, ?_, ?_, (fun e he => ?_), ok.order⟩
          any_goals (dsimp only; omega)
          obtain ⟨k1, k2, k3, k4⟩ := ok.entry e he
          exact ⟨k1, by dsimp only; omega, k3, k4⟩
    · rw [if_neg he] at h
      exact short _ _ h

/-! ## C63 -/

theorem key_tracing : JString b%"\"tracing\"" (b%"tracing".map (·.toNat)) := plain_string (t := b%"tracing") (by unfold Plain; decide)

theorem envelopeT_json (noMeta : Bool) {data : Bytes} (hd : JText data) (es : List ReqErr) (hp : ∀ e ∈ es, PathOK e)
    (m : Option Bytes) (hm : ∀ x, m = some x → JText x) : JText (envelopeT noMeta data es m) := by
  unfold envelopeT
  cases noMeta with
  | true => exact hd
  | false =>
    rw [if_neg (by simp)]
    have hx : JText (m.getD b%"null") := by
      cases m with
      | none => exact .null
      | some x => exact hm x rfl
    have hext := JText.object (.one key_tracing hx)
    cases es with
    | nil =>
      have := JText.object (.cons key_data hd (.one key_extensions hext))
      simpa using this
    | cons e es =>
      rw [if_neg (by simp)]
      have := JText.object (.cons key_data hd (.cons key_errors (.array (entries_json (errorsJSON_entries (e :: es) (by simp)) hp))
        (.one key_extensions hext)))
      simpa using this

/-- **C63** (requests that are executed): if `json.Marshal` returns JSON, the traced response is a JSON text unless one of its errors is about a
selection for which no value is written (as without tracing, C14). -/
theorem C63_traced_json_partial (prog : Program F) (n : Nat) (dc : Decl V) (s : Schema F V) (hnc : NoClash prog)
    (hps : TypeWalk.parse prog n dc = .ok s) (env : Env F V W) (T : Obj F → V → Prop) (w w' : W) (req : Request)
    (d : List Def) (o : Operation) (fuel : Nat) (vals : UInt8 → V) (clock : Nat → Int) (marshal : Tracer → Option Bytes) (r : Response)
    (hs : Serves req d o) (ht : WellTyped (viewSchema s) env T) (hf : Fits (viewSchema s) (fragmentsOf d) o)
    (hfl : ∀ b f, JNumber (env.floatText b f)) (hp : Blame.PlainSchema (viewSchema s)) (hm : ∀ t x, marshal t = some x → JText x)
    (h : resolveT fuel s env clock marshal vals w req = .ok r w') :
    JText r.body ∨ ∃ (e : Bytes × List Seg) (sel : Sel), ReqErr.exec ⟨e.1, pathJSON e.2⟩ ∈ r.errs ∧
      Blame.Leads (fragmentsOf d) o.sels e.2 sel ∧ Blame.Hole (showCtx (viewSchema s) env req d o) sel := by
  have he := resolveT_erases fuel s env clock marshal vals w req (parsed_printable prog n dc s hnc hps)
  rw [h] at he
  obtain ⟨data, h1, h2⟩ := he
  have hs' : Serves { req with noMeta := true } d o := ⟨hs.parsed, hs.wf, hs.regular, hs.len, hs.chosen⟩
  rcases C14_well_formed_partial (viewSchema s) env T w w' { req with noMeta := true } d o fuel vals _ _ hs' ht hf hfl hp (h1 true) with hd | hh
  · left
    rw [h2]
    exact envelopeT_json _ hd _ (answer_paths (viewSchema s) env T w w' _ d o fuel vals _ _ hs' ht hf (h1 true)) _ (hm _)
  · exact .inr hh

/-- **C63** (requests that are not executed) -/
theorem C63_not_executed (s : Schema F V) (env : Env F V W) (w : W) (req : Request) (fuel : Nat) (vals : UInt8 → V) (clock : Nat → Int)
    (marshal : Tracer → Option Bytes) (hm : ∀ t x, marshal t = some x → JText x)
    (h : ∀ d o, ¬ (Parsed req.query (reqTarget req) d ∧ chosenOperation req.target d = some o)) :
    ∃ r, resolveT fuel s env clock marshal vals w req = .ok r w ∧ r.errs ≠ [] ∧ r.tracer.resolvers = [] ∧ JText r.body := by
  have hpath : ∀ (es : List Parser.PErr), ∀ e ∈ es.map (fun e => ReqErr.located e.msg e.line e.col), PathOK e := by
    intro es e he
    obtain ⟨x, -, rfl⟩ := List.mem_map.1 he
    trivial
  obtain ⟨p, h1, h2⟩ := C01_parse_total req.query (reqTarget req)
  have h1' : Parser.parseQuery req.query (if req.target = [] then none else some req.target) = .ok () p := h1
  unfold resolveT
  dsimp only
  rw [h1']
  dsimp only
  by_cases he : p.errs = []
  · obtain ⟨d, d1, d2, d3, d4⟩ := C06_accepted_is_encoding req.query (reqTarget req) p h1 he
    have hp : Parsed req.query (reqTarget req) d := ⟨p, h1, he, d2, d3, d4⟩
    cases hc : chosenOperation req.target d with
    | some o => exact absurd ⟨hp, hc⟩ (h d o)
    | none =>
      rw [if_pos (by rw [he]; rfl)]
      have ht : p.targetIdx = none := by
        have hk := chosen_at d req.target
        rw [hc] at hk
        dsimp only at hk
        rw [← hk]
        exact d4
      rw [ht]
      exact ⟨_, rfl, by simp, rfl, envelopeT_json _ .emptyObject _ (by intro e he; cases List.mem_singleton.1 he; trivial) _ (hm _)⟩
  · rw [if_neg (by simpa using he)]
    exact ⟨_, rfl, by simpa using he, rfl, envelopeT_json _ .emptyObject _ (hpath _) _ (hm _)⟩

end

namespace TraceDemo
open Demo (request noStack D)

/-- a clock that advances by one with every reading -/
def ticks : Nat → Int := fun n => n

def traced (q : Bytes) : Option (Bytes × List Tracing.Entry) :=
  match resolveT 100 GoDemo.goSchema GoDemo.env ticks (fun _ => some b%"{}") noStack [] (request q) with
  | .ok r _ => some (r.body, r.tracer.resolvers)
  | _ => none

/-- the trace of a request with an alias, nested fields and a list -/
theorem traced_nested : traced b%"{x:friend{a:name friend{age}}scores}" = some
    (b%"{\"data\":{\"x\":{\"a\":\"Bob\",\"friend\":null},\"scores\":[1,-2]},\"extensions\":{\"tracing\":{}}}",
     [⟨b%"[\"x\",\"a\"]", b%"User", b%"name", b%"String!", 5, 1⟩, ⟨b%"[\"x\",\"friend\"]", b%"User", b%"friend", b%"User", 7, 1⟩,
      ⟨b%"[\"x\"]", b%"User", b%"friend", b%"User", 7, 2⟩, ⟨b%"[\"scores\"]", b%"User", b%"scores", b%"[Int]!", 10, 1⟩]) := by
  decide +kernel

theorem of_traced {q : Bytes} {body : Bytes} {es : List Tracing.Entry} (h : traced q = some (body, es)) :
    ∃ r w', resolveT 100 GoDemo.goSchema GoDemo.env ticks (fun _ => some b%"{}") noStack [] (request q) = .ok r w' ∧
      r.body = body ∧ r.tracer.resolvers = es := by
  unfold traced at h
  split at h
  · rename_i r w' heq
    injection h with h
    injection h with h1 h2
    exact ⟨r, w', heq, h1, h2⟩
  · cases h

/-- **C62** is not true of the nesting: the field `x` is reported to start after its subfield `x.a` has ended, because the start of a field is
overwritten when a subfield starts. -/
theorem C62_refuted_nesting : ∃ r w' e e', resolveT 100 GoDemo.goSchema GoDemo.env ticks (fun _ => some b%"{}") noStack []
      (request b%"{x:friend{a:name friend{age}}scores}") = .ok r w' ∧ e ∈ r.tracer.resolvers ∧ e' ∈ r.tracer.resolvers ∧
    e.path = b%"[\"x\"]" ∧ e'.path = b%"[\"x\",\"a\"]" ∧ e'.startOffset + e'.duration < e.startOffset := by
  obtain ⟨r, w', h, -, h2⟩ := of_traced traced_nested
  exact ⟨r, w', ⟨b%"[\"x\"]", b%"User", b%"friend", b%"User", 7, 2⟩, ⟨b%"[\"x\",\"a\"]", b%"User", b%"name", b%"String!", 5, 1⟩, h,
    by rw [h2]; simp, by rw [h2]; simp, rfl, rfl, by decide⟩

/-- the hypotheses of C61 and C62 hold for this request -/
example : ∃ r w', resolveT 100 GoDemo.goSchema GoDemo.env ticks (fun _ => some b%"{}") noStack []
      (request b%"{x:friend{a:name friend{age}}scores}") = .ok r w' ∧ (∀ e ∈ r.tracer.resolvers, EntryOK GoDemo.goSchema r.tracer e) ∧
    r.tracer.resolvers.length = 4 ∧ ∃ body, resolve 100 (viewSchema GoDemo.goSchema) GoDemo.env noStack []
      (request b%"{x:friend{a:name friend{age}}scores}") = .ok (body, r.errs) w' := by
  obtain ⟨r, w', h, -, h2⟩ := of_traced traced_nested
  have hc := C62_times_partial _ _ _ _ _ _ _ _ _ _ (fun i j hij => by unfold ticks; omega) h
  obtain ⟨data, _, hd, -⟩ := (C61_tracing_only_adds GoDemo.prog 10 GoDemo.decl GoDemo.goSchema GoDemo.distinct.noClash GoDemo.parse_ok 100 GoDemo.env
    ticks (fun _ => some b%"{}") noStack [] (request b%"{x:friend{a:name friend{age}}scores}")).1 r w' h
  exact ⟨r, w', h, hc.2.2.2.2.2.1, by rw [h2]; rfl, _, hd⟩

theorem goSlots (f : RField Unit D) (h : IsField (viewSchema GoDemo.goSchema) f) : slots f.obj ≤ 1 := by
  have h0 : ∀ t ∈ GoDemo.goSchema.rootQuery :: GoDemo.goSchema.rootMethod :: GoDemo.goSchema.types.map (·.2), ∀ f ∈ t.fields, slots f.obj ≤ 1 := by
    decide +kernel
  have key : ∀ td, td ∈ GoDemo.goSchema.rootQuery :: GoDemo.goSchema.rootMethod :: GoDemo.goSchema.types.map (·.2) →
      f ∈ (viewType td).fields → slots f.obj ≤ 1 := by
    intro td htd hf
    obtain ⟨g, hg, rfl⟩ := List.mem_map.1 hf
    exact h0 td htd g hg
  rcases h with h | h | ⟨n, t, hm, hf⟩
  · exact key GoDemo.goSchema.rootQuery (by simp) h
  · exact key GoDemo.goSchema.rootMethod (by simp) h
  · have hm : (n, t) ∈ GoDemo.goSchema.types.map (fun e => (e.1, viewType e.2)) := hm
    obtain ⟨e, he, e1⟩ := List.mem_map.1 hm
    injection e1 with _ e2
    subst e2
    exact key e.2 (List.mem_cons_of_mem _ (List.mem_cons_of_mem _ (List.mem_map.2 ⟨e, he, rfl⟩))) hf

theorem goFits {o : Operation} (h : Check.nestB [] 40 100 o.sels = true) : Fits (viewSchema GoDemo.goSchema) [] o :=
  ⟨1, goSlots, Or.inl ⟨100, Check.nestB_ok _ _ _ _ h, by decide⟩⟩

theorem plain_view (s : Schema Unit D) (h : ∀ td ∈ s.rootQuery :: s.rootMethod :: s.types.map (·.2), Blame.PlainName td.typeName)
    (h2 : s.enums = []) : Blame.PlainSchema (viewSchema s) := by
  refine ⟨fun t ht => ?_, fun e he => ?_⟩
  · obtain ⟨td, rfl, rfl | rfl | ⟨n, hl⟩⟩ := known_view ht
    · exact h _ (by simp)
    · exact h _ (by simp)
    · refine h td (List.mem_cons_of_mem _ (List.mem_cons_of_mem _ ?_))
      unfold lookup at hl
      obtain ⟨e, he, rfl⟩ := Option.map_eq_some_iff.1 hl
      exact List.mem_map.2 ⟨e, List.mem_of_find?_eq_some he, rfl⟩
  · have he : e ∈ s.enums := he
    rw [h2] at he
    cases he

theorem goPlain : Blame.PlainSchema (viewSchema GoDemo.goSchema) := by
  have h0 : ∀ t ∈ GoDemo.goSchema.rootQuery :: GoDemo.goSchema.rootMethod :: GoDemo.goSchema.types.map (·.2),
      t.typeName = b%"User" ∨ t.typeName = b%"M" ∨ t.typeName = b%"Dog" := by decide +kernel
  refine plain_view _ (fun td h => ?_) (List.isEmpty_iff.1 (by decide +kernel))
  rcases h0 td h with e | e | e <;> rw [e] <;> unfold Blame.PlainName <;> decide

/-- the hypotheses of C63 hold for a traced request with nested fields -/
example {r w'} (h : resolveT 300 GoDemo.goSchema GoDemo.env ticks (fun _ => some b%"{}") noStack [] (request b%"{friend{name}name}") = .ok r w') :
    JText r.body ∨ ∃ (e : Bytes × List Seg) (sel : Sel), ReqErr.exec ⟨e.1, pathJSON e.2⟩ ∈ r.errs ∧
      Blame.Leads [] Demo.opBack.sels e.2 sel ∧
      Blame.Hole (showCtx (viewSchema GoDemo.goSchema) GoDemo.env (request b%"{friend{name}name}") [.op Demo.opBack] Demo.opBack) sel := by
  obtain ⟨T, hT⟩ := C57_accepted_welltyped_partial _ _ _ _ _ _ GoDemo.distinct GoDemo.identified GoDemo.enumKinds GoDemo.goLike GoDemo.rootsTyped rfl
    GoDemo.parse_ok
  exact C63_traced_json_partial GoDemo.prog 10 GoDemo.decl GoDemo.goSchema GoDemo.distinct.noClash GoDemo.parse_ok GoDemo.env T [] w' _ _ Demo.opBack 300
    noStack ticks _ r Demo.servesBack hT (goFits (by decide +kernel)) Demo.floatText_number goPlain
    (fun t x e => by injection e with e; rw [← e]; exact .emptyObject) h

end TraceDemo
end Yarql
