import Verif.Props.EveryText
import Verif.Props.HttpAnswers

/-!
# C60, C70 for arbitrary texts

The HTTP level composed with C76: nothing is assumed about the parser.  An HTTP request carries GraphQL requests whose queries are
arbitrary byte strings shorter than 2^28 bytes; each is no text of the grammar, or asks for no operation, or is executed.
-/

namespace Yarql
open Doc Grammar Http Json Resolver Server Eval Typed HttpAnswers

variable {F V W : Type} [DecidableEq F]

/-- the query is a text that defines a fragment -/
def DefinesFragment (query : Bytes) : Prop := ∃ (d : List Def) (f : Fragment), Text d query ∧ Def.frag f ∈ d

/-- What is asked of the text of one request: it is shorter than 2^28 bytes; if it is longer than `minLen` (it is cached) it defines no
fragment (C59); and if an operation is asked for, `docTracked` and `Fits` hold of it (C22, C25, C19). -/
structure Ordinary (schema : RSchema F V) (minLen : Nat) (req : Request) : Prop where
  short : req.query.length < 2 ^ 28
  uncached : DefinesFragment req.query → req.query.length ≤ minLen
  executable : ∀ d o, AsksFor req d o → docTracked d ∧ Fits schema (fragmentsOf (docCut d)) o.cut

/-- no field of the operation asked for can leave a hole in the response (C14, C54) -/
def NoHole (schema : RSchema F V) (env : Env F V W) (req : Request) : Prop := ∀ d o path sel, AsksFor req d o →
  Blame.Leads (fragmentsOf (docCut d)) o.cut.sels path sel → ¬ Blame.Hole (showCtx schema env req (docCut d) o.cut) sel

theorem fragPositions_frag {d : List Def} {f : Fragment} : ∀ at_, Def.frag f ∈ d → fragPositions at_ d ≠ [] := by
  induction d with
  | nil => intro _ h; cases h
  | cons x d ih =>
    intro at_ h
    cases x with
    | frag g => exact List.cons_ne_nil _ _
    | op o =>
      rcases List.mem_cons.1 h with h | h
      · cases h
      · exact ih _ h

theorem fragNames_ne {d : List Def} (h : fragNames d ≠ []) : ∃ f, Def.frag f ∈ d := by
  induction d with
  | nil => exact absurd rfl h
  | cons x d ih =>
    cases x with
    | frag g => exact ⟨g, List.mem_cons_self ..⟩
    | op o =>
      obtain ⟨f, hf⟩ := ih h
      exact ⟨f, List.mem_cons_of_mem _ hf⟩

/-- what the parser records as fragments and what the grammar calls one agree -/
theorem hasFragments_iff (req : Request) : HasFragments req ↔ DefinesFragment req.query := by
  constructor
  · rintro ⟨d, ⟨s, h1, h2, -, h4, -⟩, hn⟩
    obtain ⟨f, hf⟩ := fragNames_ne hn
    obtain ⟨d', hd'⟩ := (C75_accepted_iff_grammar req.query (reqTarget req)).1 ⟨s, h1, h2⟩
    obtain ⟨s', k1, -, -, k4, -⟩ := C02_document_compiles d' req.query (reqTarget req) hd'
    rw [h1] at k1
    cases k1
    have hne := fragPositions_frag 0 hf
    rw [← h4, k4] at hne
    by_cases hc : fragNames d' = []
    · exact absurd (fragPositions_nil d' 0 hc) hne
    · obtain ⟨g, hg⟩ := fragNames_ne hc
      exact ⟨d', g, hd', hg⟩
  · rintro ⟨d, f, hd, hf⟩
    refine ⟨d, C02_document_compiles d req.query _ hd, fun h => ?_⟩
    exact fragPositions_frag 0 hf (fragPositions_nil d 0 h)

theorem Ordinary.frag {schema : RSchema F V} {minLen : Nat} {req : Request} (h : Ordinary schema minLen req) :
    ¬ HasFragments req ∨ req.query.length ≤ minLen := by
  by_cases hf : DefinesFragment req.query
  · exact .inr (h.uncached hf)
  · exact .inl (fun hh => hf ((hasFragments_iff req).1 hh))

/-- **C70** with **C76.** On a well-typed schema in any state it can get into by answering requests, every HTTP request, of whatever
texts, is answered with what `Resolve` answers to what the texts stand for. -/
theorem C70_every_http_request_partial (schema : RSchema F V) (env : Env F V W) (T : Obj F → V → Prop) (ht : WellTyped schema env T)
    (parse : Bytes → Option J) (render : J → Bytes) (badVars : Bytes → Bytes) (ch : Choice) (vals : UInt8 → V) (w : W)
    (hist : List (Choice × Request)) (rs : List (Bytes × List ReqErr)) (st : Srv V W)
    (hh : History schema env (Srv.new vals w) hist rs st) (r : Http)
    (hr : ∀ req q, Carries (httpEnv parse render badVars schema env ch) r req → StandsFor parse badVars req q → Ordinary schema ch.minLen q) :
    ∃ st' body msgs, handleRequest (httpEnv parse render badVars schema env ch) st r = (st', body, msgs) ∧
      (∃ hist' rs', History schema env (Srv.new vals w) hist' rs' st') ∧
      Responds parse render badVars schema env r st.world body msgs st'.world := by
  refine C70_http_answers_partial schema env parse render badVars ch vals w hist rs st hh r (fun req hc q hq => (hr req q hc hq).frag) ?_
  intro req hc q hq w
  obtain ⟨body, es, w', h, -⟩ := C76_every_request_partial schema env T w q ht (hr req q hc hq).short (hr req q hc hq).executable
  exact ⟨body, es, w', h⟩

theorem responds_json {parse : Bytes → Option J} {render : J → Bytes} {badVars : Bytes → Bytes} {schema : RSchema F V} {env : Env F V W}
    (Ok : Req → Prop)
    (hok : ∀ req q, Ok req → StandsFor parse badVars req q → ∀ w body es w', Answers schema env w q (.ok (body, es) w') → JText body)
    {w w' : W} {vs : List J} {rs : List (Bytes × List Bytes)} (h : InTurn parse render badVars schema env w vs rs w')
    (hc : ∀ v ∈ vs, ∀ req, Asks parse render v req → Ok req) : ∀ x ∈ rs, JText x.1 := by
  induction h with
  | nil => intro x hx; cases hx
  | malformed _ he _ ih =>
    intro x hx
    rcases List.mem_cons.1 hx with rfl | hx
    · obtain ⟨lit, cs, h1, h2, -⟩ := he
      rw [h1]
      have := JText.object (.cons key_data .emptyObject (.cons key_errors (.array (.one (.object (.one key_message (.string h2)))))
        (.one key_extensions .emptyObject)))
      simpa using this
    · exact ih (fun v hv => hc v (List.mem_cons_of_mem _ hv)) x hx
  | request ha hr _ ih =>
    intro x hx
    rcases List.mem_cons.1 hx with rfl | hx
    · obtain ⟨q, es, hq, hans, -⟩ := hr
      exact hok _ q (hc _ (List.mem_cons_self ..) _ ha) hq _ _ _ _ hans
    · exact ih (fun v hv => hc v (List.mem_cons_of_mem _ hv)) x hx

theorem commaSep_json {ts : List Bytes} (h : ∀ t ∈ ts, JText t) : ts = [] ∨ JElems (commaSep ts) := by
  induction ts with
  | nil => exact .inl rfl
  | cons t ts ih =>
    refine .inr ?_
    have ht := h t (List.mem_cons_self ..)
    cases ts with
    | nil => simpa [commaSep] using JElems.one ht
    | cons u us =>
      rcases ih (fun x hx => h x (List.mem_cons_of_mem _ hx)) with h0 | h0
      · cases h0
      · simpa [commaSep] using JElems.cons ht h0

/-- **C60** with **C76.** … and the response body is one JSON text, if no request carried has a field that can leave a hole. -/
theorem C60_every_http_request_partial (schema : RSchema F V) (env : Env F V W) (T : Obj F → V → Prop) (ht : WellTyped schema env T)
    (hfl : ∀ b f, JNumber (env.floatText b f)) (hp : Blame.PlainSchema schema) (parse : Bytes → Option J) (render : J → Bytes)
    (badVars : Bytes → Bytes) (ch : Choice) (vals : UInt8 → V) (w : W) (hist : List (Choice × Request)) (rs : List (Bytes × List ReqErr))
    (st : Srv V W) (hh : History schema env (Srv.new vals w) hist rs st) (r : Http)
    (hr : ∀ req q, Carries (httpEnv parse render badVars schema env ch) r req → StandsFor parse badVars req q →
      Ordinary schema ch.minLen q ∧ NoHole schema env q) :
    JText (handleRequest (httpEnv parse render badVars schema env ch) st r).2.1 := by
  obtain ⟨st', body, msgs, h1, -, h3⟩ := C70_every_http_request_partial schema env T ht parse render badVars ch vals w hist rs st hh r
    (fun req q hc hq => (hr req q hc hq).1)
  rw [h1]
  show JText body
  generalize hw0 : st.world = w0 at h3
  generalize hw1 : st'.world = w1 at h3
  have hok : ∀ req q, Carries (httpEnv parse render badVars schema env ch) r req → StandsFor parse badVars req q →
      ∀ w body es w', Answers schema env w q (.ok (body, es) w') → JText body := by
    intro req q hc hq w body es w' ha
    obtain ⟨ho, hn⟩ := hr req q hc hq
    obtain ⟨-, fuel, ha⟩ := ha
    rcases C76_every_response_partial schema env T w w' q ht ho.short ho.executable hfl hp fuel (fun _ => schema.rootQueryValue) body es
      (ha _) with h | ⟨d, o, e, sel, h1, -, h2, h3⟩
    · exact h
    · exact absurd h3 (hn d o e.2 sel h1 h2)
  have herr : ∀ {b m}, IsErrorResponse b m → JText b := by
    rintro b m ⟨lit, cs, e1, e2, -⟩
    rw [e1]
    have := JText.object (.cons key_data .emptyObject (.cons key_errors (.array (.one (.object (.one key_message (.string e2)))))
      (.one key_extensions .emptyObject)))
    simpa using this
  cases h3 with
  | url hb hx =>
    obtain ⟨q, es, hq, ha, -⟩ := hx
    exact hok _ q (.url hb) hq _ _ _ _ ha
  | unreadable _ _ he => exact herr he
  | notJson _ _ _ he => exact herr he
  | one hb hbo hne hpb hv hin =>
    refine responds_json (Carries (httpEnv parse render badVars schema env ch) r) hok hin ?_ _ (List.mem_singleton.2 rfl)
    intro v hv' req ha
    cases List.mem_singleton.1 hv'
    exact .body hb hbo hpb (asks_iff.1 ha)
  | batch hb hbo hne hpb hin =>
    have := responds_json (Carries (httpEnv parse render badVars schema env ch) r) hok hin
      (fun v hv req ha => .item hb hbo hpb hv (asks_iff.1 ha))
    rcases commaSep_json (ts := _) (fun t ht => by
      obtain ⟨x, hx, rfl⟩ := List.mem_map.1 ht
      exact this x hx) with h0 | h0
    · rw [h0]; exact .emptyArray
    · simpa using JText.array h0

/-! ## The batch of C60, and a GET request whose query is no query -/

namespace HttpTextsDemo
open Yarql.HttpDemo Demo

theorem ordinaryBad : Ordinary Demo.schema 300 (request b%"{a") := by
  have h : ¬ ∃ d, Text d (request b%"{a").query :=
    (C75_rejected_iff_not_grammar b%"{a" none).1 (rejected_demo (by decide +kernel))
  exact ⟨by decide, fun ⟨d, _, hd, _⟩ => absurd ⟨d, hd⟩ h, fun d _ ha => absurd ⟨d, ha.text⟩ h⟩

theorem ordinaryName : Ordinary Demo.schema 300 (request b%"{name}") := by
  refine ⟨by decide, fun _ => by decide, ?_⟩
  intro d o h
  obtain ⟨rfl, rfl⟩ := (servesName.asksFor (by decide)).unique h (by decide)
  refine ⟨servesName.regular.tracked, ?_⟩
  have hc := servesName.regular.cut
  rw [hc]
  exact fits (by decide +kernel)

example : ∃ st' body msgs, handleRequest henv (Srv.new noStack []) post = (st', body, msgs) ∧
    (∃ hist' rs', History Demo.schema Demo.env (Srv.new noStack []) hist' rs' st') ∧
    Responds parse (fun _ => []) (fun _ => []) Demo.schema Demo.env post [] body msgs st'.world := by
  refine C70_every_http_request_partial Demo.schema Demo.env _ wellTyped parse _ _ _ noStack [] [] [] _ (.nil _) post ?_
  intro req q hc hq
  rw [carried req hc] at hq
  rw [standsFor_unique hq (standsFor_requestOf parse _ _)]
  exact ordinaryName

/-- `GET /?query={a` -/
def get : Http := ⟨b%"GET", [], fun k => if k = b%"query" then b%"{a" else [], .ok [], []⟩

theorem notBody : ¬ ReadsBody get := by
  rintro (h | ⟨h | h, -⟩) <;> exact absurd h (by decide)

example : JText (handleRequest henv (Srv.new noStack []) get).2.1 := by
  refine C60_every_http_request_partial Demo.schema Demo.env _ wellTyped floatText_number plainSchema parse _ _ _ noStack [] [] [] _ (.nil _)
    get ?_
  intro req q hc hq
  have hreq : req = ⟨b%"{a", [], []⟩ := by
    cases hc with
    | url _ => rfl
    | body h => exact absurd h notBody
    | item h => exact absurd h notBody
  subst hreq
  rw [standsFor_unique hq (standsFor_requestOf parse _ _)]
  refine ⟨ordinaryBad, fun d o path sel ha => ?_⟩
  exact absurd ⟨d, ha.text⟩ ((C75_rejected_iff_not_grammar b%"{a" none).1 (rejected_demo (by decide +kernel)))

end HttpTextsDemo
end Yarql
