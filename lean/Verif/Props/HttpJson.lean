import Verif.Props.Server
import Verif.Props.Http
import Verif.Props.WellFormed
import Verif.Props.Terminates

/-!
# C60: every HTTP response body is JSON
-/

namespace Yarql
open Http Json

/-! ## Specification -/

/-- `req` is one of the GraphQL requests that the HTTP request carries -/
inductive Carries {W : Type} (env : Http.Env W) (r : Http) : Req → Prop where
  | url : ¬ ReadsBody r → Carries env r ⟨r.urlQuery b%"query", r.urlQuery b%"variables", r.urlQuery b%"operationName"⟩
  | body {b v req} : ReadsBody r → bodyOf r = some b → env.parse b = some v → BodyRequests env v req → Carries env r req
  | item {b items v req} : ReadsBody r → bodyOf r = some b → env.parse b = some (.arr items) → v ∈ items → BodyRequests env v req →
      Carries env r req

/-! ## HandleRequest over any `Resolve` -/

section
variable {W : Type} (env : Http.Env W)

theorem jtext_ne {t : Bytes} (h : JText t) : t ≠ [] := by
  cases h with
  | number h =>
    obtain ⟨sign, i, f, e, rfl, -, ⟨⟨h, -⟩, -⟩, -⟩ := h
    intro hc
    simp at hc
    exact h hc.2.1
  | string h =>
    obtain ⟨_, rfl, _⟩ := h
    simp
  | _ => simp

theorem errRes_json (msg : Bytes) : JText (errRes msg).1 := by
  obtain ⟨⟨lit, cs, h1, h2, -⟩, -⟩ := errRes_is_error msg
  rw [h1]
  have := JText.object (.cons key_data .emptyObject (.cons key_errors (.array (.one (.object (.one key_message (.string h2)))))
    (.one key_extensions .emptyObject)))
  simpa using this

theorem elems_snoc {t x : Bytes} : JElems t → JText x → JElems (t ++ [c%','] ++ x)
  | .one h, hx => .cons h (.one hx)
  | .cons (t := t) (ts := ts) h hs, hx => by
    have := JElems.cons h (elems_snoc hs hx)
    simpa using this

variable (P : W → Prop) (Ok : Req → Prop) (hres : ∀ w req, P w → Ok req → JText (env.resolve w req).2.1 ∧ P (env.resolve w req).1)
include hres

theorem batchLoop_json (items : List J) : ∀ (w : W) (buf : Bytes) (errs : List Bytes), P w →
    (∀ v ∈ items, ∀ req, BodyRequests env v req → Ok req) → (buf = b%"[" ∨ ∃ t, t ≠ [] ∧ buf = [c%'['] ++ t ∧ JElems t) →
    P (batchLoop env w buf errs items).1 ∧
      ((batchLoop env w buf errs items).2.1 = b%"[" ∨ ∃ t, (batchLoop env w buf errs items).2.1 = [c%'['] ++ t ∧ JElems t) := by
  induction items with
  | nil =>
    intro w buf errs hw _ hb
    refine ⟨hw, ?_⟩
    rcases hb with rfl | ⟨t, -, h⟩
    · exact .inl rfl
    · exact .inr ⟨t, h⟩
  | cons item items ih =>
    intro w buf errs hw hok hb
    have ne : ∀ {x : Bytes}, JText x → x ≠ [] := fun h => jtext_ne h
    have add : ∀ {x : Bytes}, JText x →
        ∃ t, t ≠ [] ∧ (if buf.length > 1 then buf ++ [c%','] else buf) ++ x = [c%'['] ++ t ∧ JElems t := by
      intro x hx
      rcases hb with rfl | ⟨t, ht, rfl, hj⟩
      · exact ⟨x, ne hx, by rfl, .one hx⟩
      · refine ⟨t ++ [c%','] ++ x, by simp, ?_, elems_snoc hj hx⟩
        rw [if_pos]
        · simp
        · cases t with
          | nil => exact absurd rfl ht
          | cons a t => simp
    unfold batchLoop
    dsimp only
    cases hg : getBodyData env item with
    | error e => exact ih _ _ _ hw (fun v hv => hok v (List.mem_cons_of_mem _ hv)) (.inr (add (errRes_json e)))
    | ok req =>
      have hr := hres w req hw (hok item (List.mem_cons_self) req ((getBodyData_iff env item req).1 hg))
      exact ih _ _ _ hr.2 (fun v hv => hok v (List.mem_cons_of_mem _ hv)) (.inr (add hr.1))

theorem handleBody_json (w : W) (body : Bytes) (hw : P w)
    (h1 : ∀ v req, env.parse body = some v → BodyRequests env v req → Ok req)
    (h2 : ∀ items v req, env.parse body = some (.arr items) → v ∈ items → BodyRequests env v req → Ok req) :
    JText (handleBody env w body).2.1 ∧ P (handleBody env w body).1 := by
  unfold handleBody
  split
  · exact ⟨errRes_json _, hw⟩
  · split
    · exact ⟨errRes_json _, hw⟩
    · rename_i items hp
      have := batchLoop_json env P Ok hres items w b%"[" [] hw (fun v hv req hr => h2 items v req hp hv hr) (.inl rfl)
      refine ⟨?_, this.1⟩
      dsimp only
      rcases this.2 with h | ⟨t, h, hj⟩
      · rw [h]; exact .emptyArray
      · rw [h]; exact .array hj
    · rename_i v _ hp
      split
      · exact ⟨errRes_json _, hw⟩
      · rename_i req hg
        exact hres w req hw (h1 v req hp ((getBodyData_iff env v req).1 hg))

/-- if every request that is carried is answered with JSON, so is the HTTP request -/
theorem handleRequest_json (w : W) (r : Http) (hw : P w) (hok : ∀ req, Carries env r req → Ok req) :
    JText (handleRequest env w r).2.1 ∧ P (handleRequest env w r).1 := by
  obtain ⟨s1, s2, s3⟩ := C38_source env w r
  by_cases hb : ReadsBody r
  · cases hbo : bodyOf r with
    | none =>
      obtain ⟨msg, h⟩ := s2 hb hbo
      rw [h]
      exact ⟨errRes_json _, hw⟩
    | some b =>
      rw [s1 hb b hbo]
      exact handleBody_json env P Ok hres w b hw (fun x req hp hr => hok _ (.body hb hbo hp hr))
        (fun items x req hp hx hr => hok _ (.item hb hbo hp hx hr))
  · rw [s3 hb]
    exact hres w _ hw (hok _ (.url hb))

end

/-! ## HandleRequest over `Resolve` -/

section
open Resolver Server Doc Eval Typed
variable {F V W : Type} [DecidableEq F]

theorem history_snoc {schema : RSchema F V} {env : Env F V W} {a b c : Srv V W} {hist : List (Choice × Request)}
    {rs : List (Bytes × List ReqErr)} {ch : Choice} {req : Request} {r : Bytes × List ReqErr} (h : History schema env a hist rs b) (fuel : Nat)
    (hs : serve fuel schema env b ch req = .ok r c) : ∃ hist' rs', History schema env a hist' rs' c := by
  induction h with
  | nil => exact ⟨_, _, .cons fuel hs (.nil _)⟩
  | cons f h1 _ ih =>
    obtain ⟨hist', rs', h2⟩ := ih hs
    exact ⟨_, _, .cons f h1 h2⟩

/-- A request about which C60 speaks: it defines no fragment or is not cached; and it is not executed at all, or it is served, and selects
neither `__typename` with a selection nor a method with arguments that its parameters do not take. -/
def Plain (schema : RSchema F V) (env : Env F V W) (ch : Choice) (req : Request) : Prop :=
  (¬ HasFragments req ∨ req.query.length ≤ ch.minLen) ∧
  ((∀ d o, ¬ (Parsed req.query (reqTarget req) d ∧ chosenOperation req.target d = some o)) ∨
    ∃ d o, Serves req d o ∧ Fits schema (fragmentsOf d) o ∧
      ∀ path sel, Blame.Leads (fragmentsOf d) o.sels path sel → ¬ Blame.Hole (showCtx schema env req d o) sel)

theorem plain_answer (schema : RSchema F V) (env : Env F V W) (T : Obj F → V → Prop) (ht : WellTyped schema env T)
    (hfl : ∀ b f, JNumber (env.floatText b f)) (hp : Blame.PlainSchema schema) (ch : Choice) (w : W) (req : Request)
    (h : Plain schema env ch req) : ∃ body es w', Answers schema env w req (.ok (body, es) w') ∧ JText body := by
  rcases h.2 with hn | ⟨d, o, hs, hf, hh⟩
  · obtain ⟨body, es, hr, -, hj⟩ := C14_not_executed schema env w req 0 (fun _ => schema.rootQueryValue) hn
    exact ⟨body, es, w, Answers.of hr (by simp), hj⟩
  · obtain ⟨body, es, w', ha⟩ := C19_answered_partial schema env T w req d o hs ht hf
    refine ⟨body, es, w', ha, ?_⟩
    obtain ⟨-, fuel, hr⟩ := ha
    rcases C14_well_formed_partial schema env T w w' req d o fuel (fun _ => schema.rootQueryValue) body es hs ht hf hfl hp (hr _) with hj | ⟨e, sel, -, h1, h2⟩
    · exact hj
    · exact absurd h2 (hh _ _ h1)

/-- **C60.** On a well-typed schema, in every state it can get into by answering requests, `HandleRequest` answers every HTTP request —
GET, form, single body, batch, or malformed — with a body that is one JSON text, if the GraphQL requests carried are plain.
Missing: requests that are not plain; C14, C19 and C59 show what happens there. -/
theorem C60_http_json_partial (schema : RSchema F V) (env : Env F V W) (T : Obj F → V → Prop) (ht : WellTyped schema env T)
    (hfl : ∀ b f, JNumber (env.floatText b f)) (hp : Blame.PlainSchema schema) (parse : Bytes → Option J) (render : J → Bytes)
    (badVars : Bytes → Bytes) (ch : Choice) (vals : UInt8 → V) (w : W) (hist : List (Choice × Request)) (rs : List (Bytes × List ReqErr))
    (st : Srv V W) (hh : History schema env (Srv.new vals w) hist rs st) (r : Http)
    (hr : ∀ req, Carries (httpEnv parse render badVars schema env ch) r req → Plain schema env ch (requestOf parse badVars req)) :
    JText (handleRequest (httpEnv parse render badVars schema env ch) st r).2.1 := by
  refine (handleRequest_json (httpEnv parse render badVars schema env ch)
    (fun st => ∃ hist rs, History schema env (Srv.new vals w) hist rs st) (fun req => Plain schema env ch (requestOf parse badVars req))
    ?_ st r ⟨hist, rs, hh⟩ hr).1
  rintro st req ⟨hist, rs, hh⟩ hpl
  obtain ⟨body, es, w', ha, hj⟩ := plain_answer schema env T ht hfl hp ch st.world _ hpl
  have hiff := C59_history_partial schema env vals w hist rs st hh ch (requestOf parse badVars req) (hpl.1.elim .inl (fun h => .inr (.inl h)))
  obtain ⟨-, fuel, hv⟩ := (hiff _).2 ha
  have hex : ∃ fuel r st', serve fuel schema env st ch (requestOf parse badVars req) = .ok r st' := by
    refine ⟨fuel, ?_⟩
    cases hs : serve fuel schema env st ch (requestOf parse badVars req) with
    | ok r st' => exact ⟨r, st', rfl⟩
    | panic => rw [hs] at hv; cases hv
    | oof => rw [hs] at hv; cases hv
  have ho : outcome schema env ch st (requestOf parse badVars req) = serve hex.choose schema env st ch (requestOf parse badVars req) := by
    unfold outcome
    rw [dif_pos hex]
  obtain ⟨⟨body', es'⟩, st', hs⟩ := hex.choose_spec
  have ha' := (hiff (.ok (body', es') st'.world)).1 ⟨by simp, hex.choose, by rw [hs]; rfl⟩
  have e := C41_deterministic ha ha'
  injection e with e _
  injection e with e _
  have hres : (httpEnv parse render badVars schema env ch).resolve st req = (st', body', es'.map ReqErr.msg) := by
    show (match outcome schema env ch st (requestOf parse badVars req) with
      | .ok (body, es) st' => (st', body, es.map ReqErr.msg) | _ => (st, [], [])) = _
    rw [ho, hs]
  rw [hres]
  exact ⟨e ▸ hj, history_snoc hh _ hs⟩

end

/-! ## A batch with an invalid item -/

namespace HttpDemo
open Resolver Server Doc Eval Demo

/-- `[{"query":"{name}"},{}]` -/
def items : List J := [.obj [(b%"query", .str b%"{name}")], .obj []]

/-- a stand-in for `fastjson` that knows one text -/
def parse (b : Bytes) : Option J := if b = b%"[{\"query\":\"{name}\"},{}]" then some (.arr items) else none

def post : Http := ⟨b%"POST", b%"application/json", fun _ => [], .ok [], b%"[{\"query\":\"{name}\"},{}]"⟩

noncomputable def henv : Http.Env (Srv D World) := httpEnv parse (fun _ => []) (fun _ => []) Demo.schema Demo.env ⟨300, [], 0⟩

theorem carried (req : Req) (h : Carries henv post req) : req = ⟨b%"{name}", [], []⟩ := by
  cases h with
  | url h => exact absurd (.inl rfl) h
  | body _ hb hp hr =>
    injection hb with hb
    subst hb
    have : some (J.arr items) = some _ := hp
    injection this with this
    subst this
    cases hr
  | item _ hb hp hv hr =>
    injection hb with hb
    subst hb
    have : some (J.arr items) = some _ := hp
    injection this with this
    injection this with this
    subst this
    rcases List.mem_cons.1 hv with rfl | hv
    · cases hr with
      | mk h1 h2 h3 =>
        injection h1 with h1
        injection h1 with h1
        subst h1
        rcases h2 with ⟨-, rfl⟩ | h2
        · rcases h3 with ⟨-, rfl⟩ | ⟨m, h3, -⟩
          · rfl
          · exact absurd h3 (by intro h; cases h)
        · exact absurd h2 (by intro h; cases h)
    · cases List.mem_singleton.1 hv
      cases hr with
      | mk h1 _ _ => cases h1

def opName : Operation := query [f b%"name"]

theorem servesName : Serves (request b%"{name}") [.op opName] opName := Check.serves (by decide +kernel) rfl

theorem plainName : Plain Demo.schema Demo.env ⟨300, [], 0⟩ (requestOf parse (fun _ => []) ⟨b%"{name}", [], []⟩) := by
  refine ⟨.inr (by decide), .inr ⟨_, _, servesName, fits (by decide), ?_⟩⟩
  intro path sel hl
  have hsel : sel = f b%"name" := by
    cases hl with
    | field h => exact List.mem_singleton.1 h
    | spread h => exact absurd (List.mem_singleton.1 h) (by intro h; cases h)
    | inline h => exact absurd (List.mem_singleton.1 h) (by intro h; cases h)
    | underField h hl =>
      have := List.mem_singleton.1 h
      injection this with _ _ _ _ this
      subst this
      cases hl with
      | field h => cases h
      | spread h => cases h
      | inline h => cases h
      | underField h => cases h
      | underSpread h => cases h
      | underInline h => cases h
    | underSpread h => exact absurd (List.mem_singleton.1 h) (by intro h; cases h)
    | underInline h => exact absurd (List.mem_singleton.1 h) (by intro h; cases h)
  subst hsel
  intro hh
  cases hh with
  | typename h _ => exact absurd h (by decide)

example : JText (handleRequest henv (Srv.new noStack []) post).2.1 :=
  C60_http_json_partial Demo.schema Demo.env _ wellTyped floatText_number plainSchema parse _ _ _ noStack [] [] [] _ (.nil _) post
    (fun req h => by rw [carried req h]; exact plainName)

end HttpDemo
end Yarql
