import Verif.Props.HttpJson

/-!
# C70: what `HandleRequest` answers is what `Resolve` answers
-/

namespace Yarql
namespace HttpAnswers
open Http Json Resolver Server Doc Eval

variable {F V W : Type} [DecidableEq F]

/-! ## Specification -/

/-- The texts of an HTTP request stand for the GraphQL request `q`: that query, that operation name, metadata written, and the variables
of the text: none for the empty text, and unusable ones for a text that is not JSON. -/
structure StandsFor (parse : Bytes → Option J) (badVars : Bytes → Bytes) (r : Req) (q : Request) : Prop where
  query : q.query = r.query
  operation : q.target = r.operationName
  metadata : q.noMeta = false
  vars : (r.variables = [] ∧ q.vars = .empty) ∨
    (r.variables ≠ [] ∧ parse r.variables = none ∧ q.vars = .invalid (badVars r.variables)) ∨
    (r.variables ≠ [] ∧ ∃ j, parse r.variables = some j ∧ q.vars = .json j)

section
variable (parse : Bytes → Option J) (render : J → Bytes) (badVars : Bytes → Bytes) (schema : RSchema F V) (env : Env F V W)

/-- the message of an error, whether it was found by the parser or while executing -/
def says : ReqErr → Bytes
  | .located msg _ _ => msg
  | .exec ⟨msg, _⟩ => msg

/-- `Resolve`, asked in the world `w` what the three texts stand for, answers `body` with the errors `msgs` and leaves the world `w'` -/
def Resolves (w : W) (req : Req) (body : Bytes) (msgs : List Bytes) (w' : W) : Prop :=
  ∃ q es, StandsFor parse badVars req q ∧ Answers schema env w q (.ok (body, es) w') ∧ msgs = es.map says

/-- what the JSON value asks for, when variables are written as text by `render` -/
def Asks (v : J) (req : Req) : Prop := BodyRequests (⟨parse, render, fun w _ => (w, [], [])⟩ : Http.Env Unit) v req

/-- The answers to JSON values in turn: a value that is not a request is answered with an error, and the world is left alone; a request with
what `Resolve` answers in the world that the ones before it left. -/
inductive InTurn : W → List J → List (Bytes × List Bytes) → W → Prop where
  | nil (w : W) : InTurn w [] [] w
  | malformed {w w' : W} {v : J} {vs : List J} {rs : List (Bytes × List Bytes)} {body msg : Bytes} : (∀ req, ¬ Asks parse render v req) →
      IsErrorResponse body msg → InTurn w vs rs w' → InTurn w (v :: vs) ((body, [msg]) :: rs) w'
  | request {w w₁ w' : W} {v : J} {vs : List J} {rs : List (Bytes × List Bytes)} {req : Req} {body : Bytes} {msgs : List Bytes} :
      Asks parse render v req → Resolves parse badVars schema env w req body msgs w₁ → InTurn w₁ vs rs w' →
      InTurn w (v :: vs) ((body, msgs) :: rs) w'

/-- `Responds r w body msgs w'`: to the HTTP request `r`, in the world `w`, the response is `body` with the errors `msgs`, and the world
becomes `w'`. -/
inductive Responds (r : Http) (w : W) : Bytes → List Bytes → W → Prop where
  | url {body msgs w'} : ¬ ReadsBody r →
      Resolves parse badVars schema env w ⟨r.urlQuery b%"query", r.urlQuery b%"variables", r.urlQuery b%"operationName"⟩ body msgs w' →
      Responds r w body msgs w'
  | unreadable {body msg} : ReadsBody r → bodyOf r = none → IsErrorResponse body msg → Responds r w body [msg] w
  | notJson {b body msg} : ReadsBody r → bodyOf r = some b → b = [] ∨ parse b = none → IsErrorResponse body msg → Responds r w body [msg] w
  | one {b v body msgs w'} : ReadsBody r → bodyOf r = some b → b ≠ [] → parse b = some v → (∀ items, v ≠ .arr items) →
      InTurn parse render badVars schema env w [v] [(body, msgs)] w' → Responds r w body msgs w'
  | batch {b items rs w'} : ReadsBody r → bodyOf r = some b → b ≠ [] → parse b = some (.arr items) →
      InTurn parse render badVars schema env w items rs w' →
      Responds r w (c%'[' :: commaSep (rs.map (·.1)) ++ [c%']']) (rs.map (·.2)).flatten w'

end

/-! ## Proof -/

theorem standsFor_requestOf (parse : Bytes → Option J) (badVars : Bytes → Bytes) (r : Req) :
    StandsFor parse badVars r (requestOf parse badVars r) := by
  refine ⟨rfl, rfl, rfl, ?_⟩
  unfold requestOf varsOf
  dsimp only
  by_cases h : r.variables = []
  · rw [if_pos h]; exact .inl ⟨h, rfl⟩
  · rw [if_neg h]
    cases hp : parse r.variables with
    | none => exact .inr (.inl ⟨h, rfl, rfl⟩)
    | some j => exact .inr (.inr ⟨h, j, rfl, rfl⟩)

theorem standsFor_unique {parse : Bytes → Option J} {badVars : Bytes → Bytes} {r : Req} {p q : Request}
    (hp : StandsFor parse badVars r p) (hq : StandsFor parse badVars r q) : p = q := by
  obtain ⟨p1, p2, p3, p4⟩ := p
  obtain ⟨q1, q2, q3, q4⟩ := q
  obtain ⟨a1, a2, a3, a4⟩ := hp
  obtain ⟨b1, b2, b3, b4⟩ := hq
  dsimp only at *
  subst a1 a2 a3 b1 b2 b3
  have : p4 = q4 := by
    rcases a4 with ⟨x, rfl⟩ | ⟨x, y, rfl⟩ | ⟨x, j, y, rfl⟩ <;> rcases b4 with ⟨x', rfl⟩ | ⟨x', y', rfl⟩ | ⟨x', j', y', rfl⟩
    · rfl
    · exact absurd x x'
    · exact absurd x x'
    · exact absurd x' x
    · rfl
    · rw [y] at y'; cases y'
    · exact absurd x' x
    · rw [y] at y'; cases y'
    · rw [y] at y'; injection y' with y'; rw [y']
  rw [this]

theorem bodyRequests_env {W₁ W₂ : Type} {e₁ : Http.Env W₁} {e₂ : Http.Env W₂} (h : e₁.render = e₂.render) {v : J} {req : Req}
    (hb : BodyRequests e₁ v req) : BodyRequests e₂ v req := by
  cases hb with
  | mk h1 h2 h3 => exact .mk h1 h2 (by rw [← h]; exact h3)

theorem asks_iff {parse : Bytes → Option J} {render : J → Bytes} {badVars : Bytes → Bytes} {schema : RSchema F V} {env : Env F V W}
    {ch : Choice} {v : J} {req : Req} : Asks parse render v req ↔ BodyRequests (httpEnv parse render badVars schema env ch) v req :=
  ⟨fun h => bodyRequests_env (e₁ := (⟨parse, render, fun w _ => (w, [], [])⟩ : Http.Env Unit))
      (e₂ := httpEnv parse render badVars schema env ch) rfl h,
    fun h => bodyRequests_env (e₁ := httpEnv parse render badVars schema env ch)
      (e₂ := (⟨parse, render, fun w _ => (w, [], [])⟩ : Http.Env Unit)) rfl h⟩

theorem handleBody_one {X : Type} (he : Http.Env X) (x : X) (b : Bytes) (v : J) (hne : b ≠ []) (hp : he.parse b = some v)
    (hv : ∀ items, v ≠ .arr items) : handleBody he x b =
      match getBodyData he v with
      | .error e => (x, errRes e)
      | .ok req => he.resolve x req := by
  have hl : ¬ (b.length == 0) = true := by simpa using hne
  unfold handleBody
  rw [if_neg hl, hp]
  cases v with
  | arr items => exact absurd rfl (hv items)
  | _ => rfl

theorem handleBody_batch {X : Type} (he : Http.Env X) (x : X) (b : Bytes) (items : List J) (hne : b ≠ [])
    (hp : he.parse b = some (.arr items)) : handleBody he x b =
      ((batchLoop he x b%"[" [] items).1, (batchLoop he x b%"[" [] items).2.1 ++ b%"]", (batchLoop he x b%"[" [] items).2.2) := by
  have hl : ¬ (b.length == 0) = true := by simpa using hne
  unfold handleBody
  rw [if_neg hl, hp]

theorem handleBody_bad {X : Type} (he : Http.Env X) (x : X) (b : Bytes) (h : b = [] ∨ he.parse b = none) :
    ∃ msg, handleBody he x b = (x, errRes msg) := by
  unfold handleBody
  split
  · exact ⟨_, rfl⟩
  · rename_i hl
    rcases h with rfl | h
    · exact absurd rfl hl
    · rw [h]; exact ⟨_, rfl⟩

theorem envelope_ne (data : Bytes) (errs : List ReqErr) : envelope false data errs ≠ [] := by
  unfold envelope
  rw [if_neg (by simp)]
  split <;> simp

theorem answers_ne {schema : RSchema F V} {env : Env F V W} {w w' : W} {q : Request} {body : Bytes} {es : List ReqErr}
    (hq : q.noMeta = false) (h : Answers schema env w q (.ok (body, es) w')) : body ≠ [] := by
  obtain ⟨-, fuel, h⟩ := h
  have h := h (fun _ => schema.rootQueryValue)
  unfold resolve at h
  rw [hq] at h
  split at h
  · cases h
  · cases h
  · split at h
    · split at h
      · injection h with h _; injection h with h _; rw [← h]; exact envelope_ne _ _
      · dsimp only at h
        split at h
        · injection h with h _; injection h with h _; rw [← h]; exact envelope_ne _ _
        · cases h
        · cases h
    · injection h with h _; injection h with h _; rw [← h]; exact envelope_ne _ _

section
variable (parse : Bytes → Option J) (render : J → Bytes) (badVars : Bytes → Bytes) (schema : RSchema F V) (env : Env F V W) (ch : Choice)
  (P : Srv V W → Prop) (Ok : Req → Prop)

/-- what is used of `Resolve` -/
def Steps : Prop := ∀ st req, P st → Ok req → ∃ st' body msgs, (httpEnv parse render badVars schema env ch).resolve st req = (st', body, msgs) ∧
  body ≠ [] ∧ P st' ∧ Resolves parse badVars schema env st.world req body msgs st'.world

variable (hs : Steps parse render badVars schema env ch P Ok)
include hs

theorem batchLoop_inTurn (items : List J) : ∀ (st : Srv V W) (buf : Bytes) (errs : List Bytes), buf ≠ [] → P st →
    (∀ v ∈ items, ∀ req, BodyRequests (httpEnv parse render badVars schema env ch) v req → Ok req) →
    ∃ st' rs, P st' ∧ InTurn parse render badVars schema env st.world items rs st'.world ∧
      batchLoop (httpEnv parse render badVars schema env ch) st buf errs items =
        (st', buf ++ (if 1 < buf.length then (rs.map (fun r => c%',' :: r.1)).flatten else commaSep (rs.map (·.1))),
          errs ++ (rs.map (·.2)).flatten) := by
  induction items with
  | nil =>
    intro st buf errs _ hp _
    exact ⟨st, [], hp, .nil _, by simp [batchLoop, commaSep]⟩
  | cons item items ih =>
    intro st buf errs hb hp hok
    have hok' := fun v hv => hok v (List.mem_cons_of_mem _ hv)
    have step : ∀ (st1 : Srv V W) (body : Bytes) (msgs : List Bytes), body ≠ [] → P st1 →
        (∀ rs w', InTurn parse render badVars schema env st1.world items rs w' →
          InTurn parse render badVars schema env st.world (item :: items) ((body, msgs) :: rs) w') →
        batchLoop (httpEnv parse render badVars schema env ch) st buf errs (item :: items) =
          batchLoop (httpEnv parse render badVars schema env ch) st1 ((if buf.length > 1 then buf ++ [c%','] else buf) ++ body)
            (errs ++ msgs) items →
        ∃ st' rs, P st' ∧ InTurn parse render badVars schema env st.world (item :: items) rs st'.world ∧
          batchLoop (httpEnv parse render badVars schema env ch) st buf errs (item :: items) =
            (st', buf ++ (if 1 < buf.length then (rs.map (fun r => c%',' :: r.1)).flatten else commaSep (rs.map (·.1))),
              errs ++ (rs.map (·.2)).flatten) := by
      intro st1 body msgs hne hp1 hin heq
      have hb1 : 0 < buf.length := List.length_pos_iff.2 hb
      have hb2 : 0 < body.length := List.length_pos_iff.2 hne
      obtain ⟨st', rs, h1, h2, h3⟩ := ih st1 ((if buf.length > 1 then buf ++ [c%','] else buf) ++ body) (errs ++ msgs)
        (by intro h; exact hne (List.append_eq_nil_iff.1 h).2) hp1 hok'
      refine ⟨st', (body, msgs) :: rs, h1, hin _ _ h2, ?_⟩
      rw [heq, h3]
      by_cases hl : buf.length > 1
      · have : 1 < (buf ++ [c%','] ++ body).length := by simp; omega
        simp only [if_pos hl]
        rw [if_pos this]
        simp
      · have : 1 < (buf ++ body).length := by simp; omega
        simp only [if_neg hl]
        rw [if_pos this, List.map_cons, commaSep_cons]
        simp [Function.comp_def]
    cases hg : getBodyData (httpEnv parse render badVars schema env ch) item with
    | error e =>
      refine step st _ [e] (errRes_ne e) hp (fun rs w' h => .malformed ?_ (errRes_is_error e).1 h) ?_
      · intro req hr
        have := (getBodyData_iff (httpEnv parse render badVars schema env ch) item req).2 (asks_iff.1 hr)
        rw [hg] at this; cases this
      · rw [batchLoop]
        dsimp only
        rw [hg]
    | ok req =>
      have hbr := (getBodyData_iff (httpEnv parse render badVars schema env ch) item req).1 hg
      obtain ⟨st1, body, msgs, h1, h2, h3, h4⟩ := hs st req hp (hok item (List.mem_cons_self) req hbr)
      refine step st1 body msgs h2 h3 (fun rs w' h => .request (asks_iff.2 hbr) h4 h) ?_
      rw [batchLoop]
      dsimp only
      rw [hg]
      show batchLoop (httpEnv parse render badVars schema env ch) ((httpEnv parse render badVars schema env ch).resolve st req).1
        (_ ++ ((httpEnv parse render badVars schema env ch).resolve st req).2.1)
        (errs ++ ((httpEnv parse render badVars schema env ch).resolve st req).2.2) items = _
      rw [h1]

theorem handleRequest_responds (st : Srv V W) (r : Http) (hp : P st)
    (hok : ∀ req, Carries (httpEnv parse render badVars schema env ch) r req → Ok req) :
    ∃ st' body msgs, handleRequest (httpEnv parse render badVars schema env ch) st r = (st', body, msgs) ∧ P st' ∧
      Responds parse render badVars schema env r st.world body msgs st'.world := by
  obtain ⟨s1, s2, s3⟩ := C38_source (httpEnv parse render badVars schema env ch) st r
  by_cases hb : ReadsBody r
  · cases hbo : bodyOf r with
    | none =>
      obtain ⟨msg, h⟩ := s2 hb hbo
      exact ⟨st, _, _, h, hp, .unreadable hb hbo (errRes_is_error msg).1⟩
    | some b =>
      rw [s1 hb b hbo]
      by_cases hne : b = []
      · subst hne
        exact ⟨st, _, _, rfl, hp, .notJson hb hbo (.inl rfl) (errRes_is_error _).1⟩
      cases hpb : (httpEnv parse render badVars schema env ch).parse b with
      | none =>
        obtain ⟨msg, h⟩ := handleBody_bad (httpEnv parse render badVars schema env ch) st b (.inr hpb)
        exact ⟨st, _, _, h, hp, .notJson hb hbo (.inr hpb) (errRes_is_error _).1⟩
      | some v =>
        by_cases hv : ∃ items, v = .arr items
        · obtain ⟨items, rfl⟩ := hv
          obtain ⟨st', rs, h1, h2, h3⟩ := batchLoop_inTurn parse render badVars schema env ch P Ok hs items st b%"[" [] (by simp) hp
            (fun v hv req hr => hok _ (.item hb hbo hpb hv hr))
          rw [handleBody_batch _ st b items hne hpb, h3]
          exact ⟨st', _, _, rfl, h1, .batch hb hbo hne hpb h2⟩
        · have hv' : ∀ items, v ≠ .arr items := fun items h => hv ⟨items, h⟩
          rw [handleBody_one _ st b v hne hpb hv']
          cases hg : getBodyData (httpEnv parse render badVars schema env ch) v with
          | error e =>
            refine ⟨st, _, _, rfl, hp, .one hb hbo hne hpb hv' (.malformed ?_ (errRes_is_error e).1 (.nil _))⟩
            intro req hr
            have := (getBodyData_iff (httpEnv parse render badVars schema env ch) v req).2 (asks_iff.1 hr)
            rw [hg] at this; cases this
          | ok req =>
            have hbr := (getBodyData_iff (httpEnv parse render badVars schema env ch) v req).1 hg
            obtain ⟨st1, body, msgs, h1, h2, h3, h4⟩ := hs st req hp (hok req (.body hb hbo hpb hbr))
            exact ⟨st1, body, msgs, h1, h3, .one hb hbo hne hpb hv' (.request (asks_iff.2 hbr) h4 (.nil _))⟩
  · rw [s3 hb]
    obtain ⟨st1, body, msgs, h1, h2, h3, h4⟩ := hs st _ hp (hok _ (.url hb))
    exact ⟨st1, body, msgs, h1, h3, .url hb h4⟩

end

/-- **C70.** On a schema in any state it can get into by answering requests, `HandleRequest` answers an HTTP request with what `Resolve`
answers, on a new schema and in the world at that time, to the GraphQL request that the texts of the HTTP request stand for; the items of a
batch are answered in turn, as if each were asked alone. What it answers is determined by that (see `C70_unique`).
`hfr`: of each request carried, the text defines no fragment or is too short for the cache. `hans`: `Resolve` answers the requests carried
(it does not panic or run forever, see C19). -/
theorem C70_http_answers_partial (schema : RSchema F V) (env : Env F V W) (parse : Bytes → Option J) (render : J → Bytes)
    (badVars : Bytes → Bytes) (ch : Choice) (vals : UInt8 → V) (w : W) (hist : List (Choice × Request)) (rs : List (Bytes × List ReqErr))
    (st : Srv V W) (hh : History schema env (Srv.new vals w) hist rs st) (r : Http)
    (hfr : ∀ req, Carries (httpEnv parse render badVars schema env ch) r req → ∀ q, StandsFor parse badVars req q →
      ¬ HasFragments q ∨ q.query.length ≤ ch.minLen)
    (hans : ∀ req, Carries (httpEnv parse render badVars schema env ch) r req → ∀ q, StandsFor parse badVars req q →
      ∀ w, ∃ body es w', Answers schema env w q (.ok (body, es) w')) :
    ∃ st' body msgs, handleRequest (httpEnv parse render badVars schema env ch) st r = (st', body, msgs) ∧
      (∃ hist' rs', History schema env (Srv.new vals w) hist' rs' st') ∧
      Responds parse render badVars schema env r st.world body msgs st'.world := by
  refine handleRequest_responds parse render badVars schema env ch (fun st => ∃ hist rs, History schema env (Srv.new vals w) hist rs st)
    (fun req => ∀ q, StandsFor parse badVars req q → (¬ HasFragments q ∨ q.query.length ≤ ch.minLen) ∧
      ∀ w, ∃ body es w', Answers schema env w q (.ok (body, es) w')) ?_ st r ⟨hist, rs, hh⟩
    (fun req hc q hq => ⟨hfr req hc q hq, hans req hc q hq⟩)
  rintro st req ⟨hist, rs, hh⟩ hok
  have hst := standsFor_requestOf parse badVars req
  obtain ⟨h1, h2⟩ := hok _ hst
  obtain ⟨body, es, w', ha⟩ := h2 st.world
  have hiff := C59_history_partial schema env vals w hist rs st hh ch (requestOf parse badVars req) (h1.elim .inl (fun h => .inr (.inl h)))
  obtain ⟨-, fuel, hv⟩ := (hiff _).2 ha
  have hex : ∃ fuel r st', serve fuel schema env st ch (requestOf parse badVars req) = .ok r st' := by
    refine ⟨fuel, ?_⟩
    cases hs : serve fuel schema env st ch (requestOf parse badVars req) with
    | ok r st' => exact ⟨r, st', rfl⟩
    | panic => rw [hs] at hv; cases hv
    | oof => rw [hs] at hv; cases hv
  have ho : outcome schema env ch st (requestOf parse badVars req) = serve hex.choose schema env st ch (requestOf parse badVars req) := by
    unfold outcome
    rw [dif_pos hex]
  obtain ⟨⟨body', es'⟩, st', hs⟩ := hex.choose_spec
  have ha' := (hiff (.ok (body', es') st'.world)).1 ⟨by simp, hex.choose, by rw [hs]; rfl⟩
  refine ⟨st', body', es'.map ReqErr.msg, ?_, answers_ne rfl ha', history_snoc hh _ hs, _, _, hst, ha', List.map_congr_left (fun e _ => by rcases e with ⟨⟩ | ⟨⟨⟩⟩ <;> rfl)⟩
  show (match outcome schema env ch st (requestOf parse badVars req) with
    | .ok (body, es) st' => (st', body, es.map ReqErr.msg) | _ => (st, [], [])) = _
  rw [ho, hs]

/-! ## The answer is determined -/

section
variable {parse : Bytes → Option J} {render : J → Bytes} {badVars : Bytes → Bytes} {schema : RSchema F V} {env : Env F V W}

theorem asks_unique {v : J} {a b : Req} (ha : Asks parse render v a) (hb : Asks parse render v b) : a = b := by
  have h1 := (getBodyData_iff _ v a).2 ha
  have h2 := (getBodyData_iff _ v b).2 hb
  rw [h1] at h2
  injection h2

theorem resolves_unique {w : W} {req : Req} {b₁ b₂ : Bytes} {m₁ m₂ : List Bytes} {w₁ w₂ : W}
    (h₁ : Resolves parse badVars schema env w req b₁ m₁ w₁) (h₂ : Resolves parse badVars schema env w req b₂ m₂ w₂) :
    b₁ = b₂ ∧ m₁ = m₂ ∧ w₁ = w₂ := by
  obtain ⟨q, es, hq, ha, rfl⟩ := h₁
  obtain ⟨q', es', hq', ha', rfl⟩ := h₂
  rw [standsFor_unique hq' hq] at ha'
  have e := C41_deterministic ha ha'
  injection e with e e2
  injection e with e0 e1
  exact ⟨e0, by rw [e1], e2⟩

/-- Two responses to a batch differ at most in the wording of the error for an item that is not a request. -/
theorem C70_unique {w w₁ w₂ : W} {vs : List J} {r₁ r₂ : List (Bytes × List Bytes)} (h₁ : InTurn parse render badVars schema env w vs r₁ w₁)
    (h₂ : InTurn parse render badVars schema env w vs r₂ w₂) : w₁ = w₂ ∧
      r₁.length = vs.length ∧ r₂.length = vs.length ∧
      ∀ (i : Nat) (v : J) (req : Req), vs[i]? = some v → Asks parse render v req → r₁[i]? = r₂[i]? := by
  induction h₁ generalizing r₂ w₂ with
  | nil w =>
    cases h₂
    exact ⟨rfl, rfl, rfl, by intro i v req h; simp at h⟩
  | malformed hn _ _ ih =>
    cases h₂ with
    | malformed _ _ h =>
      obtain ⟨a, b, c, d⟩ := ih h
      refine ⟨a, by simp [b], by simp [c], ?_⟩
      intro i v req hv ha
      cases i with
      | zero => simp at hv; subst hv; exact absurd ha (hn req)
      | succ i => exact d i v req (by simpa using hv) ha
    | request ha => exact absurd ha (hn _)
  | request ha hr _ ih =>
    cases h₂ with
    | malformed hn _ _ => exact absurd ha (hn _)
    | request ha' hr' h =>
      have := asks_unique ha ha'
      subst this
      obtain ⟨e1, e2, e3⟩ := resolves_unique hr hr'
      subst e1 e2 e3
      obtain ⟨a, b, c, d⟩ := ih h
      refine ⟨a, by simp [b], by simp [c], ?_⟩
      intro i v req hv ha
      cases i with
      | zero => rfl
      | succ i => exact d i v req (by simpa using hv) ha

end

/-! ## A batch with an invalid item -/

namespace HttpDemo
open Yarql.HttpDemo Demo

theorem answered (w : World) : ∃ body es w', Answers Demo.schema Demo.env w (request b%"{name}") (.ok (body, es) w') :=
  C19_answered_partial Demo.schema Demo.env _ w (request b%"{name}") _ _ servesName wellTyped (fits (by decide))

example : ∃ st' body msgs, handleRequest henv (Srv.new noStack []) post = (st', body, msgs) ∧
    (∃ hist' rs', History Demo.schema Demo.env (Srv.new noStack []) hist' rs' st') ∧
    Responds parse (fun _ => []) (fun _ => []) Demo.schema Demo.env post [] body msgs st'.world := by
  refine C70_http_answers_partial Demo.schema Demo.env parse _ _ _ noStack [] [] [] _ (.nil _) post ?_ ?_
  · intro req hc q hq
    rw [carried req hc] at hq
    rw [standsFor_unique hq (standsFor_requestOf parse _ _)]
    exact .inr (by decide)
  · intro req hc q hq w
    rw [carried req hc] at hq
    rw [standsFor_unique hq (standsFor_requestOf parse _ _)]
    exact answered w

end HttpDemo
end HttpAnswers
end Yarql
