import Verif.Model.Server
import Verif.Props.Cache
import Verif.Props.Isolation
import Verif.Spec.Serving
import Verif.Spec.Demo

/-!
# C59: a schema keeps answering like a new one
-/

namespace Yarql
open Doc Resolver Server

section
variable {F V W : Type} [DecidableEq F]

/-- an outcome without what the schema keeps to itself -/
def visible : R (Srv V W) (Bytes × List ReqErr) → R W (Bytes × List ReqErr)
  | .ok r st => .ok r st.world
  | .panic => .panic
  | .oof => .oof

/-- A schema in the state `st` ends this request with this outcome. -/
def Replies (schema : RSchema F V) (env : Env F V W) (st : Srv V W) (ch : Choice) (req : Request) (r : R W (Bytes × List ReqErr)) : Prop :=
  r ≠ .oof ∧ ∃ fuel, visible (serve fuel schema env st ch req) = r

/-- the text defines a fragment -/
def HasFragments (req : Request) : Prop := ∃ d, Parsed req.query (reqTarget req) d ∧ fragNames d ≠ []

theorem fragPositions_nil (d : List Def) : ∀ at_, fragNames d = [] → fragPositions at_ d = [] := by
  induction d with
  | nil => intro _ _; rfl
  | cons x d ih =>
    intro at_ h
    cases x with
    | op o => exact ih _ h
    | frag f => cases h

/-- what the cache-less parser makes of a request -/
theorem parseF_eq (q : Bytes) (t : Option Bytes) :
    ∃ s, Parser.parseQuery q t = .ok () s ∧ Cache.parseF q t = ⟨s.res, s.frags, s.targetIdx, s.errs⟩ := by
  obtain ⟨s, h, -⟩ := C01_parse_total q t
  refine ⟨s, h, ?_⟩
  unfold Cache.parseF Cache.parseOutcome
  rw [h]
  rfl

/-- if the cache hands out what the parser makes, serving is resolving -/
theorem serve_resolve (fuel : Nat) (schema : RSchema F V) (env : Env F V W) (st : Srv V W) (ch : Choice) (req : Request)
    (h1 : (Cache.step Cache.parseF st.parser (opOf ch req)).2.res = (Cache.parseF req.query (reqTarget req)).res)
    (h2 : (Cache.step Cache.parseF st.parser (opOf ch req)).2.targetIdx = (Cache.parseF req.query (reqTarget req)).targetIdx)
    (h3 : (Cache.step Cache.parseF st.parser (opOf ch req)).2.errs = (Cache.parseF req.query (reqTarget req)).errs)
    (h4 : (Cache.parseF req.query (reqTarget req)).errs = [] →
      (Cache.step Cache.parseF st.parser (opOf ch req)).2.frags = (Cache.parseF req.query (reqTarget req)).frags) :
    visible (serve fuel schema env st ch req) = resolve fuel schema env st.vals st.world req := by
  obtain ⟨s, hs, hF⟩ := parseF_eq req.query (reqTarget req)
  rw [hF] at h1 h2 h3 h4
  unfold serve resolve
  unfold reqTarget at hs
  rw [hs]
  generalize Cache.step Cache.parseF st.parser (opOf ch req) = x at h1 h2 h3 h4
  obtain ⟨parser, ⟨res, frags, targetIdx, errs⟩⟩ := x
  dsimp only at h1 h2 h3 h4
  subst h1 h2 h3
  dsimp only
  by_cases he : s.errs.isEmpty = true
  · rw [if_pos he, if_pos he]
    have := h4 (by simpa using he)
    subst this
    cases s.targetIdx with
    | none => rfl
    | some at_ =>
      dsimp only
      cases resolveOperation fuel (⟨s.res, s.frags, schema, env, req.vars⟩ : Cfg F V W)
        ⟨at_, [], [c%'{'], [], st.vals, 0, false, false, 0, st.world⟩ <;> rfl
  · rw [if_neg he, if_neg he]
    rfl

/-- the parser context after a history is the one after the history's parses -/
theorem history_parser (schema : RSchema F V) (env : Env F V W) {st st' : Srv V W} {hist : List (Choice × Request)}
    {rs : List (Bytes × List ReqErr)} (h : History schema env st hist rs st') :
    st'.parser = Cache.run Cache.parseF st.parser (hist.map (fun x => opOf x.1 x.2)) := by
  induction h with
  | nil => rfl
  | @cons st st' st'' ch req rest r rs fuel h _ ih =>
    rw [ih]
    have hp : st'.parser = (Cache.step Cache.parseF st.parser (opOf ch req)).1 := by
      unfold serve at h
      dsimp only at h
      by_cases he : (Cache.step Cache.parseF st.parser (opOf ch req)).2.errs.isEmpty = true
      · rw [if_pos he] at h
        cases ht : (Cache.step Cache.parseF st.parser (opOf ch req)).2.targetIdx with
        | none =>
          rw [ht] at h
          dsimp only at h
          injection h with _ h
          rw [← h]
        | some at_ =>
          rw [ht] at h
          dsimp only at h
          split at h
          · injection h with _ h
            rw [← h]
          · cases h
          · cases h
      · rw [if_neg he] at h
        injection h with _ h
        rw [← h]
    rw [hp]
    rfl

/-- only what was parsed is cached -/
theorem run_parsed (G : Bytes → Option Bytes → Cache.Outcome) (q : Bytes) (t : Option Bytes) (ops : List Cache.Op) :
    ∀ s : Cache.Ctx, (∀ kv ∈ s.cache, ∀ e ∈ kv.2, ¬ (e.query = q ∧ e.target = t)) → (∀ o ∈ ops, ¬ (o.query = q ∧ o.target = t)) →
      ∀ kv ∈ (Cache.run G s ops).cache, ∀ e ∈ kv.2, ¬ (e.query = q ∧ e.target = t) := by
  induction ops with
  | nil => intro s h _; exact h
  | cons o os ih =>
    intro s h ho
    refine ih _ ?_ (fun o' h' => ho o' (List.mem_cons_of_mem _ h'))
    rintro ⟨k, es⟩ hk e he
    unfold Cache.step at hk
    dsimp only at hk
    split at hk
    · exact h _ hk e he
    · split at hk
      · rcases Cache.setEntry_mem hk he with rfl | ⟨es', h1, h2⟩
        · exact ho o (List.mem_cons_self)
        · exact h _ h1 e h2
      · exact h _ hk e he

/-- **C59.** After any history of requests, a schema answers the next request (or panics) exactly as a new schema would in the same
world, if the request's text defines no fragment, or is too short for the cache, or has not been asked before with this operation
name, or is the only one with fragments so far. Missing: a repeated long query with fragments, with other such queries in between;
see `C59_refuted`. -/
theorem C59_history_partial (schema : RSchema F V) (env : Env F V W) (vals : UInt8 → V) (w : W) (hist : List (Choice × Request))
    (rs : List (Bytes × List ReqErr)) (st : Srv V W) (h : History schema env (Srv.new vals w) hist rs st) (ch : Choice) (req : Request)
    (hfr : ¬ HasFragments req ∨ req.query.length ≤ ch.minLen ∨ (∀ x ∈ hist, ¬ (x.2.query = req.query ∧ reqTarget x.2 = reqTarget req)) ∨
      ∀ x ∈ hist, (Cache.parseF x.2.query (reqTarget x.2)).frags ≠ [] → x.2.query = req.query ∧ reqTarget x.2 = reqTarget req)
    (r : R W (Bytes × List ReqErr)) : Replies schema env st ch req r ↔ Answers schema env st.world req r := by
  have hp := history_parser schema env h
  have hpart := Cache.C10_cache_transparent_partial Cache.parseF (hist.map (fun x => opOf x.1 x.2)) (opOf ch req)
  rw [show Cache.run Cache.parseF Cache.Ctx.new (hist.map (fun x => opOf x.1 x.2)) = st.parser from hp.symm] at hpart
  obtain ⟨h1, h2, h3, hlen, h5, h6⟩ := hpart
  have h4 : (Cache.parseF req.query (reqTarget req)).errs = [] →
      (Cache.step Cache.parseF st.parser (opOf ch req)).2.frags = (Cache.parseF req.query (reqTarget req)).frags := by
    intro he
    rcases hfr with hf | hf | hf | hf
    · obtain ⟨s, hs, hF⟩ := parseF_eq req.query (reqTarget req)
      have he' : s.errs = [] := by rw [hF] at he; exact he
      obtain ⟨d, d1, d2, d3, d4⟩ := C06_accepted_is_encoding req.query (reqTarget req) s hs he'
      have hn : fragNames d = [] := by
        by_cases hn : fragNames d = []
        · exact hn
        · exact absurd ⟨d, ⟨s, hs, he', d2, d3, d4⟩, hn⟩ hf
      have : (Cache.parseF req.query (reqTarget req)).frags = [] := by
        rw [hF]
        dsimp only
        rw [d3, fragPositions_nil d 0 hn]
      exact congrArg Cache.Outcome.frags (h5 this)
    · exact congrArg Cache.Outcome.frags (h6 (.inr hf))
    · refine congrArg Cache.Outcome.frags (h6 (.inl ?_))
      cases hg : Cache.getEntry st.parser.cache (opOf ch req).query (opOf ch req).target with
      | none => rfl
      | some e =>
        exfalso
        obtain ⟨⟨es, m1, m2⟩, m3, m4⟩ := Cache.getEntry_mem hg
        rw [hp] at m1
        refine run_parsed Cache.parseF req.query (reqTarget req) _ (Srv.new vals w : Srv V W).parser ?_ ?_ _ m1 e m2 ⟨m3, m4⟩
        · intro kv hk; cases hk
        · intro o ho
          obtain ⟨x, hx, rfl⟩ := List.mem_map.1 ho
          exact hf x hx
    · have := Cache.C10_same_fragment_table_partial Cache.parseF (hist.map (fun x => opOf x.1 x.2)) (opOf ch req) (by
        intro o ho
        obtain ⟨x, hx, rfl⟩ := List.mem_map.1 ho
        by_cases hn : (Cache.parseF (opOf x.1 x.2).query (opOf x.1 x.2).target).frags = []
        · exact .inr hn
        · obtain ⟨e1, e2⟩ := hf x hx hn
          left
          show (Cache.parseF x.2.query (reqTarget x.2)).frags = (Cache.parseF req.query (reqTarget req)).frags
          rw [e1, e2])
      rw [show Cache.run Cache.parseF Cache.Ctx.new (hist.map (fun x => opOf x.1 x.2)) = st.parser from hp.symm] at this
      exact congrArg Cache.Outcome.frags this
  constructor
  · rintro ⟨hr, fuel, hf⟩
    rw [serve_resolve fuel schema env st ch req h1 h2 h3 h4] at hf
    exact Answers.of hf hr
  · rintro ⟨hr, fuel, hf⟩
    exact ⟨hr, fuel, by rw [serve_resolve fuel schema env st ch req h1 h2 h3 h4]; exact hf _⟩

end

/-! ## Concrete histories -/

namespace ServerDemo
open Demo

/-- play a history with a bound on the recursion -/
def play (fuel : Nat) (st : Srv D World) : List (Choice × Request) → Option (List (Bytes × List ReqErr) × Srv D World)
  | [] => some ([], st)
  | (ch, req) :: rest =>
    match serve fuel Demo.schema Demo.env st ch req with
    | .ok r st' => (play fuel st' rest).map (fun x => (r :: x.1, x.2))
    | _ => none

theorem play_history (fuel : Nat) : ∀ (hist : List (Choice × Request)) (st st' : Srv D World) (rs : List (Bytes × List ReqErr)),
    play fuel st hist = some (rs, st') → History Demo.schema Demo.env st hist rs st' := by
  intro hist
  induction hist with
  | nil =>
    intro st st' rs h
    injection h with h
    injection h with h1 h2
    subst h1 h2
    exact .nil _
  | cons x rest ih =>
    obtain ⟨ch, req⟩ := x
    intro st st' rs h
    unfold play at h
    split at h
    · rename_i r st1 hs
      obtain ⟨⟨rs1, st2⟩, h1, h2⟩ := Option.map_eq_some_iff.1 h
      injection h2 with h3 h4
      subst h3 h4
      exact .cons fuel hs (ih _ _ _ h1)
    · cases h

/-- cache every query longer than ten bytes -/
def ch : Choice := ⟨10, [], 0⟩

/-- two fragments, the second one is used -/
def q1 : Bytes := b%"fragment G on User{age friend{name}} fragment F on User{name} {...F}"
def q2 : Bytes := b%"fragment F on User{name} fragment G on User{age} {...F}"
def q3 : Bytes := b%"{name friend{name}}"

def start : Srv D World := Srv.new noStack []

/-- the answers to a list of queries, one after the other -/
def answers (qs : List Bytes) : Option (List Bytes) := (play 40 start (qs.map (fun q => (ch, request q)))).map (fun x => x.1.map (·.1))

/-- queries without fragments, answered from the cache the second time, between queries with fragments -/
example : answers [q3, q1, q3, q2, q3] = some [dataOnly b%"{\"name\":\"A\\\"n\",\"friend\":{\"name\":\"Bob\"}}", dataOnly b%"{\"name\":\"A\\\"n\"}",
    dataOnly b%"{\"name\":\"A\\\"n\",\"friend\":{\"name\":\"Bob\"}}", dataOnly b%"{\"name\":\"A\\\"n\"}",
    dataOnly b%"{\"name\":\"A\\\"n\",\"friend\":{\"name\":\"Bob\"}}"] := by decide +kernel

/-- and so the theorem speaks about this history -/
example : ∃ rs st, History Demo.schema Demo.env start ([q1, q2].map (fun q => (ch, request q))) rs st ∧
    ∀ r, Replies Demo.schema Demo.env st ch (request q3) r ↔ Answers Demo.schema Demo.env st.world (request q3) r := by
  have hs : (play 40 start ([q1, q2].map (fun q => (ch, request q)))).isSome = true := by decide +kernel
  obtain ⟨⟨rs, st⟩, hp⟩ := Option.isSome_iff_exists.1 hs
  have hh := play_history _ _ _ _ _ hp
  exact ⟨rs, st, hh, C59_history_partial _ _ _ _ _ _ _ hh ch (request q3) (.inr (.inr (.inl (by
    intro x hx
    rcases List.mem_cons.1 hx with rfl | hx
    · exact fun e => absurd e.1 (by decide)
    · cases List.mem_singleton.1 hx
      exact fun e => absurd e.1 (by decide)))))⟩

end ServerDemo

namespace ServerDemo
open Demo

/-- The first time `q1` is answered, the second time (after another query with fragments) it is refused. -/
theorem answers_twice : answers [q1, q2, q1] =
    some [dataOnly b%"{\"name\":\"A\\\"n\"}", dataOnly b%"{\"name\":\"A\\\"n\"}",
      b%"{\"data\":{},\"errors\":[{\"message\":\"fragment F not defined\"}],\"extensions\":{}}"] := by decide +kernel

/-- the body of an outcome -/
def bodyOf : R World (Bytes × List ReqErr) → Option Bytes
  | .ok r _ => some r.1
  | _ => none

end ServerDemo

/-- **C59, refuted** for a repeated query with fragments, after another one: the schema refuses what a new schema in the same world answers. -/
theorem C59_refuted : ¬ ∀ (hist : List (Choice × Request)) (rs : List (Bytes × List ReqErr)) (st : Srv Demo.D Demo.World) (ch : Choice)
    (req : Request) (r : R Demo.World (Bytes × List ReqErr)), History Demo.schema Demo.env ServerDemo.start hist rs st →
    (Replies Demo.schema Demo.env st ch req r ↔ Answers Demo.schema Demo.env st.world req r) := by
  intro hall
  open ServerDemo in
  have hs : (play 40 start ([q1, q2].map (fun q => (ch, Demo.request q)))).isSome = true := by decide +kernel
  obtain ⟨⟨rs, st⟩, hp⟩ := Option.isSome_iff_exists.1 hs
  have hh := ServerDemo.play_history _ _ _ _ _ hp
  -- what the schema says now
  have h1 : (ServerDemo.play 40 ServerDemo.start ([ServerDemo.q1, ServerDemo.q2].map (fun q => (ServerDemo.ch, Demo.request q)))).map
      (fun x => ServerDemo.bodyOf (visible (serve 40 Demo.schema Demo.env x.2 ServerDemo.ch (Demo.request ServerDemo.q1)))) =
      some (some b%"{\"data\":{},\"errors\":[{\"message\":\"fragment F not defined\"}],\"extensions\":{}}") := by decide +kernel
  -- and what a new one says
  have h2 : (ServerDemo.play 40 ServerDemo.start ([ServerDemo.q1, ServerDemo.q2].map (fun q => (ServerDemo.ch, Demo.request q)))).map
      (fun x => ServerDemo.bodyOf (resolve 40 Demo.schema Demo.env Demo.noStack x.2.world (Demo.request ServerDemo.q1))) =
      some (some (Demo.dataOnly b%"{\"name\":\"A\\\"n\"}")) := by decide +kernel
  rw [hp] at h1 h2
  injection h1 with h1
  injection h2 with h2
  dsimp only at h1 h2
  have n1 : visible (serve 40 Demo.schema Demo.env st ServerDemo.ch (Demo.request ServerDemo.q1)) ≠ .oof := by
    intro h; rw [h] at h1; cases h1
  have n2 : resolve 40 Demo.schema Demo.env Demo.noStack st.world (Demo.request ServerDemo.q1) ≠ .oof := by
    intro h; rw [h] at h2; cases h2
  have ha := (hall _ _ _ ServerDemo.ch (Demo.request ServerDemo.q1) _ hh).1 ⟨n1, 40, rfl⟩
  have e := C41_deterministic ha (Answers.of rfl n2)
  rw [e, h2] at h1
  exact absurd h1 (by decide)

end Yarql
