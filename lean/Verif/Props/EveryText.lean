import Verif.Proofs.EncInj
import Verif.Props.Cut
import Verif.Props.ParserSound

/-!
# C76: every query text

`Resolve` is given an arbitrary byte string.  Either it is a text of the grammar (`Spec/Grammar.lean`) or it is not; if it is, either one
of its operations is asked for or none is.  Each case has its answer.  No hypothesis is about the parser: what the theorems ask of a
text that is executed is its length (below 2^28 bytes) and what `docTracked` and `Fits` exclude (C08, C18, C19, C22, C25).
-/

namespace Yarql
open Parser Doc Grammar Resolver Eval Typed Json

/-- The request's query is a text of `d`, and `o` is the operation of `d` it asks for. -/
structure AsksFor (req : Request) (d : List Def) (o : Operation) : Prop where
  text : Text d req.query
  chosen : chosenOperation req.target d = some o

/-- A text of the grammar has only well-formed documents, at most 16 times as long as the text when compiled. -/
theorem C76_text_is_well_formed (d : List Def) (text : Bytes) (h : Text d text) : docWF d ∧ (encDoc d).length ≤ 16 * text.length :=
  ⟨h.wf, h.size⟩

/-- **C75** (one reading): a text shorter than 2^28 bytes is a text of at most one document. -/
theorem C75_unambiguous (d₁ d₂ : List Def) (text : Bytes) (h₁ : Text d₁ text) (h₂ : Text d₂ text) (hl : text.length < 2 ^ 28) : d₁ = d₂ :=
  encDoc_inj d₁ d₂ h₁.wf h₂.wf (by have := h₁.size; omega) (by have := h₂.size; omega) (C75_one_reading d₁ d₂ text h₁ h₂)

/-- **C75**: what the parser stores determines the document: a text that compiles to the encoding of a well-formed document is a text of
that document. -/
theorem C75_parsed_is_text (d : List Def) (text : Bytes) (target : Option Bytes) (hl : text.length < 2 ^ 28) (hz : (encDoc d).length < 2 ^ 32) :
    Parsed text target d ∧ docWF d ↔ Text d text := by
  constructor
  · rintro ⟨⟨s, h1, h2, h3, -, -⟩, hw⟩
    obtain ⟨d', g1, g2, -⟩ := C75_accepted_compiles text target s h1 h2
    have := encDoc_inj d d' hw g1.wf hz (by have := g1.size; omega) (h3.symm.trans g2)
    rw [this]
    exact g1
  · exact fun h => ⟨C02_document_compiles d text target h, h.wf⟩

/-- **C76**: a request asks for at most one operation of one document. -/
theorem AsksFor.unique {req : Request} {d d' : List Def} {o o' : Operation} (h : AsksFor req d o) (h' : AsksFor req d' o')
    (hl : req.query.length < 2 ^ 28) : d = d' ∧ o = o' := by
  obtain rfl := C75_unambiguous d d' _ h.text h'.text hl
  have := h.chosen.symm.trans h'.chosen
  injection this with this
  exact ⟨rfl, this⟩

theorem Serves.asksFor {req : Request} {d : List Def} {o : Operation} (h : Serves req d o) (hl : req.query.length < 2 ^ 28) :
    AsksFor req d o :=
  ⟨(C75_parsed_is_text d req.query (reqTarget req) hl h.len).1 ⟨h.parsed, h.wf⟩, h.chosen⟩

theorem AsksFor.holds {req : Request} {d : List Def} {o : Operation} (h : AsksFor req d o) (hl : req.query.length < 2 ^ 28)
    (ht : docTracked d) : Holds req d o :=
  ⟨C02_document_compiles d req.query _ h.text, h.text.wf, ht, by have := h.text.size; omega, h.chosen⟩

theorem AsksFor.serves {req : Request} {d : List Def} {o : Operation} (h : AsksFor req d o) (hl : req.query.length < 2 ^ 28)
    (ht : docRegular d) : Serves req d o :=
  ⟨C02_document_compiles d req.query _ h.text, h.text.wf, ht, by have := h.text.size; omega, h.chosen⟩

section
variable {F V W : Type} [DecidableEq F]

/-- **C76** (no text of the grammar). The data is empty, nothing is executed, and every reported error has the line and column of a
position of the text. -/
theorem C76_not_in_grammar (schema : RSchema F V) (env : Env F V W) (w : W) (req : Request) (h : ¬ ∃ d, Text d req.query) :
    ∃ es, es ≠ [] ∧ (∀ e ∈ es, ∃ msg p, p ≤ req.query.length ∧
        e = .located msg (1 + Location.lineBreaks (req.query.take p)) (Location.column (req.query.take p))) ∧
      ∀ fuel vals, resolve fuel schema env vals w req = .ok (envelope req.noMeta b%"{}" es, es) w := by
  obtain ⟨s, h1, he⟩ := (C75_rejected_iff_not_grammar req.query (reqTarget req)).2 h
  refine ⟨s.errs.map (fun e => ReqErr.located e.msg e.line e.col), by simpa using he, ?_, ?_⟩
  · intro e hm
    obtain ⟨x, hx, rfl⟩ := List.mem_map.1 hm
    obtain ⟨p, p1, p2, p3⟩ := C05_errors_located _ _ _ h1 x hx
    exact ⟨x.msg, p, p1, by rw [← p2, ← p3]⟩
  · intro fuel vals
    unfold reqTarget at h1
    unfold resolve
    rw [h1]
    dsimp only
    rw [if_neg (by simpa using he)]

/-- **C76** (no operation asked for). The data is empty, nothing is executed, the error says which operation is missing. -/
theorem C76_no_operation (schema : RSchema F V) (env : Env F V W) (w : W) (req : Request) (d : List Def) (h : Text d req.query)
    (hc : chosenOperation req.target d = none) (fuel : Nat) (vals : UInt8 → V) :
    ∃ msg, (msg = b%"no operator found" ∨ msg = b%"no operator with name " ++ req.target ++ b%" found") ∧
      resolve fuel schema env vals w req = .ok (envelope req.noMeta b%"{}" [.exec ⟨msg, none⟩], [.exec ⟨msg, none⟩]) w :=
  C04_no_operation fuel schema env vals w req d (C02_document_compiles d req.query _ h) hc

/-- **C76** (executed). The response is the printed response tree of the evaluator, with its errors and effects. -/
theorem C76_executed (schema : RSchema F V) (env : Env F V W) (T : Obj F → V → Prop) (w : W) (req : Request) (d : List Def) (o : Operation)
    (h : AsksFor req d o) (hl : req.query.length < 2 ^ 28) (hd : docTracked d) (ht : WellTyped schema env T)
    (hf : Fits schema (fragmentsOf (docCut d)) o.cut) :
    ∃ fuel out crit es', evalOperation (reqOf schema env req (docCut d) o.cut) fuel o.cut ⟨[], w, false⟩ = some ((out, crit), es') ∧
      Answers schema env w req (.ok (envelope req.noMeta (print out) (execErrs es'.errs), execErrs es'.errs) es'.world) := by
  obtain ⟨F0, h0⟩ := evalOperation_total (r := reqOf schema env req (docCut d) o.cut) ht o.cut hf
  obtain ⟨⟨out, crit⟩, es', h1, -⟩ := h0 F0 (Nat.le_refl _) ⟨[], w, false⟩
  have hs := h.holds hl hd
  exact ⟨F0, out, crit, es', h1, Answers.of (resolve_eval_cut F0 schema env (fun _ => schema.rootQueryValue) w req d o out crit es' hs.parsed
    hs.wf hs.tracked hs.len hs.chosen h1) (by simp)⟩

/-- **C76.** Whatever bytes a request consists of, it is answered: `Resolve` ends, does not panic, and its answer is determined by the
request.  If the text is no query, or none of its operations is asked for, nothing is executed. -/
theorem C76_every_request_partial (schema : RSchema F V) (env : Env F V W) (T : Obj F → V → Prop) (w : W) (req : Request)
    (ht : WellTyped schema env T) (hl : req.query.length < 2 ^ 28)
    (hx : ∀ d o, AsksFor req d o → docTracked d ∧ Fits schema (fragmentsOf (docCut d)) o.cut) :
    ∃ body es w', Answers schema env w req (.ok (body, es) w') ∧
      ((∀ d o, ¬ AsksFor req d o) → w' = w ∧ es ≠ [] ∧ body = envelope req.noMeta b%"{}" es) := by
  by_cases hg : ∃ d, Text d req.query
  · obtain ⟨d, hd⟩ := hg
    cases hc : chosenOperation req.target d with
    | none =>
      obtain ⟨msg, -, hr⟩ := C76_no_operation schema env w req d hd hc 0 (fun _ => schema.rootQueryValue)
      exact ⟨_, _, _, Answers.of hr (by simp), fun _ => ⟨rfl, by simp, rfl⟩⟩
    | some o =>
      obtain ⟨h1, h2⟩ := hx d o ⟨hd, hc⟩
      obtain ⟨_, out, _, es', _, h3⟩ := C76_executed schema env T w req d o ⟨hd, hc⟩ hl h1 ht h2
      exact ⟨_, _, _, h3, fun h => absurd ⟨hd, hc⟩ (h d o)⟩
  · obtain ⟨es, h1, -, h2⟩ := C76_not_in_grammar schema env w req hg
    exact ⟨_, es, w, Answers.of (h2 0 (fun _ => schema.rootQueryValue)) (by simp), fun _ => ⟨rfl, h1, rfl⟩⟩

/-- **C76** with **C14**: the answer is a JSON text, unless an error belongs to a field that leaves a hole. -/
theorem C76_every_response_partial (schema : RSchema F V) (env : Env F V W) (T : Obj F → V → Prop) (w w' : W) (req : Request)
    (ht : WellTyped schema env T) (hl : req.query.length < 2 ^ 28)
    (hx : ∀ d o, AsksFor req d o → docTracked d ∧ Fits schema (fragmentsOf (docCut d)) o.cut)
    (hfl : ∀ b f, JNumber (env.floatText b f)) (hp : Blame.PlainSchema schema) (fuel : Nat) (vals : UInt8 → V) (body : Bytes)
    (es : List ReqErr) (h : resolve fuel schema env vals w req = .ok (body, es) w') :
    JText body ∨ ∃ (d : List Def) (o : Operation) (e : Bytes × List Seg) (sel : Sel), AsksFor req d o ∧
      ReqErr.exec ⟨e.1, pathJSON e.2⟩ ∈ es ∧ Blame.Leads (fragmentsOf (docCut d)) o.cut.sels e.2 sel ∧
      Blame.Hole (showCtx schema env req (docCut d) o.cut) sel := by
  by_cases hg : ∃ d o, AsksFor req d o
  · obtain ⟨d, o, ha⟩ := hg
    obtain ⟨h1, h2⟩ := hx d o ha
    obtain ⟨t, -, hc⟩ := C74_has_counterpart d req.query (reqTarget req) ha.text
    rcases C14_well_formed_wide_partial schema env T w w' req d o fuel vals body es (ha.holds hl h1) ht h2 ⟨t, hc⟩ hfl hp h with h | ⟨e, sel, h⟩
    · exact Or.inl h
    · exact Or.inr ⟨d, o, e, sel, ha, h⟩
  · obtain ⟨b, es2, h1, -, h3⟩ := C14_not_executed schema env w req fuel vals (by
      rintro d o ⟨h1, h2⟩
      obtain ⟨s, g1, g2, g3, -, g5⟩ := h1
      obtain ⟨d', hd'⟩ := (C75_accepted_iff_grammar req.query (reqTarget req)).1 ⟨s, g1, g2⟩
      obtain ⟨s', k1, -, k3, -, k5⟩ := C02_document_compiles d' req.query (reqTarget req) hd'
      rw [g1] at k1
      cases k1
      have a := chosen_at d req.target
      have b := chosen_at d' req.target
      rw [h2] at a
      obtain ⟨p, post, a1, -⟩ := a
      cases hc : chosenOperation req.target d' with
      | some o' => exact hg ⟨d', o', hd', hc⟩
      | none =>
        rw [hc] at b
        unfold reqTarget at g5 k5
        rw [g5, a1] at k5
        simp only at b
        rw [b] at k5
        cases k5)
    rw [h] at h1
    injection h1 with h1 _
    injection h1 with h1 _
    exact Or.inl (by rw [h1]; exact h3)

end

/-! ## Examples -/

namespace Demo

/-- a text that is no query -/
example : ∃ es, es ≠ [] ∧ ∀ fuel vals, resolve fuel schema env vals [] (request b%"{a") = .ok (envelope false b%"{}" es, es) [] := by
  have h : ¬ ∃ d, Text d (request b%"{a").query :=
    (C75_rejected_iff_not_grammar b%"{a" none).1 (rejected_demo (by decide +kernel))
  obtain ⟨es, h1, -, h2⟩ := C76_not_in_grammar schema env [] (request b%"{a") h
  exact ⟨es, h1, h2⟩

/-- `{...a age} fragment a on User{friend{name}}` meets the hypotheses -/
theorem asksFrag : AsksFor (request b%"{...a age} fragment a on User{friend{name}}") docFrag opFrag := servesFrag.asksFor (by decide)

example : ∃ body es w', Answers schema env [] (request b%"{...a age} fragment a on User{friend{name}}") (.ok (body, es) w') := by
  obtain ⟨body, es, w', h, -⟩ := C76_every_request_partial schema env HasType [] (request b%"{...a age} fragment a on User{friend{name}}")
    wellTyped (by decide) (by
      intro d o h
      obtain ⟨rfl, rfl⟩ := asksFrag.unique h (by decide)
      refine ⟨servesFrag.regular.tracked, ?_⟩
      have hc := servesFrag.regular.cut
      rw [hc]
      have ho : opFrag.cut = opFrag := by
        have h : Def.op opFrag ∈ docFrag := List.mem_cons_self ..
        show ({ opFrag with sels := selsCut opFrag.sels } : Operation) = opFrag
        rw [(servesFrag.regular _ h).1.cut]
      rw [ho]
      exact fits (by decide +kernel))
  exact ⟨body, es, w', h⟩

end Demo
end Yarql
