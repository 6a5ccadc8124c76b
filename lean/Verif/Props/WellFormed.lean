import Verif.Props.ErrorPaths
import Verif.Proofs.Holes
import Verif.Props.Text
import Verif.Spec.ErrorList

/-!
# Response bodies: C14 (well-formed JSON), C15 (all errors reach the response)
-/

namespace Yarql
open Doc Resolver Eval Typed Yarql.Bind Json

/-! ## C15 -/

theorem message_literal (msg : Bytes) : Literal msg (JsonString.stringToJSON msg []) := by
  obtain ⟨lit, cs, h1, h2, h3, -⟩ := C13_json_string msg []
  rw [h1]
  exact ⟨cs, h2, by simpa using h3⟩

theorem errorJSON_entry (e : ReqErr) : ErrorEntry e (errorJSON e) := by
  match e with
  | .located msg line column => exact .located (message_literal msg)
  | .exec ⟨msg, none⟩ => exact .plain (message_literal msg)
  | .exec ⟨msg, some []⟩ => exact .emptyPath (message_literal msg)
  | .exec ⟨msg, some (p :: ps)⟩ => exact .path (message_literal msg) (by simp)

theorem errorsJSON_entries (es : List ReqErr) (h : es ≠ []) : ErrorEntries es (errorsJSON es) := by
  match es with
  | [] => exact absurd rfl h
  | [e] => exact .one (errorJSON_entry e)
  | e :: e' :: es =>
    have := ErrorEntries.cons (errorJSON_entry e) (errorsJSON_entries (e' :: es) (by simp))
    simpa [errorsJSON] using this

section
variable {F V W : Type} [DecidableEq F]

/-- **C15.** Whatever the query and however it fails: when `Resolve` returns the errors `es`, the body (with metadata) is the data,
followed, if there are errors, by an `errors` array with one entry for each of them, in order, with its message. -/
theorem C15_errors_reach_response (schema : RSchema F V) (env : Env F V W) (w w' : W) (req : Request) (fuel : Nat) (vals : UInt8 → V)
    (body : Bytes) (es : List ReqErr) (hm : req.noMeta = false) (h : resolve fuel schema env vals w req = .ok (body, es) w') :
    ∃ data, (es = [] → body = b%"{\"data\":" ++ data ++ b%"}") ∧
      (es ≠ [] → ∃ errors, ErrorEntries es errors ∧
        body = b%"{\"data\":" ++ data ++ b%",\"errors\":[" ++ errors ++ b%"],\"extensions\":{}}") := by
  have key : ∀ data, body = envelope req.noMeta data es → ∃ data, (es = [] → body = b%"{\"data\":" ++ data ++ b%"}") ∧
      (es ≠ [] → ∃ errors, ErrorEntries es errors ∧
        body = b%"{\"data\":" ++ data ++ b%",\"errors\":[" ++ errors ++ b%"],\"extensions\":{}}") := by
    intro data hb
    refine ⟨data, ?_, ?_⟩
    · intro he
      rw [hb, hm, he]
      rfl
    · intro he
      refine ⟨errorsJSON es, errorsJSON_entries es he, ?_⟩
      rw [hb, hm]
      unfold envelope
      cases es with
      | nil => exact absurd rfl he
      | cons e es => simp
  unfold resolve at h
  split at h
  · cases h
  · cases h
  · rename_i p hp
    split at h
    · split at h
      · injection h with h _
        injection h with h1 h2
        exact key _ (by rw [← h2]; exact h1.symm)
      · dsimp only at h
        split at h
        · injection h with h _
          injection h with h1 h2
          exact key _ (by rw [← h2]; exact h1.symm)
        · cases h
        · cases h
    · injection h with h _
      injection h with h1 h2
      exact key _ (by rw [← h2]; exact h1.symm)

end

/-! ## C14 -/

/-- the path part of an entry is a list of JSON values -/
def PathOK : ReqErr → Prop
  | .exec ⟨_, some (p :: ps)⟩ => JElems (p :: ps)
  | _ => True

theorem literal_text {msg lit : Bytes} (h : Literal msg lit) : ∃ cs, JString lit cs := by
  obtain ⟨cs, -, h⟩ := h
  exact ⟨cs, h⟩

theorem key_string (k : Bytes) (h : Plain k) : ∃ cs, JString ([c%'"'] ++ k ++ [c%'"']) cs := ⟨_, plain_string h⟩

theorem key_message : JString b%"\"message\"" (b%"message".map (·.toNat)) := plain_string (t := b%"message") (by unfold Plain; decide)
theorem key_path : JString b%"\"path\"" (b%"path".map (·.toNat)) := plain_string (t := b%"path") (by unfold Plain; decide)
theorem key_locations : JString b%"\"locations\"" (b%"locations".map (·.toNat)) := plain_string (t := b%"locations") (by unfold Plain; decide)
theorem key_line : JString b%"\"line\"" (b%"line".map (·.toNat)) := plain_string (t := b%"line") (by unfold Plain; decide)
theorem key_column : JString b%"\"column\"" (b%"column".map (·.toNat)) := plain_string (t := b%"column") (by unfold Plain; decide)
theorem key_data : JString b%"\"data\"" (b%"data".map (·.toNat)) := plain_string (t := b%"data") (by unfold Plain; decide)
theorem key_errors : JString b%"\"errors\"" (b%"errors".map (·.toNat)) := plain_string (t := b%"errors") (by unfold Plain; decide)
theorem key_extensions : JString b%"\"extensions\"" (b%"extensions".map (·.toNat)) := plain_string (t := b%"extensions") (by unfold Plain; decide)

theorem entry_json {e : ReqErr} {t : Bytes} (h : ErrorEntry e t) (hp : PathOK e) : JText t := by
  cases h with
  | plain hl =>
    obtain ⟨cs, hl⟩ := literal_text hl
    have := JText.object (.one key_message (.string hl))
    simpa using this
  | emptyPath hl =>
    obtain ⟨cs, hl⟩ := literal_text hl
    have := JText.object (.one key_message (.string hl))
    simpa using this
  | @path msg lit path hl hne =>
    obtain ⟨cs, hl⟩ := literal_text hl
    obtain ⟨p, ps, rfl⟩ := List.exists_cons_of_ne_nil hne
    have := JText.object (.cons key_message (.string hl) (.one key_path (.array (t := p :: ps) hp)))
    simpa using this
  | @located msg lit line column hl =>
    obtain ⟨cs, hl⟩ := literal_text hl
    have := JText.object (.cons key_message (.string hl) (.one key_locations (.array (.one
      (.object (.cons key_line (.number (nat_number line)) (.one key_column (.number (nat_number column)))))))))
    simpa using this

theorem entries_json {es : List ReqErr} {t : Bytes} (h : ErrorEntries es t) (hp : ∀ e ∈ es, PathOK e) : JElems t := by
  induction h with
  | one h => exact .one (entry_json h (hp _ (by simp)))
  | cons h _ ih => exact .cons (entry_json h (hp _ (by simp))) (ih (fun e he => hp e (by simp [he])))

theorem envelope_json (noMeta : Bool) {data : Bytes} (hd : JText data) (es : List ReqErr) (hp : ∀ e ∈ es, PathOK e) :
    JText (envelope noMeta data es) := by
  unfold envelope
  cases noMeta with
  | true => exact hd
  | false =>
    rw [if_neg (by simp)]
    cases es with
    | nil =>
      have := JText.object (.one key_data hd)
      simpa using this
    | cons e es =>
      rw [if_neg (by simp)]
      have := JText.object (.cons key_data hd (.cons key_errors (.array (entries_json (errorsJSON_entries (e :: es) (by simp)) hp))
        (.one key_extensions .emptyObject)))
      simpa using this

/-! ### the keys of error paths are names of the query -/

def SegPlain : Seg → Prop
  | .key k => Plain k
  | .idx _ => True

theorem mem_selsWF {sels : List Sel} {s : Sel} (h : selsWF sels) (hs : s ∈ sels) : s.WF := by
  induction sels with
  | nil => cases hs
  | cons a as ih =>
    rcases List.mem_cons.1 hs with rfl | hs
    · exact h.1
    · exact ih h.2 hs

theorem leads_plain {frags : List Fragment} (hfr : ∀ f ∈ frags, selsWF f.sels) {sels : List Sel} {p : List Seg} {s : Sel}
    (h : Blame.Leads frags sels p s) : selsWF sels → ∀ x ∈ p, SegPlain x := by
  induction h with
  | field hm =>
    intro hw x hx
    have := mem_selsWF hw hm
    simp only [Sel.WF] at this
    rcases List.mem_cons.1 hx with rfl | hx
    · exact name_plain this.1
    · obtain ⟨i, -, rfl⟩ := List.mem_map.1 hx
      trivial
  | spread hm => intro hw x hx; cases hx
  | inline hm => intro hw x hx; cases hx
  | underField hm _ ih =>
    intro hw x hx
    have := mem_selsWF hw hm
    simp only [Sel.WF] at this
    rcases List.mem_cons.1 hx with rfl | hx
    · exact name_plain this.1
    · rcases List.mem_append.1 hx with hx | hx
      · obtain ⟨i, -, rfl⟩ := List.mem_map.1 hx
        trivial
      · exact ih this.2.2.2.2 x hx
  | underSpread hm hf _ _ ih => intro hw; exact ih (hfr _ hf)
  | underInline hm _ ih =>
    intro hw
    have := mem_selsWF hw hm
    simp only [Sel.WF] at this
    exact ih this.2.2

theorem seg_json {s : Seg} (h : SegPlain s) : JText (segText s) := by
  cases s with
  | key k => exact .string (plain_string h)
  | idx i => exact .number (nat_number i)

theorem path_elems (s : Seg) (ss : List Seg) (h : ∀ x ∈ s :: ss, SegPlain x) : JElems (segText s ++ pathText ss) := by
  induction ss generalizing s with
  | nil => simpa [pathText] using JElems.one (seg_json (h s (by simp)))
  | cons a as ih =>
    have := JElems.cons (seg_json (h s (by simp))) (ih a (fun x hx => h x (by simp at hx ⊢; exact Or.inr hx)))
    simpa [pathText] using this

theorem path_ok (msg : Bytes) (p : List Seg) (h : ∀ x ∈ p, SegPlain x) : PathOK (.exec ⟨msg, pathJSON p⟩) := by
  cases p with
  | nil => trivial
  | cons s ss =>
    have := path_elems s ss h
    show PathOK (.exec ⟨msg, some (segText s ++ pathText ss)⟩)
    generalize segText s ++ pathText ss = t at this ⊢
    cases t with
    | nil => trivial
    | cons a as => exact this

section
variable {F V W : Type} [DecidableEq F]

/-- **C14** (requests that are executed): the body is a JSON text, or one of the errors it reports is about a selection for which no
value is written (`Blame.Hole`): `__typename` with a selection, or a function field whose arguments cannot be bound. -/
theorem C14_well_formed_partial (schema : RSchema F V) (env : Env F V W) (T : Obj F → V → Prop) (w w' : W) (req : Request)
    (d : List Def) (o : Operation) (fuel : Nat) (vals : UInt8 → V) (body : Bytes) (es : List ReqErr)
    (hs : Serves req d o) (ht : WellTyped schema env T) (hf : Fits schema (fragmentsOf d) o)
    (hfl : ∀ b f, JNumber (env.floatText b f)) (hp : Blame.PlainSchema schema)
    (h : resolve fuel schema env vals w req = .ok (body, es) w') :
    JText body ∨ ∃ (e : Bytes × List Seg) (sel : Sel), ReqErr.exec ⟨e.1, pathJSON e.2⟩ ∈ es ∧
      Blame.Leads (fragmentsOf d) o.sels e.2 sel ∧ Blame.Hole (showCtx schema env req d o) sel := by
  obtain ⟨F0, h0⟩ := evalOperation_total (r := reqOf schema env req d o) ht o hf
  obtain ⟨⟨out, crit⟩, es', h1, -⟩ := h0 F0 (Nat.le_refl _) ⟨[], w, false⟩
  have hr := resolve_eval F0 schema env (fun _ => schema.rootQueryValue) w req d o out crit es' hs.parsed hs.wf hs.regular hs.len hs.chosen h1
  have e := C41_deterministic (Answers.of hr (by simp)) (Answers.of h (by simp))
  injection e with e1 e2
  injection e1 with e3 e4
  obtain ⟨new', l1, l2⟩ := evalOperation_blamed (reqOf schema env req d o) F0 o ⟨[], w, false⟩ _ es' h1
  have hop : Def.op o ∈ d := by
    have := chosen_at d req.target
    rw [hs.chosen] at this
    obtain ⟨_, _, _, _, h⟩ := this
    exact h
  have howf : o.WF := hs.wf _ hop
  have hfr : ∀ f ∈ fragmentsOf d, selsWF f.sels := fun f hf => (hs.wf _ (mem_fragmentsOf.1 hf)).2.2
  obtain ⟨new, k1, k2⟩ := evalOperation_fills (reqOf schema env req d o) hfl hp hfr F0 o howf.2.2.2 ⟨[], w, false⟩ _ es' h1
  rw [List.nil_append] at k1 l1
  rcases k2 with k2 | ⟨e, he, sel, hl, hh⟩
  · left
    rw [← e3]
    refine envelope_json _ (print_json k2) _ ?_
    intro e he
    obtain ⟨x, hx, rfl⟩ := List.mem_map.1 he
    refine path_ok _ _ ?_
    have hb := l2 x (l1 ▸ hx)
    cases hb with
    | selection hl _ => exact leads_plain hfr hl howf.2.2.2
    | subscription _ => intro x hx; cases hx
    | directives _ => intro x hx; cases hx
  · right
    refine ⟨e, sel, ?_, hl, hh⟩
    rw [← e4]
    exact List.mem_map.2 ⟨e, k1 ▸ he, rfl⟩

/-- the paths of the errors of an executed request are lists of JSON values -/
theorem answer_paths (schema : RSchema F V) (env : Env F V W) (T : Obj F → V → Prop) (w w' : W) (req : Request)
    (d : List Def) (o : Operation) (fuel : Nat) (vals : UInt8 → V) (body : Bytes) (es : List ReqErr)
    (hs : Serves req d o) (ht : WellTyped schema env T) (hf : Fits schema (fragmentsOf d) o)
    (h : resolve fuel schema env vals w req = .ok (body, es) w') : ∀ e ∈ es, PathOK e := by
  obtain ⟨F0, h0⟩ := evalOperation_total (r := reqOf schema env req d o) ht o hf
  obtain ⟨⟨out, crit⟩, es', h1, -⟩ := h0 F0 (Nat.le_refl _) ⟨[], w, false⟩
  have hr := resolve_eval F0 schema env (fun _ => schema.rootQueryValue) w req d o out crit es' hs.parsed hs.wf hs.regular hs.len hs.chosen h1
  have e := C41_deterministic (Answers.of hr (by simp)) (Answers.of h (by simp))
  injection e with e1 e2
  injection e1 with e3 e4
  obtain ⟨new', l1, l2⟩ := evalOperation_blamed (reqOf schema env req d o) F0 o ⟨[], w, false⟩ _ es' h1
  have hop : Def.op o ∈ d := by
    have := chosen_at d req.target
    rw [hs.chosen] at this
    obtain ⟨_, _, _, _, h⟩ := this
    exact h
  have howf : o.WF := hs.wf _ hop
  have hfr : ∀ f ∈ fragmentsOf d, selsWF f.sels := fun f hf => (hs.wf _ (mem_fragmentsOf.1 hf)).2.2
  rw [List.nil_append] at l1
  rw [← e4]
  intro e he
  obtain ⟨x, hx, rfl⟩ := List.mem_map.1 he
  refine path_ok _ _ ?_
  have hb := l2 x (l1 ▸ hx)
  cases hb with
  | selection hl _ => exact leads_plain hfr hl howf.2.2.2
  | subscription _ => intro x hx; cases hx
  | directives _ => intro x hx; cases hx

/-- **C14** (no errors): the body of a response without errors is a JSON text. -/
theorem C14_without_errors_partial (schema : RSchema F V) (env : Env F V W) (T : Obj F → V → Prop) (w w' : W) (req : Request)
    (d : List Def) (o : Operation) (fuel : Nat) (vals : UInt8 → V) (body : Bytes)
    (hs : Serves req d o) (ht : WellTyped schema env T) (hf : Fits schema (fragmentsOf d) o)
    (hfl : ∀ b f, JNumber (env.floatText b f)) (hp : Blame.PlainSchema schema)
    (h : resolve fuel schema env vals w req = .ok (body, []) w') : JText body := by
  rcases C14_well_formed_partial schema env T w w' req d o fuel vals body [] hs ht hf hfl hp h with h | ⟨e, sel, h, -⟩
  · exact h
  · cases h

/-- **C14** (requests that are not executed): a query that does not parse, or has no operation to execute, is answered with a JSON text. -/
theorem C14_not_executed (schema : RSchema F V) (env : Env F V W) (w : W) (req : Request) (fuel : Nat) (vals : UInt8 → V)
    (h : ∀ d o, ¬ (Parsed req.query (reqTarget req) d ∧ chosenOperation req.target d = some o)) :
    ∃ body es, resolve fuel schema env vals w req = .ok (body, es) w ∧ es ≠ [] ∧ JText body := by
  obtain ⟨s, h1, h2⟩ := C01_parse_total req.query (reqTarget req)
  by_cases he : s.errs = []
  · obtain ⟨d, d1, d2, d3, d4⟩ := C06_accepted_is_encoding req.query (reqTarget req) s h1 he
    have hp : Parsed req.query (reqTarget req) d := ⟨s, h1, he, d2, d3, d4⟩
    cases hc : chosenOperation req.target d with
    | some o => exact absurd ⟨hp, hc⟩ (h d o)
    | none =>
      obtain ⟨msg, -, hr⟩ := C04_no_operation fuel schema env vals w req d hp hc
      exact ⟨_, _, hr, by simp, envelope_json _ .emptyObject _ (by intro e he; cases List.mem_singleton.1 he; trivial)⟩
  · refine ⟨envelope req.noMeta b%"{}" (s.errs.map (fun e => ReqErr.located e.msg e.line e.col)),
      s.errs.map (fun e => ReqErr.located e.msg e.line e.col), ?_, by simpa using he, envelope_json _ .emptyObject _ ?_⟩
    · unfold reqTarget at h1
      unfold resolve
      rw [h1]
      dsimp only
      rw [if_neg (by simpa using he)]
    · intro e he
      obtain ⟨x, -, rfl⟩ := List.mem_map.1 he
      trivial

end

namespace Demo

theorem plainSchema : Blame.PlainSchema schema := by
  refine ⟨?_, ?_⟩
  · rintro t (rfl | rfl | ⟨n, h⟩)
    · unfold Blame.PlainName; decide
    · unfold Blame.PlainName; decide
    · rcases lookup_types h with ⟨-, rfl⟩ | ⟨-, rfl⟩ <;> unfold Blame.PlainName <;> decide
  · intro e he; cases he

theorem floatText_number (b : Bool) (f : Unit) : JNumber (env.floatText b f) :=
  ⟨[], b%"0", [], [], rfl, Or.inl rfl, ⟨⟨by simp, by unfold IsDigit; decide⟩, fun _ => rfl⟩, Or.inl rfl, Or.inl rfl⟩

/-- the hypotheses of C14 hold for a request with an error below an alias: the answer is JSON or the error is about a hole -/
example {body es w'} (h : resolve 300 schema env noStack [] (request b%"{x:friend{y:zz}both}") = .ok (body, es) w') :
    JText body ∨ ∃ (e : Bytes × List Seg) (sel : Sel), ReqErr.exec ⟨e.1, pathJSON e.2⟩ ∈ es ∧
      Blame.Leads [] opDeep.sels e.2 sel ∧ Blame.Hole (showCtx schema env (request b%"{x:friend{y:zz}both}") [.op opDeep] opDeep) sel :=
  C14_well_formed_partial schema env HasType [] w' _ _ opDeep 300 noStack body es servesDeep wellTyped (fits (by decide +kernel))
    floatText_number plainSchema h

/-- ... and for one without errors -/
example : ∃ body w', resolve 300 schema env noStack [] (request b%"{friend{name}name}") = .ok (body, []) w' ∧ JText body := by
  have h := askBack
  unfold ask at h
  split at h
  · rename_i b es w' heq
    cases es with
    | nil => exact ⟨b, w', heq, C14_without_errors_partial schema env HasType [] w' _ _ opBack 300 noStack b servesBack wellTyped
        (fits (by decide +kernel)) floatText_number plainSchema heq⟩
    | cons e es => simp at h
  · cases h

/-- a query that does not parse -/
example : ∃ body es, resolve 300 schema env noStack [] (request b%"{") = .ok (body, es) [] ∧ es ≠ [] ∧ JText body := by
  refine C14_not_executed schema env [] _ 300 noStack ?_
  rintro d o ⟨⟨s, h1, h2, -⟩, -⟩
  have e : (match Parser.parseQuery b%"{" none with | .ok () s => s.errs.isEmpty | _ => true) = false := by decide +kernel
  have h1 : Parser.parseQuery b%"{" none = .ok () s := h1
  rw [h1] at e
  dsimp only at e
  rw [h2] at e
  cases e

/-- the body of the answer -/
def askBody (fuel : Nat) (req : Request) : Option Bytes :=
  match resolve fuel schema env noStack [] req with
  | .ok (b, _) _ => some b
  | _ => none

theorem body_of {fuel : Nat} {req : Request} {b : Bytes} (h : askBody fuel req = some b) :
    ∃ es w', resolve fuel schema env noStack [] req = .ok (b, es) w' := by
  unfold askBody at h
  split at h
  · rename_i b' es w' heq
    cases h
    exact ⟨es, w', heq⟩
  · cases h

def opHole : Operation := query [.field b%"__typename" none [] none [f b%"name"]]
theorem servesHole : Serves (request b%"{__typename{name}}") [.op opHole] opHole := Check.serves (by decide +kernel) rfl

/-- **C14 is false** of the program: `{__typename{name}}` is answered with the key and no value ... -/
theorem C14_refuted_typename : ∃ body es w', resolve 300 schema env noStack [] (request b%"{__typename{name}}") = .ok (body, es) w' ∧
    ¬ JText body := by
  have h : askBody 300 (request b%"{__typename{name}}") =
    some b%"{\"data\":{\"__typename\":},\"errors\":[{\"message\":\"cannot have a selection set on this field\",\"path\":[\"__typename\"]}],\"extensions\":{}}" := by
    decide +kernel
  obtain ⟨es, w', h⟩ := body_of h
  exact ⟨_, es, w', h, not_json (by decide +kernel)⟩

/-- ... and so is a function field with a wrong argument. -/
theorem C14_refuted_arguments : ∃ body es w', resolve 300 schema env noStack [] (request b%"{add(y:1)}") = .ok (body, es) w' ∧
    ¬ JText body := by
  have h : askBody 300 (request b%"{add(y:1)}") =
    some b%"{\"data\":{\"add\":},\"errors\":[{\"message\":\"undefined input: y\",\"path\":[\"add\"]}],\"extensions\":{}}" := by
    decide +kernel
  obtain ⟨es, w', h⟩ := body_of h
  exact ⟨_, es, w', h, not_json (by decide +kernel)⟩

/-- C15 on a request with two errors -/
example : ∃ body es w', resolve 300 schema env noStack [] (request b%"{scores both x:both}") = .ok (body, es) w' ∧ es.length = 2 ∧
    ∃ data errors, ErrorEntries es errors ∧ body = b%"{\"data\":" ++ data ++ b%",\"errors\":[" ++ errors ++ b%"],\"extensions\":{}}" := by
  have h : (match resolve 300 schema env noStack [] (request b%"{scores both x:both}") with
    | .ok (_, es) _ => es.length | _ => 0) = 2 := by decide +kernel
  split at h
  · rename_i body es w' heq
    refine ⟨body, es, w', heq, h, ?_⟩
    obtain ⟨data, -, h2⟩ := C15_errors_reach_response schema env [] w' _ 300 noStack body es rfl heq
    obtain ⟨errors, h3⟩ := h2 (by intro e; rw [e] at h; cases h)
    exact ⟨data, errors, h3⟩
  · cases h

end Demo
end Yarql
