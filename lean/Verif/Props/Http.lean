import Verif.Model.Http
import Verif.Props.Text

/-!
# C37 (batch requests) and C38 (request body validation)
-/

namespace Yarql
namespace Http

/-! ## Specification -/

/-- What a request body must look like: an object with a string `query`, an `operationName` that is absent, null or a
string, and `variables` that are absent, null or an object. -/
inductive BodyRequests {W} (env : Env W) : J → Req → Prop
  | mk {members q o v} :
      get members b%"query" = some (.str q) →
      ((get members b%"operationName" = none ∨ get members b%"operationName" = some .null) ∧ o = [] ∨
        get members b%"operationName" = some (.str o)) →
      ((get members b%"variables" = none ∨ get members b%"variables" = some .null) ∧ v = [] ∨
        ∃ m, get members b%"variables" = some (.obj m) ∧ v = env.render (.obj m)) →
      BodyRequests env (.obj members) ⟨q, v, o⟩

/-- A body text is a well-formed JSON error response carrying `msg`. -/
def IsErrorResponse (response : Bytes) (msg : Bytes) : Prop :=
  ∃ lit cs, response = b%"{\"data\":{},\"errors\":[{\"message\":" ++ lit ++ b%"}],\"extensions\":{}}" ∧
    Json.JString lit cs ∧ Utf8.Reads msg cs

theorem errRes_is_error (msg : Bytes) : IsErrorResponse (errRes msg).1 msg ∧ (errRes msg).2 = [msg] := by
  obtain ⟨lit, cs, h1, h2, h3, _⟩ := C13_json_string msg b%"{\"data\":{},\"errors\":[{\"message\":"
  exact ⟨⟨lit, cs, by simp only [errRes, h1], h3, h2⟩, rfl⟩

/-- `getBodyData` accepts exactly the bodies of the specification. -/
theorem getBodyData_iff {W} (env : Env W) (body : J) (req : Req) :
    getBodyData env body = .ok req ↔ BodyRequests env body req := by
  constructor
  · intro h
    unfold getBodyData at h
    split at h
    · rename_i members
      split at h
      · cases h
      · rename_i q hq
        split at h
        · cases h
        · rename_i o ho
          split at h
          · cases h
          · rename_i v hv
            cases h
            refine BodyRequests.mk hq ?_ ?_
            · unfold bodyOperationName at ho
              split at ho
              · rename_i hg; cases ho; exact Or.inl ⟨Or.inl hg, rfl⟩
              · rename_i hg; cases ho; exact Or.inl ⟨Or.inr hg, rfl⟩
              · rename_i s hg; cases ho; exact Or.inr hg
              · cases ho
            · unfold bodyVariables at hv
              split at hv
              · rename_i hg; cases hv; exact Or.inl ⟨Or.inl hg, rfl⟩
              · rename_i hg; cases hv; exact Or.inl ⟨Or.inr hg, rfl⟩
              · rename_i m hg; cases hv; exact Or.inr ⟨m, hg, rfl⟩
              · cases hv
      · cases h
    · cases h
  · rintro ⟨hq, ho, hv⟩
    unfold getBodyData bodyOperationName bodyVariables
    rcases ho with ⟨ho | ho, rfl⟩ | ho <;> rcases hv with ⟨hv | hv, rfl⟩ | ⟨m, hv, rfl⟩ <;>
      simp [hq, ho, hv]

/-- **C38** A JSON body (not a batch) is executed exactly when it has the right shape, with exactly the query,
operation name and variables it carries; otherwise the state is untouched (Resolve is not run) and the answer is a
well-formed error response for the single returned error. -/
theorem C38_body_validation {W} (env : Env W) (w : W) (body : Bytes) (v : J) (hne : body ≠ [])
    (hp : env.parse body = some v) (hna : ∀ items, v ≠ .arr items) :
    (∃ req, BodyRequests env v req ∧ handleBody env w body = env.resolve w req) ∨
    ((∀ req, ¬ BodyRequests env v req) ∧ ∃ msg response, handleBody env w body = (w, response, [msg]) ∧
      IsErrorResponse response msg) := by
  have hb : (body.length == 0) = false := by
    cases body with
    | nil => exact absurd rfl hne
    | cons => rfl
  unfold handleBody
  rw [hb, hp]
  simp only [Bool.false_eq_true, if_false]
  have hmatch : ∀ {α : Type} (a : List J → α) (b : J → α),
      (match some v with
        | none => b v
        | some (.arr items) => a items
        | some v => b v) = b v := by
    intro α a b
    cases v with
    | arr items => exact absurd rfl (hna items)
    | _ => rfl
  cases hg : getBodyData env v with
  | ok req =>
    left
    refine ⟨req, (getBodyData_iff env v req).mp hg, ?_⟩
    cases v with
    | arr items => exact absurd rfl (hna items)
    | _ => simp [hg]
  | error e =>
    right
    refine ⟨?_, e, (errRes e).1, ?_, (errRes_is_error e).1⟩
    · intro req h
      rw [(getBodyData_iff env v req).mpr h] at hg
      cases hg
    · cases v with
      | arr items => exact absurd rfl (hna items)
      | _ => simp [hg, errRes]

/-- Empty and unparsable bodies never reach Resolve. -/
theorem C38_invalid_body {W} (env : Env W) (w : W) (body : Bytes) (h : body = [] ∨ env.parse body = none) :
    ∃ msg response, handleBody env w body = (w, response, [msg]) ∧ IsErrorResponse response msg := by
  by_cases hb : body = []
  · subst hb
    exact ⟨_, _, rfl, (errRes_is_error _).1⟩
  · have hp := h.resolve_left hb
    have hb' : (body.length == 0) = false := by
      cases body with
      | nil => exact absurd rfl hb
      | cons => rfl
    refine ⟨b%"invalid json body", _, ?_, (errRes_is_error _).1⟩
    unfold handleBody
    rw [hb', hp]
    rfl

/-! ### Where the request is read from -/

/-- the method is GET, in any case -/
def IsGet (m : Bytes) : Prop :=
  m ∈ [b%"GET", b%"GEt", b%"GeT", b%"Get", b%"gET", b%"gEt", b%"geT", b%"get"]

/-- the request is read from the body: `application/json`, or not a GET and `text/plain` or `multipart/form-data` -/
def ReadsBody (r : Http) : Prop :=
  r.contentType = b%"application/json" ∨
    ((r.contentType = b%"text/plain" ∨ r.contentType = b%"multipart/form-data") ∧ ¬ IsGet r.method)

/-- the bytes that count as the body -/
def bodyOf (r : Http) : Option Bytes :=
  if r.contentType = b%"multipart/form-data" then (match r.formField with | .ok v => some v | .error _ => none) else some r.body

theorem toUpper_get (m : Bytes) : toUpper m = b%"GET" ↔ IsGet m := by
  have up : ∀ (c u l : Byte), u.toNat + 32 = l.toNat → 65 ≤ u.toNat → u.toNat ≤ 90 →
      ((if c%'a' ≤ c && c ≤ c%'z' then c - 32 else c) = u ↔ c = u ∨ c = l) := by
    intro c u l hl h1 h2
    by_cases hc : (c%'a' ≤ c && c ≤ c%'z') = true
    · rw [if_pos hc]
      rw [Bool.and_eq_true, decide_eq_true_iff, decide_eq_true_iff, UInt8.le_iff_toNat_le, UInt8.le_iff_toNat_le] at hc
      have e1 : (c%'a').toNat = 97 := rfl
      have e2 : (c%'z').toNat = 122 := rfl
      rw [e1, e2] at hc
      have e3 : (c - 32).toNat = c.toNat - 32 := by
        rw [UInt8.toNat_sub_of_le]
        · rfl
        · rw [UInt8.le_iff_toNat_le]; show 32 ≤ _; omega
      constructor
      · intro h
        right
        rw [← UInt8.toNat_inj] at h ⊢
        omega
      · rintro (h | h)
        · rw [← UInt8.toNat_inj] at h; omega
        · rw [← UInt8.toNat_inj] at h ⊢; omega
    · rw [if_neg hc]
      constructor
      · exact .inl
      · rintro (h | h)
        · exact h
        · exfalso
          apply hc
          rw [Bool.and_eq_true, decide_eq_true_iff, decide_eq_true_iff, UInt8.le_iff_toNat_le, UInt8.le_iff_toNat_le, h]
          have e1 : (c%'a').toNat = 97 := rfl
          have e2 : (c%'z').toNat = 122 := rfl
          omega
  unfold IsGet toUpper
  match m with
  | [] => simp
  | [a] => simp
  | [a, b] => simp
  | [a, b, c] =>
    simp only [List.map_cons, List.map_nil, List.cons.injEq, and_true]
    rw [up a c%'G' c%'g' (by decide) (by decide) (by decide), up b c%'E' c%'e' (by decide) (by decide) (by decide),
      up c c%'T' c%'t' (by decide) (by decide) (by decide)]
    constructor
    · rintro ⟨rfl | rfl, rfl | rfl, rfl | rfl⟩ <;> decide
    · intro h
      simp only [List.mem_cons, List.cons.injEq, and_true, List.not_mem_nil, or_false] at h
      rcases h with ⟨rfl, rfl, rfl⟩ | ⟨rfl, rfl, rfl⟩ | ⟨rfl, rfl, rfl⟩ | ⟨rfl, rfl, rfl⟩ | ⟨rfl, rfl, rfl⟩ | ⟨rfl, rfl, rfl⟩ |
        ⟨rfl, rfl, rfl⟩ | ⟨rfl, rfl, rfl⟩ <;> simp
  | a :: b :: c :: d :: r => simp

/-- **C38** (source). The request is read from the body or from the URL as the content type and the method say, with the parameters
`query`, `variables` and `operationName` in their places; an unreadable form field is an error. -/
theorem C38_source {W} (env : Env W) (w : W) (r : Http) :
    (ReadsBody r → ∀ b, bodyOf r = some b → handleRequest env w r = handleBody env w b) ∧
    (ReadsBody r → bodyOf r = none → ∃ msg, handleRequest env w r = (w, errRes msg)) ∧
    (¬ ReadsBody r → handleRequest env w r =
      env.resolve w { query := r.urlQuery b%"query", variables := r.urlQuery b%"variables", operationName := r.urlQuery b%"operationName" }) := by
  have hc : (r.contentType == b%"application/json" ||
      ((r.contentType == b%"text/plain" || r.contentType == b%"multipart/form-data") && toUpper r.method != b%"GET")) = true ↔ ReadsBody r := by
    unfold ReadsBody
    rw [← toUpper_get]
    simp [bne]
  unfold handleRequest bodyOf
  dsimp only
  refine ⟨?_, ?_, ?_⟩
  · intro hb b h
    rw [if_pos (hc.2 hb)]
    by_cases hm : r.contentType = b%"multipart/form-data"
    · rw [if_pos hm] at h
      rw [if_pos (by simpa using hm)]
      cases hf : r.formField with
      | error e => rw [hf] at h; cases h
      | ok v =>
        rw [hf] at h
        injection h with h
        rw [h]
    · rw [if_neg hm] at h
      rw [if_neg (by simpa using hm)]
      injection h with h
      rw [h]
  · intro hb h
    rw [if_pos (hc.2 hb)]
    by_cases hm : r.contentType = b%"multipart/form-data"
    · rw [if_pos hm] at h
      rw [if_pos (by simpa using hm)]
      cases hf : r.formField with
      | error e => exact ⟨e, rfl⟩
      | ok v => rw [hf] at h; cases h
    · rw [if_neg hm] at h
      cases h
  · intro hb
    rw [if_neg (fun h => hb (hc.1 h))]

/-- a `get` with a text body is answered from the URL, a `post` from its body -/
example : ¬ ReadsBody ⟨b%"get", b%"text/plain", fun _ => [], .ok [], b%"{}"⟩ ∧ ReadsBody ⟨b%"post", b%"text/plain", fun _ => [], .ok [], b%"{}"⟩ := by
  refine ⟨?_, .inr ⟨.inl rfl, ?_⟩⟩
  · rintro (h | h)
    · exact absurd h (by decide)
    · exact h.2 (by unfold IsGet; decide)
  · unfold IsGet; decide

/-- The specification distinguishes null, absent and wrongly typed members. -/
example (env : Env Unit) :
    BodyRequests env (.obj [(b%"operationName", .null), (b%"query", .str b%"{a}")]) ⟨b%"{a}", [], []⟩ ∧
    ¬ ∃ r, BodyRequests env (.obj [(b%"query", .str b%"{a}"), (b%"variables", .arr [])]) r := by
  constructor
  · exact BodyRequests.mk (by rfl) (Or.inl ⟨Or.inr rfl, rfl⟩) (Or.inl ⟨Or.inl rfl, rfl⟩)
  · rintro ⟨r, h⟩
    have := (getBodyData_iff env _ r).mpr h
    simp [getBodyData, get, bodyOperationName, bodyVariables] at this

/-! ## C37 -/

/-- What one element of a batch answers, alone: an error object, or the response of that request. -/
def single {W} (env : Env W) (w : W) (item : J) : W × Bytes × List Bytes :=
  match getBodyData env item with
  | .error e => (w, (errRes e).1, [e])
  | .ok req => env.resolve w req

/-- The elements answered one after the other: final state and the list of (response, errors). -/
def sequential {W} (env : Env W) : W → List J → W × List (Bytes × List Bytes)
  | w, [] => (w, [])
  | w, item :: items =>
    let r := single env w item
    let rest := sequential env r.1 items
    (rest.1, r.2 :: rest.2)

/-- `a,b,c` -/
def commaSep : List Bytes → Bytes
  | [] => []
  | [x] => x
  | x :: y :: r => x ++ c%',' :: commaSep (y :: r)

theorem commaSep_cons (x : Bytes) (xs : List Bytes) :
    commaSep (x :: xs) = x ++ (xs.map (fun y => c%',' :: y)).flatten := by
  induction xs generalizing x with
  | nil => simp [commaSep]
  | cons y ys ih => simp [commaSep, ih]

theorem batchLoop_eq {W} (env : Env W) (items : List J) : ∀ (w : W) (buf : Bytes) (errs : List Bytes),
    1 < buf.length →
    batchLoop env w buf errs items =
      ((sequential env w items).1,
        buf ++ (((sequential env w items).2.map (·.1)).map (fun y => c%',' :: y)).flatten,
        errs ++ ((sequential env w items).2.map (·.2)).flatten) := by
  induction items with
  | nil => intro w buf errs _; simp [batchLoop, sequential]
  | cons item items ih =>
    intro w buf errs hb
    cases he : getBodyData env item with
    | error e =>
      simp only [batchLoop, sequential, single, he, hb, gt_iff_lt, if_true]
      rw [ih _ _ _ (by simp; omega)]
      simp
    | ok req =>
      simp only [batchLoop, sequential, single, he, hb, gt_iff_lt, if_true]
      rw [ih _ _ _ (by simp; omega)]
      simp

theorem errRes_ne (e : Bytes) : (errRes e).1 ≠ [] := by
  obtain ⟨lit, cs, h, _⟩ := (errRes_is_error e).1
  rw [h]
  simp

theorem sequential_length {W} (env : Env W) (items : List J) (w : W) :
    (sequential env w items).2.length = items.length := by
  induction items generalizing w with
  | nil => rfl
  | cons item items ih => simp only [sequential, List.length_cons, ih]

/-- **C37** A batch body answers a JSON array holding, in order and separated by commas, exactly what its elements
answer when handled alone one after the other (an invalid element answering an error object and leaving the
state alone), and the returned errors are the concatenation of the elements' errors.  `hres`: Resolve's result is
never empty (it always writes at least `{}`). -/
theorem C37_batch {W} (env : Env W) (w : W) (body : Bytes) (items : List J)
    (hp : env.parse body = some (.arr items)) (hne : body ≠ [])
    (hres : ∀ w req, (env.resolve w req).2.1 ≠ []) :
    handleBody env w body =
      ((sequential env w items).1,
        c%'[' :: commaSep ((sequential env w items).2.map (·.1)) ++ [c%']'],
        ((sequential env w items).2.map (·.2)).flatten) ∧
    (sequential env w items).2.length = items.length := by
  have hb : (body.length == 0) = false := by
    cases body with
    | nil => exact absurd rfl hne
    | cons => rfl
  constructor
  · unfold handleBody
    rw [hb, hp]
    simp only [Bool.false_eq_true, if_false]
    cases items with
    | nil => simp [batchLoop, sequential, commaSep]
    | cons item items =>
      have h1 : ¬ (1 < ([91] : Bytes).length) := by decide
      have h2 : ∀ x : Bytes, x ≠ [] → 1 < (([91] : Bytes) ++ x).length := by
        intro x hx
        cases x with
        | nil => exact absurd rfl hx
        | cons => simp
      cases he : getBodyData env item with
      | error e =>
        simp only [batchLoop, sequential, single, he, gt_iff_lt, h1, if_false]
        rw [batchLoop_eq env _ _ _ _ (h2 _ (errRes_ne e))]
        simp [commaSep_cons]
      | ok req =>
        simp only [batchLoop, sequential, single, he, gt_iff_lt, h1, if_false]
        rw [batchLoop_eq env _ _ _ _ (h2 _ (hres w req))]
        simp [commaSep_cons]
  · exact sequential_length env items w

/-- What `single` answers is what the handler answers to a body holding only that element (an element that is itself
an array is malformed: it answers an error and Resolve is not run). -/
theorem C37_element_alone {W} (env : Env W) (w : W) (body : Bytes) (item : J) (hne : body ≠ [])
    (hp : env.parse body = some item) :
    ((∀ xs, item ≠ .arr xs) → single env w item = handleBody env w body) ∧
    ((∀ req, ¬ BodyRequests env item req) → ∃ msg response, single env w item = (w, response, [msg]) ∧
      IsErrorResponse response msg) := by
  have hb : (body.length == 0) = false := by
    cases body with
    | nil => exact absurd rfl hne
    | cons => rfl
  constructor
  · intro hna
    unfold handleBody single
    rw [hb, hp]
    cases item with
    | arr items => exact absurd rfl (hna items)
    | _ => first | rfl | (simp only [Bool.false_eq_true, if_false]; split <;> simp_all [errRes])
  · intro hno
    unfold single
    cases hg : getBodyData env item with
    | ok req => exact absurd ((getBodyData_iff env item req).mp hg) (hno req)
    | error e => exact ⟨e, _, rfl, (errRes_is_error e).1⟩

/-- A batch with an invalid element in the middle, over a state that counts the calls of Resolve. -/
example :
    let env : Env Nat := ⟨fun _ => some (.arr [.obj [(b%"query", .str b%"a")], .null,
      .obj [(b%"query", .str b%"b")]]), fun _ => [], fun n r => (n + 1, r.query ++ b%"!", [])⟩
    handleBody env 0 b%"x" = (2, b%"[a!," ++ (errRes b%"body should be a object").1 ++ b%",b!]",
      [b%"body should be a object"]) := by
  decide +kernel

end Http
end Yarql
