import Verif.Model.JsonString

/-!
# Model of `HandleRequest` (`/repo/implement_helpers.go`)

`fastjson` values are the type `J` (object members in textual order); parsing and re-serialising JSON are
parameters.  `Resolve` is a parameter acting on an arbitrary state `W` (schema, caches, user data).
-/

namespace Yarql
namespace Http

/-- `fastjson.Value`. Strings are byte lists. -/
inductive J where
  | null
  | bool (b : Bool)
  | num (repr : Bytes)
  | str (s : Bytes)
  | arr (items : List J)
  | obj (members : List (Bytes × J))

/-- `t.String()` of fastjson's `Type`. -/
def J.typeName : J → Bytes
  | .null => b%"null"
  | .bool true => b%"true"
  | .bool false => b%"false"
  | .num _ => b%"number"
  | .str _ => b%"string"
  | .arr _ => b%"array"
  | .obj _ => b%"object"

/-- `body.Get(key)` on an object: fastjson returns the first member with that key. -/
def get (members : List (Bytes × J)) (key : Bytes) : Option J :=
  (members.find? (fun kv => kv.1 == key)).map (·.2)

/-- The arguments of one `Resolve` call made by `handleSingleRequest` (implement_helpers.go:114-139). -/
structure Req where
  query : Bytes
  variables : Bytes
  operationName : Bytes
deriving DecidableEq

/-- Environment: the parameters of the model. -/
structure Env (W : Type) where
  /-- `fastjson.Parser.Parse`: `none` = error -/
  parse : Bytes → Option J
  /-- `(*fastjson.Value).String` -/
  render : J → Bytes
  /-- `Resolve`: next state, `s.Result`, returned errors -/
  resolve : W → Req → W × Bytes × List Bytes

/-- `errRes` (implement_helpers.go:33-38) -/
def errRes (msg : Bytes) : Bytes × List Bytes :=
  (JsonString.stringToJSON msg b%"{\"data\":{},\"errors\":[{\"message\":" ++ b%"}],\"extensions\":{}}", [msg])

/-- The operationName part of `getBodyData` (implement_helpers.go:158-172) -/
def bodyOperationName (members : List (Bytes × J)) : Except Bytes Bytes :=
  match get members b%"operationName" with
  | none => .ok []
  | some .null => .ok []
  | some (.str s) => .ok s
  | some j => .error (b%"expected operationName to be a string but got " ++ j.typeName)

/-- The variables part of `getBodyData` (implement_helpers.go:174-184) -/
def bodyVariables {W} (env : Env W) (members : List (Bytes × J)) : Except Bytes Bytes :=
  match get members b%"variables" with
  | none => .ok []
  | some .null => .ok []
  | some (.obj m) => .ok (env.render (.obj m))
  | some j => .error (b%"expected variables to be a key value object but got: " ++ j.typeName)

/-- `getBodyData` (implement_helpers.go:141-187) -/
def getBodyData {W} (env : Env W) (body : J) : Except Bytes Req :=
  match body with
  | .obj members =>
    match get members b%"query" with
    | none => .error b%"query should be defined"
    | some (.str query) =>
      match bodyOperationName members with
      | .error e => .error e
      | .ok operationName =>
        match bodyVariables env members with
        | .error e => .error e
        | .ok variables => .ok ⟨query, variables, operationName⟩
    | some _ => .error b%"invalid query param, must be a valid string"
  | _ => .error b%"body should be a object"

/-- The loop over a batch (implement_helpers.go:62-90): state, buffer, errors. -/
def batchLoop {W} (env : Env W) : W → Bytes → List Bytes → List J → W × Bytes × List Bytes
  | w, response, errs, [] => (w, response, errs)
  | w, response, errs, item :: items =>
    let response := if response.length > 1 then response ++ [c%','] else response
    match getBodyData env item with
    | .error e => batchLoop env w (response ++ (errRes e).1) (errs ++ [e]) items
    | .ok req =>
      let (w', result, es) := env.resolve w req
      batchLoop env w' (response ++ result) (errs ++ es) items

/-- The request as `HandleRequest` sees it (implement_helpers.go:23-30).  `formField = .error` is an error of
`getFormField("operations")`. -/
structure Http where
  method : Bytes
  contentType : Bytes
  urlQuery : Bytes → Bytes
  formField : Except Bytes Bytes
  body : Bytes

/-- `strings.ToUpper` for ASCII. -/
def toUpper (b : Bytes) : Bytes := b.map fun c => if c%'a' ≤ c && c ≤ c%'z' then c - 32 else c

/-- From the body bytes on (implement_helpers.go:51-105) -/
def handleBody {W} (env : Env W) (w : W) (body : Bytes) : W × Bytes × List Bytes :=
  if body.length == 0 then (w, errRes b%"empty body")
  else
    match env.parse body with
    | none => (w, errRes b%"invalid json body")
    | some (.arr items) =>
      let (w', response, errs) := batchLoop env w b%"[" [] items
      (w', response ++ b%"]", errs)
    | some v =>
      match getBodyData env v with
      | .error e => (w, errRes e)
      | .ok req => env.resolve w req

/-- `HandleRequest` (implement_helpers.go:23-114) -/
def handleRequest {W} (env : Env W) (w : W) (r : Http) : W × Bytes × List Bytes :=
  let method := toUpper r.method
  if r.contentType == b%"application/json" ||
      ((r.contentType == b%"text/plain" || r.contentType == b%"multipart/form-data") && method != b%"GET") then
    if r.contentType == b%"multipart/form-data" then
      match r.formField with
      | .error e => (w, errRes e)
      | .ok v => handleBody env w v
    else handleBody env w r.body
  else
    env.resolve w ⟨r.urlQuery b%"query", r.urlQuery b%"variables", r.urlQuery b%"operationName"⟩

end Http
end Yarql
