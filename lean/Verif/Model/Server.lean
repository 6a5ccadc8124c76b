import Verif.Model.Cache
import Verif.Model.Http
import Verif.Model.Resolver

/-!
# A schema that answers one request after the other

`Resolve` (`/repo/resolver.go:165-298`) with everything a schema keeps between requests: the parser context with its query cache
(`Model/Cache.lean`), the value stack, and the outside world; and `HandleRequest` (`/repo/implement_helpers.go:23-139`) on top of it.
Tracing is disabled; the aliasing of the returned error slice is modelled apart (`Model/Ctx.lean`).
-/

namespace Yarql
namespace Server
open Resolver Yarql.Bind

variable {F V W : Type}

/-- what `(*Schema).ctx` keeps from one request to the next (resolver.go:172-194): the parser context and the value stack; `world` is
everything outside yarql -/
structure Srv (V W : Type) where
  parser : Cache.Ctx
  vals : UInt8 → V
  world : W

/-- a schema that has answered no request yet (parse.go:218-243, resolver.go:52-76) -/
def Srv.new (vals : UInt8 → V) (w : W) : Srv V W := ⟨Cache.Ctx.new, vals, w⟩

/-- what Go leaves open in one request: `CacheableQueryMinLen` at that time (parse.go:285-291), the keys met by the range loop of an
eviction, and the growth of slices -/
structure Choice where
  minLen : Nat
  victims : List Nat
  extra : Nat

/-- the parse that the request causes (resolver.go:204-210) -/
def opOf (ch : Choice) (req : Request) : Cache.Op :=
  ⟨req.query, if req.target = [] then none else some req.target, ch.minLen, ch.victims, ch.extra⟩

/-- `Resolve` (resolver.go:165-298) on a parsed schema -/
def serve [DecidableEq F] (fuel : Nat) (schema : RSchema F V) (env : Env F V W) (st : Srv V W) (ch : Choice) (req : Request) :
    R (Srv V W) (Bytes × List ReqErr) :=
  let (parser, p) := Cache.step Cache.parseF st.parser (opOf ch req)
  if p.errs.isEmpty then
    match p.targetIdx with
    | none =>
      let msg := if req.target = [] then b%"no operator found"
        else b%"no operator with name " ++ req.target ++ b%" found"
      let errs := [ReqErr.exec ⟨msg, none⟩]
      .ok (envelope req.noMeta b%"{}" errs, errs) { st with parser := parser }
    | some at_ =>
      let cfg : Cfg F V W := ⟨p.res, p.frags, schema, env, req.vars⟩
      let s : RS V W := ⟨at_, [], [c%'{'], [], st.vals, 0, false, false, 0, st.world⟩
      match resolveOperation fuel cfg s with
      | .ok _ s' =>
        let errs := s'.errs.map ReqErr.exec
        .ok (envelope req.noMeta (s'.out ++ [c%'}']) errs, errs) ⟨parser, s'.vals, s'.world⟩
      | .panic => .panic
      | .oof => .oof
  else
    let errs := p.errs.map (fun e => ReqErr.located e.msg e.line e.col)
    .ok (envelope req.noMeta b%"{}" errs, errs) { st with parser := parser }

/-- a history of requests, all of them answered; what was answered, oldest first -/
inductive History [DecidableEq F] (schema : RSchema F V) (env : Env F V W) : Srv V W → List (Choice × Request) →
    List (Bytes × List ReqErr) → Srv V W → Prop where
  | nil (st : Srv V W) : History schema env st [] [] st
  | cons {st st' st'' : Srv V W} {ch : Choice} {req : Request} {rest : List (Choice × Request)} {r : Bytes × List ReqErr}
      {rs : List (Bytes × List ReqErr)} (fuel : Nat) (h : serve fuel schema env st ch req = .ok r st')
      (hr : History schema env st' rest rs st'') : History schema env st ((ch, req) :: rest) (r :: rs) st''

/-! ## HandleRequest -/

/-- the variables text of a request (resolver.go:1050-1060): parsed by `fastjson` when a variable is first used -/
def varsOf (parse : Bytes → Option Http.J) (badVars : Bytes → Bytes) (text : Bytes) : VarsSrc :=
  if text = [] then .empty
  else match parse text with
    | none => .invalid (badVars text)
    | some j => .json j

/-- the `Resolve` call of `handleSingleRequest` (implement_helpers.go:116-139) -/
def requestOf (parse : Bytes → Option Http.J) (badVars : Bytes → Bytes) (r : Http.Req) : Request :=
  ⟨r.query, r.operationName, false, varsOf parse badVars r.variables⟩

open Classical in
/-- the outcome of a request: what `serve` gives with any recursion bound that is large enough (more does not change it, see C41);
`oof` if none is -/
noncomputable def outcome [DecidableEq F] (schema : RSchema F V) (env : Env F V W) (ch : Choice) (st : Srv V W) (req : Request) :
    R (Srv V W) (Bytes × List ReqErr) :=
  if h : ∃ fuel r st', serve fuel schema env st ch req = .ok r st' then serve h.choose schema env st ch req
  else serve 0 schema env st ch req

/-- `HandleRequest`'s environment over a schema: `fastjson` is a parameter (`badVars`: the message of its error), the rest is `outcome`.
A request that panics or does not end has no result in Go; the theorems exclude it. -/
noncomputable def httpEnv [DecidableEq F] (parse : Bytes → Option Http.J) (render : Http.J → Bytes) (badVars : Bytes → Bytes)
    (schema : RSchema F V) (env : Env F V W) (ch : Choice) : Http.Env (Srv V W) where
  parse := parse
  render := render
  resolve := fun st r =>
    match outcome schema env ch st (requestOf parse badVars r) with
    | .ok (body, es) st' => (st', body, es.map ReqErr.msg)
    | _ => (st, [], [])

end Server
end Yarql
