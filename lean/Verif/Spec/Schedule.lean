import Verif.Proofs.WorldSim
import Verif.Props.Isolation

/-!
# Requests running at the same time

A pool of schemas serves several requests at once, one schema per request. The user's functions share a world. Every call of a user
function is one step that changes the world (simplification: the inside of a user function is not interrupted); between the steps of one
request, any number of steps of the others may happen. What a request inspects between its own calls (values, errors, its context), it
inspects at any moment between them (simplification: one moment per value and per number of own calls made).
-/

namespace Yarql
namespace Schedule
open Resolver Yarql.Bind WorldSim

section
variable {F V W : Type}

/-- one of the requests in flight: the schema serving it, its environment, the request -/
structure Job (F V W : Type) where
  schema : RSchema F V
  env : Env F V W
  req : Request

/-- a user function ran, called by request number `who` -/
structure Step (W : Type) where
  who : Nat
  pre : W
  post : W

/-- every step starts in the world the preceding one left -/
def Chained : W → List (Step W) → Prop
  | _, [] => True
  | w, s :: l => s.pre = w ∧ Chained s.post l

/-- the world after the steps -/
def endOf : W → List (Step W) → W
  | w, [] => w
  | _, s :: l => endOf s.post l

/-- the steps of request `i` -/
def own (i : Nat) (l : List (Step W)) : List (W × W) := (l.filter (fun s => s.who = i)).map (fun s => (s.pre, s.post))

/-- `w` is the world at some moment when `k` functions of request `i` have run -/
def Visible (w0 : W) (steps : List (Step W)) (i k : Nat) (w : W) : Prop :=
  ∃ before after, steps = before ++ after ∧ (own i before).length = k ∧ w = endOf w0 before

/-- when a request does what: after `k` calls, the world in which its next call starts, in which it inspects a value, its context -/
structure Timing (V W : Type) where
  call : Nat → W
  look : Nat → V → W
  ctx : Nat → W

/-- the environment of a request whose calls and inspections happen at the given moments; it records the calls made -/
def timed (env : Env F V W) (t : Timing V W) : Env F V (List (W × W)) :=
  reworld env {
    view := fun log v => env.view (t.look log.length v) v
    call := fun log f p a => (env.call (t.call log.length) f p a).map (fun r => (log ++ [(t.call log.length, r.1)], r.2))
    errOf := fun log v => env.errOf (t.look log.length v) v
    skip := fun log v => env.skip (t.look log.length v) v
    ctxErr := fun log => env.ctxErr (t.ctx log.length) }

/-- request number `i` ran among the steps and answered `r` -/
def Ran [DecidableEq F] (w0 : W) (steps : List (Step W)) (i : Nat) (job : Job F V W) (r : Bytes × List ReqErr) : Prop :=
  ∃ t : Timing V W,
    (∀ k v, k ≤ (own i steps).length → Visible w0 steps i k (t.look k v)) ∧
    (∀ k, k ≤ (own i steps).length → Visible w0 steps i k (t.ctx k)) ∧
    Answers job.schema (timed job.env t) [] job.req (.ok r (own i steps))

/-- an execution of the requests: the steps of all of them, in the order in which they happened, and the responses -/
structure Execution [DecidableEq F] (jobs : List (Job F V W)) (w0 : W) (steps : List (Step W)) (resp : List (Bytes × List ReqErr)) : Prop where
  chained : Chained w0 steps
  who : ∀ s ∈ steps, s.who < jobs.length
  all : resp.length = jobs.length
  ran : ∀ i job r, jobs[i]? = some job → resp[i]? = some r → Ran w0 steps i job r

/-- worlds related by `E` look the same to the functions of `env`, and stay so when one of them runs -/
structure Determines (env : Env F V W) (E : W → W → Prop) : Prop where
  view : ∀ {w w'}, E w w' → ∀ v, env.view w v = env.view w' v
  errOf : ∀ {w w'}, E w w' → ∀ v, env.errOf w v = env.errOf w' v
  skip : ∀ {w w'}, E w w' → ∀ v, env.skip w v = env.skip w' v
  ctxErr : ∀ {w w'}, E w w' → env.ctxErr w = env.ctxErr w'
  call : ∀ {w w'}, E w w' → ∀ f p a w1 outs, env.call w f p a = some (w1, outs) → ∃ w1', env.call w' f p a = some (w1', outs) ∧ E w1 w1'

/-- one request after the other -/
inductive Serially [DecidableEq F] : W → List (Job F V W) → List (Bytes × List ReqErr) → W → Prop where
  | nil {w} : Serially w [] [] w
  | cons {w w1 w2 job jobs r rs} : Answers job.schema job.env w job.req (.ok r w1) → Serially w1 jobs rs w2 →
      Serially w (job :: jobs) (r :: rs) w2

end
end Schedule
end Yarql
