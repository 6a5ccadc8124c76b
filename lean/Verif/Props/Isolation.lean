import Verif.Proofs.Isolation
import Verif.Props.ParserComplete

/-!
# C41: a request does not see what earlier requests left behind

`Resolve` reuses the value stack of the context (`reflectValues`, 256 entries). `vals` is what earlier requests left there.
-/

namespace Yarql
open Doc Resolver Yarql.Bind

section
variable {F V W : Type} [DecidableEq F]

/-- running an operation from states that differ in the value stack only -/
theorem resolveOperation_sim (n m : Nat) (h : n ≤ m) (c : Cfg F V W) (s t : RS V W) (hrest : t = { s with vals := t.vals })
    (hidx : s.idx = 0) (hkind : c.res[s.charNr + 2]? = some c%'q' ∨ c.res[s.charNr + 2]? = some c%'m' ∨ c.res[s.charNr + 2]? = some c%'s') :
    match resolveOperation n c s with
    | .oof => True
    | .panic => resolveOperation m c t = .panic
    | .ok a s' => ∃ t', resolveOperation m c t = .ok a t' ∧ t' = { s' with vals := t'.vals } := by
  have hcn : t.charNr = s.charNr := by rw [hrest]
  -- the code after the root value has been set
  have key : ∀ (root : RType F V) (v : V) (r : Nat → M F V W Bool) (hr : ∀ k, r k = (do
        let hasArgs := (← readInst) == c%'t'
        setArgs hasArgs 0
        let directivesCount ← readInst
        if directivesCount > 0 then
          err b%"operation directives unsupported"
          return true
        let _ ← readToNul
        if hasArgs then
          let argumentsLen ← readUint32M
          setArgs true ((← getPos) + 5)
          skipInst (argumentsLen + 5)
        let (criticalErr, _) ← resolveSelectionSet k root 0 true
        return criticalErr)),
      let f := fun (x : RS V W) => { x with charNr := x.charNr + 2 + 1, vals := fun i => if i = 0 then v else x.vals i }
      match r n c (f s) with
      | .oof => True
      | .panic => r m c (f t) = .panic
      | .ok a s' => ∃ t', r m c (f t) = .ok a t' ∧ t' = { s' with vals := t'.vals } := by
    intro root v r hr f
    have hsim : Sim 0 0 0 0 (r n) (r m) := by
      rw [hr, hr]
      repeat (first | exact (allSim n m h).sels _ _ _ 0 | sim_one)
    have ha : Agree 0 0 (f s) (f t) := by
      have := sim_setRoot (v := v) { s with charNr := s.charNr + 2 + 1 } { t with charNr := t.charNr + 2 + 1 } (by rw [hrest]) hidx
      exact this
    have h1 := hsim c (f s) (f t) ha
    cases hm : r n c (f s) with
    | oof => trivial
    | panic => rw [hm] at h1; exact h1
    | ok a s' =>
      rw [hm] at h1
      obtain ⟨t', h2, h3⟩ := h1
      exact ⟨t', h2, h3.rest⟩
  -- unfold the prefix
  have start : ∀ (k : Nat) (x : RS V W) (b : Byte), x.charNr = s.charNr → c.res[s.charNr + 2]? = some b →
      resolveOperation k c x = (do
        let cfg ← getCfg
        let setRoot (v : V) : M F V W Unit := fun _ s => .ok () { s with vals := fun i => if i = 0 then v else s.vals i }
        if b == c%'s' then
          err b%"subscriptions are not supported"
          return true
        if b == c%'q' then setRoot cfg.schema.rootQueryValue
        if b == c%'m' then setRoot cfg.schema.rootMethodValue
        let hasArgs := (← readInst) == c%'t'
        setArgs hasArgs 0
        let directivesCount ← readInst
        if directivesCount > 0 then
          err b%"operation directives unsupported"
          return true
        let _ ← readToNul
        if hasArgs then
          let argumentsLen ← readUint32M
          setArgs true ((← getPos) + 5)
          skipInst (argumentsLen + 5)
        let root := if b == c%'m' then cfg.schema.rootMethod else cfg.schema.rootQuery
        let (criticalErr, _) ← resolveSelectionSet k root 0 true
        return criticalErr : M F V W Bool) c { x with charNr := x.charNr + 2 + 1 } := by
    intro k x b hx hb
    unfold resolveOperation
    show M.bind readInst _ c { x with charNr := x.charNr + 2 } = _
    unfold M.bind readInst
    dsimp only
    rw [hx, hb]
    rfl
  rcases hkind with hb | hb | hb
  · rw [start n s _ rfl hb, start m t _ hcn hb]
    exact key c.schema.rootQuery c.schema.rootQueryValue _ (fun _ => rfl)
  · rw [start n s _ rfl hb, start m t _ hcn hb]
    exact key c.schema.rootMethod c.schema.rootMethodValue _ (fun _ => rfl)
  · rw [start n s _ rfl hb, start m t _ hcn hb]
    refine ⟨_, rfl, ?_⟩
    rw [hrest]

theorem selectedOp_kind (d : List Def) (target : Option Bytes) (p : Nat) (h : selectedOp target (opPositions 0 d) = some p) :
    (encDoc d)[p + 2]? = some c%'q' ∨ (encDoc d)[p + 2]? = some c%'m' ∨ (encDoc d)[p + 2]? = some c%'s' := by
  have : ∃ n, (p, n) ∈ opPositions 0 d := by
    unfold selectedOp at h
    split at h
    · rw [Option.map_eq_some_iff] at h; obtain ⟨x, h1, rfl⟩ := h; exact ⟨x.2, List.mem_of_getLast? h1⟩
    · rw [Option.map_eq_some_iff] at h; obtain ⟨x, h1, rfl⟩ := h; exact ⟨x.2, List.mem_of_getLast? h1⟩
    · rw [Option.map_eq_some_iff] at h; obtain ⟨x, h1, rfl⟩ := h
      exact ⟨x.2, (List.mem_filter.1 (List.mem_of_getLast? h1)).1⟩
  obtain ⟨nm, hm⟩ := this
  rw [opPositions_eq, List.mem_map] at hm
  obtain ⟨⟨q, o⟩, h1, h2⟩ := hm
  have h2' : q = p := congrArg Prod.fst h2
  subst h2'
  obtain ⟨-, post, h3⟩ := opsAt_spec d [] q o h1
  have e : (encDoc d)[q + 2]? = some o.kind.code := by
    rw [← List.getElem?_drop, show (encDoc d).drop q = encOperation o ++ post by simpa using h3]
    rfl
  rw [e]
  cases o.kind
  · exact Or.inl rfl
  · exact Or.inr (Or.inl rfl)
  · exact Or.inr (Or.inr rfl)

/-- **C41** (responses): the outcome of a request — its response, its errors and the resulting state of the outside world,
or the crash — is the same whatever value stack earlier requests left, for every query, including those the executor
misreads. `fuel` bounds the recursion of the model; an outcome reached with some fuel is reached with any more. -/
theorem C41_response_independent (fuel fuel' : Nat) (hle : fuel ≤ fuel') (schema : RSchema F V) (env : Env F V W)
    (vals vals' : UInt8 → V) (w : W) (req : Request) (h : resolve fuel schema env vals w req ≠ .oof) :
    resolve fuel' schema env vals' w req = resolve fuel schema env vals w req := by
  unfold resolve at h ⊢
  cases hp : Parser.parseQuery req.query (if req.target = [] then none else some req.target) with
  | panic => rfl
  | oof => rfl
  | ok u p =>
    cases u
    rw [hp] at h
    dsimp only at h ⊢
    by_cases he : p.errs.isEmpty = true
    · rw [if_pos he] at h ⊢
      rw [if_pos he]
      cases ht : p.targetIdx with
      | none => rfl
      | some at_ =>
        rw [ht] at h
        dsimp only at h ⊢
        obtain ⟨d, -, h2, -, h4⟩ := C06_accepted_is_encoding _ _ p hp (by simpa using he)
        rw [h4] at ht
        have hk := selectedOp_kind d _ _ ht
        rw [← h2] at hk
        have hs := resolveOperation_sim fuel fuel' hle (⟨p.res, p.frags, schema, env, req.vars⟩ : Cfg F V W)
          ⟨at_, [], [c%'{'], [], vals, 0, false, false, 0, w⟩ ⟨at_, [], [c%'{'], [], vals', 0, false, false, 0, w⟩ rfl rfl hk
        cases hr : resolveOperation fuel (⟨p.res, p.frags, schema, env, req.vars⟩ : Cfg F V W)
            ⟨at_, [], [c%'{'], [], vals, 0, false, false, 0, w⟩ with
        | oof => rw [hr] at h; exact absurd rfl h
        | panic => rw [hr] at hs; rw [hs]
        | ok a s' =>
          rw [hr] at hs
          obtain ⟨t', hs1, hs2⟩ := hs
          rw [hs1]
          dsimp only
          rw [hs2]
    · rw [if_neg he, if_neg he]

/-- A history of requests on one schema: the value stack after each one is arbitrary as far as the next is concerned.
The outcome of the last one is that of the same request on a fresh schema. -/
theorem C41_fresh (fuel : Nat) (schema : RSchema F V) (env : Env F V W) (fresh left : UInt8 → V) (w : W) (req : Request)
    (h : resolve fuel schema env fresh w req ≠ .oof) :
    resolve fuel schema env left w req = resolve fuel schema env fresh w req :=
  C41_response_independent fuel fuel (Nat.le_refl _) schema env fresh left w req h

/-- `Resolve` terminates on this request with this outcome. -/
def Answers (schema : RSchema F V) (env : Env F V W) (w : W) (req : Request) (r : R W (Bytes × List ReqErr)) : Prop :=
  r ≠ .oof ∧ ∃ fuel, ∀ vals, resolve fuel schema env vals w req = r

/-- `Resolve` never comes to an end on this request: every recursion bound is exceeded. -/
def Diverges (schema : RSchema F V) (env : Env F V W) (w : W) (req : Request) : Prop :=
  ∀ fuel vals, resolve fuel schema env vals w req = .oof

theorem Answers.of {schema : RSchema F V} {env : Env F V W} {w : W} {req : Request} {r : R W (Bytes × List ReqErr)} {fuel : Nat}
    {vals : UInt8 → V} (h : resolve fuel schema env vals w req = r) (hr : r ≠ .oof) : Answers schema env w req r :=
  ⟨hr, fuel, fun vals' => by rw [← h]; exact C41_fresh fuel schema env vals vals' w req (by rw [h]; exact hr)⟩

/-- **C41** (determinism): a request has at most one outcome. -/
theorem C41_deterministic {schema : RSchema F V} {env : Env F V W} {w : W} {req : Request} {r r' : R W (Bytes × List ReqErr)}
    (h : Answers schema env w req r) (h' : Answers schema env w req r') : r = r' := by
  obtain ⟨hr, f, h⟩ := h
  obtain ⟨hr', f', h'⟩ := h'
  have v : UInt8 → V := fun _ => schema.rootQueryValue
  rcases Nat.le_total f f' with hl | hl
  · rw [← h v, ← h' v]
    exact (C41_response_independent f f' hl schema env v v w req (by rw [h v]; exact hr)).symm
  · rw [← h v, ← h' v]
    exact C41_response_independent f' f hl schema env v v w req (by rw [h' v]; exact hr')

end
end Yarql
