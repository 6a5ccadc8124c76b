import Verif.Props.Terminates

/-!
# C19, C21: recursion through an interface escapes the depth limit

A fragment that selects itself below a field (`fragment F on Q{n{...F}}`) is stopped by `MaxDepth` when `n` is an
object.  When `n` is an interface each level counts twice, the limit is only tested for equality at every second
value, and the counter wraps at 256: an odd limit (the default is 255) is never met.
-/

namespace Yarql
open Doc Resolver Eval Typed Yarql.Bind

variable {F V W : Type} [DecidableEq F]

def loopQuery : Bytes := b%"{...F} fragment F on Q{n{...F}}"

def loopOp : Doc.Operation := ⟨.query, [], none, [], [.spread b%"F" []]⟩

def loopDoc : List Def :=
  [.op loopOp, .frag ⟨b%"F", b%"Q", [.field b%"n" none [] none [.spread b%"F" []]]⟩]

/-- its bytecode -/
def loopRes : Bytes := [0, 111, 113, 102, 0, 0, 115, 102, 0, 1, 0, 0, 0, 70, 0, 101, 0, 70, 70, 0, 81, 0, 102, 0, 14, 0, 0, 0, 113, 93, 12, 5,
  1, 110, 0, 0, 115, 102, 0, 1, 0, 0, 0, 70, 0, 101, 0, 101]

theorem loop_key : (Parser.fnv1 b%"n").toNat = 84696433 := by decide +kernel

theorem loop_res : (match Parser.parseQuery loopQuery none with
    | .ok () p => p.errs.isEmpty && p.targetIdx == some 0 && p.res == loopRes && p.frags == [17]
    | _ => false) = true := by decide +kernel

/-- the query type: one field `n`, of the interface `Node` -/
def loopType : RType F V := ⟨b%"Q", [⟨Parser.fnv1 b%"n", 0, none, .interfaceRef b%"Node"⟩]⟩

/-- The schema knows the type `Q` with its field `n : Node`, and that `Q` (Go type `Q` of package `p`) implements
`Node`; the data is a `Q` whose `n` is that same `Q`. -/
structure Loops (schema : RSchema F V) (env : Env F V W) (i : V) : Prop where
  root : schema.rootQuery = loopType
  type : lookup schema.types b%"Q" = some loopType
  iface : lookup schema.interfaces b%"Node" = some [⟨b%"Q", b%"p", b%"Q"⟩]
  value : ∀ w, env.view w schema.rootQueryValue = .struct [i]
  again : ∀ w, env.view w i = .iface (some (b%"Q", b%"p", schema.rootQueryValue))

theorem even_add_two {d : UInt8} (h : d.toNat % 2 = 0) : (d + 1 + 1).toNat % 2 = 0 := by
  simp only [UInt8.toNat_add]
  simp only [UInt8.toNat_one]
  omega

abbrev loopCfg (schema : RSchema F V) (env : Env F V W) (vars : VarsSrc) : Cfg F V W :=
  ⟨loopRes, [17], schema, env, vars⟩

section
variable (schema : RSchema F V) (env : Env F V W) (vars : VarsSrc) (i : V)

/-- what is claimed for runs with `n` units of fuel -/
structure Stuck (n : Nat) : Prop where
  body : ∀ dept ff (s : RS V W), dept.toNat % 2 = 0 → s.charNr = 22 → s.vals s.idx = schema.rootQueryValue →
    resolveSelectionSet n loopType dept ff (loopCfg schema env vars) s = .oof
  field : ∀ dept c (s : RS V W), dept.toNat % 2 = 0 → s.charNr = 23 → s.vals s.idx = schema.rootQueryValue →
    resolveField n loopType dept c (loopCfg schema env vars) s = .oof
  ifc : ∀ dept (s : RS V W), dept.toNat % 2 = 0 → s.charNr = 36 → s.vals s.idx = i →
    resolveFieldDataValue n (.interfaceRef b%"Node") dept true (loopCfg schema env vars) s = .oof
  obj : ∀ dept (s : RS V W), dept.toNat % 2 = 0 → s.charNr = 36 → s.vals s.idx = schema.rootQueryValue →
    resolveFieldDataValue n (.objRef b%"Q") (dept + 1) true (loopCfg schema env vars) s = .oof
  sel : ∀ dept ff (s : RS V W), dept.toNat % 2 = 0 → s.charNr = 36 → s.vals s.idx = schema.rootQueryValue →
    resolveSelectionSet n loopType dept ff (loopCfg schema env vars) s = .oof
  spread : ∀ dept ff (s : RS V W), dept.toNat % 2 = 0 → s.charNr = 37 → s.vals s.idx = schema.rootQueryValue →
    resolveSpread n loopType dept ff (loopCfg schema env vars) s = .oof

omit [DecidableEq F] in
theorem oof_next {α β : Type} {c : Cfg F V W} {m : M F V W α} {f : α → M F V W β} {s s1 : RS V W} {a : α} (h : m c s = .ok a s1)
    (h1 : f a c s1 = .oof) : (m >>= f) c s = .oof := by
  show M.bind m f c s = _
  unfold M.bind
  rw [h]
  exact h1

omit [DecidableEq F] in
theorem oof_first {α β : Type} {c : Cfg F V W} {m : M F V W α} {f : α → M F V W β} {s : RS V W} (h : m c s = .oof) : (m >>= f) c s = .oof := by
  show M.bind m f c s = _
  unfold M.bind
  rw [h]

omit [DecidableEq F] in
theorem loop_value (hl : Loops schema env i) (s : RS V W) :
    fieldValue schema.rootQueryValue (⟨Parser.fnv1 b%"n", 0, none, .interfaceRef b%"Node"⟩ : RField F V)
      (loopCfg schema env vars) s = .ok i s := by
  have hview : viewOf schema.rootQueryValue (loopCfg schema env vars) s = .ok (.struct [i]) s := by
    unfold viewOf
    rw [hl.value]
  unfold fieldValue
  show fieldOf schema.rootQueryValue 0 (loopCfg schema env vars) s = _
  unfold fieldOf
  show (M.bind (viewOf schema.rootQueryValue) _) _ _ = _
  unfold M.bind
  rw [hview]
  rfl

theorem stuck (hl : Loops schema env i) (hodd : schema.maxDepth.toNat % 2 = 1) (n : Nat) : Stuck schema env vars i n := by
  induction n with
  | zero =>
    exact ⟨fun _ _ _ _ _ _ => rfl, fun _ _ _ _ _ _ => rfl, fun _ _ _ _ _ => rfl, fun _ _ _ _ _ => rfl,
      fun _ _ _ _ _ _ => rfl, fun _ _ _ _ _ _ => rfl⟩
  | succ n ih =>
    refine ⟨?_, ?_, ?_, ?_, ?_, ?_⟩
    · intro dept ff s he hs hv
      obtain ⟨charNr, path, out, errs, vals, idx, vp, ha, as, w⟩ := s
      cases hs
      have h := ih.field dept (!ff) ⟨23, path, out, errs, vals, idx, vp, ha, as, w⟩ he rfl hv
      simp only [resolveSelectionSet]
      show (M.bind (resolveField n loopType dept (!ff)) _) _ ⟨23, path, out, errs, vals, idx, vp, ha, as, w⟩ = _
      unfold M.bind
      rw [h]
    · intro dept c s he hs hv
      obtain ⟨charNr, path, out, errs, vals, idx, vp, ha, as, w⟩ := s
      cases hs
      dsimp only at hv
      have h := fun out' => ih.ifc dept ⟨36, path ++ b%",\"" ++ b%"n" ++ [c%'"'], out', errs,
        fun k => if k = idx + 1 then i else vals k, idx + 1, vp, ha, as, w⟩ he rfl (if_pos rfl)
      have hval := fun s => loop_value schema env vars i hl s
      -- behind the key
      have rest : ∀ out', (do
          let fieldHasSelection := (← seekInst) != c%'e'
          let criticalErr ← do
            let goValue ← getGoValue
            let v ← fieldValue goValue ⟨Parser.fnv1 b%"n", 0, none, .interfaceRef b%"Node"⟩
            setNextGoValue v
            let crit ← resolveFieldDataValue n (.interfaceRef b%"Node") dept fieldHasSelection
            decIdx
            pure crit
          setPath path
          setPos 47
          return (false, criticalErr) : M F V W (Bool × Bool)) (loopCfg schema env vars)
          (⟨36, path ++ b%",\"" ++ b%"n" ++ [c%'"'], out', errs, vals, idx, vp, ha, as, w⟩ : RS V W) = .oof := by
        intro out'
        refine oof_next (a := c%'s') rfl ?_
        refine oof_next (a := vals idx) rfl ?_
        refine oof_next (a := i) (by rw [hv]; exact hval _) ?_
        refine oof_next (a := ()) rfl ?_
        exact oof_first (h out')
      simp only [resolveField]
      refine oof_next (a := 0) (s1 := ⟨24, path, out, errs, vals, idx, vp, ha, as, w⟩) rfl ?_
      refine oof_next (a := 14) (s1 := ⟨24, path, out, errs, vals, idx, vp, ha, as, w⟩) rfl ?_
      refine oof_next (a := ()) (s1 := ⟨28, path, out, errs, vals, idx, vp, ha, as, w⟩) rfl ?_
      refine oof_next (a := 84696433) (s1 := ⟨28, path, out, errs, vals, idx, vp, ha, as, w⟩) rfl ?_
      refine oof_next (a := ()) (s1 := ⟨32, path, out, errs, vals, idx, vp, ha, as, w⟩) rfl ?_
      refine oof_next (a := 32) (s1 := ⟨32, path, out, errs, vals, idx, vp, ha, as, w⟩) rfl ?_
      refine oof_next (a := 1) (s1 := ⟨33, path, out, errs, vals, idx, vp, ha, as, w⟩) rfl ?_
      refine oof_next (a := 33) (s1 := ⟨33, path, out, errs, vals, idx, vp, ha, as, w⟩) rfl ?_
      refine oof_next (a := b%"n") (s1 := ⟨33, path, out, errs, vals, idx, vp, ha, as, w⟩) rfl ?_
      refine oof_next (a := ()) (s1 := ⟨34, path, out, errs, vals, idx, vp, ha, as, w⟩) rfl ?_
      refine oof_next (s1 := ⟨34, path, out, errs, vals, idx, vp, ha, as, w⟩) rfl ?_
      refine oof_next (a := ()) rfl ?_
      dsimp only
      refine oof_next (a := 0) (s1 := ⟨35, path ++ b%",\"" ++ b%"n" ++ [c%'"'], out, errs, vals, idx, vp, ha, as, w⟩) rfl ?_
      refine oof_next (a := 35) (s1 := ⟨35, path ++ b%",\"" ++ b%"n" ++ [c%'"'], out, errs, vals, idx, vp, ha, as, w⟩) rfl ?_
      refine oof_next (a := ()) (s1 := ⟨35, path ++ b%",\"" ++ b%"n" ++ [c%'"'], out, errs, vals, idx, vp, ha, as, w⟩) rfl ?_
      refine oof_next (a := ()) (s1 := ⟨36, path ++ b%",\"" ++ b%"n" ++ [c%'"'], out, errs, vals, idx, vp, ha, as, w⟩) rfl ?_
      refine oof_next (a := some false) (s1 := ⟨36, path ++ b%",\"" ++ b%"n" ++ [c%'"'], out, errs, vals, idx, vp, ha, as, w⟩) rfl ?_
      dsimp only
      have hf : (loopType : RType F V).fields.find? (fun f => decide (f.key.toNat = 84696433)) =
          some ⟨Parser.fnv1 b%"n", 0, none, .interfaceRef b%"Node"⟩ := by
        show List.find? _ [_] = _
        exact List.find?_cons_of_pos (by rw [loop_key]; rfl)
      cases c
      · simp only [Bool.false_eq_true, if_false]
        refine oof_next (a := ()) rfl ?_
        refine oof_next (a := ()) rfl ?_
        rw [hf]
        exact rest _
      · simp only [if_true]
        refine oof_next (a := ()) rfl ?_
        refine oof_next (a := ()) rfl ?_
        refine oof_next (a := ()) rfl ?_
        rw [hf]
        exact rest _
    · intro dept s he hs hv
      obtain ⟨charNr, path, out, errs, vals, idx, vp, ha, as, w⟩ := s
      cases hs
      dsimp only at hv
      have h := ih.obj dept ⟨36, path, out, errs, fun k => if k = idx + 1 then schema.rootQueryValue else vals k, idx + 1, vp, ha, as, w⟩
        he rfl (if_pos rfl)
      have hview : viewOf (vals idx) (loopCfg schema env vars) (⟨36, path, out, errs, vals, idx, vp, ha, as, w⟩ : RS V W) =
          .ok (.iface (some (b%"Q", b%"p", schema.rootQueryValue))) ⟨36, path, out, errs, vals, idx, vp, ha, as, w⟩ := by
        unfold viewOf
        rw [hv, hl.again]
      simp only [resolveFieldDataValue]
      show (match lookup schema.interfaces b%"Node" with
        | none => _ | some impls => _ : M F V W Bool) _ _ = _
      rw [hl.iface]
      show (M.bind (viewOf (vals idx)) _) _ ⟨36, path, out, errs, vals, idx, vp, ha, as, w⟩ = _
      unfold M.bind
      rw [hview]
      show (M.bind (resolveFieldDataValue n (.objRef b%"Q") (dept + 1) true) _) _ _ = _
      unfold M.bind
      rw [h]
    · intro dept s he hs hv
      obtain ⟨charNr, path, out, errs, vals, idx, vp, ha, as, w⟩ := s
      cases hs
      have h := ih.sel (dept + 1 + 1) true ⟨36, path, out ++ [c%'{'], errs, vals, idx, vp, ha, as, w⟩ (even_add_two he) rfl hv
      have hne : ¬ dept + 1 + 1 = schema.maxDepth := by
        intro h
        have := even_add_two he
        rw [h] at this
        omega
      simp only [resolveFieldDataValue]
      show (match lookup schema.types b%"Q" with
        | none => _ | some t => _ : M F V W Bool) _ _ = _
      rw [hl.type]
      show (if dept + 1 + 1 = schema.maxDepth then _ else _ : M F V W Bool) _ _ = _
      rw [if_neg hne]
      show (M.bind (resolveSelectionSet n loopType (dept + 1 + 1) true) _) _ ⟨36, path, out ++ [c%'{'], errs, vals, idx, vp, ha, as, w⟩ = _
      unfold M.bind
      rw [h]
    · intro dept ff s he hs hv
      obtain ⟨charNr, path, out, errs, vals, idx, vp, ha, as, w⟩ := s
      cases hs
      have h := ih.spread dept ff ⟨37, path, out, errs, vals, idx, vp, ha, as, w⟩ he rfl hv
      simp only [resolveSelectionSet]
      show (M.bind (resolveSpread n loopType dept ff) _) _ ⟨37, path, out, errs, vals, idx, vp, ha, as, w⟩ = _
      unfold M.bind
      rw [h]
    · intro dept ff s he hs hv
      obtain ⟨charNr, path, out, errs, vals, idx, vp, ha, as, w⟩ := s
      cases hs
      have h := ih.body dept ff ⟨22, path, out, errs, vals, idx, vp, ha, as, w⟩ he rfl hv
      simp only [resolveSpread]
      show (M.bind (resolveSelectionSet n loopType dept ff) _) _ ⟨22, path, out, errs, vals, idx, vp, ha, as, w⟩ = _
      unfold M.bind
      rw [h]
end

/-- **C19 and C21 refuted** by a recursive fragment below an interface. With the query type `Q { n: Node }`, `Q`
implementing `Node`, data in which `n` is the same `Q` again, and an odd `MaxDepth` (such as the default, 255), the
request `{...F} fragment F on Q{n{...F}}` recurses without end: the depth limit never stops it. -/
theorem C19_refuted_by_interface (schema : RSchema F V) (env : Env F V W) (i : V) (w : W) (noMeta : Bool) (vars : VarsSrc)
    (hl : Loops schema env i) (hodd : schema.maxDepth.toNat % 2 = 1) :
    Serves ⟨loopQuery, [], noMeta, vars⟩ loopDoc loopOp ∧ Diverges schema env w ⟨loopQuery, [], noMeta, vars⟩ := by
  constructor
  · have h : Serves ⟨loopQuery, [], false, .empty⟩ loopDoc loopOp := Check.serves (by decide +kernel) rfl
    exact ⟨h.parsed, h.wf, h.regular, h.len, h.chosen⟩
  · intro fuel vals
    have hp := loop_res
    unfold resolve
    dsimp only
    rw [if_pos rfl]
    cases h : Parser.parseQuery loopQuery none with
    | panic => rw [h] at hp; cases hp
    | oof => rfl
    | ok u p =>
      rw [h] at hp
      simp only [Bool.and_eq_true, beq_iff_eq] at hp
      obtain ⟨⟨⟨h1, h2⟩, h3⟩, h4⟩ := hp
      dsimp only
      rw [if_pos h1, h2]
      dsimp only
      rw [h3, h4]
      have hrun : ∀ s : RS V W, s.charNr = 6 → s.vals s.idx = schema.rootQueryValue →
          resolveSelectionSet fuel schema.rootQuery 0 true (loopCfg schema env vars) s = .oof := by
        intro s hs hv
        rw [hl.root]
        match fuel with
        | 0 => rfl
        | 1 =>
          obtain ⟨charNr, path, out, errs, vals, idx, vp, ha, as, w⟩ := s
          cases hs
          rfl
        | n + 2 =>
          obtain ⟨charNr, path, out, errs, vals, idx, vp, ha, as, w⟩ := s
          cases hs
          have h := (stuck schema env vars i hl hodd n).body 0 true ⟨22, path, out, errs, vals, idx, vp, ha, as, w⟩ rfl rfl hv
          simp only [resolveSelectionSet]
          show (M.bind (resolveSpread (n+1) loopType 0 true) _) _ ⟨7, path, out, errs, vals, idx, vp, ha, as, w⟩ = _
          unfold M.bind
          have hsp : resolveSpread (n+1) loopType 0 true (loopCfg schema env vars) ⟨7, path, out, errs, vals, idx, vp, ha, as, w⟩ = R.oof := by
            simp only [resolveSpread]
            show (M.bind (resolveSelectionSet n loopType 0 true) _) _ ⟨22, path, out, errs, vals, idx, vp, ha, as, w⟩ = _
            unfold M.bind
            rw [h]
          rw [hsp]
      have hop : resolveOperation fuel (loopCfg schema env vars) (⟨0, [], [c%'{'], [], vals, 0, false, false, 0, w⟩ : RS V W) = .oof := by
        unfold resolveOperation
        show (M.bind (resolveSelectionSet fuel schema.rootQuery 0 true) _) _ ⟨6, [], [c%'{'], [], fun i => if i = 0 then schema.rootQueryValue else vals i, 0, false, false, 0, w⟩ = _
        unfold M.bind
        rw [hrun _ rfl rfl]
      rw [hop]

/-! ### Such a schema -/

namespace LoopDemo

def schema : RSchema Unit Bool where
  types := [(b%"Q", loopType)]
  interfaces := [(b%"Node", [⟨b%"Q", b%"p", b%"Q"⟩])]
  inTypes := []
  rootQuery := loopType
  rootMethod := ⟨b%"M", []⟩
  rootQueryValue := true
  rootMethodValue := true
  maxDepth := 255
  enums := []
  directives := []

/-- `true` is the `Q`, `false` the interface value of its field -/
def env (base : Env Unit Bool Unit) : Env Unit Bool Unit :=
  { base with view := fun _ v => if v then .struct [false] else .iface (some (b%"Q", b%"p", true)) }

/-- Non-vacuity: with the default depth limit. -/
theorem loops (base : Env Unit Bool Unit) : Loops schema (env base) false ∧ schema.maxDepth.toNat % 2 = 1 :=
  ⟨⟨rfl, rfl, rfl, fun _ => rfl, fun _ => rfl⟩, rfl⟩

end LoopDemo

end Yarql
