import Verif.Props.Values
import Verif.Props.Functions
import Verif.Proofs.CallsMade
import Verif.Spec.ArgsDemo

/-!
# Arguments: C23 (integer literals), C24 (integer variables), C25 (arguments arrive as written), C27 (enums), C29 (variables)

All of them rest on one theorem about every call made while a request is served (`C25_calls`), and on what a literal or a JSON
value may become (`Spec/Binding.lean`).
-/

namespace Yarql
open Doc Resolver Eval Typed Yarql.Bind Binding CallsMade

section
variable {F V W : Type} [DecidableEq F]

/-- the world after a served request is the world after the calls made for it -/
theorem calls_made_partial (schema : RSchema F V) (env : Env F V W) (T : Obj F → V → Prop) (w w' : W) (req : Request)
    (d : List Def) (o : Operation) (fuel : Nat) (vals : UInt8 → V) (body : Bytes) (es : List ReqErr)
    (hs : Serves req d o) (ht : WellTyped schema env T) (hf : Fits schema (fragmentsOf d) o)
    (h : resolve fuel schema env vals w req = .ok (body, es) w') :
    ∃ calls, History env w calls w' ∧ ∀ c ∈ calls, ∃ m args, Due (showCtx schema env req d o) o c m args ∧
      Shows.Inputs (showCtx schema env req d o) m args c.inputs := by
  obtain ⟨F0, h0⟩ := evalOperation_total (r := reqOf schema env req d o) ht o hf
  obtain ⟨⟨out, crit⟩, es', h1, -⟩ := h0 F0 (Nat.le_refl _) ⟨[], w, false⟩
  have hr := resolve_eval F0 schema env (fun _ => schema.rootQueryValue) w req d o out crit es' hs.parsed hs.wf hs.regular hs.len hs.chosen h1
  have e := C41_deterministic (Answers.of hr (by simp)) (Answers.of h (by simp))
  injection e with e1 e2
  obtain ⟨calls, k1, k2⟩ := evalOperation_made (reqOf schema env req d o) F0 o ⟨[], w, false⟩ _ es' h1
  exact ⟨calls, by rw [← e2]; exact k1, k2⟩

/-- **C25.** Whatever a served request is answered with: user functions are called for selections of the query only, with the path of
the selection, and (functions whose parameters are different Go fields, arguments given once) every argument written there is
delivered: the parameter it names holds the value it denotes, and parameters without argument hold their zero values. -/
theorem C25_calls_partial (schema : RSchema F V) (env : Env F V W) (T : Obj F → V → Prop) (w w' : W) (req : Request)
    (d : List Def) (o : Operation) (fuel : Nat) (vals : UInt8 → V) (body : Bytes) (es : List ReqErr)
    (hs : Serves req d o) (ht : WellTyped schema env T) (hf : Fits schema (fragmentsOf d) o)
    (h : resolve fuel schema env vals w req = .ok (body, es) w') :
    ∃ calls, History env w calls w' ∧ ∀ c ∈ calls, ∃ m args, Due (showCtx schema env req d o) o c m args ∧
      (Separate m → (args.map (·.1)).Nodup → Given (showCtx schema env req d o) m args c.inputs) := by
  obtain ⟨calls, h1, h2⟩ := calls_made_partial schema env T w w' req d o fuel vals body es hs ht hf h
  refine ⟨calls, h1, fun c hc => ?_⟩
  obtain ⟨m, args, h3, h4⟩ := h2 c hc
  exact ⟨m, args, h3, fun hsep hn => inputs_given hsep h4 hn⟩

/-- **C25** (the other direction, for a query of one function field). If every argument denotes a value for the parameter it names,
the function is called, first of all, with exactly these values. -/
theorem C25_called_partial (schema : RSchema F V) (env : Env F V W) (T : Obj F → V → Prop) (w w1 : W) (req : Request) (d : List Def) (o : Operation)
    (hs : Serves req d o) (ht : WellTyped schema env T) (hf : Fits schema (fragmentsOf d) o) (hv : VarsOK req.vars)
    (hk : o.kind = .query) (hd : o.dirs = []) {key : Bytes} {name : Option Bytes}
    {args : Option (List (Bytes × Value))} {sub : List Sel} (hsel : o.sels = [.field key name [] args sub])
    {f : RField F V} (hfind : schema.rootQuery.fields.find? (fun f => f.key = fnv1 (name.getD key)) = some f)
    {m : Method F} {out : Obj F} (hm : IsMethod f m out)
    {inputs : List (Arg F)} (hb : Shows.Inputs (showCtx schema env req d o) m (args.getD []) inputs) {outs : List V}
    (hc : env.call w (env.method schema.rootQueryValue f.structFieldIdx) (Shows.pathArg [.key key]) inputs = some (w1, outs)) :
    ∃ body es w' calls, Answers schema env w req (.ok (body, es) w') ∧
      History env w (⟨env.method schema.rootQueryValue f.structFieldIdx, Shows.pathArg [.key key], inputs⟩ :: calls) w' := by
  obtain ⟨F0, h0⟩ := evalOperation_total (r := reqOf schema env req d o) ht o hf
  obtain ⟨⟨out', crit⟩, es, h1, -⟩ := h0 F0 (Nat.le_refl _) ⟨[], w, false⟩
  have hr := resolve_eval F0 schema env (fun _ => schema.rootQueryValue) w req d o out' crit es hs.parsed hs.wf hs.regular hs.len hs.chosen h1
  suffices hx : ∃ calls, History env w1 calls es.world by
    obtain ⟨calls, hcalls⟩ := hx
    exact ⟨_, _, es.world, calls, Answers.of hr (by simp), .cons hc hcalls⟩
  unfold evalOperation at h1
  rw [hk, hd, hsel] at h1
  dsimp only at h1
  rw [if_neg (by simp)] at h1
  obtain ⟨⟨ms, c⟩, s1, k1, k2⟩ := E_bind.1 h1
  have e := E_pure.1 k2
  cases e
  cases F0 with
  | zero => simp only [evalSels] at k1; cases k1
  | succ F0 =>
    simp only [evalSels] at k1
    obtain ⟨⟨m1, c1⟩, s2, k3, k4⟩ := E_bind.1 k1
    have hrest : ∃ calls, History env s2.world calls es.world := by
      have hm : Made env (fun _ => True) (do
          if c1 then return (m1.toList, true)
          let (ms, crit) ← evalSels (reqOf schema env req d o) F0 schema.rootQuery schema.rootQueryValue 0 [] 255 []
          return (m1.toList ++ ms, crit) : E W (List (Bytes × Out) × Bool)) := by
        by_cases h : c1 = true
        · rw [if_pos h]; exact .pure
        · rw [if_neg h]
          exact Made.bind (((allMade (reqOf schema env req d o) F0).sels schema.rootQuery schema.rootQueryValue 0 [] 255 [] (Or.inl rfl)).mono
            (fun _ _ => trivial)) (fun _ => .pure)
      obtain ⟨calls, h, -⟩ := hm s2 _ _ k4
      exact ⟨calls, h⟩
    obtain ⟨g1, g2, g3⟩ := hm
    cases F0 with
    | zero => simp only [evalField] at k3; cases k3
    | succ fuel =>
      simp only [evalField] at k3
      obtain ⟨a, s1', l1, l2⟩ := E_bind.1 k3
      have e := E_pure.1 (show (Pure.pure (some false) : E W (Option Bool)) ⟨[], w, false⟩ = _ from l1)
      cases e
      dsimp only at l2
      have hfind' : (reqOf schema env req d o).schema.rootQuery.fields.find? (fun f => decide (f.key = fnv1 (name.getD key))) = some f := hfind
      rw [hfind'] at l2
      dsimp only at l2
      obtain ⟨x, s3, l3, l4⟩ := E_bind.1 l2
      unfold valueOfField at l3
      rw [g1, g2] at l3
      dsimp only at l3
      rw [if_pos g3] at l3
      have e := E_pure.1 l3
      cases e
      obtain ⟨⟨o1, c2⟩, s4, l5, l6⟩ := E_bind.1 l4
      have e := E_pure.1 l6
      cases e
      cases fuel with
      | zero => unfold evalData at l5; cases l5
      | succ fuel =>
        unfold evalData at l5
        rw [g2] at l5
        dsimp only at l5
        rw [if_neg (by simp [takesArgs]), if_neg (by simp [g3])] at l5
        unfold evalCall at l5
        obtain ⟨c, s5, l7, l8⟩ := E_bind.1 l5
        obtain ⟨b, hcall⟩ := callWith_eq (reqOf schema env req d o) hv [.key key] m (env.method schema.rootQueryValue f.structFieldIdx)
          (es := ⟨[], w, false⟩) hb hc
        have l7 : callWith (reqOf schema env req d o) [.key key] m (env.method schema.rootQueryValue f.structFieldIdx) (args.getD []) ⟨[], w, false⟩ = _ := l7
        rw [hcall] at l7
        cases l7
        have hnext : ∀ v, Made env (fun _ => True) (evalData (reqOf schema env req d o) fuel out v 0 [.key key] 254 none sub) := fun v =>
          ((allMade (reqOf schema env req d o) fuel).data f out v 0 [] 254 key name [] args none sub []
            ⟨schema.rootQuery, Or.inl rfl, hfind⟩ (fun _ _ h => by rw [g2]; exact .result h)).mono (fun _ _ => trivial)
        have hm : Made env (fun _ => True) (match m.errorOutNr with
            | none => evalResult (reqOf schema env req d o) [.key key] m outs (fun x => evalData (reqOf schema env req d o) fuel out x 0 [.key key] 254 none sub)
            | some nr => match outs[nr]? with
              | none => undefinedE
              | some e => do
                match (reqOf schema env req d o).env.errOf (← getWorld) e with
                | none => evalResult (reqOf schema env req d o) [.key key] m outs (fun x => evalData (reqOf schema env req d o) fuel out x 0 [.key key] 254 none sub)
                | some msg =>
                  report [.key key] msg
                  evalResult (reqOf schema env req d o) [.key key] m outs (fun x => evalData (reqOf schema env req d o) fuel out x 0 [.key key] 254 none sub)) := by
          have hres := evalResult_made (env := env) (P := fun _ => True) (reqOf schema env req d o) [.key key] m outs _ hnext
          cases m.errorOutNr with
          | none => exact hres
          | some nr =>
            dsimp only
            cases outs[nr]? with
            | none => exact .undefined
            | some e =>
              dsimp only
              refine Made.bind .getWorld ?_
              intro w
              cases (reqOf schema env req d o).env.errOf w e with
              | none => exact hres
              | some msg => exact Made.bind .report (fun _ => hres)
        obtain ⟨calls, hh, -⟩ := hm _ _ _ l8
        obtain ⟨calls2, hh2⟩ := hrest
        exact ⟨calls ++ calls2, History.append hh hh2⟩

end

/-! ## What literals become -/

/-- the type behind the pointers of a parameter -/
def peel : Input → Input
  | .ptr e => peel e
  | i => i

/-- `x`, of type `inp`, is `y` or a pointer (to a pointer ...) to `y` -/
inductive Behind {F : Type} : Input → InVal F → InVal F → Prop where
  | here {inp x} : (∀ e, inp ≠ .ptr e) → Behind inp x x
  | ptr {e x y} : Behind e x y → Behind (.ptr e) (.ptr (some x)) y

/-- literals that are neither null, variables, lists nor objects -/
def Plainly : Value → Prop
  | .int _ => True
  | .float _ => True
  | .str _ => True
  | .bool _ => True
  | .enum _ => True
  | _ => False

section
variable {F V W : Type}

theorem scalarLit_not_ptr {env : Env F V W} {enums : List (EnumDef F)} {v : Value} {e : Input} {x : InVal F} : ¬ ScalarLit env enums v (.ptr e) x := by
  intro h
  cases h with
  | str h => cases h

/-- a plain literal fills the variable behind the pointers -/
theorem lit_plain {env : Env F V W} {enums : List (EnumDef F)} {inTypes : List (Bytes × InStruct F)}
    {var : Bytes → Input → InVal F → InVal F → Bool → Prop} {v : Value} (hv : Plainly v) (inp : Input) :
    ∀ {cur x : InVal F} {set : Bool}, Lit env enums inTypes var v inp cur x set →
      set = true ∧ ∃ y, Behind inp x y ∧ ScalarLit env enums v (peel inp) y := by
  induction inp with
  | ptr e ih =>
    intro cur x set h
    cases h with
    | null => exact hv.elim
    | ptr _ h =>
      obtain ⟨-, y, h1, h2⟩ := ih h
      exact ⟨rfl, y, .ptr h1, h2⟩
    | ptrUnset _ h =>
      obtain ⟨h1, -⟩ := ih h
      cases h1
    | var h => exact hv.elim
    | scalar h => exact absurd h scalarLit_not_ptr
  | _ =>
    intro cur x set h
    cases h <;> first | exact hv.elim | (rename_i h; exact ⟨rfl, x, .here (by simp), h⟩)

/-- what a variable reference does to a parameter: its value is put behind the pointers; null leaves pointers alone -/
theorem lit_var {env : Env F V W} {enums : List (EnumDef F)} {inTypes : List (Bytes × InStruct F)}
    {var : Bytes → Input → InVal F → InVal F → Bool → Prop} {n : Bytes} (inp : Input) :
    ∀ {cur x : InVal F} {set : Bool}, Lit env enums inTypes var (.var n) inp cur x set →
      ∃ cur' y, var n (peel inp) cur' y set ∧ (set = true → Behind inp x y) ∧
        (set = false → (∃ e, inp = .ptr e) → x = cur) ∧ ((∀ e, inp ≠ .ptr e) → cur' = cur ∧ x = y) := by
  induction inp with
  | ptr e ih =>
    intro cur x set h
    cases h with
    | ptr _ h =>
      obtain ⟨cur', y, h1, h2, -⟩ := ih h
      exact ⟨cur', y, h1, fun _ => .ptr (h2 rfl), fun h => (by cases h), fun h => absurd rfl (h e)⟩
    | ptrUnset _ h =>
      obtain ⟨cur', y, h1, h2, -⟩ := ih h
      exact ⟨cur', y, h1, fun h => (by cases h), fun _ _ => rfl, fun h => absurd rfl (h e)⟩
    | var h _ => exact absurd rfl (h e)
    | scalar h => cases h
  | _ =>
    intro cur x set h
    cases h with
    | var _ h => exact ⟨cur, x, h, fun _ => .here (by simp), fun _ ⟨e, h⟩ => (by cases h), fun _ => ⟨rfl, rfl⟩⟩
    | scalar h => cases h

/-- `a` is the parameter of `m` named `k` -/
def Param (m : Method F) (k : Bytes) (a : ArgField) : Prop := m.inFields.find? (fun a => a.key = k) = some a

/-! ## C23 -/

/-- **C23.** In every call made (with inputs as `C25_calls_partial` describes them) an integer literal for a signed parameter of any
width, behind any number of pointers, is delivered as exactly that integer, which is in the range of the type. -/
theorem C23_signed_partial {c : Shows.Ctx F V W} {m : Method F} {args : List (Bytes × Value)} {inputs : List (Arg F)} (hg : Given c m args inputs)
    {k d : Bytes} {a : ArgField} (hk : (k, .int d) ∈ args) (ha : Param m k a) {w : Width} {e : Option Nat} {id : Bool}
    (hw : peel a.input = .scalar (.int w) e id) :
    ∃ i x, IntText d i ∧ InRange w i ∧ Holds inputs a x ∧ Behind a.input x (.scalar (.int i)) := by
  obtain ⟨zero, x, set, -, h2, h3⟩ := hg.value k _ a hk ha
  obtain ⟨-, y, h4, h5⟩ := lit_plain (v := .int d) trivial _ h2
  rw [hw] at h5
  cases h5 with
  | int h6 h7 => exact ⟨_, x, h6, h7, h3, h4⟩

/-- **C23** for unsigned parameters. -/
theorem C23_unsigned_partial {c : Shows.Ctx F V W} {m : Method F} {args : List (Bytes × Value)} {inputs : List (Arg F)} (hg : Given c m args inputs)
    {k d : Bytes} {a : ArgField} (hk : (k, .int d) ∈ args) (ha : Param m k a) {w : Width} {e : Option Nat} {id : Bool}
    (hw : peel a.input = .scalar (.uint w) e id) :
    ∃ n x, NatText d n ∧ InURange w n ∧ Holds inputs a x ∧ Behind a.input x (.scalar (.uint n)) := by
  obtain ⟨zero, x, set, -, h2, h3⟩ := hg.value k _ a hk ha
  obtain ⟨-, y, h4, h5⟩ := lit_plain (v := .int d) trivial _ h2
  rw [hw] at h5
  cases h5 with
  | uint h6 h7 => exact ⟨_, x, h6, h7, h3, h4⟩

/-- arguments one of which denotes nothing for its parameter are refused -/
theorem refused {c : Shows.Ctx F V W} {m : Method F} {args : List (Bytes × Value)} {k : Bytes} {v : Value} {a : ArgField}
    (hk : (k, v) ∈ args) (ha : Param m k a)
    (hn : ∀ cur x set, ¬ Lit c.env c.schema.enums c.schema.inTypes (Var c.env c.schema.enums c.schema.inTypes c.vars c.decls) v a.input cur x set) :
    ∀ inputs, ¬ Shows.Inputs c m args inputs := by
  intro inputs h
  unfold Shows.Inputs at h
  generalize (m.ins.map (fun i => match i with | .ctx => Arg.ctx | .struct z => Arg.val z)) = ins at h
  induction h with
  | nil => cases hk
  | cons hf hl _ _ ih =>
    rcases List.mem_cons.1 hk with e | hk
    · cases e
      unfold Param at ha
      rw [hf] at ha
      cases ha
      exact hn _ _ _ hl
    · exact ih hk

/-- an argument the function does not declare is refused -/
theorem refused_unknown {c : Shows.Ctx F V W} {m : Method F} {args : List (Bytes × Value)} {k : Bytes} {v : Value}
    (hk : (k, v) ∈ args) (ha : ∀ a ∈ m.inFields, a.key ≠ k) : ∀ inputs, ¬ Shows.Inputs c m args inputs := by
  intro inputs h
  unfold Shows.Inputs at h
  generalize (m.ins.map (fun i => match i with | .ctx => Arg.ctx | .struct z => Arg.val z)) = ins at h
  induction h with
  | nil => cases hk
  | cons hf hl _ _ ih =>
    rcases List.mem_cons.1 hk with e | hk
    · cases e
      exact ha _ (List.mem_of_find?_eq_some hf) (by simpa using List.find?_some hf)
    · exact ih hk

/-- **C23** (rejection): a literal that is not an integer of the parameter's range cannot be bound: no call is made with it, and the
request reports an error (C26, `C26_unbound_query_partial`). -/
theorem C23_rejected_partial {c : Shows.Ctx F V W} {m : Method F} {args : List (Bytes × Value)}
    {k d : Bytes} {a : ArgField} (hk : (k, .int d) ∈ args) (ha : Param m k a) {w : Width} {e : Option Nat} {id : Bool}
    (hw : (peel a.input = .scalar (.int w) e id ∧ ∀ i, IntText d i → ¬ InRange w i) ∨
      (peel a.input = .scalar (.uint w) e id ∧ ∀ n, NatText d n → ¬ InURange w n)) :
    ∀ inputs, ¬ Shows.Inputs c m args inputs := by
  refine refused hk ha ?_
  intro cur x set h
  obtain ⟨-, y, h4, h5⟩ := lit_plain (v := .int d) trivial _ h
  rcases hw with ⟨hw, hr⟩ | ⟨hw, hr⟩
  · rw [hw] at h5
    cases h5 with
    | int h6 h7 => exact hr _ h6 h7
  · rw [hw] at h5
    cases h5 with
    | uint h6 h7 => exact hr _ h6 h7

/-! ## C08, delivery -/

/-- **C08** (delivery): a string literal is delivered to a string parameter with exactly its content. -/
theorem C08_delivered_partial {c : Shows.Ctx F V W} {m : Method F} {args : List (Bytes × Value)} {inputs : List (Arg F)} (hg : Given c m args inputs)
    {k s : Bytes} {a : ArgField} (hk : (k, .str s) ∈ args) (ha : Param m k a) (hw : peel a.input = .scalar .string none false) :
    ∃ x, Holds inputs a x ∧ Behind a.input x (.scalar (.string s)) := by
  obtain ⟨zero, x, set, -, h2, h3⟩ := hg.value k _ a hk ha
  obtain ⟨-, y, h4, h5⟩ := lit_plain (v := .str s) trivial _ h2
  rw [hw] at h5
  cases h5 with
  | str h6 =>
    cases h6 with
    | string => exact ⟨x, h3, h4⟩

/-! ## C27 -/

/-- **C27** (input): a key given for an enum parameter, as enum or string literal, is delivered as the Go value registered under it. -/
theorem C27_key_delivered_partial {c : Shows.Ctx F V W} {m : Method F} {args : List (Bytes × Value)} {inputs : List (Arg F)} (hg : Given c m args inputs)
    {k key : Bytes} {v : Value} (hv : v = .enum key ∨ v = .str key) {a : ArgField} (hk : (k, v) ∈ args) (ha : Param m k a)
    {kd : Kind} {e : Nat} {id : Bool} (hw : peel a.input = .scalar kd (some e) id) :
    ∃ s x, EnumValue c.schema.enums e key s ∧ Holds inputs a x ∧ Behind a.input x (.scalar s) := by
  obtain ⟨zero, x, set, -, h2, h3⟩ := hg.value k _ a hk ha
  obtain ⟨-, y, h4, h5⟩ := lit_plain (by rcases hv with rfl | rfl <;> trivial) _ h2
  rw [hw] at h5
  rcases hv with rfl | rfl
  · cases h5 with
    | enum h6 => exact ⟨_, x, h6, h3, h4⟩
  · cases h5 with
    | str h6 =>
      cases h6 with
      | enum h7 => exact ⟨_, x, h7, h3, h4⟩

/-- **C27** (unknown keys): a key that is not registered is refused, as literal and as string. -/
theorem C27_unknown_key_partial {c : Shows.Ctx F V W} {m : Method F} {args : List (Bytes × Value)}
    {k key : Bytes} {v : Value} (hv : v = .enum key ∨ v = .str key) {a : ArgField} (hk : (k, v) ∈ args) (ha : Param m k a)
    {kd : Kind} {e : Nat} {id : Bool} (hw : peel a.input = .scalar kd (some e) id)
    (hu : ∀ s, ¬ EnumValue c.schema.enums e key s) : ∀ inputs, ¬ Shows.Inputs c m args inputs := by
  refine refused hk ha ?_
  intro cur x set h
  obtain ⟨-, y, h4, h5⟩ := lit_plain (by rcases hv with rfl | rfl <;> trivial) _ h
  rw [hw] at h5
  rcases hv with rfl | rfl
  · cases h5 with
    | enum h6 => exact hu _ h6
  · cases h5 with
    | str h6 =>
      cases h6 with
      | enum h7 => exact hu _ h7

/-- what JSON can be for an enum parameter: the text of a registered key -/
theorem json_enum {env : Env F V W} {enums : List (EnumDef F)} {inTypes : List (Bytes × InStruct F)} {j : Http.J} {kd : Kind} {e : Nat} {id : Bool}
    {cur x : InVal F} {set : Bool} (h : FromJSON env enums inTypes j (.scalar kd (some e) id) cur x set) :
    ∃ key s, j = .str key ∧ set = true ∧ EnumValue enums e key s ∧ x = .scalar s := by
  cases h with
  | null h _ => exact absurd (Or.inl rfl) h
  | str h =>
    cases h with
    | enum h => exact ⟨_, _, rfl, rfl, h, rfl⟩

/-- **C27** (variables): the value supplied for an enum parameter must be a registered key, and is delivered as the Go value registered
under it. -/
theorem C27_variable_partial {c : Shows.Ctx F V W} {m : Method F} {args : List (Bytes × Value)} {inputs : List (Arg F)} (hg : Given c m args inputs)
    {k n : Bytes} {a : ArgField} (hk : (k, .var n) ∈ args) (ha : Param m k a) {kd : Kind} {e : Nat} {id : Bool}
    (hw : peel a.input = .scalar kd (some e) id) {j : Http.J} (hj : Supplied c.vars n = some j) :
    ∃ key s x, j = .str key ∧ EnumValue c.schema.enums e key s ∧ Holds inputs a x ∧ Behind a.input x (.scalar s) := by
  obtain ⟨zero, x, set, -, h2, h3⟩ := hg.value k _ a hk ha
  obtain ⟨cur', y, h4, h5, -⟩ := lit_var _ h2
  rw [hw] at h4
  cases h4 with
  | supplied _ _ h6 h7 =>
    rw [hj] at h6
    cases h6
    obtain ⟨key, s, rfl, rfl, h8, rfl⟩ := json_enum h7
    exact ⟨key, s, x, rfl, h8, h3, h5 rfl⟩
  | default _ _ h6 => rw [hj] at h6; cases h6

/-- **C27** (output): a Go value of an enum is shown as a key registered for it, and as nothing else; null if there is none. -/
theorem C27_shown {c : Shows.Ctx F V W} {w w' : W} {idx : Nat} {v : V} {p : List Seg} {args : Option (List (Bytes × Value))} {sels : List Sel} {out : Out}
    (h : Shows.Shows c w (.enum idx) v p args sels out w') :
    ∃ e x, c.schema.enums[idx]? = some e ∧ c.env.view w v = .scalar x ∧
      ((∃ k, (k, x) ∈ e.entries ∧ out = .leaf (Shows.quoted k)) ∨ (out = .null ∧ ((∀ k, (k, x) ∉ e.entries) ∨ e.kind = .bool ∨ e.kind = .float32 ∨ e.kind = .float64))) := by
  cases h with
  | enum h1 h2 h3 h4 h5 => exact ⟨_, _, h1, h2, Or.inl ⟨_, by rw [h4]; simp, rfl⟩⟩
  | noEnum h1 h2 h3 =>
    refine ⟨_, _, h1, h2, Or.inr ⟨rfl, ?_⟩⟩
    rcases h3 with h3 | h3
    · exact Or.inl (fun k hk => h3 _ hk rfl)
    · exact Or.inr h3

/-- **C27** (round trip): what is delivered for a key is shown as that key, if no two keys have the same Go value. -/
theorem C27_round_trip {c : Shows.Ctx F V W} {w w' : W} {idx : Nat} {v : V} {p : List Seg} {args : Option (List (Bytes × Value))} {sels : List Sel} {out : Out}
    {key : Bytes} {x : Scalar F} (hd : EnumValue c.schema.enums idx key x) (hx : c.env.view w v = .scalar x)
    (hinj : ∀ e, c.schema.enums[idx]? = some e → ∀ k k' y, (k, y) ∈ e.entries → (k', y) ∈ e.entries → k = k')
    (h : Shows.Shows c w (.enum idx) v p args sels out w') : out = .leaf (Shows.quoted key) := by
  obtain ⟨e, h1, h2, h3⟩ := hd
  have hm := List.mem_of_find?_eq_some h3
  obtain ⟨e', x', k1, k2, k3⟩ := C27_shown h
  rw [h1] at k1
  cases k1
  rw [hx] at k2
  cases k2
  rcases k3 with ⟨k, hk, rfl⟩ | ⟨-, hn⟩
  · rw [hinj e h1 k key x hk hm]
  · rcases hn with hn | hn
    · exact absurd hm (hn key)
    · rcases h2 with h2 | ⟨w, h2⟩ | ⟨w, h2⟩ <;> rw [h2] at hn <;> simp at hn

/-! ## C29 -/

/-- **C29.** In every call made, an argument `$n` fills its parameter with the value supplied for `n` in the variables object, if there is
one, and with the declared default otherwise (`Binding.Var`); `n` is declared, with a type that fits. Null leaves pointers nil. -/
theorem C29_variable_partial {c : Shows.Ctx F V W} {m : Method F} {args : List (Bytes × Value)} {inputs : List (Arg F)} (hg : Given c m args inputs)
    {k n : Bytes} {a : ArgField} (hk : (k, .var n) ∈ args) (ha : Param m k a) :
    ∃ decl zero cur x y set, c.decls.find? (fun d => d.name = n) = some decl ∧ DeclFits c.schema.enums decl.ty (peel a.input) ∧
      Holds (zeros m) a zero ∧ Holds inputs a x ∧ (set = true → Behind a.input x y) ∧ (set = false → (∃ e, a.input = .ptr e) → x = zero) ∧
      ((∀ e, a.input ≠ .ptr e) → cur = zero ∧ x = y) ∧
      (match Supplied c.vars n with
        | some j => FromJSON c.env c.schema.enums c.schema.inTypes j (peel a.input) cur y set
        | none => ∃ v, decl.default = some v ∧ Lit c.env c.schema.enums c.schema.inTypes noVar v (peel a.input) cur y set) := by
  obtain ⟨zero, x, set, h1, h2, h3⟩ := hg.value k _ a hk ha
  obtain ⟨cur, y, h4, h5, h6, h7⟩ := lit_var _ h2
  cases h4 with
  | supplied g1 g2 g3 g4 => exact ⟨_, zero, cur, x, y, set, g1, g2, h1, h3, h5, h6, h7, by rw [g3]; exact g4⟩
  | default g1 g2 g3 g4 g5 => exact ⟨_, zero, cur, x, y, set, g1, g2, h1, h3, h5, h6, h7, by rw [g3]; exact ⟨_, g4, g5⟩⟩

/-- **C29** (errors): a variable that is not declared, or has neither value nor default, is refused. -/
theorem C29_refused_partial {c : Shows.Ctx F V W} {m : Method F} {args : List (Bytes × Value)} {k n : Bytes} {a : ArgField}
    (hk : (k, .var n) ∈ args) (ha : Param m k a)
    (hn : (∀ d ∈ c.decls, d.name ≠ n) ∨
      (Supplied c.vars n = none ∧ ∀ d, c.decls.find? (fun d => d.name = n) = some d → d.default = none)) :
    ∀ inputs, ¬ Shows.Inputs c m args inputs := by
  refine refused hk ha ?_
  intro cur x set h
  obtain ⟨cur, y, h4, -⟩ := lit_var _ h
  cases h4 with
  | supplied g1 g2 g3 g4 =>
    rcases hn with hn | ⟨hn, -⟩
    · exact hn _ (List.mem_of_find?_eq_some g1) (by simpa using List.find?_some g1)
    · rw [hn] at g3; cases g3
  | default g1 g2 g3 g4 g5 =>
    rcases hn with hn | ⟨-, hn⟩
    · exact hn _ (List.mem_of_find?_eq_some g1) (by simpa using List.find?_some g1)
    · rw [hn _ g1] at g4; cases g4

/-! ## C24 -/

/-- **C24** for signed parameters: a JSON number supplied for a variable is delivered as exactly that integer, which is in range. -/
theorem C24_signed_partial {c : Shows.Ctx F V W} {m : Method F} {args : List (Bytes × Value)} {inputs : List (Arg F)} (hg : Given c m args inputs)
    {k n r : Bytes} {a : ArgField} (hk : (k, .var n) ∈ args) (ha : Param m k a) {w : Width}
    (hw : peel a.input = .scalar (.int w) none false) (hj : Supplied c.vars n = some (.num r)) :
    ∃ i x, IntText r i ∧ InRange w i ∧ Holds inputs a x ∧ Behind a.input x (.scalar (.int i)) := by
  obtain ⟨zero, x, set, -, h2, h3⟩ := hg.value k _ a hk ha
  obtain ⟨cur', y, h4, h5, -⟩ := lit_var _ h2
  rw [hw] at h4
  cases h4 with
  | supplied _ _ h6 h7 =>
    rw [hj] at h6
    cases h6
    cases h7 with
    | int h8 _ h9 => exact ⟨_, x, h8, h9, h3, h5 rfl⟩
  | default _ _ h6 => rw [hj] at h6; cases h6

/-- **C24** for unsigned parameters: the integer is delivered modulo the size of the type, hence exactly if it is in range.
(The full claim is false: numbers out of range are wrapped, see `C24_refuted`.) -/
theorem C24_unsigned_partial {c : Shows.Ctx F V W} {m : Method F} {args : List (Bytes × Value)} {inputs : List (Arg F)} (hg : Given c m args inputs)
    {k n r : Bytes} {a : ArgField} (hk : (k, .var n) ∈ args) (ha : Param m k a) {w : Width}
    (hw : peel a.input = .scalar (.uint w) none false) (hj : Supplied c.vars n = some (.num r)) :
    ∃ (i u : Nat) (x : InVal F), IntText r i ∧ (i < 2 ^ w.bits → u = i) ∧ UTruncates w i u ∧ Holds inputs a x ∧ Behind a.input x (.scalar (.uint u)) := by
  obtain ⟨zero, x, set, -, h2, h3⟩ := hg.value k _ a hk ha
  obtain ⟨cur', y, h4, h5, -⟩ := lit_var _ h2
  rw [hw] at h4
  cases h4 with
  | supplied _ _ h6 h7 =>
    rw [hj] at h6
    cases h6
    cases h7 with
    | @uint _ i _ u _ h8 _ h9 h10 =>
      refine ⟨i.toNat, u, x, by rw [Int.toNat_of_nonneg h9]; exact h8, ?_, h10, h3, h5 rfl⟩
      intro hlt
      obtain ⟨l1, l2⟩ := h10
      unfold InURange at l1
      have l3 := Int.emod_emod_of_dvd
      obtain ⟨q, hq⟩ := l2
      have p : (2 : Int) ^ w.bits = ((2 ^ w.bits : Nat) : Int) := by push_cast; rfl
      rw [p] at hq
      generalize 2 ^ w.bits = b at *
      have : q = 0 := by
        rcases Int.lt_trichotomy q 0 with h | h | h
        · have : (b : Int) * q ≤ (b : Int) * (-1) := Int.mul_le_mul_of_nonneg_left (by omega) (by omega)
          omega
        · exact h
        · have : (b : Int) * 1 ≤ (b : Int) * q := Int.mul_le_mul_of_nonneg_left (by omega) (by omega)
          omega
      subst this
      omega
  | default _ _ h6 => rw [hj] at h6; cases h6

end

/-! ## The hypotheses are met, and what is false

On the schema of `Spec/ArgsDemo.lean`. -/

namespace ArgsDemo
open Demo (D World noStack request query f)

/-- number of errors, and for every call the function and its inputs -/
def calls (req : Request) : Option (Nat × List (Nat × List (Arg Unit))) :=
  (ask req).map (fun (_, n, w) => (n, w.map (fun (id, _, inputs) => (id, inputs))))

/-- the integers in the inputs of the only call -/
def uintOf (req : Request) : Option (Nat × Nat) :=
  match calls req with
  | some (n, [(0, [.val (.struct [.scalar (.uint k)])])]) => some (n, k)
  | _ => none
def intOf (req : Request) : Option (Nat × Int) :=
  match calls req with
  | some (n, [(3, [.val (.struct [.scalar (.int k)])])]) => some (n, k)
  | _ => none
def sumOf (req : Request) : Option (Nat × List (Option Int) × Int) :=
  match calls req with
  | some (n, [(1, [.val (.struct [.slice (some xs), .scalar (.int k)])])]) =>
    some (n, xs.map (fun x => match x with | .scalar (.int i) => some i | _ => none), k)
  | _ => none
/-- `some none`: the pointer is nil -/
def optOf (req : Request) : Option (Nat × Option Int) :=
  match calls req with
  | some (n, [(2, [.val (.struct [.ptr none])])]) => some (n, none)
  | some (n, [(2, [.val (.struct [.ptr (some (.struct [.scalar (.int k), .ptr none]))])])]) => some (n, some k)
  | _ => none
def strOf (req : Request) : Option (Nat × Bytes) :=
  match calls req with
  | some (n, [(4, [.val (.struct [.scalar (.string s)])])]) => some (n, s)
  | _ => none
/-- requests answered with errors and without any call -/
def refusedWith (req : Request) : Option Nat :=
  match calls req with
  | some (n, []) => some n
  | _ => none

/-! ### C23, C25: the theorems apply -/

def opSum : Operation := opCall b%"sum" [(b%"y", .int b%"3"), (b%"xs", .list [.int b%"1", .int b%"2"])]
def reqSum : Request := request b%"{sum(y:3,xs:[1,2]) other:u8(x:200)}"
def opSum2 : Operation := query [.field b%"sum" none [] (some [(b%"y", .int b%"3"), (b%"xs", .list [.int b%"1", .int b%"2"])]) [],
  .field b%"other" (some b%"u8") [] (some [(b%"x", .int b%"200")]) []]
theorem servesSum : Serves reqSum [.op opSum2] opSum2 := Check.serves (by decide +kernel) rfl

theorem separate_sum : Separate sum := by
  intro a ha b hb h1 h2
  simp [sum] at ha hb
  rcases ha with rfl | rfl <;> rcases hb with rfl | rfl <;> first | rfl | simp at h2

/-- the hypotheses of `C25_calls_partial` are met by a request with two calls ... -/
example (fuel : Nat) (vals : UInt8 → D) (body : Bytes) (es : List ReqErr) (w' : World)
    (h : resolve fuel schema env vals [] reqSum = .ok (body, es) w') :
    ∃ calls, History env [] calls w' ∧ ∀ c ∈ calls, ∃ m args, Due (showCtx schema env reqSum [.op opSum2] opSum2) opSum2 c m args ∧
      (Separate m → (args.map (·.1)).Nodup → Given (showCtx schema env reqSum [.op opSum2] opSum2) m args c.inputs) :=
  C25_calls_partial schema env HasType [] w' reqSum [.op opSum2] opSum2 fuel vals body es servesSum wellTyped (fits (by decide +kernel)) h

/-- ... which is answered without error after two calls -/
example : (calls reqSum).map (fun (n, cs) => (n, cs.map (·.1))) = some (0, [1, 0]) := by decide +kernel

/-- inputs as `Given` describes them exist -/
theorem given_u8 : Given (showCtx schema env reqSum [.op opSum2] opSum2) u8 [(b%"x", .int b%"200")] [.val (.struct [.scalar (.uint 200)])] := by
  have hx : NatText b%"200" 200 := by
    refine ⟨by decide, ?_, by decide⟩
    unfold Digits
    decide
  refine ⟨?_, ?_, ?_⟩
  · intro k v h
    simp only [List.mem_singleton, Prod.mk.injEq] at h
    obtain ⟨rfl, rfl⟩ := h
    exact ⟨⟨b%"x", 0, 0, .scalar (.uint .w8) none false⟩, by simp [u8], rfl⟩
  · intro k v a h ha
    simp only [List.mem_singleton, Prod.mk.injEq] at h
    obtain ⟨rfl, rfl⟩ := h
    have e : some _ = some a := ha
    cases e
    exact ⟨.scalar (.uint 0), .scalar (.uint 200), true, ⟨_, rfl, rfl⟩, .scalar (.uint hx (by unfold InURange; decide)), ⟨_, rfl, rfl⟩⟩
  · intro a ha hk
    simp [u8] at ha
    subst ha
    simp at hk

/-- and `C23_unsigned_partial` applies to them -/
example : ∃ n x, NatText b%"200" n ∧ InURange .w8 n ∧ Holds [Arg.val (InVal.struct [InVal.scalar (F := Unit) (.uint 200)])] ⟨b%"x", 0, 0, .scalar (.uint .w8) none false⟩ x ∧
    Behind (.scalar (.uint .w8) none false) x (.scalar (.uint n)) :=
  C23_unsigned_partial given_u8 (List.mem_singleton.2 rfl) (a := ⟨b%"x", 0, 0, .scalar (.uint .w8) none false⟩) rfl rfl

/-- 300 is refused for `uint8` -/
example (c : Shows.Ctx Unit D World) : ∀ inputs, ¬ Shows.Inputs c u8 [(b%"x", .int b%"300")] inputs :=
  C23_rejected_partial (List.mem_singleton.2 rfl) (a := ⟨b%"x", 0, 0, .scalar (.uint .w8) none false⟩) rfl (w := .w8) (e := none) (id := false)
    (Or.inr ⟨rfl, fun n hn hr => by
      obtain ⟨-, -, hn⟩ := hn
      unfold InURange at hr
      have e : n = 300 := hn.symm
      subst e
      exact absurd hr (by decide)⟩)
example : refusedWith (request b%"{u8(x:300)}") = some 1 := by decide +kernel

/-- the message names the type of the parameter, or, for a string, its current content (empty unless the argument is given twice) -/
example : (match resolve 300 schema env noStack [] (request b%"{say(s:\"ab\",s:1)}") with
    | .ok (_, [.exec e]) _ => some e.msg | _ => none) = some b%"cannot assign int to ab" := by decide +kernel
example : (match resolve 300 schema env noStack [] (request b%"{say(s:1)}") with
    | .ok (_, [.exec e]) _ => some e.msg | _ => none) = some b%"cannot assign int to " := by decide +kernel
example : uintOf (request b%"{u8(x:255)}") = some (0, 255) := by decide +kernel

/-- a parameter without argument has its zero value -/
example : sumOf (request b%"{sum(xs:[1,2])}") = some (0, [some 1, some 2], 0) := by decide +kernel

/-! ### C24 -/

example : uintOf (requestV b%"query($v:Int){u8(x:$v)}" [(b%"v", .num b%"30")]) = some (0, 30) := by decide +kernel
example : refusedWith (requestV b%"query($v:Int){u8(x:$v)}" [(b%"v", .num b%"-30")]) = some 1 := by decide +kernel

/-- **C24 is false for unsigned parameters**: the JSON number 300 is not refused for `uint8`; the function is called with 44 and no error
is reported. -/
theorem C24_refuted : uintOf (requestV b%"query($v:Int){u8(x:$v)}" [(b%"v", .num b%"300")]) = some (0, 44) := by decide +kernel

/-! ### C25 -/

/-- **C25 is false in general**: of the arguments `(xs:[1,2], y:3)` the second is lost: `y` is delivered as 0. -/
theorem C25_refuted_list : (sumOf (request b%"{sum(xs:[1,2],y:3)}")).map (·.2) = some ([some 1, some 2], 0) := by decide +kernel

/-- in the other order both arrive -/
example : sumOf (request b%"{sum(y:3,xs:[1,2]) color}") = some (0, [some 1, some 2], 3) := by decide +kernel

/-- **C25 is false in general**: an object literal that ends in a null member is not delivered to a pointer parameter, although its
other members have values; the function sees a nil pointer and no error is reported. -/
theorem C25_refuted_null : optOf (request b%"{opt(p:{a:1,b:null})}") = some (0, none) ∧
    optOf (request b%"{opt(p:{b:null,a:1})}") = some (0, some 1) := by decide +kernel

/-! ### C27 -/

example : intOf (request b%"{paint(c:BLUE)}") = some (0, 2) := by decide +kernel
example : intOf (request b%"{paint(c:\"RED\")}") = some (0, 1) := by decide +kernel
example : refusedWith (request b%"{paint(c:GREEN)}") = some 1 := by decide +kernel
example : intOf (requestV b%"query($v:Color){paint(c:$v)}" [(b%"v", .str b%"BLUE")]) = some (0, 2) := by decide +kernel

/-- **C27 is false in general**: an integer literal for an enum whose Go type is an integer is delivered unchecked: 7 is the Go value of
no key of `Color`. -/
theorem C27_refuted : intOf (request b%"{paint(c:7)}") = some (0, 7) ∧ ∀ k, (k, Scalar.int 7) ∉ color.entries := by
  refine ⟨by decide +kernel, ?_⟩
  intro k h
  simp [color] at h

/-- the hypotheses of `C27_round_trip` are met: no two keys of `Color` have the same value -/
example : EnumValue schema.enums 0 b%"BLUE" (.int 2) ∧
    ∀ e, schema.enums[0]? = some e → ∀ k k' y, (k, y) ∈ e.entries → (k', y) ∈ e.entries → k = k' := by
  refine ⟨⟨color, rfl, Or.inr (Or.inl ⟨.w64, rfl⟩), rfl⟩, ?_⟩
  intro e h k k' y h1 h2
  have e' : some color = some e := h
  cases e'
  simp [color] at h1 h2
  rcases h1 with ⟨rfl, rfl⟩ | ⟨rfl, rfl⟩ <;> rcases h2 with ⟨rfl, h⟩ | ⟨rfl, h⟩ <;> first | rfl | simp at h

/-! ### C29 -/

example : uintOf (requestV b%"query($v:Int=4){u8(x:$v)}" []) = some (0, 4) := by decide +kernel
example : uintOf (requestV b%"query($v:Int=4){u8(x:$v)}" [(b%"v", .num b%"9")]) = some (0, 9) := by decide +kernel
example : refusedWith (requestV b%"query($v:Int){u8(x:$v)}" []) = some 1 := by decide +kernel
example : refusedWith (requestV b%"{u8(x:$v)}" [(b%"v", .num b%"9")]) = some 1 := by decide +kernel

/-! ### C08 -/

example : strOf (request b%"{say(s:\"a\\u00e9\\\"b\")}") = some (0, b%"aé\"b") := by decide +kernel

/-- **C08 is false in general**: a string literal with a NUL character, written as an escape, makes the rest of the query be misread. -/
theorem C08_refuted_execution : refusedWith (request b%"{say(s:\"ab\\u0000cd\")}") = some 1 := by decide +kernel

end ArgsDemo
end Yarql
