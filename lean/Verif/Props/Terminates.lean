import Verif.Props.Respond

/-!
# Termination: C19
-/

namespace Yarql
open Doc Resolver Eval Typed Yarql.Bind

section
variable {F V W : Type} [DecidableEq F]

/-- **C19.** A served request whose selections expand to finitely deep ones within the value stack is answered: `Resolve` returns, with a
response, not with a panic. -/
theorem C19_answered_partial (schema : RSchema F V) (env : Env F V W) (T : Obj F → V → Prop) (w : W) (req : Request) (d : List Def) (o : Operation)
    (hs : Serves req d o) (ht : WellTyped schema env T) (hf : Fits schema (fragmentsOf d) o) :
    ∃ body es w', Answers schema env w req (.ok (body, es) w') := by
  obtain ⟨out, errs, w', h, -⟩ := respond schema env T w req d o hs ht hf
  exact ⟨_, _, w', h⟩

/-- **C19** (the depth limit). If the schema has no interfaces and the depth limit keeps values on the value stack, every request in which
cycles of fragments pass through fields (`fragment F on User {friend {...F}}`) is answered, however deep its selections nest and also if the data
is cyclic. -/
theorem C19_guarded_partial (schema : RSchema F V) (env : Env F V W) (T : Obj F → V → Prop) (w : W) (req : Request) (d : List Def) (o : Operation)
    (hs : Serves req d o) (ht : WellTyped schema env T) (hi : ∀ f, IsField schema f → noInterface f.obj = true) (k : Nat)
    (hk : ∀ f, IsField schema f → slots f.obj ≤ k) (hpos : 0 < schema.maxDepth.toNat) (hdepth : schema.maxDepth.toNat * (k + 1) ≤ 255)
    (hg : Guarded (fragmentsOf d)) : ∃ body es w', Answers schema env w req (.ok (body, es) w') :=
  C19_answered_partial schema env T w req d o hs ht ⟨k, hk, Or.inr ⟨hi, hpos, hdepth, unfolds_of_guarded hg _ _⟩⟩

/-- **C19** (no fragment cycles): a special case. -/
theorem C19_acyclic_partial (schema : RSchema F V) (env : Env F V W) (T : Obj F → V → Prop) (w : W) (req : Request) (d : List Def) (o : Operation)
    (hs : Serves req d o) (ht : WellTyped schema env T) (hi : ∀ f, IsField schema f → noInterface f.obj = true) (k : Nat)
    (hk : ∀ f, IsField schema f → slots f.obj ≤ k) (hpos : 0 < schema.maxDepth.toNat) (hdepth : schema.maxDepth.toNat * (k + 1) ≤ 255)
    (hacyclic : Acyclic (fragmentsOf d)) : ∃ body es w', Answers schema env w req (.ok (body, es) w') :=
  C19_guarded_partial schema env T w req d o hs ht hi k hk hpos hdepth hacyclic.guarded

/-! ## Fragment cycles -/

/-- `{...a} fragment a on Q{...a}` -/
def cyclicQuery : Bytes := b%"{...a} fragment a on Q{...a}"

def cyclicDoc : List Def := [.op ⟨.query, [], none, [], [.spread b%"a" []]⟩, .frag ⟨b%"a", b%"Q", [.spread b%"a" []]⟩]

theorem cyclic_res : (match Parser.parseQuery cyclicQuery none with
    | .ok () p => p.errs.isEmpty && p.targetIdx == some 0 && p.res == encDoc cyclicDoc && p.frags == fragPositions 0 cyclicDoc
    | _ => false) = true := by decide +kernel


/-- at the spread inside the fragment, every run comes back to the same place -/
theorem cyclic_loop (schema : RSchema F V) (env : Env F V W) (vars : VarsSrc) (t : RType F V) (ht : t.typeName = b%"Q") (dept : UInt8) (ff : Bool)
    (n : Nat) : ∀ s : RS V W, s.charNr = 22 →
      resolveSelectionSet n t dept ff ⟨encDoc cyclicDoc, [17], schema, env, vars⟩ s = .oof := by
  induction n using Nat.strongRecOn with
  | _ n ih =>
    intro s hs
    match n with
    | 0 => rfl
    | 1 =>
      obtain ⟨charNr, path, out, errs, vals, idx, vp, ha, as, w⟩ := s
      cases hs
      rfl
    | n + 2 =>
      obtain ⟨charNr, path, out, errs, vals, idx, vp, ha, as, w⟩ := s
      cases hs
      have h := ih n (by omega) ⟨22, path, out, errs, vals, idx, vp, ha, as, w⟩ rfl
      obtain ⟨tn, tf⟩ := t
      cases ht
      simp only [resolveSelectionSet]
      show (M.bind (resolveSpread (n+1) ⟨b%"Q", tf⟩ dept ff) _) _ ⟨23, path, out, errs, vals, idx, vp, ha, as, w⟩ = _
      unfold M.bind
      have hsp : resolveSpread (n+1) ⟨b%"Q", tf⟩ dept ff ⟨encDoc cyclicDoc, [17], schema, env, vars⟩ ⟨23, path, out, errs, vals, idx, vp, ha, as, w⟩ = R.oof := by
        simp only [resolveSpread]
        show (M.bind (resolveSelectionSet n ⟨b%"Q", tf⟩ dept ff) _) _ ⟨22, path, out, errs, vals, idx, vp, ha, as, w⟩ = _
        unfold M.bind
        rw [h]
      rw [hsp]

/-- **C19 refuted** by fragment cycles. The parser accepts `{...a} fragment a on Q{...a}`, and whatever the schema (with a query root named
`Q`), the data and the functions: `Resolve` recurses without end. -/
theorem C19_refuted_by_cycle (schema : RSchema F V) (env : Env F V W) (w : W) (noMeta : Bool) (vars : VarsSrc) (hq : schema.rootQuery.typeName = b%"Q") :
    Serves ⟨cyclicQuery, [], noMeta, vars⟩ cyclicDoc ⟨.query, [], none, [], [.spread b%"a" []]⟩ ∧
    Diverges schema env w ⟨cyclicQuery, [], noMeta, vars⟩ := by
  constructor
  · have h : Serves ⟨cyclicQuery, [], false, .empty⟩ cyclicDoc ⟨.query, [], none, [], [.spread b%"a" []]⟩ := Check.serves (by decide +kernel) rfl
    exact ⟨h.parsed, h.wf, h.regular, h.len, h.chosen⟩
  · intro fuel vals
    have hp := cyclic_res
    unfold resolve
    dsimp only
    rw [if_pos rfl]
    cases h : Parser.parseQuery cyclicQuery none with
    | panic => rw [h] at hp; cases hp
    | oof => rfl
    | ok u p =>
      rw [h] at hp
      simp only [Bool.and_eq_true, beq_iff_eq] at hp
      obtain ⟨⟨⟨h1, h2⟩, h3⟩, h4⟩ := hp
      dsimp only
      rw [if_pos h1, h2]
      dsimp only
      rw [h3, h4]
      have hpos : fragPositions 0 cyclicDoc = [17] := by decide +kernel
      rw [hpos]
      obtain ⟨types, ifaces, inTypes, ⟨tn, tf⟩, rm, rqv, rmv, md, en, dirs⟩ := schema
      cases hq
      generalize hsc : (⟨types, ifaces, inTypes, ⟨b%"Q", tf⟩, rm, rqv, rmv, md, en, dirs⟩ : RSchema F V) = schema
      have hrq : schema.rootQuery = ⟨b%"Q", tf⟩ := by rw [← hsc]
      have hrun : ∀ s : RS V W, s.charNr = 6 → resolveSelectionSet fuel schema.rootQuery 0 true ⟨encDoc cyclicDoc, [17], schema, env, vars⟩ s = .oof := by
        intro s hs
        rw [hrq]
        match fuel with
        | 0 => rfl
        | 1 =>
          obtain ⟨charNr, path, out, errs, vals, idx, vp, ha, as, w⟩ := s
          cases hs
          rfl
        | n + 2 =>
          obtain ⟨charNr, path, out, errs, vals, idx, vp, ha, as, w⟩ := s
          cases hs
          have h := cyclic_loop schema env vars ⟨b%"Q", tf⟩ rfl 0 true n ⟨22, path, out, errs, vals, idx, vp, ha, as, w⟩ rfl
          simp only [resolveSelectionSet]
          show (M.bind (resolveSpread (n+1) ⟨b%"Q", tf⟩ 0 true) _) _ ⟨7, path, out, errs, vals, idx, vp, ha, as, w⟩ = _
          unfold M.bind
          have hsp : resolveSpread (n+1) ⟨b%"Q", tf⟩ 0 true ⟨encDoc cyclicDoc, [17], schema, env, vars⟩ ⟨7, path, out, errs, vals, idx, vp, ha, as, w⟩ = R.oof := by
            simp only [resolveSpread]
            show (M.bind (resolveSelectionSet n ⟨b%"Q", tf⟩ 0 true) _) _ ⟨22, path, out, errs, vals, idx, vp, ha, as, w⟩ = _
            unfold M.bind
            rw [h]
          rw [hsp]
      have hop : resolveOperation fuel ⟨encDoc cyclicDoc, [17], schema, env, vars⟩ (⟨0, [], [c%'{'], [], vals, 0, false, false, 0, w⟩ : RS V W) = .oof := by
        unfold resolveOperation
        show (M.bind (resolveSelectionSet fuel schema.rootQuery 0 true) _) _ ⟨6, [], [c%'{'], [], fun i => if i = 0 then schema.rootQueryValue else vals i, 0, false, false, 0, w⟩ = _
        unfold M.bind
        rw [hrun _ rfl]
      rw [hop]

end

namespace Demo

/-- the hypotheses of C19 hold here: a query through a fragment -/
def opFrag : Operation := query [.spread b%"a" [], f b%"age"]
def docFrag : List Def := [.op opFrag, .frag ⟨b%"a", b%"User", [f b%"friend" [f b%"name"]]⟩]
theorem servesFrag : Serves (request b%"{...a age} fragment a on User{friend{name}}") docFrag opFrag := Check.serves (by decide +kernel) rfl
example : ∃ body es w', Answers schema env [] (request b%"{...a age} fragment a on User{friend{name}}") (.ok (body, es) w') :=
  C19_answered_partial schema env HasType [] _ _ opFrag servesFrag wellTyped (fits (by decide +kernel))

/-- a schema without interfaces: the demo schema without `pet` -/
def plain : RSchema Unit D := { schema with
  types := [(b%"User", ⟨b%"User", user.fields.filter (fun f => noInterface f.obj)⟩), (b%"Dog", dog)]
  rootQuery := ⟨b%"User", user.fields.filter (fun f => noInterface f.obj)⟩ }

theorem plain_field (f : RField Unit D) (h : IsField plain f) : noInterface f.obj = true ∧ slots f.obj ≤ 1 := by
  have hu : ∀ f ∈ user.fields.filter (fun f => noInterface f.obj), noInterface f.obj = true ∧ slots f.obj ≤ 1 := by decide
  have hd : ∀ f ∈ dog.fields, noInterface f.obj = true ∧ slots f.obj ≤ 1 := by decide
  have hm : ∀ f ∈ mutation.fields, noInterface f.obj = true ∧ slots f.obj ≤ 1 := by decide
  rcases h with h | h | ⟨n, t, hn, h⟩
  · exact hu f h
  · exact hm f h
  · simp only [plain, List.mem_cons, List.not_mem_nil, or_false] at hn
    rcases hn with h' | h' <;> cases h'
    · exact hu f h
    · exact hd f h

theorem known_plain (i : Input) : Known schema env i → Known plain env i := by
  induction i with
  | ptr e ih => exact ih
  | slice e ih => exact ih
  | array n e ih => exact ih
  | _ => exact id

theorem method_plain (m : Method Unit) (h : MethodOK schema env m) : MethodOK plain env m :=
  ⟨fun a ha => known_plain _ (h.known a ha), h.zero, h.slots⟩

theorem plain_fields {v : D} (h : IsUser v) : HasFields env HasType plain.rootQuery v := by
  intro f hf
  exact user_fields h f (List.mem_filter.1 hf).1

theorem plainTyped : WellTyped plain env HasType where
  inTypes := fun n d h => by cases h
  array := wellTyped.array
  ptr := wellTyped.ptr
  object := by
    intro n v h t ht
    have h : (n = b%"User" ∧ IsUser v) ∨ (n = b%"Dog" ∧ ∃ t, v = .struct [.str t]) := h
    rcases h with ⟨rfl, h1⟩ | ⟨rfl, h1⟩
    · have e : t = plain.rootQuery := (Option.some.inj ht).symm
      rw [e]
      exact plain_fields h1
    · have e : t = dog := (Option.some.inj ht).symm
      rw [e]
      exact wellTyped.object _ v (Or.inr ⟨rfl, h1⟩) dog rfl
  data := wellTyped.data
  enum := wellTyped.enum
  method := fun m out v h => ⟨method_plain m (wellTyped.method m out v h).1, (wellTyped.method m out v h).2⟩
  interface := wellTyped.interface
  directive := fun loc table h x hx => ⟨method_plain _ (wellTyped.directive loc table h x hx).1, (wellTyped.directive loc table h x hx).2⟩
  query := plain_fields ann_user
  mutation := wellTyped.mutation

/-- the hypotheses of the acyclic variant hold here: `a` spreads nothing, so it ranks below everything -/
example : ∃ body es w', Answers plain env [] (request b%"{...a age} fragment a on User{friend{name}}") (.ok (body, es) w') :=
  C19_acyclic_partial plain env HasType [] _ _ opFrag servesFrag plainTyped (fun f h => (plain_field f h).1) 1 (fun f h => (plain_field f h).2)
    (by decide) (by decide) ⟨fun _ => 0, fun f hf n hn => by
      have hf : f ∈ [(⟨b%"a", b%"User", [Demo.f b%"friend" [Demo.f b%"name"]]⟩ : Fragment)] := hf
      rw [List.mem_singleton] at hf
      subst hf
      have : spreadsIn [Demo.f b%"friend" [Demo.f b%"name"]] = [] := rfl
      rw [this] at hn
      cases hn⟩

/-- a fragment that spreads itself below a field: the depth limit ends it -/
def recursive : Fragment := ⟨b%"F", b%"User", [f b%"friend" [.spread b%"F" []]]⟩
def opRec : Operation := query [.spread b%"F" []]
theorem servesRec : Serves (request b%"{...F} fragment F on User{friend{...F}}") [.op opRec, .frag recursive] opRec := Check.serves (by decide +kernel) rfl

theorem guardedRec : Guarded [recursive] := ⟨fun _ => 0, fun f hf n hn => by
  rw [List.mem_singleton] at hf
  subst hf
  cases hn⟩

example : ∃ body es w', Answers plain env [] (request b%"{...F} fragment F on User{friend{...F}}") (.ok (body, es) w') :=
  C19_guarded_partial plain env HasType [] _ _ opRec servesRec plainTyped (fun f h => (plain_field f h).1) 1 (fun f h => (plain_field f h).2)
    (by decide) (by decide) guardedRec

end Demo
end Yarql
