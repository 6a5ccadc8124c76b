import Verif.Spec.Respell
import Verif.Proofs.Total

/-!
# What a differently spelled query shows
-/

namespace Yarql
open Doc Binding Eval Typed

section
variable {F V W : Type}

theorem lookup_pair_mem {K A : Type} [DecidableEq K] {l : List (K × A)} {k : K} {a : A} (h : lookup l k = some a) : (k, a) ∈ l := by
  unfold lookup at h
  obtain ⟨x, h1, h2⟩ := Option.map_eq_some_iff.1 h
  have h3 := List.find?_some h1
  have h4 := List.mem_of_find?_eq_some h1
  simp only [decide_eq_true_eq, beq_iff_eq] at h3
  rw [← h2, ← h3]
  exact h4

/-! ## Arguments -/

theorem withArg_comm {inputs i1 i2 : List (Arg F)} {a b : ArgField} {oa xa ob xb : InVal F}
    (h1 : WithArg inputs a oa xa i1) (h2 : WithArg i1 b ob xb i2) (hne : ¬ (a.inputIdx = b.inputIdx ∧ a.goFieldIdx = b.goFieldIdx)) :
    ∃ j1, WithArg inputs b ob xb j1 ∧ WithArg j1 a oa xa i2 := by
  obtain ⟨v, v', e1, ⟨vs, rfl, e2, rfl⟩, rfl⟩ := h1
  obtain ⟨u, u', e3, ⟨us, rfl, e4, rfl⟩, rfl⟩ := h2
  by_cases hi : a.inputIdx = b.inputIdx
  · have hg : a.goFieldIdx ≠ b.goFieldIdx := fun h => hne ⟨hi, h⟩
    have hlen : b.inputIdx < inputs.length := by
      rw [← hi]
      exact (List.getElem?_eq_some_iff.1 e1).1
    rw [hi, List.getElem?_set_self hlen] at e3
    injection e3 with e3
    injection e3 with e3
    injection e3 with e3
    subst e3
    rw [List.getElem?_set_ne hg] at e4
    refine ⟨inputs.set b.inputIdx (.val (.struct (vs.set b.goFieldIdx xb))), ⟨_, _, by rw [← hi]; exact e1, ⟨vs, rfl, e4, rfl⟩, rfl⟩,
      ⟨_, _, by rw [hi, List.getElem?_set_self hlen], ⟨_, rfl, by rw [List.getElem?_set_ne hg.symm]; exact e2, rfl⟩, ?_⟩⟩
    rw [hi, List.set_set, List.set_set, List.set_comm _ _ hg]
  · rw [List.getElem?_set_ne hi] at e3
    refine ⟨inputs.set b.inputIdx (.val (.struct (us.set b.goFieldIdx xb))), ⟨_, _, e3, ⟨us, rfl, e4, rfl⟩, rfl⟩,
      ⟨_, _, by rw [List.getElem?_set_ne (Ne.symm hi)]; exact e1, ⟨_, rfl, e2, rfl⟩, ?_⟩⟩
    rw [List.set_comm _ _ hi]

theorem args_perm {env : Env F V W} {enums : List (EnumDef F)} {inTypes : List (Bytes × InStruct F)}
    {var : Bytes → Input → InVal F → InVal F → Bool → Prop} {m : Method F} (hsep : CallsMade.Separate m) {args args' : List (Bytes × Value)}
    (hp : args.Perm args') (hn : (args.map (·.1)).Nodup) {inputs inputs' : List (Arg F)}
    (h : Args env enums inTypes var m.inFields args inputs inputs') : Args env enums inTypes var m.inFields args' inputs inputs' := by
  induction hp generalizing inputs with
  | nil => exact h
  | cons x _ ih =>
    rw [List.map_cons, List.nodup_cons] at hn
    cases h with
    | cons h1 h2 h3 h4 => exact .cons h1 h2 h3 (ih hn.2 h4)
  | swap x y l =>
    cases h with
    | cons h1 h2 h3 h4 =>
      rename_i ky vy ay oy xy sy iy
      cases h4 with
      | cons k1 k2 k3 k4 =>
        rename_i kx vx ax ox xx sx ix
        have hkey : ky ≠ kx := by
          simp at hn
          intro e
          exact hn.1.1 e
        have hfa := List.find?_some h1
        have hfb := List.find?_some k1
        have hma := List.mem_of_find?_eq_some h1
        have hmb := List.mem_of_find?_eq_some k1
        simp only [decide_eq_true_eq] at hfa hfb
        obtain ⟨j, l1, l2⟩ := withArg_comm h3 k3 (fun ⟨e1, e2⟩ => hkey (by
          rw [← hfa, ← hfb]
          exact hsep _ hma _ hmb e1 e2))
        exact .cons k1 k2 l1 (.cons h1 h2 l2 k4)
  | trans h1 _ ih1 ih2 => exact ih2 ((h1.map _).nodup_iff.1 hn) (ih1 hn h)

namespace Shows
variable {renamed permuted : Prop} (r : Ctx F V W) (frags' : List Fragment)

/-- the same request with other fragments -/
def withFrags : Ctx F V W := { r with frags := frags' }
local notation "r'" => withFrags r frags'

theorem inputs_same {m : Method F} {args args' : Option (List (Bytes × Value))} (hsep : permuted → CallsMade.Separate m)
    (ha : SameArgs permuted args args') {inputs : List (Arg F)} (h : Inputs r m (args.getD []) inputs) : Inputs r' m (args'.getD []) inputs := by
  cases ha with
  | same => exact h
  | order hp h1 h2 => exact args_perm (hsep hp) h1 h2 h

/-- the same path, or one nobody looks at -/
def PathOK (env : Env F V W) (p p' : List Seg) : Prop := p' = p ∨ PathBlind env

theorem PathOK.call {env : Env F V W} {p p' : List Seg} (h : PathOK env p p') (w : W) (fn : V) (inputs : List (Arg F)) :
    env.call w fn (pathArg p') inputs = env.call w fn (pathArg p) inputs := by
  rcases h with rfl | h
  · rfl
  · exact h _ _ _ _ _

theorem PathOK.idx {env : Env F V W} {p p' : List Seg} (h : PathOK env p p') (i : Nat) : PathOK env (p ++ [.idx i]) (p' ++ [.idx i]) := by
  rcases h with rfl | h
  · exact Or.inl rfl
  · exact Or.inr h

theorem PathOK.key {env : Env F V W} {p p' : List Seg} (h : PathOK env p p') {k k' : Bytes} (hk : k' = k ∨ PathBlind env) :
    PathOK env (p ++ [.key k]) (p' ++ [.key k']) := by
  rcases hk with rfl | hk
  · rcases h with rfl | h
    · exact Or.inl rfl
    · exact Or.inr h
  · exact Or.inr hk

theorem directives_same (hsep : permuted → SeparateParams r.schema) {loc : UInt8} {p p' : List Seg} (hp : PathOK r.env p p') {w w' : W}
    {ds ds' : List Directive} {b : Bool} (hd : SameDirs permuted ds ds') (h : Directives r loc p w ds b w') :
    Directives r' loc p' w ds' b w' := by
  induction h generalizing ds' with
  | nil => cases hd; exact .nil
  | skip h1 h2 h3 h4 h5 h6 =>
    cases hd with
    | cons e1 e2 e3 =>
      exact .skip h1 (by rw [e1]; exact h2) (inputs_same r frags' (fun hp => (hsep hp).directives _ _ h1 _ (List.mem_of_find?_eq_some h2)) e2 h3)
        ((hp.call _ _ _).trans h4) h5 h6
  | pass h1 h2 h3 h4 h5 h6 _ ih =>
    cases hd with
    | cons e1 e2 e3 =>
      exact .pass h1 (by rw [e1]; exact h2) (inputs_same r frags' (fun hp => (hsep hp).directives _ _ h1 _ (List.mem_of_find?_eq_some h2)) e2 h3)
        ((hp.call _ _ _).trans h4) h5 h6 (ih e3)

theorem fieldValue_same {w : W} {v x : V} {f : Resolver.RField F V} (h : FieldValue r w v f x) : FieldValue r' w v f x := by
  cases h with
  | fixed h => exact .fixed h
  | method h1 h2 h3 => exact .method h1 h2 h3
  | field h1 h2 h3 h4 => exact .field h1 h2 h3 h4

theorem SameArgs.none_iff {args' : Option (List (Bytes × Value))} (h : SameArgs permuted none args') : args' = none := by
  cases h; rfl

theorem Respelled.nil_iff {sels sels' : List Sel} (h : Respelled renamed permuted sels sels') : sels = [] ↔ sels' = [] := by
  cases h <;> simp

theorem find_respelled {frags frags' : List Fragment} (h : RespelledFrags renamed permuted frags frags') {name : Bytes} {f : Fragment}
    (hf : frags.find? (fun f => f.name = name) = some f) :
    ∃ f', frags'.find? (fun f => f.name = name) = some f' ∧ f'.typeName = f.typeName ∧ Respelled renamed permuted f.sels f'.sels := by
  induction h with
  | nil => cases hf
  | @cons g g' gs gs' e1 e2 e3 _ ih =>
    rw [List.find?_cons] at hf ⊢
    rw [e1]
    by_cases hn : g.name = name
    · simp only [hn, decide_true] at hf ⊢
      injection hf with hf
      subst hf
      exact ⟨g', rfl, e2, e3⟩
    · simp only [hn, decide_false] at hf ⊢
      exact ih hf

theorem find_none_respelled {frags frags' : List Fragment} (h : RespelledFrags renamed permuted frags frags') {name : Bytes}
    (hf : frags.find? (fun f => f.name = name) = none) : frags'.find? (fun f => f.name = name) = none := by
  induction h with
  | nil => rfl
  | @cons g g' gs gs' e1 _ _ _ ih =>
    rw [List.find?_cons] at hf ⊢
    rw [e1]
    by_cases hn : g.name = name
    · simp only [hn, decide_true] at hf
      cases hf
    · simp only [hn, decide_false] at hf ⊢
      exact ih hf

theorem ExceptKeysMembers.append {a b c d : List (Bytes × Out)} (h : ExceptKeysMembers renamed a b) (h' : ExceptKeysMembers renamed c d) :
    ExceptKeysMembers renamed (a ++ c) (b ++ d) := by
  induction a generalizing b with
  | nil => cases h; exact h'
  | cons x xs ih =>
    cases h with
    | cons h0 h1 h2 => exact .cons h0 h1 (ih h2)

section
variable (hfr : RespelledFrags renamed permuted r.frags frags') (hsep : permuted → SeparateParams r.schema) (hpath : renamed → PathBlind r.env)
include hfr hsep hpath

mutual
theorem shows_respelled : ∀ {w o v p args sels out w'}, Shows r w o v p args sels out w' → ∀ {p' args' sels'}, PathOK r.env p p' →
    SameArgs permuted args args' → Respelled renamed permuted sels sels' → (permuted → SeparateIn o) →
    ∃ out', Shows r' w o v p' args' sels' out' w' ∧ ExceptKeys renamed out out'
  | _, _, _, _, _, _, _, _, .undefined, _, _, _, hp, ha, hs, ho => by cases ha; exact ⟨_, .undefined, .null⟩
  | _, _, _, _, _, _, _, _, .nilList h1, _, _, _, hp, ha, hs, ho => by cases ha; exact ⟨_, .nilList h1, .null⟩
  | _, _, _, _, _, _, _, _, .list h1 h2, _, _, _, hp, ha, hs, ho => by
    cases ha
    obtain ⟨os, k1, k2⟩ := elems_respelled h2 hp hs ho
    exact ⟨_, .list h1 k1, .list k2⟩
  | _, _, _, _, _, _, _, _, .nilPtr h1 h2, _, _, _, hp, ha, hs, ho => by
    refine ⟨_, .nilPtr h1 ?_, .null⟩
    rcases h2 with rfl | h2
    · cases ha; exact Or.inl rfl
    · exact Or.inr h2
  | _, _, _, _, _, _, _, _, .ptr h1 h2, _, _, _, hp, ha, hs, ho => by
    obtain ⟨o', k1, k2⟩ := shows_respelled h2 hp ha hs ho
    exact ⟨_, .ptr h1 k1, k2⟩
  | _, _, _, _, _, _, _, _, .object h1 h2 h3, _, _, _, hp, ha, hs, ho => by
    cases ha
    obtain ⟨ms, k1, k2⟩ := selects_respelled h3 hp hs (fun hp f hf => (hsep hp).fields f (Or.inr (Or.inr ⟨_, _, lookup_pair_mem h2, hf⟩)))
    exact ⟨_, .object (fun e => h1 ((Respelled.nil_iff hs).2 e)) h2 k1, .obj k2⟩
  | _, _, _, _, _, _, _, _, .noObject h1 h2, _, _, _, hp, ha, hs, ho => by
    cases ha; exact ⟨_, .noObject (fun e => h1 ((Respelled.nil_iff hs).2 e)) h2, .null⟩
  | _, _, _, _, _, _, _, _, .scalar h1 h2, _, _, _, hp, ha, hs, ho => by
    cases ha; cases hs; exact ⟨_, .scalar h1 h2, .leaf⟩
  | _, _, _, _, _, _, _, _, .enum h1 h2 h3 h4 h5, _, _, _, hp, ha, hs, ho => by
    cases ha; exact ⟨_, .enum h1 h2 h3 h4 h5, .leaf⟩
  | _, _, _, _, _, _, _, _, .noEnum h1 h2 h3, _, _, _, hp, ha, hs, ho => by
    cases ha; exact ⟨_, .noEnum h1 h2 h3, .null⟩
  | _, _, _, _, _, _, _, _, .time h1 h2, _, _, _, hp, ha, hs, ho => by
    cases ha; exact ⟨_, .time h1 h2, .leaf⟩
  | _, _, _, _, _, _, _, _, .noTime h1, _, _, _, hp, ha, hs, ho => by
    cases ha; exact ⟨_, .noTime h1, .null⟩
  | _, _, _, _, _, _, _, _, .noInterface h1 h2, _, _, _, hp, ha, hs, ho => by
    cases ha; exact ⟨_, .noInterface (fun e => h1 ((Respelled.nil_iff hs).2 e)) h2, .null⟩
  | _, _, _, _, _, _, _, _, .nilInterface h1 h2 h3, _, _, _, hp, ha, hs, ho => by
    cases ha; exact ⟨_, .nilInterface (fun e => h1 ((Respelled.nil_iff hs).2 e)) h2 h3, .null⟩
  | _, _, _, _, _, _, _, _, .interface h1 h2 h3 h4, _, _, _, hp, ha, hs, ho => by
    cases ha
    obtain ⟨o', k1, k2⟩ := shows_respelled h4 hp .same hs (fun _ => trivial)
    exact ⟨_, .interface h1 h2 h3 k1, k2⟩
  | _, _, _, _, _, _, _, _, .unregistered h1 h2 h3 h4, _, _, _, hp, ha, hs, ho => by
    cases ha; exact ⟨_, .unregistered (fun e => h1 ((Respelled.nil_iff hs).2 e)) h2 h3 h4, .null⟩
  | _, _, _, _, _, _, _, _, .nilFunc h1 h2, _, _, _, hp, ha, hs, ho => ⟨_, .nilFunc h1 h2, .null⟩
  | _, _, _, _, _, _, _, _, .call h1 h2 h3 h4 h5 h6 h7, _, _, _, hp, ha, hs, ho => by
    obtain ⟨o', k1, k2⟩ := shows_respelled h7 hp .same hs (fun hp => (ho hp).2)
    exact ⟨_, .call h1 (inputs_same r frags' (fun hp => (ho hp).1) ha h2) ((hp.call _ _ _).trans h3) h4 h5 h6 k1, k2⟩
theorem elems_respelled : ∀ {o p sels w i vs os w'}, Elems r o p sels w i vs os w' → ∀ {p' sels'}, PathOK r.env p p' →
    Respelled renamed permuted sels sels' → (permuted → SeparateIn o) →
    ∃ os', Elems r' o p' sels' w i vs os' w' ∧ ExceptKeysItems renamed os os'
  | _, _, _, _, _, _, _, _, .nil, _, _, hp, hs, ho => ⟨_, .nil, .nil⟩
  | _, _, _, _, _, _, _, _, .cons h1 h2, _, _, hp, hs, ho => by
    obtain ⟨x, k1, k2⟩ := shows_respelled h1 (hp.idx _) .same hs ho
    obtain ⟨xs, k3, k4⟩ := elems_respelled h2 hp hs ho
    exact ⟨_, .cons k1 k3, .cons k2 k4⟩
theorem selects_respelled : ∀ {t v p w sels ms w'}, Selects r t v p w sels ms w' → ∀ {p' sels'}, PathOK r.env p p' →
    Respelled renamed permuted sels sels' → (permuted → ∀ f ∈ t.fields, SeparateIn f.obj) →
    ∃ ms', Selects r' t v p' w sels' ms' w' ∧ ExceptKeysMembers renamed ms ms'
  | _, _, _, _, _, _, _, .nil, _, _, hp, hs, ho => by cases hs; exact ⟨_, .nil, .nil⟩
  | _, _, _, _, _, _, _, .field h1 h2 h3 h4 h5, _, _, hp, hs, ho => by
    cases hs with
    | field e1 e2 e3 e4 e5 e6 =>
      have hk := hp.key (e1.imp id hpath)
      obtain ⟨x, k1, k2⟩ := shows_respelled h4 hk e4 e5 (fun hp => ho hp _ (List.mem_of_find?_eq_some h2))
      obtain ⟨xs, k3, k4⟩ := selects_respelled h5 hp e6 ho
      exact ⟨_, .field (directives_same r frags' hsep hk e3 h1) (by rw [e2]; exact h2) (fieldValue_same r frags' h3) k1 k3, .cons e1 k2 k4⟩
  | _, _, _, _, _, _, _, .typename h1 h2 h3 h4, _, _, hp, hs, ho => by
    cases hs with
    | field e1 e2 e3 e4 e5 e6 =>
      cases e4
      cases e5
      obtain ⟨xs, k3, k4⟩ := selects_respelled h4 hp e6 ho
      exact ⟨_, .typename (directives_same r frags' hsep (hp.key (e1.imp id hpath)) e3 h1) (by rw [e2]; exact h2) h3 k3, .cons e1 .leaf k4⟩
  | _, _, _, _, _, _, _, .skipField h1 h2, _, _, hp, hs, ho => by
    cases hs with
    | field e1 e2 e3 e4 e5 e6 =>
      obtain ⟨xs, k3, k4⟩ := selects_respelled h2 hp e6 ho
      exact ⟨_, .skipField (directives_same r frags' hsep (hp.key (e1.imp id hpath)) e3 h1) k3, k4⟩
  | _, _, _, _, _, _, _, .spread h1 h2 h3 h4 h5, _, _, hp, hs, ho => by
    cases hs with
    | spread e1 e2 =>
      obtain ⟨f', l1, l2, l3⟩ := find_respelled hfr h2
      obtain ⟨xs, k1, k2⟩ := selects_respelled h4 hp l3 ho
      obtain ⟨ys, k3, k4⟩ := selects_respelled h5 hp e2 ho
      exact ⟨_, .spread (directives_same r frags' hsep hp e1 h1) l1 (l2.trans h3) k1 k3, k2.append k4⟩
  | _, _, _, _, _, _, _, .spreadOther h1 h2 h3 h4, _, _, hp, hs, ho => by
    cases hs with
    | spread e1 e2 =>
      obtain ⟨f', l1, l2, l3⟩ := find_respelled hfr h2
      obtain ⟨ys, k3, k4⟩ := selects_respelled h4 hp e2 ho
      exact ⟨_, .spreadOther (directives_same r frags' hsep hp e1 h1) l1 (fun e => h3 (l2.symm.trans e)) k3, k4⟩
  | _, _, _, _, _, _, _, .skipSpread h1 h2, _, _, hp, hs, ho => by
    cases hs with
    | spread e1 e2 =>
      obtain ⟨ys, k3, k4⟩ := selects_respelled h2 hp e2 ho
      exact ⟨_, .skipSpread (directives_same r frags' hsep hp e1 h1) k3, k4⟩
  | _, _, _, _, _, _, _, .inline h1 h2 h3 h4, _, _, hp, hs, ho => by
    cases hs with
    | inline e1 e2 e3 =>
      obtain ⟨xs, k1, k2⟩ := selects_respelled h3 hp e2 ho
      obtain ⟨ys, k3, k4⟩ := selects_respelled h4 hp e3 ho
      exact ⟨_, .inline (directives_same r frags' hsep hp e1 h1) h2 k1 k3, k2.append k4⟩
  | _, _, _, _, _, _, _, .inlineOther h1 h2 h3, _, _, hp, hs, ho => by
    cases hs with
    | inline e1 e2 e3 =>
      obtain ⟨ys, k3, k4⟩ := selects_respelled h3 hp e3 ho
      exact ⟨_, .inlineOther (directives_same r frags' hsep hp e1 h1) h2 k3, k4⟩
  | _, _, _, _, _, _, _, .skipInline h1 h2, _, _, hp, hs, ho => by
    cases hs with
    | inline e1 e2 e3 =>
      obtain ⟨ys, k3, k4⟩ := selects_respelled h2 hp e3 ho
      exact ⟨_, .skipInline (directives_same r frags' hsep hp e1 h1) k3, k4⟩
end

theorem operation_respelled {w w' : W} {o o' : Doc.Operation} {out : Out} (hk : o'.kind = o.kind) (hd : o'.dirs = o.dirs)
    (hs : Respelled renamed permuted o.sels o'.sels) (h : Operation r w o out w') :
    ∃ out', Operation r' w o' out' w' ∧ ExceptKeys renamed out out' := by
  cases h with
  | query h1 h2 h3 =>
    obtain ⟨ms, k1, k2⟩ := selects_respelled r frags' hfr hsep hpath h3 (Or.inl rfl) hs (fun hp f hf => (hsep hp).fields f (Or.inl hf))
    exact ⟨_, .query (hk.trans h1) (hd.trans h2) k1, .obj k2⟩
  | mutation h1 h2 h3 =>
    obtain ⟨ms, k1, k2⟩ := selects_respelled r frags' hfr hsep hpath h3 (Or.inl rfl) hs (fun hp f hf => (hsep hp).fields f (Or.inr (Or.inl hf)))
    exact ⟨_, .mutation (hk.trans h1) (hd.trans h2) k1, .obj k2⟩

end

mutual
theorem ExceptKeys.eq : ∀ {x y}, ExceptKeys False x y → y = x
  | _, _, .missing => rfl
  | _, _, .null => rfl
  | _, _, .leaf => rfl
  | _, _, .list h => by rw [ExceptKeysItems.eq h]
  | _, _, .obj h => by rw [ExceptKeysMembers.eq h]
theorem ExceptKeysItems.eq : ∀ {x y}, ExceptKeysItems False x y → y = x
  | _, _, .nil => rfl
  | _, _, .cons h1 h2 => by rw [ExceptKeys.eq h1, ExceptKeysItems.eq h2]
theorem ExceptKeysMembers.eq : ∀ {x y}, ExceptKeysMembers False x y → y = x
  | _, _, .nil => rfl
  | _, _, .cons h0 h1 h2 => by rw [ExceptKeys.eq h1, ExceptKeysMembers.eq h2, h0.resolve_right (fun h => h)]
end

/-! ## Nesting is the same -/

end Shows

theorem Typed.Nest.respelled {renamed permuted : Prop} {frags frags' : List Fragment} (hfr : RespelledFrags renamed permuted frags frags') {n : Nat} {sels sels' : List Sel}
    (h : Nest frags n sels) (hs : Respelled renamed permuted sels sels') : Nest frags' n sels' := by
  induction h generalizing sels' with
  | nil => cases hs; exact .nil
  | field _ _ ih1 ih2 =>
    cases hs with
    | field _ _ _ _ e5 e6 => exact .field (ih1 e5) (ih2 e6)
  | spread h _ _ ih1 ih2 =>
    cases hs with
    | spread _ e2 =>
      obtain ⟨f', l1, l2, l3⟩ := Shows.find_respelled hfr h
      exact .spread l1 (ih1 l3) (ih2 e2)
  | undefined h _ ih =>
    cases hs with
    | spread _ e2 =>
      exact .undefined (Shows.find_none_respelled hfr h) (ih e2)
  | inline _ _ ih1 ih2 =>
    cases hs with
    | inline _ e2 e3 => exact .inline (ih1 e2) (ih2 e3)

end
end Yarql
