import Verif.Proofs.RevealsRun
import Verif.Props.WellFormed
import Verif.Spec.Faithful

/-!
# Every value of every response: C22, C26, C27, C43, C44

Unlike the theorems of `Props/Values.lean`, these have no hypotheses about the request, the schema or the Go values: whatever `resolve`
answers, with or without errors.
-/

namespace Yarql
open Doc Resolver Eval Yarql.Bind
open Reveals hiding Reveals

section
variable {F V W : Type} [DecidableEq F]

/-- The errors of requests that are not executed: syntax errors, no operation of that name, an operation of an unsupported kind. -/
inductive NotRun (req : Request) : List ReqErr → Prop where
  | syntax {s} : Parser.parseQuery req.query (reqTarget req) = .ok () s → s.errs ≠ [] →
      NotRun req (s.errs.map (fun e => ReqErr.located e.msg e.line e.col))
  | noOperation {d} : Parsed req.query (reqTarget req) d → chosenOperation req.target d = none →
      NotRun req [ReqErr.exec ⟨if req.target = [] then b%"no operator found" else b%"no operator with name " ++ req.target ++ b%" found", none⟩]
  | unsupported {d o msg} : Parsed req.query (reqTarget req) d → chosenOperation req.target d = some o →
      msg ∈ [b%"subscriptions are not supported", b%"operation directives unsupported"] → NotRun req [ReqErr.exec ⟨msg, pathJSON []⟩]

theorem NotRun.ne_nil {req : Request} {es : List ReqErr} (h : NotRun req es) : es ≠ [] := by
  cases h with
  | «syntax» _ h => simpa using h
  | noOperation _ _ => simp
  | unsupported _ _ _ => simp

/-- Whatever is answered: the data are members of the root object of the operation that was chosen (`Spec/Reveals.lean`), and the errors are
those met on the way; or nothing was executed, and why. -/
theorem every_response_or_not_run {fuel : Nat} {schema : RSchema F V} {env : Env F V W} {vals : UInt8 → V} {w w' : W} {req : Request} {body : Bytes}
    {es : List ReqErr} (h : resolve fuel schema env vals w req = .ok (body, es) w') :
    (∃ d o ms errs, Parsed req.query (reqTarget req) d ∧ chosenOperation req.target d = some o ∧ o.kind ≠ .subscription ∧
      body = envelope req.noMeta (print (.obj ms)) es ∧ es = errs.map ReqErr.exec ∧
      ∀ near : Prop, (near → 2 * depthMembers ms ≤ 255) →
        Members schema env req.vars near (rootOf schema o.kind).1 (rootOf schema o.kind).2 [] w ms errs w') ∨
    (w' = w ∧ NotRun req es ∧ body = envelope req.noMeta b%"{}" es) := by
  obtain ⟨s, h1, h2⟩ := C01_parse_total req.query (reqTarget req)
  have h1' := h1
  unfold reqTarget at h1'
  unfold resolve at h
  rw [h1'] at h
  dsimp only at h
  by_cases he : s.errs = []
  · rw [if_pos (by simpa using he)] at h
    obtain ⟨d, d1, d2, d3, d4⟩ := C06_accepted_is_encoding req.query (reqTarget req) s h1 he
    have hp : Parsed req.query (reqTarget req) d := ⟨s, h1, he, d2, d3, d4⟩
    have hc := chosen_at d req.target
    cases ho : chosenOperation req.target d with
    | none =>
      rw [ho] at hc
      unfold reqTarget at d4
      rw [d4] at h
      dsimp only at hc
      rw [hc] at h
      cases h
      exact Or.inr ⟨rfl, .noOperation hp ho, rfl⟩
    | some o =>
      rw [ho] at hc
      obtain ⟨p, post, k1, k2, -⟩ := hc
      unfold reqTarget at d4
      rw [d4, k1] at h
      dsimp only at h
      have hk : s.res[p + 2]? = some o.kind.code := by
        have : (s.res.drop p)[2]? = some o.kind.code := by rw [d2, k2]; rfl
        rwa [List.getElem?_drop] at this
      cases hm : resolveOperation fuel (⟨s.res, s.frags, schema, env, req.vars⟩ : Cfg F V W) ⟨p, [], [c%'{'], [], vals, 0, false, false, 0, w⟩ with
      | panic => rw [hm] at h; cases h
      | oof => rw [hm] at h; cases h
      | ok a s1 =>
        rw [hm] at h
        obtain ⟨ms, errs, e1, e2, e3⟩ := RevealsRun.operation_run fuel o.kind (s := ⟨p, [], [c%'{'], [], vals, 0, false, false, 0, w⟩) hk rfl rfl a s1 hm
        dsimp only at e1 e2 e3
        cases h
        rw [List.nil_append] at e2
        rcases e3 with ⟨rfl, q1, msg, hmsg, rfl⟩ | ⟨hk, e3⟩
        · refine Or.inr ⟨q1, by rw [e2]; exact .unsupported hp ho hmsg, ?_⟩
          rw [e1]; rfl
        · refine Or.inl ⟨d, o, ms, errs, hp, ho, hk, ?_, by rw [e2], e3⟩
          rw [e1]
          simp [print]
  · rw [if_neg (by simpa using he)] at h
    cases h
    exact Or.inr ⟨rfl, .syntax h1 he, rfl⟩


/-- Whatever is answered: the data are members of the root object of the operation that was chosen (`Spec/Reveals.lean`), and the errors are
those met on the way; or nothing was executed. -/
theorem every_response {fuel : Nat} {schema : RSchema F V} {env : Env F V W} {vals : UInt8 → V} {w w' : W} {req : Request} {body : Bytes}
    {es : List ReqErr} (h : resolve fuel schema env vals w req = .ok (body, es) w') :
    (∃ d o ms errs, Parsed req.query (reqTarget req) d ∧ chosenOperation req.target d = some o ∧ o.kind ≠ .subscription ∧
      body = envelope req.noMeta (print (.obj ms)) es ∧ es = errs.map ReqErr.exec ∧
      ∀ near : Prop, (near → 2 * depthMembers ms ≤ 255) →
        Members schema env req.vars near (rootOf schema o.kind).1 (rootOf schema o.kind).2 [] w ms errs w') ∨
    (w' = w ∧ es ≠ [] ∧ body = envelope req.noMeta b%"{}" es) := by
  rcases every_response_or_not_run h with h | ⟨h1, h2, h3⟩
  · exact Or.inl h
  · exact Or.inr ⟨h1, h2.ne_nil, h3⟩

end

/-! ## Where the values of a response come from -/

namespace Reveals
section
variable {F V W : Type} {schema : RSchema F V} {env : Env F V W} {vars : VarsSrc} {near : Prop} {errs : List RErr}

/-- Where the value at path `p` of the response comes from. -/
inductive Origin (schema : RSchema F V) (env : Env F V W) (vars : VarsSrc) (near : Prop) (errs : List RErr) (p : List Seg) (x : Out) : Prop where
  | value (w : W) (o : Obj F) (v : V) (es : List RErr) (w' : W) : Reveals schema env vars near w o v p x es w' → (∀ e ∈ es, e ∈ errs) → Origin schema env vars near errs p x
  | typename (t : RType F V) : Known schema t → x = .leaf (Shows.quoted t.typeName) → Origin schema env vars near errs p x
  | broken : x = .missing ∨ x = .null → Blamed errs p → Origin schema env vars near errs p x

theorem origin_of {w o v p x es w'} (h : Reveals schema env vars near w o v p x es w') (he : ∀ e ∈ es, e ∈ errs)
    (hb : ∀ {q y}, q ≠ [] → At x q y → Origin schema env vars near errs (p ++ q) y) {q y} (ha : At x q y) : Origin schema env vars near errs (p ++ q) y := by
  by_cases hq : q = []
  · subst hq
    cases ha
    rw [List.append_nil]
    exact .value _ _ _ _ _ h he
  · exact hb hq ha

mutual
theorem reveals_below {w o v p x es w'} (h : Reveals schema env vars near w o v p x es w') (he : ∀ e ∈ es, e ∈ errs) :
    ∀ {q y}, q ≠ [] → At x q y → Origin schema env vars near errs (p ++ q) y := by
  match h with
  | .ptr hv hs => intro q y hq ha; exact reveals_below hs he hq ha
  | .interface h1 h2 h3 hs => intro q y hq ha; exact reveals_below hs he hq ha
  | .call h1 _ h2 h3 h4 hs => intro q y hq ha; exact reveals_below hs (fun e h => he e (List.mem_append_right _ h)) hq ha
  | .object ht hm =>
    intro q y hq ha
    cases ha with
    | here => exact absurd rfl hq
    | key hk ha =>
      have := members_origin hm (Or.inr (Or.inr ⟨_, ht⟩)) he hk ha
      rw [List.append_assoc] at this
      exact this
  | .list hv hs =>
    intro q y hq ha
    cases ha with
    | here => exact absurd rfl hq
    | idx hk ha =>
      have := elems_origin hs he hk ha
      rw [Nat.zero_add, List.append_assoc] at this
      exact this
  | .refused _ _ => intro q y hq ha; cases ha; exact absurd rfl hq
  | .undefined  => intro q y hq ha; cases ha; exact absurd rfl hq
  | .nilList _ => intro q y hq ha; cases ha; exact absurd rfl hq
  | .nilPtr _ => intro q y hq ha; cases ha; exact absurd rfl hq
  | .noObject _ => intro q y hq ha; cases ha; exact absurd rfl hq
  | .scalar _ _ => intro q y hq ha; cases ha; exact absurd rfl hq
  | .enum _ _ _ _ _ => intro q y hq ha; cases ha; exact absurd rfl hq
  | .noEnum _ _ _ => intro q y hq ha; cases ha; exact absurd rfl hq
  | .time _ _ => intro q y hq ha; cases ha; exact absurd rfl hq
  | .noTime _ => intro q y hq ha; cases ha; exact absurd rfl hq
  | .noInterface _ => intro q y hq ha; cases ha; exact absurd rfl hq
  | .nilInterface _ _ => intro q y hq ha; cases ha; exact absurd rfl hq
  | .unregistered _ _ _ => intro q y hq ha; cases ha; exact absurd rfl hq
  | .nilFunc _ _ => intro q y hq ha; cases ha; exact absurd rfl hq
  | .unbound _ _ => intro q y hq ha; cases ha; exact absurd rfl hq
  | .cancelled _ _ _ _ => intro q y hq ha; cases ha; exact absurd rfl hq
theorem elems_origin {o p w i vs os es w'} (h : Elems schema env vars near o p w i vs os es w') (he : ∀ e ∈ es, e ∈ errs) :
    ∀ {k x q y}, os[k]? = some x → At x q y → Origin schema env vars near errs (p ++ [.idx (i + k)] ++ q) y := by
  match h with
  | .nil => intro k x q y hk _; simp at hk
  | .cons hs hr =>
    intro k x q y hk ha
    have he1 := fun e h => he e (List.mem_append_left _ h)
    cases k with
    | zero =>
      rw [List.getElem?_cons_zero] at hk
      cases hk
      exact origin_of hs he1 (reveals_below hs he1) ha
    | succ k =>
      rw [List.getElem?_cons_succ] at hk
      have := elems_origin hr (fun e h => he e (List.mem_append_right _ h)) hk ha
      rw [show i + 1 + k = i + (k + 1) by omega] at this
      exact this
theorem members_origin {t v p w ms es w'} (h : Members schema env vars near t v p w ms es w') (ht : Known schema t) (he : ∀ e ∈ es, e ∈ errs) :
    ∀ {k x q y}, (k, x) ∈ ms → At x q y → Origin schema env vars near errs (p ++ [.key k] ++ q) y := by
  match h with
  | .nil => intro k x q y hk _; cases hk
  | .field _ _ _ hs hr =>
    intro k x q y hk ha
    rcases List.mem_cons.1 hk with e | hk
    · cases e
      exact origin_of hs (fun e h => he e (List.mem_append_left _ h)) (reveals_below hs (fun e h => he e (List.mem_append_left _ h))) ha
    · exact members_origin hr ht (fun e h => he e (List.mem_append_right _ h)) hk ha
  | .typename hr =>
    intro k x q y hk ha
    rcases List.mem_cons.1 hk with e | hk
    · cases e; cases ha; exact .typename t ht rfl
    · exact members_origin hr ht he hk ha
  | .noTypename hr =>
    intro k x q y hk ha
    rcases List.mem_cons.1 hk with e | hk
    · cases e; cases ha; rw [List.append_nil]; exact .broken (Or.inl rfl) ⟨_, he _ (List.mem_cons_self ..)⟩
    · exact members_origin hr ht (fun e h => he e (List.mem_cons_of_mem _ h)) hk ha
  | .noField _ hr =>
    intro k x q y hk ha
    rcases List.mem_cons.1 hk with e | hk
    · cases e; cases ha; rw [List.append_nil]; exact .broken (Or.inr rfl) ⟨_, he _ (List.mem_cons_self ..)⟩
    · exact members_origin hr ht (fun e h => he e (List.mem_cons_of_mem _ h)) hk ha
  | .directive _ _ _ _ _ hr => intro k x q y hk ha; exact members_origin hr ht he hk ha
  | .error _ _ hr => intro k x q y hk ha; exact members_origin hr ht (fun e h => he e (List.mem_cons_of_mem _ h)) hk ha
end

theorem elems_get {o p w i vs os es w'} (h : Elems schema env vars near o p w i vs os es w') : os.length = vs.length ∧
    ∀ k v, vs[k]? = some v → ∃ w1 x es1 w2, os[k]? = some x ∧ Reveals schema env vars near w1 o v (p ++ [.idx (i + k)]) x es1 w2 := by
  match h with
  | .nil => exact ⟨rfl, fun k v hv => by simp at hv⟩
  | .cons hs he =>
    obtain ⟨h1, h2⟩ := elems_get he
    refine ⟨by simp [h1], ?_⟩
    intro k v hv
    cases k with
    | zero =>
      rw [List.getElem?_cons_zero] at hv
      cases hv
      exact ⟨_, _, _, _, rfl, hs⟩
    | succ k =>
      rw [List.getElem?_cons_succ] at hv
      obtain ⟨w1, x, es1, w2, k1, k2⟩ := h2 k v hv
      exact ⟨w1, x, es1, w2, k1, by rw [show i + (k + 1) = i + 1 + k by omega]; exact k2⟩

/-- an enum has one first key for a value -/
theorem first_key {α β : Type} {l pre pre' post post' : List (α × β)} {k k' : α} {x : β} (h : l = pre ++ (k, x) :: post) (hp : ∀ y ∈ pre, y.2 ≠ x)
    (h' : l = pre' ++ (k', x) :: post') (hp' : ∀ y ∈ pre', y.2 ≠ x) : k = k' := by
  subst h
  induction pre generalizing pre' with
  | nil =>
    cases pre' with
    | nil => simp at h'; exact h'.1
    | cons a l =>
      simp at h'
      exact absurd (by rw [← h'.1]) (hp' a (List.mem_cons_self ..))
  | cons a l ih =>
    cases pre' with
    | nil =>
      simp at h'
      exact absurd (by rw [h'.1]) (hp a (List.mem_cons_self ..))
    | cons a' l' =>
      simp at h'
      exact ih (fun y hy => hp y (List.mem_cons_of_mem _ hy)) (fun y hy => hp' y (List.mem_cons_of_mem _ hy)) h'.2

theorem reveals_faithful {w o v p x es w'} (h : Reveals schema env vars near w o v p x es w') (he : ∀ e ∈ es, e ∈ errs) :
    Faithful schema env vars near errs w o v p x where
  null := by
    intro hn
    cases h with
    | refused _ _ => rfl
    | undefined => rfl
    | nilList _ => rfl
    | list hv _ => cases hn with | nilList hv' => rw [hv] at hv'; cases hv'
    | nilPtr _ => rfl
    | ptr hv _ => cases hn with | nilPtr hv' => rw [hv] at hv'; cases hv'
    | object ht _ => cases hn with | noType hl => rw [ht] at hl; cases hl
    | noObject _ => rfl
    | scalar _ _ => cases hn
    | enum h1 h2 h3 h4 _ =>
      cases hn with
      | noEnumKey g1 g2 g3 =>
        rw [h1] at g1; cases g1
        rw [h2] at g2; cases g2
        rcases g3 with g3 | g3 | g3 | g3
        · exact absurd rfl (g3 _ (by rw [h4]; exact List.mem_append_right _ (List.mem_cons_self ..)))
        · exact absurd g3 h3.1
        · exact absurd g3 h3.2.1
        · exact absurd g3 h3.2.2
    | noEnum _ _ _ => rfl
    | time hv _ => cases hn with | noTime g => exact absurd hv (g _)
    | noTime _ => rfl
    | noInterface _ => rfl
    | nilInterface _ _ => rfl
    | interface hl hv hi _ =>
      cases hn with
      | nilInterface _ hv' => rw [hv] at hv'; cases hv'
      | unregistered hl' hv' hno =>
        rw [hl] at hl'; cases hl'
        rw [hv] at hv'; cases hv'
        have h2 := List.find?_some hi
        exact absurd (of_decide_eq_true h2) (hno _ (List.mem_of_find?_eq_some hi))
      | noInterface hl' => rw [hl] at hl'; cases hl'
    | unregistered _ _ _ => rfl
    | nilFunc _ _ => rfl
    | unbound hm _ =>
      cases hn with
      | nilFunc g1 g2 =>
        rcases hm with hm | hm
        · rw [g1] at hm; cases hm
        · rw [g2] at hm; cases hm
    | cancelled _ _ _ _ => rfl
    | call hm _ _ _ _ _ =>
      cases hn with
      | nilFunc g1 g2 =>
        rcases hm with hm | hm
        · rw [g1] at hm; cases hm
        · rw [g2] at hm; cases hm
  list := by
    intro e vs ho hv
    subst ho
    cases h with
    | refused _ hr => exact Or.inl ⟨rfl, _, hr, he _ (List.mem_singleton.2 rfl)⟩
    | nilList hv' => rw [hv] at hv'; cases hv'
    | list hv' hs =>
      rw [hv] at hv'
      cases hv'
      obtain ⟨h1, h2⟩ := elems_get hs
      refine Or.inr ⟨_, rfl, h1, ?_⟩
      intro i y hy
      obtain ⟨w1, z, es1, w2, k1, k2⟩ := h2 i y hy
      rw [Nat.zero_add] at k2
      exact ⟨w1, z, es1, w2, k1, k2⟩
  pointer := by
    intro e y ho hv
    subst ho
    cases h with
    | refused _ hr => exact Or.inl ⟨rfl, _, hr, he _ (List.mem_singleton.2 rfl)⟩
    | nilPtr hv' => rw [hv] at hv'; cases hv'
    | ptr hv' hs => rw [hv] at hv'; cases hv'; exact Or.inr ⟨_, _, hs⟩
  int := by
    intro isID wd i ho hv
    subst ho
    cases h with
    | refused _ hr => exact Or.inl ⟨rfl, _, hr, he _ (List.mem_singleton.2 rfl)⟩
    | scalar hv' hs =>
      rw [hv] at hv'
      cases hv'
      cases hs with
      | plain hor ht =>
        cases ht with
        | int hc =>
          rcases hor with rfl | hor
          · exact Or.inr ⟨_, hc, rfl⟩
          · cases hor
      | id _ ht => cases ht with | int hc => exact Or.inr ⟨_, hc, rfl⟩
  uint := by
    intro isID wd n ho hv
    subst ho
    cases h with
    | refused _ hr => exact Or.inl ⟨rfl, _, hr, he _ (List.mem_singleton.2 rfl)⟩
    | scalar hv' hs =>
      rw [hv] at hv'
      cases hv'
      cases hs with
      | plain hor ht =>
        cases ht with
        | uint hc =>
          rcases hor with rfl | hor
          · exact Or.inr ⟨_, hc, rfl⟩
          · cases hor
      | id _ ht => cases ht with | uint hc => exact Or.inr ⟨_, hc, rfl⟩
  bool := by
    intro b ho hv
    subst ho
    cases h with
    | refused _ hr => exact Or.inl ⟨rfl, _, hr, he _ (List.mem_singleton.2 rfl)⟩
    | scalar hv' hs =>
      rw [hv] at hv'
      cases hv'
      cases hs with
      | plain hor ht => cases ht <;> exact Or.inr rfl
  float := by
    intro isID single f ho hv
    subst ho
    cases h with
    | refused _ hr => exact Or.inl ⟨rfl, _, hr, he _ (List.mem_singleton.2 rfl)⟩
    | scalar hv' hs =>
      rw [hv] at hv'
      cases hv'
      cases single with
      | true =>
        cases hs with
        | plain hor ht =>
          cases ht
          rcases hor with rfl | hor
          · exact Or.inr rfl
          · cases hor
        | id _ ht => cases ht; exact Or.inr rfl
      | false =>
        cases hs with
        | plain hor ht =>
          cases ht
          rcases hor with rfl | hor
          · exact Or.inr rfl
          · cases hor
        | id _ ht => cases ht; exact Or.inr rfl
  string := by
    intro isID s ho hv
    subst ho
    cases h with
    | refused _ hr => exact Or.inl ⟨rfl, _, hr, he _ (List.mem_singleton.2 rfl)⟩
    | scalar hv' hs =>
      rw [hv] at hv'
      cases hv'
      cases hs with
      | plain hor ht => cases ht with | string h1 h2 => exact Or.inr ⟨_, _, h1, h2, rfl⟩
      | id hne _ => exact absurd rfl hne
  enum := by
    intro i e k s pre post ho h1 hv hk h2 h3
    subst ho
    cases h with
    | refused _ hr => exact Or.inl ⟨rfl, _, hr, he _ (List.mem_singleton.2 rfl)⟩
    | enum g1 gv gk g2 g3 =>
      rw [h1] at g1; cases g1
      rw [hv] at gv; cases gv
      rw [first_key h2 h3 g2 g3]
      exact Or.inr rfl
    | noEnum g1 gv g =>
      rw [h1] at g1; cases g1
      rw [hv] at gv; cases gv
      rcases g with g | g | g | g
      · exact absurd rfl (g (k, s) (by rw [h2]; exact List.mem_append_right _ (List.mem_cons_self ..)))
      · exact absurd g hk.1
      · exact absurd g hk.2.1
      · exact absurd g hk.2.2
  time := by
    intro t ho hv
    subst ho
    cases h with
    | refused _ hr => exact Or.inl ⟨rfl, _, hr, he _ (List.mem_singleton.2 rfl)⟩
    | time gv g => rw [hv] at gv; cases gv; exact Or.inr ⟨_, g, rfl⟩
    | noTime g => exact absurd hv (g t)
  interface := by
    intro n impls goName goPkg y i ho hl hv hi
    subst ho
    cases h with
    | refused _ hr => exact Or.inl ⟨rfl, _, hr, he _ (List.mem_singleton.2 rfl)⟩
    | noInterface hl' => rw [hl] at hl'; cases hl'
    | nilInterface hl' hv' => rw [hv] at hv'; cases hv'
    | interface hl' hv' hi' hs =>
      rw [hl] at hl'; cases hl'
      rw [hv] at hv'; cases hv'
      rw [hi] at hi'; cases hi'
      exact Or.inr ⟨_, _, hs⟩
    | unregistered hl' hv' hno =>
      rw [hl] at hl'; cases hl'
      rw [hv] at hv'; cases hv'
      have h2 := List.find?_some hi
      exact absurd (of_decide_eq_true h2) (hno _ (List.mem_of_find?_eq_some hi))
  object := by
    intro n t ho hl
    subst ho
    cases h with
    | refused _ hr => exact Or.inl ⟨rfl, _, hr, he _ (List.mem_singleton.2 rfl)⟩
    | object hl' hm => rw [hl] at hl'; cases hl'; exact Or.inr ⟨_, _, _, rfl, hm⟩
    | noObject hl' => rw [hl] at hl'; cases hl'
  function := by
    intro m out ho hm
    subst ho
    cases h with
    | refused hc _ => exact absurd .method hc
    | nilFunc g1 g2 =>
      rcases hm with hm | hm
      · rw [g1] at hm; cases hm
      · rw [g2] at hm; cases hm
    | unbound _ hne =>
      exact Or.inl ⟨rfl, _, hne, he _ (List.mem_singleton.2 rfl)⟩
    | cancelled _ hi hc hx => exact Or.inr ⟨_, _, _, hi, hc, Or.inl ⟨_, hx, rfl, he _ (List.mem_append_right _ (List.mem_singleton.2 rfl))⟩⟩
    | call _ hi hc hx ho hs => exact Or.inr ⟨_, _, _, hi, hc, Or.inr ⟨_, _, _, ho, hs⟩⟩

/-- null stands for nil, or an error has its path -/
theorem reveals_null {w o v p x es w'} (h : Reveals schema env vars near w o v p x es w') (he : ∀ e ∈ es, e ∈ errs) : x = .null →
    Blamed errs p ∨ ∃ w1 o1 v1 es1 w2, Reveals schema env vars near w1 o1 v1 p .null es1 w2 ∧ Nil schema env w1 o1 v1 := by
  match h with
  | .ptr _ hs => exact reveals_null hs he
  | .interface _ _ _ hs => exact reveals_null hs he
  | .call _ _ _ _ _ hs => exact reveals_null hs (fun e h => he e (List.mem_append_right _ h))
  | .object _ _ => intro hx; cases hx
  | .list _ _ => intro hx; cases hx
  | .scalar _ _ => intro hx; cases hx
  | .enum _ _ _ _ _ => intro hx; cases hx
  | .time _ _ => intro hx; cases hx
  | .unbound _ _ => intro hx; cases hx
  | .refused _ _ => exact fun _ => Or.inl ⟨_, he _ (List.mem_singleton.2 rfl)⟩
  | .cancelled _ _ _ _ => exact fun _ => Or.inl ⟨_, he _ (List.mem_append_right _ (List.mem_singleton.2 rfl))⟩
  | .undefined => exact fun _ => Or.inr ⟨w, _, v, _, _, .undefined, .undefined⟩
  | .nilList (o := o') hv => exact fun _ => Or.inr ⟨w, .array o', v, _, _, .nilList hv, .nilList hv⟩
  | .nilPtr (o := o') hv => exact fun _ => Or.inr ⟨w, .ptr o', v, _, _, .nilPtr hv, .nilPtr hv⟩
  | .noObject hl => exact fun _ => Or.inr ⟨w, _, v, _, _, .noObject hl, .noType hl⟩
  | .noEnum h1 h2 h3 => exact fun _ => Or.inr ⟨w, _, v, _, _, .noEnum h1 h2 h3, .noEnumKey h1 h2 h3⟩
  | .noTime g => exact fun _ => Or.inr ⟨w, _, v, _, _, .noTime g, .noTime g⟩
  | .noInterface hl => exact fun _ => Or.inr ⟨w, _, v, _, _, .noInterface hl, .noInterface hl⟩
  | .nilInterface h1 h2 => exact fun _ => Or.inr ⟨w, _, v, _, _, .nilInterface h1 h2, .nilInterface h1 h2⟩
  | .unregistered h1 h2 h3 => exact fun _ => Or.inr ⟨w, _, v, _, _, .unregistered h1 h2 h3, .unregistered h1 h2 h3⟩
  | .nilFunc (out := o') h1 h2 => exact fun _ => Or.inr ⟨w, .method _ o', v, _, _, .nilFunc h1 h2, .nilFunc h1 h2⟩

/-- nothing stands only where an error has its path -/
theorem reveals_missing {w o v p x es w'} (h : Reveals schema env vars near w o v p x es w') (he : ∀ e ∈ es, e ∈ errs) : x = .missing → Blamed errs p := by
  match h with
  | .ptr _ hs => exact reveals_missing hs he
  | .interface _ _ _ hs => exact reveals_missing hs he
  | .call _ _ _ _ _ hs => exact reveals_missing hs (fun e h => he e (List.mem_append_right _ h))
  | .unbound _ _ => exact fun _ => ⟨_, he _ (List.mem_singleton.2 rfl)⟩
  | .object _ _ => intro hx; cases hx
  | .list _ _ => intro hx; cases hx
  | .scalar _ _ => intro hx; cases hx
  | .enum _ _ _ _ _ => intro hx; cases hx
  | .time _ _ => intro hx; cases hx
  | .refused _ _ => intro hx; cases hx
  | .cancelled _ _ _ _ => intro hx; cases hx
  | .undefined  => intro hx; cases hx
  | .nilList _ => intro hx; cases hx
  | .nilPtr _ => intro hx; cases hx
  | .noObject _ => intro hx; cases hx
  | .noEnum _ _ _ => intro hx; cases hx
  | .noTime _ => intro hx; cases hx
  | .noInterface _ => intro hx; cases hx
  | .nilInterface _ _ => intro hx; cases hx
  | .unregistered _ _ _ => intro hx; cases hx
  | .nilFunc _ _ => intro hx; cases hx

/-- an object of a response is a Go value of a registered object type -/
theorem reveals_object {w o v p x es w'} (h : Reveals schema env vars near w o v p x es w') (he : ∀ e ∈ es, e ∈ errs) : ∀ ms, x = .obj ms →
    ∃ w1 n t v1 es1 w2, lookup schema.types n = some t ∧ Reveals schema env vars near w1 (.objRef n) v1 p (.obj ms) es1 w2 ∧ Members schema env vars near t v1 p w1 ms es1 w2 ∧ ∀ e ∈ es1, e ∈ errs := by
  match h with
  | .ptr _ hs => exact reveals_object hs he
  | .interface _ _ _ hs => exact reveals_object hs he
  | .call _ _ _ _ _ hs => exact reveals_object hs (fun e h => he e (List.mem_append_right _ h))
  | .object ht hm => intro ms hx; cases hx; exact ⟨_, _, _, _, _, _, ht, .object ht hm, hm, he⟩
  | .unbound _ _ => intro ms hx; cases hx
  | .list _ _ => intro ms hx; cases hx
  | .scalar _ _ => intro ms hx; cases hx
  | .enum _ _ _ _ _ => intro ms hx; cases hx
  | .time _ _ => intro ms hx; cases hx
  | .refused _ _ => intro ms hx; cases hx
  | .cancelled _ _ _ _ => intro ms hx; cases hx
  | .undefined  => intro ms hx; cases hx
  | .nilList _ => intro ms hx; cases hx
  | .nilPtr _ => intro ms hx; cases hx
  | .noObject _ => intro ms hx; cases hx
  | .noEnum _ _ _ => intro ms hx; cases hx
  | .noTime _ => intro ms hx; cases hx
  | .noInterface _ => intro ms hx; cases hx
  | .nilInterface _ _ => intro ms hx; cases hx
  | .unregistered _ _ _ => intro ms hx; cases hx
  | .nilFunc _ _ => intro ms hx; cases hx

/-- A member `k : x` of an object at `p` with Go value `v` of type `t`: the name of the type; the value of a field of `v`; or null or nothing,
with an error of its path. -/
def Member (schema : RSchema F V) (env : Env F V W) (vars : VarsSrc) (near : Prop) (errs : List RErr) (t : RType F V) (v : V) (p : List Seg) (k : Bytes) (x : Out) : Prop :=
  x = .leaf (Shows.quoted t.typeName) ∨ ((x = .missing ∨ x = .null) ∧ Blamed errs (p ++ [.key k])) ∨
  ∃ f v' w1 gv es w2, f ∈ t.fields ∧ (near → v' = v) ∧ FieldValue env w1 v' f gv ∧ Reveals schema env vars near w1 f.obj gv (p ++ [.key k]) x es w2

theorem members_each {t v p w ms es w'} (h : Members schema env vars near t v p w ms es w') (he : ∀ e ∈ es, e ∈ errs) :
    ∀ k x, (k, x) ∈ ms → Member schema env vars near errs t v p k x := by
  match h with
  | .nil => intro k x hm; cases hm
  | .field hf hv hx hs hr =>
    intro k x hm
    rcases List.mem_cons.1 hm with e | hm
    · cases e
      exact Or.inr (Or.inr ⟨_, _, _, _, _, _, hf, hv, hx, hs⟩)
    · exact members_each hr (fun e h => he e (List.mem_append_right _ h)) k x hm
  | .typename hr =>
    intro k x hm
    rcases List.mem_cons.1 hm with e | hm
    · cases e; exact Or.inl rfl
    · exact members_each hr he k x hm
  | .noTypename hr =>
    intro k x hm
    rcases List.mem_cons.1 hm with e | hm
    · cases e; exact Or.inr (Or.inl ⟨Or.inl rfl, _, he _ (List.mem_cons_self ..)⟩)
    · exact members_each hr (fun e h => he e (List.mem_cons_of_mem _ h)) k x hm
  | .noField _ hr =>
    intro k x hm
    rcases List.mem_cons.1 hm with e | hm
    · cases e; exact Or.inr (Or.inl ⟨Or.inr rfl, _, he _ (List.mem_cons_self ..)⟩)
    · exact members_each hr (fun e h => he e (List.mem_cons_of_mem _ h)) k x hm
  | .directive _ _ _ _ _ hr => intro k x hm; exact members_each hr he k x hm
  | .error _ _ hr => intro k x hm; exact members_each hr (fun e h => he e (List.mem_cons_of_mem _ h)) k x hm

end
end Reveals

/-! ## The claims -/

section
variable {F V W : Type} [DecidableEq F]

/-- **C43.** Whatever request is answered, with whatever errors: every value below the root, at whatever path, stands for a Go value and is
what `Faithful` says (nil pointers, lists, functions and interfaces are null; lists have one entry per element in order; integers with the ID
tag are quoted; ...), or is the name of an object type, or is null or nothing and one of the errors has exactly its path.  Null stands for
nil, or an error has its path. -/
theorem C43_every_value {fuel : Nat} {schema : RSchema F V} {env : Env F V W} {vals : UInt8 → V} {w w' : W} {req : Request} {body : Bytes}
    {es : List ReqErr} (h : resolve fuel schema env vals w req = .ok (body, es) w') :
    (∃ ms errs, body = envelope req.noMeta (print (.obj ms)) es ∧ es = errs.map ReqErr.exec ∧ ∀ p x, p ≠ [] → At (.obj ms) p x →
      ((∃ w1 o v es1 w2, Reveals.Reveals schema env req.vars False w1 o v p x es1 w2 ∧ Reveals.Faithful schema env req.vars False errs w1 o v p x) ∨ (∃ t, Known schema t ∧ x = .leaf (Shows.quoted t.typeName)) ∨
        ((x = .missing ∨ x = .null) ∧ Blamed errs p)) ∧
      (x = .missing → Blamed errs p) ∧
      (x = .null → Blamed errs p ∨ ∃ w1 o v es1 w2, Reveals.Reveals schema env req.vars False w1 o v p .null es1 w2 ∧ Nil schema env w1 o v)) ∨
    (w' = w ∧ es ≠ [] ∧ body = envelope req.noMeta b%"{}" es) := by
  rcases every_response h with ⟨d, o, ms, errs, -, -, -, h1, h2, h3⟩ | h
  · refine Or.inl ⟨ms, errs, h1, h2, ?_⟩
    intro p x hp ha
    have hm := h3 False (fun h => h.elim)
    have hk : Known schema (rootOf schema o.kind).1 := by
      cases o.kind
      · exact Or.inl rfl
      · exact Or.inr (Or.inl rfl)
      · exact Or.inl rfl
    have ho : Reveals.Origin schema env req.vars False errs p x := by
      cases ha with
      | here => exact absurd rfl hp
      | key hk' ha => exact members_origin hm hk (fun e h => h) hk' ha
    cases ho with
    | value w1 o1 v1 es1 w2 hs he =>
      exact ⟨Or.inl ⟨w1, o1, v1, es1, w2, hs, reveals_faithful hs he⟩, reveals_missing hs he, reveals_null hs he⟩
    | typename t ht e => exact ⟨Or.inr (Or.inl ⟨t, ht, e⟩), fun h => (by rw [e] at h; cases h), fun h => (by rw [e] at h; cases h)⟩
    | broken e hb => exact ⟨Or.inr (Or.inr ⟨e, hb⟩), fun _ => hb, fun _ => Or.inl hb⟩
  · exact Or.inr h

/-- **C43** (no errors). Without errors there are no exceptions: every value below the root is what `Faithful` says of a Go value (with no
error to excuse a null), or a type name; nothing is left out; and null stands for nil only. -/
theorem C43_every_value_ok {fuel : Nat} {schema : RSchema F V} {env : Env F V W} {vals : UInt8 → V} {w w' : W} {req : Request} {body : Bytes}
    (h : resolve fuel schema env vals w req = .ok (body, []) w') :
    ∃ ms, body = envelope req.noMeta (print (.obj ms)) [] ∧ ∀ p x, p ≠ [] → At (.obj ms) p x →
      ((∃ w1 o v es1 w2, Reveals.Reveals schema env req.vars False w1 o v p x es1 w2 ∧ Reveals.Faithful schema env req.vars False [] w1 o v p x) ∨ ∃ t, Known schema t ∧ x = .leaf (Shows.quoted t.typeName)) ∧
      x ≠ .missing ∧ (x = .null → ∃ w1 o v es1 w2, Reveals.Reveals schema env req.vars False w1 o v p .null es1 w2 ∧ Nil schema env w1 o v) := by
  have nb : ∀ p, ¬ Blamed [] p := by
    rintro p ⟨_, hm⟩
    cases hm
  rcases C43_every_value h with ⟨ms, errs, h1, h2, h3⟩ | ⟨-, h, -⟩
  · have h2 := List.map_eq_nil_iff.1 h2.symm
    subst h2
    refine ⟨ms, h1, fun p x hp ha => ?_⟩
    obtain ⟨k1, k2, k3⟩ := h3 p x hp ha
    refine ⟨?_, fun e => nb p (k2 e), fun e => (k3 e).resolve_left (nb p)⟩
    rcases k1 with k1 | k1 | ⟨-, k1⟩
    · exact Or.inl k1
    · exact Or.inr k1
    · exact absurd k1 (nb p)
  · exact absurd rfl h

/-- **C22.** Whatever request is answered with a response at most 127 levels deep, with whatever errors: all members of the root object are
fields of the root value, and all members of any object in the response, before and after whatever nested selections, are
fields of one and the same Go value, the value shown at that place (or type names, or null or nothing with an error of that path). -/
theorem C22_every_parent_partial {fuel : Nat} {schema : RSchema F V} {env : Env F V W} {vals : UInt8 → V} {w w' : W} {req : Request} {body : Bytes}
    {es : List ReqErr} (h : resolve fuel schema env vals w req = .ok (body, es) w') :
    (∃ d o ms errs, Parsed req.query (reqTarget req) d ∧ chosenOperation req.target d = some o ∧
      body = envelope req.noMeta (print (.obj ms)) es ∧ es = errs.map ReqErr.exec ∧
      (depthMembers ms ≤ 127 →
        (∀ k x, (k, x) ∈ ms → Member schema env req.vars True errs (rootOf schema o.kind).1 (rootOf schema o.kind).2 [] k x) ∧
        ∀ p ms', p ≠ [] → At (.obj ms) p (.obj ms') → ∃ n t v w1 es1 w2, lookup schema.types n = some t ∧
          Reveals.Reveals schema env req.vars True w1 (.objRef n) v p (.obj ms') es1 w2 ∧ ∀ k x, (k, x) ∈ ms' → Member schema env req.vars True errs t v p k x)) ∨
    (w' = w ∧ es ≠ [] ∧ body = envelope req.noMeta b%"{}" es) := by
  rcases every_response h with ⟨d, o, ms, errs, hd, ho, -, h1, h2, h3⟩ | h
  · refine Or.inl ⟨d, o, ms, errs, hd, ho, h1, h2, fun hdep => ?_⟩
    have hm := h3 True (fun _ => by omega)
    refine ⟨members_each hm (fun e h => h), ?_⟩
    intro p ms' hp ha
    have hk : Known schema (rootOf schema o.kind).1 := by
      cases o.kind
      · exact Or.inl rfl
      · exact Or.inr (Or.inl rfl)
      · exact Or.inl rfl
    have horg : Reveals.Origin schema env req.vars True errs p (.obj ms') := by
      cases ha with
      | here => exact absurd rfl hp
      | key hk' ha => exact members_origin hm hk (fun e h => h) hk' ha
    cases horg with
    | value w1 o1 v1 es1 w2 hs he =>
      obtain ⟨w3, n, t, v3, es3, w4, k1, k2, k3, k4⟩ := reveals_object hs he ms' rfl
      exact ⟨n, t, v3, w3, es3, w4, k1, k2, members_each k3 k4⟩
    | typename t ht e => cases e
    | broken e hb => rcases e with e | e <;> cases e
  · exact Or.inr h

/-- **C44** (objects). Whatever request is answered: every object of the response, at whatever path, is a Go value of a known object type `t`,
and each of its members is the name of `t`, the value of a field of `t`, or null or nothing with an error of that path.  (Which type that is
for a value held by an interface: `Faithful.interface` in `C43_every_value`; null if the Go type is not registered: `Faithful.null`.) -/
theorem C44_every_object {fuel : Nat} {schema : RSchema F V} {env : Env F V W} {vals : UInt8 → V} {w w' : W} {req : Request} {body : Bytes}
    {es : List ReqErr} (h : resolve fuel schema env vals w req = .ok (body, es) w') :
    (∃ ms errs, body = envelope req.noMeta (print (.obj ms)) es ∧ es = errs.map ReqErr.exec ∧ ∀ p ms', At (.obj ms) p (.obj ms') →
      ∃ t v w1 es1 w2, Known schema t ∧ Members schema env req.vars False t v p w1 ms' es1 w2 ∧ ∀ k x, (k, x) ∈ ms' → Member schema env req.vars False errs t v p k x) ∨
    (w' = w ∧ es ≠ [] ∧ body = envelope req.noMeta b%"{}" es) := by
  rcases every_response h with ⟨d, o, ms, errs, hd, ho, -, h1, h2, h3⟩ | h
  · refine Or.inl ⟨ms, errs, h1, h2, ?_⟩
    have hm := h3 False (fun h => h.elim)
    have hk : Known schema (rootOf schema o.kind).1 := by
      cases o.kind
      · exact Or.inl rfl
      · exact Or.inr (Or.inl rfl)
      · exact Or.inl rfl
    intro p ms' ha
    cases ha with
    | here => exact ⟨_, _, _, _, _, hk, hm, members_each hm (fun e h => h)⟩
    | key hk' ha =>
      have horg : Reveals.Origin schema env req.vars False errs _ (.obj ms') := members_origin hm hk (fun e h => h) hk' ha
      cases horg with
      | value w1 o1 v1 es1 w2 hs he =>
        obtain ⟨w3, n, t, v3, es3, w4, k1, -, k3, k4⟩ := reveals_object hs he ms' rfl
        exact ⟨t, v3, w3, es3, w4, Or.inr (Or.inr ⟨n, k1⟩), k3, members_each k3 k4⟩
      | typename t ht e => cases e
      | broken e hb => rcases e with e | e <;> cases e
  · exact Or.inr h

omit [DecidableEq F] in
/-- **C26.** Whatever request is answered: wherever nothing stands in the response, an error has that path; and wherever the value of a
function of the schema stands, either its arguments were refused (nothing is written, exactly one error is reported, with that path and a reason listed in
`Spec/Delivered.lean`, and the world is the same: it was not called), or it was called with inputs its parameters allow and binding its arguments
met no error (the errors are its own and those below it). -/
theorem C26_called_or_refused {schema : RSchema F V} {env : Env F V W} {vars : VarsSrc} {near : Prop} {w w' : W} {m : Method F} {out : Obj F} {v : V} {p : List Seg} {x : Out}
    {es : List RErr} (h : Reveals.Reveals schema env vars near w (.method m out) v p x es w') :
    (m.isTypeMethod = false ∧ env.view w v = .func true ∧ x = .null ∧ es = [] ∧ w' = w) ∨
    (x = .missing ∧ w' = w ∧ ∃ msg, Delivered.Reason env schema.enums schema.inTypes vars m.inFields msg ∧ es = [⟨msg, pathJSON p⟩]) ∨
    ∃ inputs w1 outs es', Delivered.CalledWith env schema.enums schema.inTypes m inputs ∧ env.call w v (Shows.pathArg p) inputs = some (w1, outs) ∧ es = ownErrors env m p w1 outs ++ es' ∧
      ((∃ msg, env.ctxErr w1 = some msg ∧ x = .null ∧ es' = [⟨msg, pathJSON p⟩] ∧ w' = w1) ∨
       ∃ y, outs[m.outNr]? = some y ∧ Reveals.Reveals schema env vars near w1 out y p x es' w') := by
  cases h with
  | refused hc _ => exact absurd .method hc
  | nilFunc h1 h2 => exact Or.inl ⟨h1, h2, rfl, rfl, rfl⟩
  | unbound _ hne => exact Or.inr (Or.inl ⟨rfl, rfl, _, hne, rfl⟩)
  | cancelled _ hi hc hx => exact Or.inr (Or.inr ⟨_, _, _, _, hi, hc, rfl, Or.inl ⟨_, hx, rfl, rfl, rfl⟩⟩)
  | call _ hi hc hx ho hs => exact Or.inr (Or.inr ⟨_, _, _, _, hi, hc, rfl, Or.inr ⟨_, ho, hs⟩⟩)

end

/-! ## Examples -/

namespace Demo

/-- a request with nested objects, a list, a nil pointer, an interface value and an error -/
def every : Request := request b%"{friend{friend{name}name}scores pet{__typename}nope}"

def everyAnswer : Bytes :=
  b%"{\"data\":{\"friend\":{\"friend\":null,\"name\":\"Bob\"},\"scores\":[1,-2],\"pet\":{\"__typename\":\"Dog\"},\"nope\":null},\"errors\":[{\"message\":\"nope does not exists on User\",\"path\":[\"nope\"]}],\"extensions\":{}}"

theorem askEvery : ask 300 every = some (everyAnswer, 1, 0) := by decide +kernel

/-- the theorems above apply: it is answered -/
example : ∃ body es w', resolve 300 schema env noStack [] every = .ok (body, es) w' ∧ body = everyAnswer := by
  have h := askEvery
  unfold ask at h
  split at h
  · rename_i b es w' heq
    injection h with h
    injection h with h
    exact ⟨b, es, w', heq, h⟩
  · cases h

end Demo
end Yarql
