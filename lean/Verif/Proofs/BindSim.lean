import Verif.Proofs.RWp
import Verif.Spec.Eval
import Verif.Spec.Regular

/-! # Binding arguments: the interpreter follows the evaluator -/

namespace Yarql
namespace Eval
open Doc Resolver Yarql.Bind

section
variable {F V W α β : Type}

theorem E_bind {m : E W α} {f : α → E W β} {es : ES W} {x : β × ES W} :
    (m >>= f) es = some x ↔ ∃ a es1, m es = some (a, es1) ∧ f a es1 = some x := by
  show E.bind m f es = some x ↔ _
  unfold E.bind
  cases h : m es with
  | none => simp
  | some p =>
    obtain ⟨a, es1⟩ := p
    constructor
    · exact fun hf => ⟨a, es1, rfl, hf⟩
    · rintro ⟨_, _, hp, hf⟩
      cases hp
      exact hf

theorem E_pure {a : α} {es : ES W} {x : α × ES W} : (pure a : E W α) es = some x ↔ x = (a, es) := by
  show some (a, es) = some x ↔ _
  simp [eq_comm]

/-- how the interpreter stores an error -/
def rerr (e : Bytes × List Seg) : RErr := ⟨e.1, pathJSON e.2⟩

theorem mkErr_pathText (path : List Seg) (msg : Bytes) : mkErr (pathText path) msg = rerr (msg, path) := by
  cases path <;> rfl

/-- the interpreter's variable declarations are those of the operation -/
def ArgsAt (res : Bytes) (decls : List VarDef) (hasArgs : Bool) (argsStart : Nat) : Prop :=
  (hasArgs = false ∧ decls = []) ∨
  (hasArgs = true ∧ ∃ post, 0 :: res.drop argsStart = [0, c%'A'] ++ encVarDefs decls ++ endI ++ post)

/-- interpreter state `s` represents evaluator state `es` at `path` -/
structure Sim (res : Bytes) (r : Req F V W) (es : ES W) (path : List Seg) (s : RS V W) : Prop where
  errs : s.errs = es.errs.map rerr
  world : s.world = es.world
  vars : s.varsParsed = es.varsParsed
  path : s.path = pathText path
  args : ArgsAt res r.decls s.hasArgs s.argsStart

/-- binding changes neither output nor value stack -/
structure Keep (s s' : RS V W) : Prop where
  out : s'.out = s.out
  vals : s'.vals = s.vals
  idx : s'.idx = s.idx

theorem Keep.refl (s : RS V W) : Keep s s := ⟨rfl, rfl, rfl⟩
theorem Keep.trans {s s1 s2 : RS V W} (h : Keep s s1) (h' : Keep s1 s2) : Keep s s2 :=
  ⟨h'.out.trans h.out, h'.vals.trans h.vals, h'.idx.trans h.idx⟩

theorem Keep.pos (s : RS V W) (p : Nat) : Keep s { s with charNr := p } := ⟨rfl, rfl, rfl⟩

theorem Sim.pos {res : Bytes} {r : Req F V W} {es : ES W} {path : List Seg} {s : RS V W} (h : Sim res r es path s) (p : Nat) :
    Sim res r es path { s with charNr := p } := ⟨h.errs, h.world, h.vars, h.path, h.args⟩

/-- the interpreter's constants for a request -/
def cfgOf (r : Req F V W) (res : Bytes) (frags : List Nat) : Cfg F V W := ⟨res, frags, r.schema, r.env, r.vars⟩

variable {r : Req F V W} {res : Bytes} {frags : List Nat} {path : List Seg} {es es' : ES W} {s : RS V W}

theorem wp_report {msg : Bytes} {Q : Unit → RS V W → Prop} (hs : Sim res r es path s)
    (q : ∀ s', Keep s s' → s'.charNr = s.charNr → Sim res r { es with errs := es.errs ++ [(msg, path)] } path s' → Q () s') :
    wp (err msg) (cfgOf r res frags) s Q := by
  rw [wp_err]
  refine q _ ⟨rfl, rfl, rfl⟩ rfl ⟨?_, hs.world, hs.vars, hs.path, hs.args⟩
  simp only [hs.errs, hs.path, mkErr_pathText, List.map_append, List.map_cons, List.map_nil]

/-- report and stop -/
theorem wp_fail {msg : Bytes} {Q : Option α → RS V W → Prop} {x : Option α × ES W} (hs : Sim res r es path s)
    (he : (fail path msg : E W (Option α)) es = some x)
    (q : ∀ s', Keep s s' → s'.charNr = s.charNr → Sim res r x.2 path s' → x.1 = none → Q none s') :
    wp (do err msg; return none) (cfgOf r res frags) s Q := by
  have e : x = (none, { es with errs := es.errs ++ [(msg, path)] }) := by
    have h : some ((none : Option α), ({ es with errs := es.errs ++ [(msg, path)] } : ES W)) = some x := he
    exact (Option.some.inj h).symm
  subst e
  rw [wp_bind]
  exact wp_report hs (fun s' h1 h2 h3 => q s' h1 h2 h3 rfl)

theorem liftB_sim {b : B α} {a : Option α} (h : convert path b es = some (a, es')) (hs : Sim res r es path s)
    {Q : Option α → RS V W → Prop} (q : ∀ s', Keep s s' → s'.charNr = s.charNr → Sim res r es' path s' → Q a s') :
    wp (liftB b) (cfgOf r res frags) s Q := by
  cases b with
  | ok x =>
    have e : (a, es') = (some x, es) := E_pure.1 h
    cases e
    exact q s (Keep.refl s) rfl hs
  | err m =>
    have h' : wp (F := F) (do err m; return (none : Option α)) (cfgOf r res frags) s Q :=
      wp_fail hs h (fun s' h1 h2 h3 h4 => by
        have e : a = none := h4
        rw [e] at q
        exact q s' h1 h2 h3)
    exact h'
  | panic => cases h

theorem setTo_sim {b : B (InVal F)} {a : Bound F} (h : setE path b es = some (a, es')) (hs : Sim res r es path s)
    {Q : Bound F → RS V W → Prop} (q : ∀ s', Keep s s' → s'.charNr = s.charNr → Sim res r es' path s' → Q a s') :
    wp (setTo b) (cfgOf r res frags) s Q := by
  obtain ⟨x, es1, h1, h2⟩ := E_bind.1 h
  unfold setTo
  rw [wp_bind]
  refine liftB_sim h1 hs (fun s' k1 k2 k3 => ?_)
  cases x with
  | none =>
    have e := E_pure.1 h2
    cases e
    exact q s' k1 k2 k3
  | some v =>
    have e := E_pure.1 h2
    cases e
    exact q s' k1 k2 k3

/-! ## Positions -/

/-- `k` end instructions -/
def ends : Nat → Bytes
  | 0 => []
  | k + 1 => endI ++ ends k

theorem ends_endI (k : Nat) : ends k ++ endI = endI ++ ends k := by
  induction k with
  | zero => rfl
  | succ k ih =>
    show endI ++ ends k ++ endI = endI ++ (endI ++ ends k)
    rw [List.append_assoc, ih]

/-- position after a value: behind the NUL of the next instruction, or, after null, possibly before it -/
def After (res : Bytes) (v : Value) (p : Nat) (post : Bytes) : Prop :=
  0 :: res.drop p = ends (shift v) ++ post ∨ (v = .null ∧ res.drop p = post)

/-- The evaluator's and the interpreter's treatment of variables agree (the literals of default values are bound with
`fuel`). -/
def VarOK (r : Req F V W) (res : Bytes) (frags : List Nat) (path : List Seg) (fuel : Nat) (va : Bool)
    (onVar : Bytes → InVal F → Input → E W (Bound F)) : Prop :=
  ∀ (n : Bytes) (cur : InVal F) (inp : Input) (es es' : ES W) (a : Bound F) (s : RS V W) (post : Bytes),
    IsName n → res.drop s.charNr = n ++ 0 :: post → Sim res r es path s → onVar n cur inp es = some (a, es') →
    wp (bindVariable (bindInput fuel false cur inp) va cur inp) (cfgOf r res frags) s
      (fun x s' => x = a ∧ Keep s s' ∧ Sim res r es' path s' ∧ (a ≠ none → res.drop s'.charNr = post))

/-- Binding the literal `v` follows the evaluator. -/
def BindOK (r : Req F V W) (res : Bytes) (frags : List Nat) (path : List Seg) (v : Value) : Prop :=
  ∀ (N : Nat) (va : Bool) (onVar : Bytes → InVal F → Input → E W (Bound F)),
    (∀ k, N ≤ k → VarOK r res frags path k va onVar) →
    ∀ (fuel : Nat) (cur : InVal F) (inp : Input) (es es' : ES W) (a : Bound F) (s : RS V W) (post : Bytes),
      (encValue v).length + N ≤ fuel → (∃ q, post = 0 :: q) → 0 :: res.drop s.charNr = encValue v ++ post →
      Sim res r es path s → bindLit r path onVar v cur inp es = some (a, es') →
      wp (bindInput fuel va cur inp) (cfgOf r res frags) s
        (fun x s' => x = a ∧ Keep s s' ∧ Sim res r es' path s' ∧ (a ≠ none → After res v s'.charNr post))

theorem encHead_at {k : Byte} {body post : Bytes} {p : Nat} (h : 0 :: res.drop p = encHead k body ++ post) :
    res.drop p = c%'v' :: k :: (len32 body.length ++ (body ++ post)) := by
  unfold encHead at h
  simp only [List.cons_append, List.nil_append, List.append_assoc, List.cons.injEq, true_and] at h
  exact h

theorem encHead_body {k : Byte} {body post : Bytes} {p : Nat} (h : 0 :: res.drop p = encHead k body ++ post) :
    res.drop (p + 6) = body ++ post := by
  have h1 := encHead_at h
  have : res.drop (p + 1 + 1) = len32 body.length ++ (body ++ post) := drop_one (drop_one h1)
  show res.drop (p + 1 + 1 + 4) = _
  exact drop_add this rfl

/-- the kind byte of a value -/
def kindOf : Value → Byte
  | .var _ => c%'$'
  | .int _ => c%'i'
  | .float _ => c%'f'
  | .str _ => c%'s'
  | .bool _ => c%'b'
  | .null => c%'n'
  | .enum _ => c%'e'
  | .list _ => c%'l'
  | .obj _ => c%'o'

/-- what a value instruction holds after its length -/
def bodyOf : Value → Bytes
  | .var n => n
  | .int d => d
  | .float d => d
  | .str s => s
  | .bool b => [if b then c%'1' else c%'0']
  | .null => []
  | .enum n => n
  | .list vs => encValues vs ++ endI
  | .obj fs => encFields fs ++ endI

theorem encValue_eq (v : Value) : encValue v = encHead (kindOf v) (bodyOf v) := by
  cases v <;> simp [encValue, kindOf, bodyOf]

/-- It is enough to bind to variables that are not pointers. -/
theorem bindOK_of_base (v : Value)
    (base : ∀ (N : Nat) (va : Bool) (onVar : Bytes → InVal F → Input → E W (Bound F)),
      (∀ k, N ≤ k → VarOK r res frags path k va onVar) →
      ∀ (fuel : Nat) (cur : InVal F) (inp : Input) (es es' : ES W) (a : Bound F) (s : RS V W) (post : Bytes),
        (encValue v).length + N ≤ fuel + 1 → (∃ q, post = 0 :: q) → 0 :: res.drop s.charNr = encValue v ++ post →
        Sim res r es path s → bindLitBase r path onVar v cur inp es = some (a, es') →
        wp (bindBase (bindInput fuel) va cur inp) (cfgOf r res frags) s
          (fun x s' => x = a ∧ Keep s s' ∧ Sim res r es' path s' ∧ (a ≠ none → After res v s'.charNr post))) :
    BindOK r res frags path v := by
  intro N va onVar hV fuel cur inp es es' a s post hf hz hp hs h
  have hpos : (encValue v).length ≠ 0 := by rw [encValue_eq]; simp [encHead]
  obtain ⟨fuel, rfl⟩ : ∃ k, fuel = k + 1 := ⟨fuel - 1, by omega⟩
  unfold bindLit at h
  show wp (bindPtr (bindBase (bindInput fuel) va) cur inp) _ _ _
  have hp' := hp
  rw [encValue_eq] at hp'
  have hpk := encHead_at hp'
  have hbody := encHead_body hp'
  have key : ∀ (inp : Input) (cur : InVal F) (a : Bound F) (es' : ES W),
      ptrBind r (isNullLit v) (fun c i => bindLitBase r path onVar v c i) cur inp es = some (a, es') →
      wp (bindPtr (bindBase (bindInput fuel) va) cur inp) (cfgOf r res frags) s
        (fun x s' => x = a ∧ Keep s s' ∧ Sim res r es' path s' ∧ (a ≠ none → After res v s'.charNr post)) := by
    intro inp
    induction inp with
    | ptr e ih =>
      intro cur a es' h
      unfold ptrBind at h
      unfold bindPtr
      rw [wp_bind, wp_getCfg, wp_bind, wp_getPos, wp_bind]
      refine wp_getRes (drop_one hpk) ?_
      by_cases hn : isNullLit v = true
      · rw [if_pos hn] at h
        have e := E_pure.1 h
        cases e
        have hv : v = .null := by
          cases v <;> first | rfl | cases hn
        subst hv
        rw [if_pos (by decide), wp_bind, wp_skipInst, wp_pure]
        exact ⟨rfl, Keep.pos _ _, hs.pos _, fun _ => Or.inr ⟨rfl, hbody⟩⟩
      · rw [if_neg hn] at h
        have hk : ¬ ((kindOf v == c%'n') = true) := by
          cases v <;> first | exact absurd rfl hn | simp [kindOf]
        rw [if_neg hk]
        obtain ⟨a1, es1, h1, h2⟩ := E_bind.1 h
        refine wp_mono (wp_bind.2 (wp_mono (ih _ a1 es1 h1) ?_)) (fun _ _ h => h)
        rintro x1 s1 ⟨rfl, k1, k2, k3⟩
        rcases x1 with _ | ⟨x, _ | _⟩
        · have e := E_pure.1 h2
          cases e
          exact ⟨rfl, k1, k2, fun h => absurd rfl h⟩
        · have e := E_pure.1 h2
          cases e
          exact ⟨rfl, k1, k2, fun _ => k3 (by simp)⟩
        · have e := E_pure.1 h2
          cases e
          exact ⟨rfl, k1, k2, fun _ => k3 (by simp)⟩
    | _ =>
      intro cur a es' h
      exact base N va onVar hV fuel cur _ es es' a s post (by omega) hz hp hs h
  exact key inp cur a es' h

theorem bindBase_start {v : Value} {post : Bytes} {va : Bool} {cur : InVal F} {inp : Input}
    {bindRec : Bool → InVal F → Input → M F V W (Bound F)}
    {Q : Bound F → RS V W → Prop} (hp : 0 :: res.drop s.charNr = encValue v ++ post)
    (q : wp (match v with
        | .var _ => bindVariable (bindRec false cur inp) va cur inp
        | .int _ => readToNul >>= fun digits => setTo (assignInt r.env inp cur digits)
        | .float _ => bindFloat cur inp
        | .str _ => readToNul >>= fun str => setTo (assignString r.env r.schema.enums inp cur str)
        | .bool _ => bindBoolean cur inp
        | .null => skipInst 1 >>= fun _ => pure (some (cur, false))
        | .enum _ => bindEnum inp
        | .list _ => bindList (bindRec va) cur inp
        | .obj _ => bindObject (bindRec va) cur inp) (cfgOf r res frags) { s with charNr := s.charNr + 6 } Q) :
    wp (bindBase bindRec va cur inp) (cfgOf r res frags) s Q := by
  rw [encValue_eq] at hp
  have hpk := encHead_at hp
  unfold bindBase
  rw [wp_bind, wp_getCfg, wp_bind, wp_skipInst, wp_bind]
  refine wp_readInst (b := kindOf v) (drop_one hpk) ?_
  rw [wp_bind, wp_skipInst]
  cases v <;> exact q

/-! ## Scalars -/

theorem digits_no_nul {ds : Bytes} (h : Digits ds) : (0 : Byte) ∉ ds := fun hm => absurd (h 0 hm).1 (by decide)

theorem int_no_nul {b : Bytes} (h : IsInt b) : (0 : Byte) ∉ b := by
  obtain ⟨sign, ds, rfl, hs, hd⟩ := h
  simp only [List.mem_append, not_or]
  refine ⟨?_, digits_no_nul hd⟩
  rcases hs with rfl | rfl <;> simp

theorem float_no_nul {b : Bytes} (h : IsFloat b) : (0 : Byte) ∉ b := by
  obtain ⟨i, f, e, rfl, hi, hf, he, _⟩ := h
  simp only [List.mem_append, not_or]
  refine ⟨⟨int_no_nul hi, ?_⟩, ?_⟩
  · rcases hf with rfl | ⟨ds, rfl, hd⟩
    · simp
    · simp only [List.mem_cons, not_or]
      exact ⟨by decide, digits_no_nul hd⟩
  · rcases he with rfl | ⟨x, rfl, hx⟩
    · simp
    · simp only [List.mem_cons, not_or]
      exact ⟨by decide, int_no_nul hx⟩

theorem setE_err {m : Bytes} {a : Bound F} (h : setE path (.err m) es = some (a, es')) : a = none := by
  obtain ⟨x, es1, h1, h2⟩ := E_bind.1 h
  have h1' : some ((none : Option (InVal F)), ({ es with errs := es.errs ++ [(m, path)] } : ES W)) = some (x, es1) := h1
  cases h1'
  have e := E_pure.1 h2
  cases e
  rfl

theorem body_at {v : Value} {post : Bytes} {p : Nat} (hp : 0 :: res.drop p = encValue v ++ post) :
    res.drop (p + 6) = bodyOf v ++ post := by
  rw [encValue_eq] at hp
  exact encHead_body hp

/-- literals whose text is read up to the next NUL -/
theorem word_sim {v : Value} {word : Bytes} {post : Bytes} {f : Bytes → B (InVal F)} {a : Bound F}
    (hsh : shift v = 0) (hw : bodyOf v = word) (h0 : (0 : Byte) ∉ word) (hz : ∃ q, post = 0 :: q)
    (hp : 0 :: res.drop s.charNr = encValue v ++ post) (hs : Sim res r es path s)
    (h : setE path (f word) es = some (a, es')) :
    wp (readToNul >>= fun w => setTo (f w)) (cfgOf r res frags) { s with charNr := s.charNr + 6 }
      (fun x s' => x = a ∧ Keep s s' ∧ Sim res r es' path s' ∧ (a ≠ none → After res v s'.charNr post)) := by
  have hb := body_at hp
  obtain ⟨q, rfl⟩ := hz
  rw [hw] at hb
  rw [wp_bind]
  refine wp_readToNul hb h0 ?_
  refine setTo_sim h (s := { s with charNr := s.charNr + 6 + word.length + 1 }) (hs.pos _) (fun s' k1 k2 k3 => ?_)
  refine ⟨rfl, (Keep.pos _ _).trans k1, k3, fun _ => Or.inl ?_⟩
  rw [k2, hsh]
  show 0 :: res.drop (s.charNr + 6 + word.length + 1) = 0 :: q
  rw [Nat.add_assoc, drop_add (a := word ++ [0]) (rest := q) (by rw [hb]; simp) (by simp)]

theorem bindOK_int (d : Bytes) (hw : IsInt d) : BindOK r res frags path (.int d) := by
  refine bindOK_of_base _ (fun N va onVar _ fuel cur inp es es' a s post _ hz hp hs h => ?_)
  refine bindBase_start hp ?_
  simp only [bindLitBase] at h
  exact word_sim (v := .int d) (f := fun w => assignInt r.env inp cur w) (by simp [shift]) rfl (int_no_nul hw) hz hp hs h

theorem bindOK_str (d : Bytes) (hw : (0 : Byte) ∉ d) : BindOK r res frags path (.str d) := by
  refine bindOK_of_base _ (fun N va onVar _ fuel cur inp es es' a s post _ hz hp hs h => ?_)
  refine bindBase_start hp ?_
  simp only [bindLitBase] at h
  exact word_sim (v := .str d) (f := fun w => assignString r.env r.schema.enums inp cur w) (by simp [shift]) rfl hw hz hp hs h

/-- a conversion that fails whatever the literal -/
theorem err_sim {m : Bytes} {v : Value} {post : Bytes} {a : Bound F} (hs : Sim res r es path s)
    (h : setE path (.err m : B (InVal F)) es = some (a, es')) {p : Nat} :
    wp (setTo (.err m)) (cfgOf r res frags) { s with charNr := p }
      (fun x s' => x = a ∧ Keep s s' ∧ Sim res r es' path s' ∧ (a ≠ none → After res v s'.charNr post)) :=
  setTo_sim h (s := { s with charNr := p }) (hs.pos _)
    (fun _ k1 _ k3 => ⟨rfl, (Keep.pos _ _).trans k1, k3, fun ha => absurd (setE_err h) ha⟩)

theorem bindOK_float (d : Bytes) (hw : IsFloat d) : BindOK r res frags path (.float d) := by
  refine bindOK_of_base _ (fun N va onVar _ fuel cur inp es es' a s post _ hz hp hs h => ?_)
  refine bindBase_start hp ?_
  simp only [bindLitBase] at h
  show wp (bindFloat cur inp) _ _ _
  unfold bindFloat
  rw [wp_bind, wp_getCfg]
  split
  · exact word_sim (v := .float d) (f := fun w => assignFloat r.env _ cur w) (by simp [shift]) rfl (float_no_nul hw) hz hp hs h
  · exact word_sim (v := .float d) (f := fun w => assignFloat r.env _ cur w) (by simp [shift]) rfl (float_no_nul hw) hz hp hs h
  · rename_i h1 h2
    have e : ∀ w, assignFloat r.env inp cur w = .err (b%"cannot assign float to " ++ goString r.env inp cur) := by
      intro w
      unfold assignFloat
      split
      · exact (h1 _ _ rfl).elim
      · exact (h2 _ _ rfl).elim
      · rfl
    rw [e] at h
    show wp (setTo (assignFloat r.env inp cur [])) _ _ _
    rw [e]
    exact err_sim hs h

theorem bindOK_enum (n : Bytes) (hw : IsName n) : BindOK r res frags path (.enum n) := by
  refine bindOK_of_base _ (fun N va onVar _ fuel cur inp es es' a s post _ hz hp hs h => ?_)
  refine bindBase_start hp ?_
  simp only [bindLitBase] at h
  show wp (bindEnum inp) _ _ _
  unfold bindEnum
  rw [wp_bind, wp_getCfg]
  split
  · exact word_sim (v := .enum n) (f := fun w => assignEnumLit r.schema.enums _ w) (by simp [shift]) rfl (name_no_nul hw) hz hp hs h
  · rename_i h1
    have e : ∀ w, assignEnumLit r.schema.enums inp w = .err b%"cannot assign enum to non enum value" := by
      intro w
      unfold assignEnumLit
      split
      · exact (h1 _ _ _ rfl).elim
      · rfl
    rw [e] at h
    show wp (setTo (assignEnumLit r.schema.enums inp [])) _ _ _
    rw [e]
    exact err_sim hs h

theorem bindOK_bool (b : Bool) : BindOK r res frags path (.bool b) := by
  refine bindOK_of_base _ (fun N va onVar _ fuel cur inp es es' a s post _ hz hp hs h => ?_)
  refine bindBase_start hp ?_
  simp only [bindLitBase] at h
  have hb := body_at hp
  obtain ⟨q, rfl⟩ := hz
  show wp (bindBoolean cur inp) _ _ _
  unfold bindBoolean
  rw [wp_bind, wp_getCfg]
  split
  · rw [wp_bind]
    refine wp_readInst (b := if b then c%'1' else c%'0') (rest := 0 :: q) hb ?_
    rw [wp_bind, wp_skipInst]
    have e : ((if b then c%'1' else c%'0' : Byte) == c%'1') = b := by cases b <;> rfl
    rw [e]
    refine setTo_sim h (s := { s with charNr := s.charNr + 6 + 1 + 1 }) (hs.pos _) (fun s' k1 k2 k3 => ?_)
    refine ⟨rfl, (Keep.pos _ _).trans k1, k3, fun _ => Or.inl ?_⟩
    rw [k2]
    show 0 :: res.drop (s.charNr + 6 + 1 + 1) = 0 :: q
    rw [drop_one (drop_one hb)]
  · rename_i h1
    have e : ∀ w, assignBool r.env inp cur w = .err (b%"cannot assign boolean to " ++ goString r.env inp cur) := by
      intro w
      unfold assignBool
      split
      · exact (h1 _ _ rfl).elim
      · rfl
    rw [e] at h
    show wp (setTo (assignBool r.env inp cur true)) _ _ _
    rw [e]
    exact err_sim hs h

theorem bindOK_null : BindOK r res frags path .null := by
  refine bindOK_of_base _ (fun N va onVar _ fuel cur inp es es' a s post _ hz hp hs h => ?_)
  refine bindBase_start hp ?_
  simp only [bindLitBase] at h
  have e := E_pure.1 h
  cases e
  have hb := body_at hp
  obtain ⟨q, rfl⟩ := hz
  show wp (skipInst 1 >>= _) _ _ _
  rw [wp_bind, wp_skipInst, wp_pure]
  refine ⟨rfl, Keep.pos _ _, hs.pos _, fun _ => Or.inl ?_⟩
  show 0 :: res.drop (s.charNr + 6 + 1) = 0 :: q
  rw [drop_one hb]

theorem bindOK_var (n : Bytes) (hw : IsName n) : BindOK r res frags path (.var n) := by
  refine bindOK_of_base _ (fun N va onVar hV fuel cur inp es es' a s post hf hz hp hs h => ?_)
  refine bindBase_start hp ?_
  simp only [bindLitBase] at h
  have hb := body_at hp
  obtain ⟨q, rfl⟩ := hz
  have hlen : 7 ≤ (encValue (.var n)).length := by
    rw [encValue_eq]
    simp [encHead, len32, le32]
  refine wp_mono (hV fuel (by omega) n cur inp es es' a { s with charNr := s.charNr + 6 } q hw hb (hs.pos _) h) ?_
  rintro x s' ⟨rfl, k1, k2, k3⟩
  refine ⟨rfl, (Keep.pos _ _).trans k1, k2, fun ha => Or.inl ?_⟩
  rw [k3 ha]
  simp [shift, ends]

/-! ## Lists -/

theorem encValue_z (v : Value) : ∃ q, encValue v = 0 :: c%'v' :: q := by
  rw [encValue_eq]
  exact ⟨_, rfl⟩

theorem encValues_z (vs : List Value) (x : Bytes) : ∃ q, encValues vs ++ (endI ++ x) = 0 :: q := by
  cases vs with
  | nil => exact ⟨_, rfl⟩
  | cons v vs =>
    obtain ⟨q, e⟩ := encValue_z v
    simp only [encValues, e]
    exact ⟨_, rfl⟩

theorem listLoop_sim {N fuel : Nat} {va : Bool} {onVar : Bytes → InVal F → Input → E W (Bound F)}
    (hV : ∀ k, N ≤ k → VarOK r res frags path k va onVar) (e : Input) :
    ∀ (vs : List Value), (∀ v ∈ vs, BindOK r res frags path v) → itemsRegular vs →
      (∀ v ∈ vs, (encValue v).length + N ≤ fuel) →
    ∀ (n k : Nat) (acc : List (InVal F)) (es es' : ES W) (a : Option (List (InVal F))) (s : RS V W) (post : Bytes),
      vs.length + 1 ≤ n → (vs ≠ [] → k = 0) → (∃ q, post = 0 :: q) →
      0 :: res.drop s.charNr = ends k ++ (encValues vs ++ (endI ++ post)) → Sim res r es path s →
      bindItems r path onVar vs e es = some (a, es') →
      wp (listLoop (bindInput fuel va (zeroOf r.env r.schema.inTypes e) e) n acc) (cfgOf r res frags) s
        (fun x s' => x = a.map (acc ++ ·) ∧ Keep s s' ∧ Sim res r es' path s' ∧
          (a ≠ none → 0 :: res.drop s'.charNr = ends (if vs.isEmpty then k else shiftItems vs) ++ (endI ++ post))) := by
  intro vs
  induction vs with
  | nil =>
    intro _ _ _ n k acc es es' a s post hn _ hz hp hs h
    obtain ⟨n, rfl⟩ : ∃ m, n = m + 1 := ⟨n - 1, by omega⟩
    simp only [bindItems] at h
    have e := E_pure.1 h
    cases e
    unfold listLoop
    have hp' := hp
    simp only [encValues, List.nil_append] at hp
    rw [← List.append_assoc, ends_endI] at hp
    rw [wp_bind]
    refine wp_seekInst (b := c%'e') (rest := ends k ++ post) ?_ ?_
    · show res.drop s.charNr = _
      simpa [endI] using hp
    · rw [if_pos (by decide), wp_pure]
      refine ⟨by simp, Keep.refl s, hs, fun _ => ?_⟩
      simpa [encValues] using hp'
  | cons v vs ih =>
    intro hok hreg hfuel n k acc es es' a s post hn hk hz hp hs h
    obtain ⟨n, rfl⟩ : ∃ m, n = m + 1 := ⟨n - 1, by simp at hn; omega⟩
    simp only [itemsRegular] at hreg
    obtain ⟨_, hnull, hsh, hreg'⟩ := hreg
    have hk0 := hk (by simp)
    subst hk0
    simp only [ends, List.nil_append, encValues] at hp
    rw [List.append_assoc] at hp
    simp only [bindItems] at h
    obtain ⟨a1, es1, h1, h2⟩ := E_bind.1 h
    unfold listLoop
    rw [wp_bind]
    obtain ⟨q, hq⟩ := encValue_z v
    refine wp_seekInst (b := c%'v') (rest := q ++ (encValues vs ++ (endI ++ post))) ?_ ?_
    · have := hp
      rw [hq] at this
      show res.drop s.charNr = _
      simpa using this
    · rw [if_neg (by decide), wp_bind]
      refine wp_mono (hok v (by simp) N va onVar hV fuel _ e es es1 a1 s _ (hfuel v (by simp)) (encValues_z vs post) hp hs h1) ?_
      rintro x1 s1 ⟨rfl, k1, k2, k3⟩
      rcases x1 with _ | x1
      · have e := E_pure.1 h2
        cases e
        exact ⟨rfl, k1, k2, fun h => absurd rfl h⟩
      · obtain ⟨a2, es2, h3, h4⟩ := E_bind.1 h2
        have hpos : 0 :: res.drop s1.charNr = ends (shift v) ++ (encValues vs ++ (endI ++ post)) := by
          rcases k3 (by simp) with h | ⟨h, _⟩
          · exact h
          · exact absurd h hnull
        have := ih (fun v hv => hok v (by simp [hv])) hreg' (fun v hv => hfuel v (by simp [hv])) n (shift v) (acc ++ [x1.1])
          es1 es2 a2 s1 post (by simp at hn; omega) hsh hz hpos k2 h3
        refine wp_mono this ?_
        rintro x2 s2 ⟨rfl, m1, m2, m3⟩
        rcases a2 with _ | xs
        · have e := E_pure.1 h4
          cases e
          exact ⟨rfl, k1.trans m1, m2, fun h => absurd rfl h⟩
        · have e := E_pure.1 h4
          cases e
          refine ⟨by simp, k1.trans m1, m2, fun _ => ?_⟩
          rw [m3 (by simp)]
          simp [shiftItems]

theorem encValues_length (vs : List Value) : vs.length ≤ (encValues vs).length := by
  induction vs with
  | nil => simp
  | cons v vs ih =>
    obtain ⟨q, hq⟩ := encValue_z v
    simp [encValues, hq]
    omega

theorem encValues_mem {v : Value} {vs : List Value} (h : v ∈ vs) : (encValue v).length ≤ (encValues vs).length := by
  induction vs with
  | nil => cases h
  | cons w vs ih =>
    simp only [encValues, List.length_append]
    rcases List.mem_cons.1 h with rfl | h
    · omega
    · have := ih h
      omega

theorem bindOK_list (vs : List Value) (hok : ∀ v ∈ vs, BindOK r res frags path v) (hreg : itemsRegular vs) :
    BindOK r res frags path (.list vs) := by
  refine bindOK_of_base _ (fun N va onVar hV fuel cur inp es es' a s post hf hz hp hs h => ?_)
  refine bindBase_start hp ?_
  simp only [bindLitBase] at h
  have hb := body_at hp
  show wp (bindList (bindInput fuel va) cur inp) _ _ _
  unfold bindList
  rw [wp_bind, wp_getCfg]
  cases inp with
  | array n e =>
    refine wp_fail (s := { s with charNr := s.charNr + 6 }) (hs.pos _) h (fun s' k1 _ k3 k4 => ?_)
    exact ⟨k4.symm, (Keep.pos _ _).trans k1, k3, fun h => absurd k4 h⟩
  | slice e =>
    obtain ⟨a1, es1, h1, h2⟩ := E_bind.1 h
    show wp (skipInst 1 >>= _) _ _ _
    rw [wp_bind, wp_skipInst, wp_bind]
    simp only [bodyOf, List.append_assoc] at hb
    have hp1 : 0 :: res.drop (s.charNr + 6 + 1) = ends 0 ++ (encValues vs ++ (endI ++ post)) := by
      obtain ⟨q, hq⟩ := encValues_z vs post
      rw [hq] at hb
      rw [hq, drop_one hb]
      rfl
    have hlen : (encValue (.list vs)).length = 7 + ((encValues vs).length + 2) := by
      rw [encValue_eq]
      simp [encHead, kindOf, bodyOf, len32, le32, endI]
      omega
    have hres : (encValues vs).length + 2 ≤ res.length := by
      have := congrArg List.length hb
      simp [endI] at this
      omega
    refine wp_mono (listLoop_sim hV e vs hok hreg (fun v hv => by have := encValues_mem hv; omega) (res.length + 1) 0 []
      es es1 a1 { s with charNr := s.charNr + 6 + 1 } post (by have := encValues_length vs; omega) (fun _ => rfl) hz hp1
      (hs.pos _) h1) ?_
    rintro x1 s1 ⟨rfl, k1, k2, k3⟩
    rcases a1 with _ | xs
    · have e := E_pure.1 h2
      cases e
      exact ⟨rfl, (Keep.pos _ _).trans k1, k2, fun h => absurd rfl h⟩
    · have e := E_pure.1 h2
      cases e
      refine ⟨by simp, (Keep.pos _ _).trans k1, k2, fun _ => Or.inl ?_⟩
      rw [k3 (by simp), ← List.append_assoc, ends_endI, List.append_assoc]
      cases vs <;> simp [shift, ends, shiftItems]
  | _ =>
    refine wp_fail (s := { s with charNr := s.charNr + 6 }) (hs.pos _) h (fun s' k1 _ k3 k4 => ?_)
    exact ⟨k4.symm, (Keep.pos _ _).trans k1, k3, fun h => absurd k4 h⟩

/-! ## Objects -/

/-- walk over members with a step function -/
def walkE {σ : Type} (step : Bytes → Value → σ → E W (Option σ)) : List (Bytes × Value) → σ → E W (Option σ)
  | [], acc => return some acc
  | (k, v) :: ms, acc => do
    match ← step k v acc with
    | none => return none
    | some acc' => walkE step ms acc'

theorem encFields_z (fs : List (Bytes × Value)) (x : Bytes) : ∃ q, encFields fs ++ (endI ++ x) = 0 :: q := by
  cases fs with
  | nil => exact ⟨_, rfl⟩
  | cons f fs => exact ⟨_, rfl⟩

theorem walkLoop_sim {σ : Type} (onKey : Bytes → σ → M F V W (Option σ)) (step : Bytes → Value → σ → E W (Option σ)) :
    ∀ (fs : List (Bytes × Value)), fieldsWF fs → membersRegular fs →
      (∀ kv ∈ fs, ∀ (acc : σ) (es es' : ES W) (a : Option σ) (s : RS V W) (post : Bytes), (∃ q, post = 0 :: q) →
        0 :: res.drop s.charNr = encValue kv.2 ++ post → Sim res r es path s → step kv.1 kv.2 acc es = some (a, es') →
        wp (onKey kv.1 acc) (cfgOf r res frags) s
          (fun x s' => x = a ∧ Keep s s' ∧ Sim res r es' path s' ∧ (a ≠ none → After res kv.2 s'.charNr post))) →
    ∀ (n k : Nat) (acc : σ) (es es' : ES W) (a : Option σ) (s : RS V W) (post : Bytes),
      fs.length + 1 ≤ n → (fs ≠ [] → k = 0) → (∃ q, post = 0 :: q) →
      (0 :: res.drop s.charNr = ends k ++ (encFields fs ++ (endI ++ post)) ∨
        (k = 0 ∧ res.drop s.charNr = encFields fs ++ (endI ++ post))) →
      Sim res r es path s → walkE step fs acc es = some (a, es') →
      wp (walkLoop onKey n acc) (cfgOf r res frags) s
        (fun x s' => x = a ∧ Keep s s' ∧ Sim res r es' path s' ∧
          (a ≠ none → 0 :: res.drop s'.charNr = ends (if fs.isEmpty then k else shiftMembers fs) ++ post)) := by
  intro fs
  induction fs with
  | nil =>
    intro _ _ _ n k acc es es' a s post hn _ hz hp hs h
    obtain ⟨n, rfl⟩ : ∃ m, n = m + 1 := ⟨n - 1, by omega⟩
    simp only [walkE] at h
    have e := E_pure.1 h
    cases e
    obtain ⟨q, rfl⟩ := hz
    simp only [encFields, List.nil_append] at hp
    unfold walkLoop
    rw [wp_bind]
    rcases hp with hp | ⟨rfl, hp⟩
    · rw [← List.append_assoc, ends_endI] at hp
      have hp1 : res.drop s.charNr = c%'e' :: (ends k ++ 0 :: q) := by simpa [endI] using hp
      refine wp_readInst hp1 ?_
      rw [if_pos (by decide), wp_bind, wp_pure]
      dsimp only
      rw [if_pos rfl, wp_bind, wp_skipInst, wp_pure]
      refine ⟨rfl, Keep.pos _ _, hs.pos _, fun _ => ?_⟩
      have hp2 := drop_one hp1
      show 0 :: res.drop (s.charNr + 1 + 1) = ends k ++ 0 :: q
      cases k with
      | zero =>
        simp only [ends, List.nil_append] at hp2 ⊢
        rw [drop_one hp2]
      | succ k =>
        simp only [ends, endI, List.cons_append, List.nil_append] at hp2 ⊢
        rw [drop_one hp2]
    · have hp1 : res.drop s.charNr = 0 :: c%'e' :: 0 :: q := by simpa [endI] using hp
      refine wp_readInst hp1 ?_
      rw [if_neg (by decide), if_pos (by decide), wp_bind]
      refine wp_readInst (drop_one hp1) ?_
      rw [wp_bind, wp_pure]
      dsimp only
      rw [if_pos (by decide), wp_bind, wp_skipInst, wp_pure]
      refine ⟨rfl, Keep.pos _ _, hs.pos _, fun _ => ?_⟩
      show 0 :: res.drop (s.charNr + 1 + 1 + 1) = ends 0 ++ 0 :: q
      rw [drop_one (drop_one (drop_one hp1))]
      rfl
  | cons kv fs ih =>
    obtain ⟨key, v⟩ := kv
    intro hwf hreg hstep n k acc es es' a s post hn hk hz hp hs h
    obtain ⟨n, rfl⟩ : ∃ m, n = m + 1 := ⟨n - 1, by simp at hn; omega⟩
    have hk0 := hk (by simp)
    subst hk0
    simp only [fieldsWF] at hwf
    simp only [membersRegular] at hreg
    obtain ⟨hname, _, hwf'⟩ := hwf
    obtain ⟨_, hsh, hreg'⟩ := hreg
    simp only [walkE] at h
    obtain ⟨a1, es1, h1, h2⟩ := E_bind.1 h
    obtain ⟨qv, hqv⟩ := encValue_z v
    -- the position of the `u`
    have hu : ∃ p, res.drop p = c%'u' :: (key ++ (encValue v ++ (encFields fs ++ (endI ++ post)))) ∧
        ∀ Q : Option σ → RS V W → Prop,
          (wp (readToNul >>= fun key => onKey key acc >>= fun x => match x with
            | none => pure none
            | some acc' => walkLoop onKey n acc') (cfgOf r res frags) { s with charNr := p + 1 } Q) →
          wp (walkLoop onKey (n + 1) acc) (cfgOf r res frags) s Q := by
      rcases hp with hp | ⟨_, hp⟩
      · refine ⟨s.charNr, by simpa [encFields, ends] using hp, fun Q hQ => ?_⟩
        have hp1 : res.drop s.charNr = c%'u' :: (key ++ (encValue v ++ (encFields fs ++ (endI ++ post)))) := by
          simpa [encFields, ends] using hp
        unfold walkLoop
        rw [wp_bind]
        refine wp_readInst hp1 ?_
        rw [if_neg (by decide), if_neg (by decide), wp_bind, wp_pure]
        dsimp only
        rw [if_neg (by decide)]
        exact hQ
      · have hp1 : res.drop s.charNr = 0 :: c%'u' :: (key ++ (encValue v ++ (encFields fs ++ (endI ++ post)))) := by
          simpa [encFields, ends] using hp
        refine ⟨s.charNr + 1, drop_one hp1, fun Q hQ => ?_⟩
        unfold walkLoop
        rw [wp_bind]
        refine wp_readInst hp1 ?_
        rw [if_neg (by decide), if_pos (by decide), wp_bind]
        refine wp_readInst (drop_one hp1) ?_
        rw [wp_bind, wp_pure]
        dsimp only
        rw [if_neg (by decide)]
        exact hQ
    obtain ⟨p, hpu, hrun⟩ := hu
    apply hrun
    rw [wp_bind]
    have hk1 : res.drop (p + 1) = key ++ 0 :: (c%'v' :: qv ++ (encFields fs ++ (endI ++ post))) := by
      rw [drop_one hpu, hqv]
      simp
    refine wp_readToNul (s := { s with charNr := p + 1 }) hk1 (name_no_nul hname) ?_
    rw [wp_bind]
    have hv1 : 0 :: res.drop (p + 1 + key.length + 1) = encValue v ++ (encFields fs ++ (endI ++ post)) := by
      rw [Nat.add_assoc (p + 1), drop_add (a := key ++ [0]) (rest := c%'v' :: qv ++ (encFields fs ++ (endI ++ post)))
        (by rw [hk1]; simp) (by simp), hqv]
      rfl
    refine wp_mono (hstep (key, v) (by simp) acc es es1 a1 { s with charNr := p + 1 + key.length + 1 } _ (encFields_z fs post)
      hv1 (hs.pos _) h1) ?_
    rintro x1 s1 ⟨rfl, k1, k2, k3⟩
    have k1' : Keep s s1 := (Keep.pos _ _).trans k1
    rcases x1 with _ | acc'
    · have e := E_pure.1 h2
      cases e
      exact ⟨rfl, k1', k2, fun h => absurd rfl h⟩
    · have hpos : 0 :: res.drop s1.charNr = ends (shift v) ++ (encFields fs ++ (endI ++ post)) ∨
          (shift v = 0 ∧ res.drop s1.charNr = encFields fs ++ (endI ++ post)) := by
        rcases k3 (by simp) with h | ⟨h, h'⟩
        · exact Or.inl h
        · exact Or.inr ⟨by have : v = .null := h; rw [this]; simp [shift], h'⟩
      refine wp_mono (ih hwf' hreg' (fun kv hkv => hstep kv (by simp [hkv])) n (shift v) acc' es1 es' a s1 post
        (by simp at hn; omega) hsh hz hpos k2 h2) ?_
      rintro x2 s2 ⟨rfl, m1, m2, m3⟩
      refine ⟨rfl, k1'.trans m1, m2, fun ha => ?_⟩
      rw [m3 ha]
      simp [shiftMembers]

theorem encFields_length (fs : List (Bytes × Value)) : fs.length ≤ (encFields fs).length := by
  induction fs with
  | nil => simp
  | cons f fs ih =>
    simp [encFields]
    omega

theorem encFields_mem {kv : Bytes × Value} {fs : List (Bytes × Value)} (h : kv ∈ fs) :
    (encValue kv.2).length + 2 ≤ (encFields fs).length := by
  induction fs with
  | nil => cases h
  | cons w fs ih =>
    simp only [encFields, List.length_append]
    rcases List.mem_cons.1 h with rfl | h
    · simp
      omega
    · have := ih h
      omega

/-- `walkInputObject` on the encoding of an object -/
theorem walkInputObject_sim {σ : Type} (onKey : Bytes → σ → M F V W (Option σ)) (step : Bytes → Value → σ → E W (Option σ))
    (fs : List (Bytes × Value)) (hwf : fieldsWF fs) (hreg : membersRegular fs)
    (hstep : ∀ kv ∈ fs, ∀ (acc : σ) (es es' : ES W) (a : Option σ) (s : RS V W) (post : Bytes), (∃ q, post = 0 :: q) →
        0 :: res.drop s.charNr = encValue kv.2 ++ post → Sim res r es path s → step kv.1 kv.2 acc es = some (a, es') →
        wp (onKey kv.1 acc) (cfgOf r res frags) s
          (fun x s' => x = a ∧ Keep s s' ∧ Sim res r es' path s' ∧ (a ≠ none → After res kv.2 s'.charNr post)))
    (acc : σ) (a : Option σ) (post : Bytes) (hz : ∃ q, post = 0 :: q)
    (hp : 0 :: res.drop s.charNr = encValue (.obj fs) ++ post) (hs : Sim res r es path s)
    (h : walkE step fs acc es = some (a, es')) :
    wp (walkInputObject onKey acc) (cfgOf r res frags) s
      (fun x s' => x = a ∧ Keep s s' ∧ Sim res r es' path s' ∧
        (a ≠ none → 0 :: res.drop s'.charNr = ends (shiftMembers fs) ++ post)) := by
  have hb := body_at hp
  simp only [bodyOf, List.append_assoc] at hb
  unfold walkInputObject
  rw [wp_bind, wp_skipInst, wp_bind, wp_getCfg]
  have hp1 : 0 :: res.drop (s.charNr + 7) = ends 0 ++ (encFields fs ++ (endI ++ post)) := by
    obtain ⟨q, hq⟩ := encFields_z fs post
    rw [hq] at hb
    rw [hq, show s.charNr + 7 = s.charNr + 6 + 1 from rfl, drop_one hb]
    rfl
  have hres : (encFields fs).length + 2 ≤ res.length := by
    have := congrArg List.length hb
    simp [endI] at this
    omega
  refine wp_mono (walkLoop_sim onKey step fs hwf hreg hstep (res.length + 1) 0 acc es es' a { s with charNr := s.charNr + 7 }
    post (by have := encFields_length fs; omega) (fun _ => rfl) hz (Or.inl hp1) (hs.pos _) h) ?_
  rintro x1 s1 ⟨rfl, k1, k2, k3⟩
  refine ⟨rfl, (Keep.pos _ _).trans k1, k2, fun ha => ?_⟩
  rw [k3 ha]
  cases fs <;> simp [shiftMembers]

/-- one member of an object, as a step -/
def memberStep (r : Req F V W) (path : List Seg) (onVar : Bytes → InVal F → Input → E W (Bound F)) (fields : List InField)
    (k : Bytes) (v : Value) (acc : InVal F × Bool) : E W (Bound F) :=
  match fields.find? (fun f => f.key = k) with
  | none => fail path (b%"undefined property " ++ k)
  | some f =>
    match getField acc.1 f.goFieldIdx with
    | none => undefinedE
    | some c => do
      match ← bindLit r path onVar v c f.input with
      | none => return none
      | some (x, set) => return some (setField acc.1 f.goFieldIdx x, set)

theorem walkE_cons {σ : Type} {step : Bytes → Value → σ → E W (Option σ)} {k : Bytes} {v : Value} {ms : List (Bytes × Value)}
    {acc : σ} : walkE step ((k, v) :: ms) acc = (step k v acc >>= fun x => match x with
      | none => pure none
      | some acc' => walkE step ms acc') := rfl

theorem bindMembers_walk (onVar : Bytes → InVal F → Input → E W (Bound F)) (fields : List InField) :
    ∀ (fs : List (Bytes × Value)) (acc : InVal F × Bool),
      bindMembers r path onVar fs fields acc = walkE (memberStep r path onVar fields) fs acc := by
  intro fs
  induction fs with
  | nil => intro acc; simp only [bindMembers, walkE]
  | cons kv fs ih =>
    obtain ⟨k, v⟩ := kv
    intro acc
    simp only [bindMembers, walkE_cons, memberStep]
    cases fields.find? (fun f => f.key = k) with
    | none => rfl
    | some f =>
      dsimp only
      cases getField acc.1 f.goFieldIdx with
      | none => rfl
      | some c =>
        dsimp only
        funext es
        show E.bind _ _ es = E.bind (E.bind _ _) _ es
        unfold E.bind bindLit
        cases ptrBind r (isNullLit v) (fun c i => bindLitBase r path onVar v c i) c f.input es with
        | none => rfl
        | some p =>
          obtain ⟨x, es1⟩ := p
          cases x with
          | none => rfl
          | some y =>
            obtain ⟨x, set⟩ := y
            exact congrFun (ih _) es1

theorem bindMember_sim {N fuel : Nat} {va : Bool} {onVar : Bytes → InVal F → Input → E W (Bound F)}
    (hV : ∀ k, N ≤ k → VarOK r res frags path k va onVar) (fields : List InField) (kv : Bytes × Value)
    (hok : BindOK r res frags path kv.2) (hf : (encValue kv.2).length + N ≤ fuel) (acc : InVal F × Bool) (a : Bound F)
    (post : Bytes) (hz : ∃ q, post = 0 :: q) (hp : 0 :: res.drop s.charNr = encValue kv.2 ++ post) (hs : Sim res r es path s)
    (h : memberStep r path onVar fields kv.1 kv.2 acc es = some (a, es')) :
    wp (bindMember (bindInput fuel va) fields kv.1 acc) (cfgOf r res frags) s
      (fun x s' => x = a ∧ Keep s s' ∧ Sim res r es' path s' ∧ (a ≠ none → After res kv.2 s'.charNr post)) := by
  unfold memberStep at h
  unfold bindMember
  cases hfind : fields.find? (fun f => f.key = kv.1) with
  | none =>
    rw [hfind] at h
    dsimp only at h ⊢
    refine wp_fail hs h (fun s' k1 _ k3 k4 => ?_)
    exact ⟨k4.symm, k1, k3, fun h => absurd k4 h⟩
  | some f =>
    rw [hfind] at h
    dsimp only at h ⊢
    cases hg : getField acc.1 f.goFieldIdx with
    | none =>
      rw [hg] at h
      cases h
    | some c =>
      rw [hg] at h
      dsimp only at h ⊢
      obtain ⟨a1, es1, h1, h2⟩ := E_bind.1 h
      rw [wp_bind]
      refine wp_mono (hok N va onVar hV fuel c f.input es es1 a1 s post hf hz hp hs h1) ?_
      rintro x1 s1 ⟨rfl, k1, k2, k3⟩
      rcases x1 with _ | ⟨x, set⟩
      · have e := E_pure.1 h2
        cases e
        exact ⟨rfl, k1, k2, fun h => absurd rfl h⟩
      · have e := E_pure.1 h2
        cases e
        exact ⟨rfl, k1, k2, fun _ => k3 (by simp)⟩

theorem bindOK_obj (fs : List (Bytes × Value)) (hok : ∀ kv ∈ fs, BindOK r res frags path kv.2) (hwf : fieldsWF fs)
    (hreg : membersRegular fs) : BindOK r res frags path (.obj fs) := by
  refine bindOK_of_base _ (fun N va onVar hV fuel cur inp es es' a s post hf hz hp hs h => ?_)
  refine bindBase_start hp ?_
  simp only [bindLitBase] at h
  have hlen : (encValue (.obj fs)).length = 7 + ((encFields fs).length + 2) := by
    rw [encValue_eq]
    simp [encHead, kindOf, bodyOf, len32, le32, endI]
    omega
  have walk : ∀ fields, bindMembers r path onVar fs fields (cur, true) es = some (a, es') →
      wp (do
        let pos ← getPos
        setPos (pos - 6)
        walkInputObject (bindMember (bindInput fuel va) fields) (cur, true)) (cfgOf r res frags)
        { s with charNr := s.charNr + 6 }
        (fun x s' => x = a ∧ Keep s s' ∧ Sim res r es' path s' ∧ (a ≠ none → After res (.obj fs) s'.charNr post)) := by
    intro fields h
    rw [bindMembers_walk] at h
    rw [wp_bind, wp_getPos, wp_bind, wp_setPos]
    have e : s.charNr + 6 - 6 = s.charNr := by omega
    show wp _ _ { s with charNr := s.charNr + 6 - 6 } _
    rw [e]
    refine wp_mono (walkInputObject_sim (bindMember (bindInput fuel va) fields) (memberStep r path onVar fields) fs hwf hreg
      (fun kv hkv acc es es' a s post hz hp hs h => bindMember_sim hV fields kv (hok kv hkv)
        (by have := encFields_mem hkv; omega) acc a post hz hp hs h) (cur, true) a post hz hp hs h) ?_
    rintro x1 s1 ⟨rfl, k1, k2, k3⟩
    exact ⟨rfl, k1, k2, fun ha => Or.inl (by rw [k3 ha]; simp [shift])⟩
  show wp (bindObject (bindInput fuel va) cur inp) _ _ _
  unfold bindObject
  rw [wp_bind, wp_getCfg]
  cases inp with
  | struct n =>
    dsimp only at h ⊢
    show wp (match lookup r.schema.inTypes n with
      | none => panicM
      | some d => _) _ _ _
    cases hl : lookup r.schema.inTypes n with
    | none =>
      rw [hl] at h
      cases h
    | some d =>
      rw [hl] at h
      exact walk d.fields h
  | time => exact walk [] h
  | _ =>
    refine wp_fail (s := { s with charNr := s.charNr + 6 }) (hs.pos _) h (fun s' k1 _ k3 k4 => ?_)
    exact ⟨k4.symm, (Keep.pos _ _).trans k1, k3, fun h => absurd k4 h⟩

/-! ## All literals -/

mutual
theorem bindOK : ∀ (v : Value), v.WF → v.Regular → BindOK r res frags path v
  | .var n, hw, _ => bindOK_var n (by simpa only [Value.WF] using hw)
  | .int d, hw, _ => bindOK_int d (by simpa only [Value.WF] using hw)
  | .float d, hw, _ => bindOK_float d (by simpa only [Value.WF] using hw)
  | .str d, _, hr => bindOK_str d (by simpa only [Value.Regular] using hr)
  | .bool b, _, _ => bindOK_bool b
  | .null, _, _ => bindOK_null
  | .enum n, hw, _ => bindOK_enum n (by simpa only [Value.WF] using hw)
  | .list vs, hw, hr => by
    simp only [Value.WF] at hw
    simp only [Value.Regular] at hr
    exact bindOK_list vs (bindOK_items vs hw hr) hr
  | .obj fs, hw, hr => by
    simp only [Value.WF] at hw
    simp only [Value.Regular] at hr
    exact bindOK_obj fs (bindOK_members fs hw hr) hw hr
theorem bindOK_items : ∀ (vs : List Value), valuesWF vs → itemsRegular vs → ∀ v ∈ vs, BindOK r res frags path v
  | [], _, _ => by simp
  | v :: vs, hw, hr => by
    simp only [valuesWF] at hw
    simp only [itemsRegular] at hr
    intro x hx
    rcases List.mem_cons.1 hx with h | hx
    · rw [h]
      exact bindOK v hw.1 hr.1
    · exact bindOK_items vs hw.2 hr.2.2.2 x hx
theorem bindOK_members : ∀ (fs : List (Bytes × Value)), fieldsWF fs → membersRegular fs →
    ∀ kv ∈ fs, BindOK r res frags path kv.2
  | [], _, _ => by simp
  | (k, v) :: fs, hw, hr => by
    simp only [fieldsWF] at hw
    simp only [membersRegular] at hr
    intro x hx
    rcases List.mem_cons.1 hx with rfl | hx
    · exact bindOK v hw.2.1 hr.1
    · exact bindOK_members fs hw.2.2 hr.2.2 x hx
end

end
end Eval
end Yarql
