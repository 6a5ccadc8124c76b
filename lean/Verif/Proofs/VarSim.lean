import Verif.Proofs.BindSim

/-! # Variables: the interpreter follows the evaluator -/

namespace Yarql
namespace Eval
open Doc Resolver Yarql.Bind

section
variable {F V W : Type}
variable {r : Req F V W} {res : Bytes} {frags : List Nat} {path : List Seg} {es es' : ES W} {s : RS V W}

theorem varOK_noVars (k : Nat) : VarOK r res frags path k false (noVars path) := by
  intro n cur inp es es' a s post _ _ hs h
  unfold bindVariable
  rw [if_pos (show (!false) = true from rfl)]
  have h' : (fail path b%"variables are not allowed here" : E W (Bound F)) es = some (a, es') := h
  refine wp_fail hs h' (fun s' k1 _ k3 k4 => ?_)
  exact ⟨k4.symm, k1, k3, fun h => absurd k4 h⟩

theorem len32_toNat {n : Nat} (h : n < 2 ^ 32) : (UInt32.ofNat n).toNat = n := by
  rw [UInt32.toNat_ofNat']
  exact Nat.mod_eq_of_lt h

theorem encVarDefs_z (ds : List VarDef) (x : Bytes) : ∃ q, encVarDefs ds ++ (endI ++ x) = 0 :: q := by
  cases ds with
  | nil => exact ⟨_, rfl⟩
  | cons d ds => exact ⟨_, rfl⟩

/-- what follows the name in a variable definition -/
def declRest (d : VarDef) : Bytes :=
  encTy d.ty ++ 0 :: (match d.default with
    | none => [c%'f']
    | some v => c%'t' :: encValue v)

theorem findArgLoop_sim (hlen : res.length < 2 ^ 32) (name : Bytes) :
    ∀ (ds : List VarDef), (∀ d ∈ ds, d.WF) → ∀ (n : Nat) (s : RS V W) (post : Bytes), ds.length + 1 ≤ n →
      0 :: res.drop s.charNr = encVarDefs ds ++ (endI ++ post) →
      wp (findArgLoop n name) (cfgOf r res frags) s (fun b s' => ∃ p, s' = { s with charNr := p } ∧
        match ds.find? (fun d => d.name = name) with
        | none => b = false
        | some d => b = true ∧ ∃ q, res.drop p = declRest d ++ 0 :: q) := by
  intro ds
  induction ds with
  | nil =>
    intro _ n s post hn hp
    obtain ⟨n, rfl⟩ : ∃ m, n = m + 1 := ⟨n - 1, by omega⟩
    unfold findArgLoop
    rw [wp_bind, wp_getPos, wp_bind]
    refine wp_readInst (b := c%'e') (rest := post) ?_ ?_
    · show res.drop s.charNr = _
      simpa [encVarDefs, endI] using hp
    · rw [if_pos (by decide), wp_pure]
      exact ⟨_, rfl, rfl⟩
  | cons d ds ih =>
    intro hwf n s post hn hp
    obtain ⟨n, rfl⟩ : ∃ m, n = m + 1 := ⟨n - 1, by simp at hn; omega⟩
    obtain ⟨q, hq⟩ := encVarDefs_z ds post
    have hp1 : res.drop s.charNr = c%'a' :: (len32 ((encVarBody d).length + 5) ++ (encVarBody d ++ 0 :: q)) := by
      simp only [encVarDefs, encVarDef, List.append_assoc] at hp
      rw [hq] at hp
      simpa using hp
    have hlb : (encVarBody d).length + 5 < 2 ^ 32 := by
      have := congrArg List.length hp1
      simp [len32, le32] at this
      omega
    have hname : (encVarBody d : Bytes) = d.name ++ 0 :: declRest d := by
      unfold encVarBody declRest
      cases d.default <;> simp
    unfold findArgLoop
    rw [wp_bind, wp_getPos, wp_bind]
    refine wp_readInst hp1 ?_
    rw [if_neg (by decide), wp_bind]
    have hp2 : res.drop (s.charNr + 1) = len32 ((encVarBody d).length + 5) ++ (encVarBody d ++ 0 :: q) := drop_one hp1
    refine wp_readUint32M (s := { s with charNr := s.charNr + 1 }) hp2 ?_
    rw [wp_bind, wp_skipInst, wp_bind]
    have hp3 : res.drop (s.charNr + 1 + 4) = encVarBody d ++ 0 :: q := drop_add hp2 rfl
    have hp4 : res.drop (s.charNr + 1 + 4) = d.name ++ 0 :: (declRest d ++ 0 :: q) := by
      rw [hp3, hname]
      simp
    refine wp_readToNul (s := { s with charNr := s.charNr + 1 + 4 }) hp4 (name_no_nul (hwf d (by simp)).1) ?_
    by_cases hd : d.name = name
    · rw [if_pos hd, wp_pure]
      refine ⟨_, rfl, ?_⟩
      rw [List.find?_cons_of_pos (by simpa using hd)]
      refine ⟨rfl, q, ?_⟩
      show res.drop (s.charNr + 1 + 4 + d.name.length + 1) = _
      rw [Nat.add_assoc _ d.name.length 1]
      exact drop_add (a := d.name ++ [0]) (by rw [hp4]; simp) (by simp)
    · rw [if_neg hd, wp_bind, wp_setPos]
      rw [len32_toNat hlb]
      have hp5 : 0 :: res.drop (s.charNr + ((encVarBody d).length + 5) + 1) = encVarDefs ds ++ (endI ++ post) := by
        have h5 : res.drop (s.charNr + 1 + 4 + (encVarBody d).length) = 0 :: q := drop_add hp3 rfl
        have e : s.charNr + ((encVarBody d).length + 5) + 1 = s.charNr + 1 + 4 + (encVarBody d).length + 1 := by omega
        rw [e, drop_one h5, hq]
      refine wp_mono (ih (fun x hx => hwf x (by simp [hx])) n { s with charNr := s.charNr + ((encVarBody d).length + 5) + 1 }
        post (by simp at hn; omega) hp5) ?_
      rintro b s' ⟨p, rfl, hm⟩
      refine ⟨p, rfl, ?_⟩
      rw [List.find?_cons_of_neg (by simpa using hd)]
      exact hm

theorem encVarDefs_length (ds : List VarDef) : ds.length ≤ (encVarDefs ds).length := by
  induction ds with
  | nil => simp
  | cons d ds ih =>
    simp [encVarDefs, encVarDef]
    omega

theorem findOperatorArgument_sim (hlen : res.length < 2 ^ 32) (hwf : ∀ d ∈ r.decls, d.WF) (name : Bytes)
    (hs : Sim res r es path s) :
    wp (findOperatorArgument name) (cfgOf r res frags) s (fun b s' => ∃ p, s' = { s with charNr := p } ∧
      match r.decls.find? (fun d => d.name = name) with
      | none => b = false
      | some d => b = true ∧ ∃ q, res.drop p = declRest d ++ 0 :: q) := by
  unfold findOperatorArgument
  rw [wp_bind, wp_getState]
  rcases hs.args with ⟨h1, h2⟩ | ⟨h1, post, h2⟩
  · rw [if_pos (by rw [h1]; rfl), wp_pure, h2]
    exact ⟨s.charNr, rfl, rfl⟩
  · rw [if_neg (by rw [h1]; decide), wp_bind, wp_setPos, wp_bind, wp_skipInst, wp_bind, wp_getCfg]
    obtain ⟨q, hq⟩ := encVarDefs_z r.decls post
    have hp : res.drop s.argsStart = c%'A' :: (encVarDefs r.decls ++ (endI ++ post)) := by
      simpa [List.append_assoc] using h2
    have hlen2 : (encVarDefs r.decls).length + 2 ≤ res.length := by
      have := congrArg List.length hp
      simp [endI] at this
      omega
    have hp' : 0 :: res.drop (s.argsStart + 2) = encVarDefs r.decls ++ (endI ++ post) := by
      rw [hq] at hp
      rw [hq, show s.argsStart + 2 = s.argsStart + 1 + 1 from rfl, drop_one (drop_one hp)]
    exact findArgLoop_sim hlen name r.decls hwf (res.length + 1) { s with charNr := s.argsStart + 2 } post
      (by have := encVarDefs_length r.decls; omega) hp'

theorem varType_sim (name : Bytes) (K : M F V W (Bound F)) (Q : Bound F → RS V W → Prop) :
    ∀ (ty : Ty) (inp : Input) (es es' : ES W) (a : Option Unit) (s : RS V W) (rest : Bytes), ty.WF →
      res.drop s.charNr = encTy ty ++ 0 :: rest → Sim res r es path s → checkDeclared r path name ty inp es = some (a, es') →
      (∀ s', Keep s s' → Sim res r es' path s' → match a with
        | none => Q none s'
        | some () => res.drop s'.charNr = rest → wp K (cfgOf r res frags) s' Q) →
      wp (varTypeLoop name inp >>= fun x => match x with
        | none => pure none
        | some (elem, c) =>
          if c == c%'n' || c == c%'N' then do
            let typeName ← readToNul
            let cfg ← getCfg
            match ← liftB (checkVarType cfg.schema.enums elem typeName) with
            | none => pure none
            | some () => K
          else K) (cfgOf r res frags) s Q := by
  intro ty
  induction ty with
  | named n nn =>
    intro inp es es' a s rest hwf hp hs h q
    have hp1 : res.drop s.charNr = (if nn then c%'N' else c%'n') :: (n ++ 0 :: rest) := by simpa [encTy] using hp
    have hloop : ∀ Q', Q' (some (inp, (if nn then c%'N' else c%'n' : Byte))) { s with charNr := s.charNr + 1 } →
        wp (varTypeLoop name inp) (cfgOf r res frags) s Q' := by
      intro Q' hQ'
      cases inp <;> (unfold varTypeLoop; rw [wp_bind]; refine wp_readInst hp1 ?_; cases nn <;> exact hQ')
    rw [wp_bind]
    apply hloop
    dsimp only
    rw [if_pos (by cases nn <;> rfl), wp_bind]
    refine wp_readToNul (s := { s with charNr := s.charNr + 1 }) (drop_one hp1) (name_no_nul hwf) ?_
    rw [wp_bind, wp_getCfg, wp_bind]
    simp only [checkDeclared] at h
    refine liftB_sim (s := { s with charNr := s.charNr + 1 + n.length + 1 }) h (hs.pos _) (fun s' k1 k2 k3 => ?_)
    have q' := q s' ((Keep.pos _ _).trans k1) k3
    cases a with
    | none => exact q'
    | some u =>
      refine q' ?_
      rw [k2]
      show res.drop (s.charNr + 1 + n.length + 1) = rest
      rw [Nat.add_assoc _ n.length 1]
      exact drop_add (a := n ++ [0]) (by rw [drop_one hp1]; simp) (by simp)
  | list t nn ih =>
    intro inp es es' a s rest hwf hp hs h q
    have hp1 : res.drop s.charNr = (if nn then c%'L' else c%'l') :: (encTy t ++ 0 :: rest) := by simpa [encTy] using hp
    have hsl : (∃ e, inp = .slice e) ∨ ∀ e, inp ≠ .slice e := by
      cases inp <;> first | exact Or.inl ⟨_, rfl⟩ | exact Or.inr (fun e h => by cases h)
    rcases hsl with ⟨e, rfl⟩ | hns
    · simp only [checkDeclared] at h
      unfold varTypeLoop
      rw [wp_bind, wp_bind]
      refine wp_readInst hp1 ?_
      rw [if_pos (by cases nn <;> rfl)]
      have := ih e es es' a { s with charNr := s.charNr + 1 } rest hwf (drop_one hp1) (hs.pos _) h
        (fun s' k1 k2 => q s' ((Keep.pos _ _).trans k1) k2)
      rw [wp_bind] at this
      exact this
    · have h' : (fail path (b%"variable $" ++ name ++ b%" cannot be bind to " ++ kindString inp) : E W (Option Unit)) es =
          some (a, es') := by
        cases inp <;> first | exact (hns _ rfl).elim | simpa only [checkDeclared] using h
      have e : ∀ Q', wp (F := F) (do
            err (b%"variable $" ++ name ++ b%" cannot be bind to " ++ kindString inp)
            return (none : Option (Input × Byte))) (cfgOf r res frags) { s with charNr := s.charNr + 1 } Q' →
          wp (varTypeLoop name inp) (cfgOf r res frags) s Q' := by
        intro Q' hQ'
        cases inp <;> first
          | exact (hns _ rfl).elim
          | (unfold varTypeLoop; rw [wp_bind]; refine wp_readInst hp1 ?_; rw [if_pos (by cases nn <;> rfl)]; exact hQ')
      have h'' : (fail path (b%"variable $" ++ name ++ b%" cannot be bind to " ++ kindString inp) : E W (Option (Input × Byte))) es =
          some (none, es') := by
        have h1 : some ((none : Option Unit), ({ es with errs := es.errs ++
          [(b%"variable $" ++ name ++ b%" cannot be bind to " ++ kindString inp, path)] } : ES W)) = some (a, es') := h'
        cases h1
        rfl
      have ha : a = none := by
        have h1 : some ((none : Option Unit), ({ es with errs := es.errs ++
          [(b%"variable $" ++ name ++ b%" cannot be bind to " ++ kindString inp, path)] } : ES W)) = some (a, es') := h'
        cases h1
        rfl
      subst ha
      rw [wp_bind]
      apply e
      refine wp_fail (s := { s with charNr := s.charNr + 1 }) (hs.pos _) h'' (fun s' k1 _ k3 _ => ?_)
      exact q s' ((Keep.pos _ _).trans k1) k3

theorem external_sim (name : Bytes) (cur : InVal F) (inp : Input) {sv : Option (Option Http.J)}
    (h : suppliedValue r path name es = some (sv, es')) (hs : Sim res r es path s)
    {Q : Option (Option (InVal F × Bool)) → RS V W → Prop}
    (q1 : sv = none → ∀ s', Keep s s' → s'.charNr = s.charNr → Sim res r es' path s' → Q none s')
    (q2 : sv = some none → ∀ s', Keep s s' → s'.charNr = s.charNr → Sim res r es' path s' → Q (some none) s')
    (q3 : ∀ j, sv = some (some j) → ∃ b es2, convert path (bindJSON r.env r.schema.enums r.schema.inTypes j inp cur) es' = some (b, es2) ∧
      ∀ s', Keep s s' → s'.charNr = s.charNr → Sim res r es2 path s' → Q (b.map some) s') :
    wp (bindExternalVariableValue cur inp name) (cfgOf r res frags) s Q := by
  have look : ∀ (s1 : RS V W), Keep s s1 → s1.charNr = s.charNr → Sim res r es' path s1 → sv = some (r.vars.get name) →
      wp (match r.vars.get name with
        | none => pure (some none)
        | some j => do
          match ← liftB (bindJSON r.env r.schema.enums r.schema.inTypes j inp cur) with
          | none => pure none
          | some r => pure (some (some r))) (cfgOf r res frags) s1 Q := by
    intro s1 k1 k2 k3 hsv
    cases hg : r.vars.get name with
    | none =>
      rw [hg] at hsv
      exact q2 hsv s1 k1 k2 k3
    | some j =>
      rw [hg] at hsv
      obtain ⟨b, es2, hc, hq⟩ := q3 j hsv
      dsimp only
      rw [wp_bind]
      refine liftB_sim hc k3 (fun s' m1 m2 m3 => ?_)
      have := hq s' (k1.trans m1) (m2.trans k2) m3
      cases b <;> exact this
  unfold suppliedValue at h
  obtain ⟨vp, es1, h1, h2⟩ := E_bind.1 h
  have e1 : some (es.varsParsed, es) = some (vp, es1) := h1
  cases e1
  unfold bindExternalVariableValue
  rw [wp_bind, wp_getCfg, wp_bind, wp_getState]
  rw [hs.vars]
  by_cases hvp : es.varsParsed = true
  · rw [if_pos hvp] at h2 ⊢
    have e := E_pure.1 h2
    cases e
    exact look s (Keep.refl s) rfl hs rfl
  · rw [if_neg hvp] at h2 ⊢
    show wp (match r.vars with
      | .empty => _
      | .invalid msg => _
      | .json (.obj _) => _
      | .json _ => _) _ _ _
    have hset : Sim res r { es with varsParsed := true } path { s with varsParsed := true } :=
      ⟨hs.errs, hs.world, rfl, hs.path, hs.args⟩
    have hk : Keep s { s with varsParsed := true } := ⟨rfl, rfl, rfl⟩
    have bad : ∀ msg, ((do setVarsParsed; fail path msg) : E W (Option (Option Http.J))) es = some (sv, es') →
        wp (F := F) (do Resolver.setVarsParsed; err msg; return (none : Option (Option (InVal F × Bool)))) (cfgOf r res frags) s Q := by
      intro msg h2
      obtain ⟨u, es2, h3, h4⟩ := E_bind.1 h2
      have e3 : some ((), ({ es with varsParsed := true } : ES W)) = some (u, es2) := h3
      cases e3
      have h4' : some ((none : Option (Option Http.J)), ({ es with varsParsed := true, errs := es.errs ++ [(msg, path)] } : ES W)) =
        some (sv, es') := h4
      cases h4'
      rw [wp_bind, wp_setVarsParsed]
      refine wp_fail (es := { es with varsParsed := true }) (x := (none, _)) hset rfl (fun s' k1 k2 k3 _ => ?_)
      exact q1 rfl s' (hk.trans k1) k2 k3
    cases hv : r.vars with
    | empty =>
      rw [hv] at h2
      have e := E_pure.1 h2
      cases e
      exact q2 rfl s (Keep.refl s) rfl hs
    | invalid msg =>
      rw [hv] at h2
      exact bad msg h2
    | json j =>
      rw [hv] at h2
      cases j with
      | obj ms =>
        obtain ⟨u, es2, h3, h4⟩ := E_bind.1 h2
        have e3 : some ((), ({ es with varsParsed := true } : ES W)) = some (u, es2) := h3
        cases e3
        have e := E_pure.1 h4
        cases e
        dsimp only
        rw [wp_bind, wp_setVarsParsed]
        have := look { s with varsParsed := true } hk rfl hset (by rw [hv]; rfl)
        exact this
      | _ => exact bad _ h2

theorem varOK_bindVar (hlen : res.length < 2 ^ 32) (hwf : ∀ d ∈ r.decls, d.WF)
    (hreg : ∀ d ∈ r.decls, ∀ v, d.default = some v → v.Regular) (k : Nat) (hk : res.length + 1 ≤ k) :
    VarOK r res frags path k true (bindVar r path) := by
  intro n cur inp es es' a s post hn hp hs h
  unfold bindVariable
  rw [if_neg (by decide), wp_bind]
  refine wp_readToNul hp (name_no_nul hn) ?_
  have hpost : res.drop (s.charNr + n.length + 1) = post := by
    rw [Nat.add_assoc]
    exact drop_add (a := n ++ [0]) (by rw [hp]; simp) (by simp)
  rw [wp_bind, wp_getPos, wp_bind]
  generalize s.charNr + n.length + 1 = p0 at hpost
  refine wp_mono (findOperatorArgument_sim (s := { s with charNr := p0 }) (es := es) (path := path) hlen hwf n (hs.pos _)) ?_
  rintro b s' ⟨p, rfl, hm⟩
  unfold bindVar at h
  cases hf : r.decls.find? (fun d => d.name = n) with
  | none =>
    rw [hf] at hm h
    dsimp only at hm h
    subst hm
    rw [if_pos (show (!false) = true from rfl), wp_bind, wp_setPos]
    refine wp_fail (s := { s with charNr := p0 }) (hs.pos _) h (fun s' k1 _ k3 k4 => ?_)
    exact ⟨k4.symm, (Keep.pos _ _).trans k1, k3, fun h => absurd k4 h⟩
  | some d =>
    rw [hf] at hm h
    dsimp only at hm h
    obtain ⟨rfl, q, hq⟩ := hm
    have hmem : d ∈ r.decls := List.mem_of_find?_eq_some hf
    rw [if_neg (by decide)]
    obtain ⟨a1, es1, h1, h2⟩ := E_bind.1 h
    have hq' : res.drop p = encTy d.ty ++ 0 :: ((match d.default with
        | none => [c%'f']
        | some v => c%'t' :: encValue v) ++ 0 :: q) := by
      rw [hq]
      unfold declRest
      simp
    rw [wp_bind]
    -- the goal after restoring the position
    have done : ∀ (x : Bound F) (s' : RS V W), x = a → Keep s s' → Sim res r es' path s' →
        wp (setPos p0 >>= fun _ => pure x) (cfgOf r res frags) s'
          (fun x s' => x = a ∧ Keep s s' ∧ Sim res r es' path s' ∧ (a ≠ none → res.drop s'.charNr = post)) := by
      intro x s' hx k1 k2
      rw [wp_bind, wp_setPos, wp_pure]
      exact ⟨hx, k1.trans (Keep.pos _ _), k2.pos _, fun _ => hpost⟩
    unfold bindOperatorArgumentTo
    refine varType_sim n _ _ d.ty inp es es1 a1 { s with charNr := p } _ (hwf d hmem).2.1 hq' (hs.pos _) h1 (fun s1 k1 k2 => ?_)
    have k1' : Keep s s1 := (Keep.pos _ _).trans k1
    cases a1 with
    | none =>
      have e := E_pure.1 h2
      cases e
      exact done _ _ rfl k1' k2
    | some u =>
      dsimp only
      intro hpos
      dsimp only at h2
      obtain ⟨sv, es2, h3, h4⟩ := E_bind.1 h2
      rw [wp_bind]
      -- the default flag
      have hflag : ∃ rest, res.drop s1.charNr = (if d.default.isSome then c%'t' else c%'f') :: rest := by
        cases hd : d.default with
        | none => rw [hd] at hpos; exact ⟨_, hpos⟩
        | some v => rw [hd] at hpos; exact ⟨_, hpos⟩
      obtain ⟨rest, hrest⟩ := hflag
      refine wp_readInst hrest ?_
      rw [wp_bind, wp_skipInst, wp_bind]
      refine external_sim (s := { s1 with charNr := s1.charNr + 1 + 1 }) n cur inp h3 (k2.pos _) ?_ ?_ ?_
      · rintro rfl s2 m1 _ m3
        have e := E_pure.1 h4
        cases e
        exact done _ _ rfl (k1'.trans ((Keep.pos _ _).trans m1)) m3
      · rintro rfl s2 m1 m2 m3
        have k2' : Keep s s2 := k1'.trans ((Keep.pos _ _).trans m1)
        dsimp only at h4 ⊢
        cases hd : d.default with
        | none =>
          rw [hd] at h4
          dsimp only at h4
          rw [if_pos (by rfl)]
          refine wp_fail (s := s2) m3 h4 (fun s' n1 _ n3 n4 => ?_)
          exact done _ _ n4.symm (k2'.trans n1) n3
        | some v =>
          rw [hd] at h4 hpos
          dsimp only at h4 hpos
          rw [if_neg (show ¬((!((if (some v).isSome = true then c%'t' else c%'f' : Byte) == c%'t')) = true) by simp)]
          have hvp : 0 :: res.drop s2.charNr = encValue v ++ 0 :: q := by
            rw [m2]
            obtain ⟨qv, hqv⟩ := encValue_z v
            rw [hqv] at hpos ⊢
            show 0 :: res.drop (s1.charNr + 1 + 1) = _
            rw [drop_one (drop_one hpos)]
            rfl
          have hvl : (encValue v).length + 0 ≤ k := by
            have := congrArg List.length hvp
            simp at this
            omega
          refine wp_mono (bindOK v ((hwf d hmem).2.2 v hd) (hreg d hmem v hd) 0 false (noVars path)
            (fun k _ => varOK_noVars k) k cur inp es2 es' a s2 (0 :: q) hvl ⟨q, rfl⟩ hvp m3 h4) ?_
          rintro x s' ⟨rfl, n1, n2, _⟩
          exact done _ _ rfl (k2'.trans n1) n2
      · rintro j rfl
        refine ⟨a, es', h4, fun s2 m1 _ m3 => ?_⟩
        have k2' : Keep s s2 := k1'.trans ((Keep.pos _ _).trans m1)
        cases a with
        | none => exact done _ _ rfl k2' m3
        | some x => exact done _ _ rfl k2' m3

end
end Eval
end Yarql
