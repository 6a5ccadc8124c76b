import Verif.Proofs.VarSim

/-! # Calls and directives: the interpreter follows the evaluator -/

namespace Yarql
namespace Eval
open Doc Resolver Yarql.Bind

section
variable {F V W : Type}
variable {r : Req F V W} {res : Bytes} {frags : List Nat} {path : List Seg} {es es' : ES W} {s : RS V W}

/-- the declared variables are well-formed and their defaults regular -/
structure DeclsOK (r : Req F V W) (res : Bytes) : Prop where
  len : res.length < 2 ^ 32
  wf : ∀ d ∈ r.decls, d.WF
  reg : ∀ d ∈ r.decls, ∀ v, d.default = some v → v.Regular

/-- one argument, as a step -/
def argStep (r : Req F V W) (path : List Seg) (m : Method F) (k : Bytes) (v : Value) (inputs : List (Arg F)) :
    E W (Option (List (Arg F))) :=
  match m.inFields.find? (fun a => a.key = k) with
  | none => fail path (b%"undefined input: " ++ k)
  | some a =>
    match argField inputs a with
    | none => undefinedE
    | some cur => do
      match ← bindLit r path (bindVar r path) v cur a.input with
      | none => return none
      | some (x, _) => return some (setArgField inputs a x)

theorem bindArgs_walk (m : Method F) : ∀ (fs : List (Bytes × Value)) (inputs : List (Arg F)),
    bindArgs r path m fs inputs = walkE (argStep r path m) fs inputs := by
  intro fs
  induction fs with
  | nil => intro acc; simp only [bindArgs, walkE]
  | cons kv fs ih =>
    obtain ⟨k, v⟩ := kv
    intro acc
    simp only [bindArgs, walkE_cons, argStep]
    cases m.inFields.find? (fun a => a.key = k) with
    | none => rfl
    | some f =>
      dsimp only
      cases argField acc f with
      | none => rfl
      | some c =>
        dsimp only
        funext es
        show E.bind _ _ es = E.bind (E.bind _ _) _ es
        unfold E.bind
        cases bindLit r path (bindVar r path) v c f.input es with
        | none => rfl
        | some p =>
          obtain ⟨x, es1⟩ := p
          cases x with
          | none => rfl
          | some y =>
            obtain ⟨x, set⟩ := y
            exact congrFun (ih _) es1

theorem bindArgument_sim (hd : DeclsOK r res) (m : Method F) (kv : Bytes × Value) (hwf : kv.2.WF) (hreg : kv.2.Regular)
    (hf : (encValue kv.2).length ≤ res.length + 1)
    (acc : List (Arg F)) (a : Option (List (Arg F))) (post : Bytes) (hz : ∃ q, post = 0 :: q)
    (hp : 0 :: res.drop s.charNr = encValue kv.2 ++ post) (hs : Sim res r es path s)
    (h : argStep r path m kv.1 kv.2 acc es = some (a, es')) :
    wp (bindArgument m (2 * (res.length + 1)) kv.1 acc) (cfgOf r res frags) s
      (fun x s' => x = a ∧ Keep s s' ∧ Sim res r es' path s' ∧ (a ≠ none → After res kv.2 s'.charNr post)) := by
  unfold argStep at h
  unfold bindArgument
  cases hfind : m.inFields.find? (fun a => a.key = kv.1) with
  | none =>
    rw [hfind] at h
    dsimp only at h ⊢
    refine wp_fail hs h (fun s' k1 _ k3 k4 => ?_)
    exact ⟨k4.symm, k1, k3, fun h => absurd k4 h⟩
  | some f =>
    rw [hfind] at h
    dsimp only at h ⊢
    cases hg : argField acc f with
    | none =>
      rw [hg] at h
      cases h
    | some c =>
      rw [hg] at h
      dsimp only at h ⊢
      obtain ⟨a1, es1, h1, h2⟩ := E_bind.1 h
      rw [wp_bind]
      refine wp_mono (bindOK kv.2 hwf hreg (res.length + 1) true (bindVar r path)
        (fun k hk => varOK_bindVar hd.len hd.wf hd.reg k hk) (2 * (res.length + 1)) c f.input es es1 a1 s post
        (by omega) hz hp hs h1) ?_
      rintro x1 s1 ⟨rfl, k1, k2, k3⟩
      rcases x1 with _ | ⟨x, set⟩
      · have e := E_pure.1 h2
        cases e
        exact ⟨rfl, k1, k2, fun h => absurd rfl h⟩
      · have e := E_pure.1 h2
        cases e
        exact ⟨rfl, k1, k2, fun _ => k3 (by simp)⟩

theorem fieldsWF_mem : ∀ {fs : List (Bytes × Value)}, fieldsWF fs → ∀ kv ∈ fs, IsName kv.1 ∧ kv.2.WF
  | [], _, kv, h => by cases h
  | (k, v) :: fs, hw, kv, h => by
    simp only [fieldsWF] at hw
    rcases List.mem_cons.1 h with rfl | h
    · exact ⟨hw.1, hw.2.1⟩
    · exact fieldsWF_mem hw.2.2 kv h

theorem membersRegular_mem : ∀ {fs : List (Bytes × Value)}, membersRegular fs → ∀ kv ∈ fs, kv.2.Regular
  | [], _, kv, h => by cases h
  | (k, v) :: fs, hw, kv, h => by
    simp only [membersRegular] at hw
    rcases List.mem_cons.1 h with rfl | h
    · exact hw.1
    · exact membersRegular_mem hw.2.2 kv h

theorem callFn_sim (fn : V) (inputs : List (Arg F)) (hs : Sim res r es path s) {w : W} {outs : List V}
    (hc : r.env.call es.world fn (jsonPath (pathText path)) inputs = some (w, outs)) {Q : List V → RS V W → Prop}
    (q : ∀ s', Keep s s' → s'.charNr = s.charNr → Sim res r { es with world := w } path s' → Q outs s') :
    wp (callFn fn inputs) (cfgOf r res frags) s Q := by
  unfold callFn
  rw [wp_bind, wp_getCfg, wp_bind, wp_getState]
  show wp (match r.env.call s.world fn (jsonPath s.path) inputs with
    | none => panicM
    | some (w, outs) => _) _ _ _
  rw [hs.world, hs.path, hc]
  show wp (Resolver.setWorld w >>= fun _ => pure outs) _ _ _
  rw [wp_bind, wp_setWorld, wp_pure]
  exact q _ ⟨rfl, rfl, rfl⟩ rfl ⟨hs.errs, rfl, hs.vars, hs.path, hs.args⟩

/-- the arguments `args` are encoded at the position (an absent argument object is just what follows) -/
theorem callQlMethod_sim (hd : DeclsOK r res) (m : Method F) (fn : V) (args : Option (List (Bytes × Value)))
    (hwf : argsWF args) (hreg : ∀ fs, args = some fs → membersRegular fs) (a : Option (List V)) (post : Bytes)
    (hz : ∃ q, post = 0 :: q) (hp : 0 :: res.drop s.charNr = encArgs args ++ post) (hs : Sim res r es path s)
    (h : callWith r path m fn (args.getD []) es = some (a, es')) :
    wp (callQlMethod m fn args.isSome) (cfgOf r res frags) s
      (fun x s' => x = a ∧ Keep s s' ∧ Sim res r es' path s' ∧
        (a ≠ none → 0 :: res.drop s'.charNr = ends (shiftMembers (args.getD [])) ++ post)) := by
  unfold callWith at h
  obtain ⟨a1, es1, h1, h2⟩ := E_bind.1 h
  unfold callQlMethod
  rw [wp_bind, wp_getCfg]
  have fin : ∀ (inputs : List (Arg F)) (s1 : RS V W), a1 = some inputs → Keep s s1 → Sim res r es1 path s1 →
      0 :: res.drop s1.charNr = ends (shiftMembers (args.getD [])) ++ post →
      wp (callFn fn inputs >>= fun x => pure (some x)) (cfgOf r res frags) s1
      (fun x s' => x = a ∧ Keep s s' ∧ Sim res r es' path s' ∧
        (a ≠ none → 0 :: res.drop s'.charNr = ends (shiftMembers (args.getD [])) ++ post)) := by
    rintro inputs s1 rfl k1 k2 k3
    dsimp only at h2
    obtain ⟨w0, es2, h3, h4⟩ := E_bind.1 h2
    have e3 : some (es1.world, es1) = some (w0, es2) := h3
    cases e3
    cases hc : r.env.call es1.world fn (jsonPath (pathText path)) inputs with
    | none =>
      rw [hc] at h4
      cases h4
    | some p =>
      obtain ⟨w, outs⟩ := p
      rw [hc] at h4
      dsimp only at h4
      obtain ⟨u, es3, h5, h6⟩ := E_bind.1 h4
      have e5 : some ((), ({ es1 with world := w } : ES W)) = some (u, es3) := h5
      cases e5
      have e := E_pure.1 h6
      cases e
      rw [wp_bind]
      refine callFn_sim fn inputs k2 hc (fun s' m1 m2 m3 => ?_)
      exact ⟨rfl, k1.trans m1, m3, fun _ => by rw [m2]; exact k3⟩
  cases args with
  | none =>
    simp only [Option.getD_none, bindArgs] at h1
    have e := E_pure.1 h1
    cases e
    show wp (callFn fn (freshInputs m) >>= fun x => pure (some x)) _ _ _
    exact fin _ s rfl (Keep.refl s) hs hp
  | some fs =>
    show wp (walkInputObject (bindArgument m (2 * (res.length + 1))) (freshInputs m) >>= _) _ _ _
    rw [wp_bind]
    rw [bindArgs_walk] at h1
    have hm := hreg fs rfl
    have hp' : 0 :: res.drop s.charNr = encValue (.obj fs) ++ post := hp
    have hlen : (encFields fs).length ≤ res.length := by
      have := congrArg List.length (body_at hp')
      simp [bodyOf] at this
      omega
    refine wp_mono (walkInputObject_sim (bindArgument m (2 * (res.length + 1))) (argStep r path m) fs hwf hm
      (fun kv hkv acc es es' a s post hz hp hs h => bindArgument_sim hd m kv (fieldsWF_mem hwf kv hkv).2
        (membersRegular_mem hm kv hkv) (by have := encFields_mem hkv; omega) acc a post hz hp hs h)
      (freshInputs m) a1 post hz hp' hs h1) ?_
    rintro x1 s1 ⟨rfl, k1, k2, k3⟩
    cases x1 with
    | none =>
      have e := E_pure.1 h2
      cases e
      exact ⟨rfl, k1, k2, fun h => absurd rfl h⟩
    | some inputs => exact fin inputs s1 rfl k1 k2 (k3 (by simp))

/-! ## Directives -/

theorem encArgs_z (args : Option (List (Bytes × Value))) (post : Bytes) (hz : ∃ q, post = 0 :: q) :
    ∃ q, encArgs args ++ post = 0 :: q := by
  cases args with
  | none => exact hz
  | some fs =>
    obtain ⟨q, hq⟩ := encValue_z (.obj fs)
    exact ⟨_, by show encValue (.obj fs) ++ post = _; rw [hq]; rfl⟩

theorem encDirectives_z (ds : List Directive) (post : Bytes) (hz : ∃ q, post = 0 :: q) :
    ∃ q, encDirectives ds ++ post = 0 :: q := by
  cases ds with
  | nil => exact hz
  | cons d ds => exact ⟨_, rfl⟩

theorem resolveDirective_sim (hd : DeclsOK r res) (location : UInt8) (d : Directive) (hwf : d.WF) (hreg : d.Regular)
    (a : Option Bool) (post : Bytes) (hz : ∃ q, post = 0 :: q) (hp : 0 :: res.drop s.charNr = encDirective d ++ post)
    (hs : Sim res r es path s) (h : evalDirective r path location d es = some (a, es')) :
    wp (resolveDirective location) (cfgOf r res frags) s
      (fun x s' => x = a ∧ Keep s s' ∧ Sim res r es' path s' ∧ (a ≠ none → 0 :: res.drop s'.charNr = post)) := by
  obtain ⟨q, hq⟩ := encArgs_z d.args post hz
  have hp0 : res.drop s.charNr = c%'d' :: (if d.args.isSome then c%'t' else c%'f') :: (d.name ++ 0 :: q) := by
    have : 0 :: res.drop s.charNr = 0 :: c%'d' :: (if d.args.isSome then c%'t' else c%'f') :: (d.name ++ (encArgs d.args ++ post)) := by
      rw [hp]
      simp [encDirective]
    rw [hq] at this
    simpa using this
  unfold resolveDirective
  rw [wp_bind, wp_skipInst, wp_bind]
  refine wp_readInst (s := { s with charNr := s.charNr + 1 }) (drop_one hp0) ?_
  rw [wp_bind]
  have hp2 : res.drop (s.charNr + 1 + 1) = d.name ++ 0 :: q := drop_one (drop_one hp0)
  refine wp_readToNul (s := { s with charNr := s.charNr + 1 + 1 }) hp2 (name_no_nul hwf.1) ?_
  have hp3 : 0 :: res.drop (s.charNr + 1 + 1 + d.name.length + 1) = encArgs d.args ++ post := by
    rw [hq, Nat.add_assoc _ d.name.length 1, drop_add (a := d.name ++ [0]) (rest := q) (by rw [hp2]; simp) (by simp)]
  generalize s.charNr + 1 + 1 + d.name.length + 1 = p at hp3 ⊢
  rw [wp_bind, wp_getCfg]
  have hflag : ((if d.args.isSome then c%'t' else c%'f' : Byte) == c%'t') = d.args.isSome := by
    cases d.args <;> rfl
  rw [hflag]
  have unknown : (fail path (b%"unknown directive " ++ d.name) : E W (Option Bool)) es = some (a, es') →
      wp (do err (b%"unknown directive " ++ d.name); return none) (cfgOf r res frags) { s with charNr := p }
      (fun x s' => x = a ∧ Keep s s' ∧ Sim res r es' path s' ∧ (a ≠ none → 0 :: res.drop s'.charNr = post)) := by
    intro h
    refine wp_fail (s := { s with charNr := p }) (hs.pos _) h (fun s' k1 _ k3 k4 => ?_)
    exact ⟨k4.symm, (Keep.pos _ _).trans k1, k3, fun h => absurd k4 h⟩
  unfold evalDirective at h
  show wp (match lookup r.schema.directives location with
    | none => _
    | some ds => _) _ _ _
  cases hl : lookup r.schema.directives location with
  | none =>
    rw [hl] at h
    exact unknown h
  | some ds =>
    rw [hl] at h
    dsimp only [Option.bind] at h ⊢
    cases hfnd : ds.find? (fun x => x.name = d.name) with
    | none =>
      rw [hfnd] at h
      exact unknown h
    | some x =>
      rw [hfnd] at h
      dsimp only at h ⊢
      obtain ⟨a1, es1, h1, h2⟩ := E_bind.1 h
      rw [wp_bind]
      have hr : ∀ fs, d.args = some fs → membersRegular fs := by
        intro fs hfs
        unfold Directive.Regular at hreg
        rw [hfs] at hreg
        exact hreg.1
      have hsh : shiftMembers (d.args.getD []) = 0 := by
        unfold Directive.Regular at hreg
        cases hda : d.args with
        | none => simp [shiftMembers]
        | some fs => rw [hda] at hreg; exact hreg.2
      refine wp_mono (callQlMethod_sim hd x.method x.func d.args hwf.2 hr a1 post hz (s := { s with charNr := p }) hp3 (hs.pos _) h1) ?_
      rintro x1 s1 ⟨rfl, k1, k2, k3⟩
      have k1' : Keep s s1 := (Keep.pos _ _).trans k1
      cases x1 with
      | none =>
        have e := E_pure.1 h2
        cases e
        exact ⟨rfl, k1', k2, fun h => absurd rfl h⟩
      | some outs =>
        dsimp only at h2 ⊢
        cases ho : outs[0]? with
        | none =>
          rw [ho] at h2
          cases h2
        | some o =>
          rw [ho] at h2
          dsimp only at h2 ⊢
          obtain ⟨w0, es2, h3, h4⟩ := E_bind.1 h2
          have e3 : some (es1.world, es1) = some (w0, es2) := h3
          cases e3
          have e := E_pure.1 h4
          cases e
          rw [wp_bind, wp_getState, wp_pure]
          refine ⟨?_, k1', k2, fun _ => ?_⟩
          · show some (r.env.skip s1.world o) = _
            rw [k2.world]
          · rw [k3 (by simp), hsh]
            rfl

theorem resolveDirectives_sim (hd : DeclsOK r res) (location : UInt8) :
    ∀ (ds : List Directive), (∀ d ∈ ds, d.WF) → (∀ d ∈ ds, d.Regular) →
    ∀ (es es' : ES W) (a : Option Bool) (s : RS V W) (post : Bytes), (∃ q, post = 0 :: q) →
      0 :: res.drop s.charNr = encDirectives ds ++ post →
      Sim res r es path s → evalDirectives r path location ds es = some (a, es') →
      wp (resolveDirectives location ds.length) (cfgOf r res frags) s
        (fun x s' => x = a ∧ Keep s s' ∧ Sim res r es' path s' ∧ (a = some false → 0 :: res.drop s'.charNr = post)) := by
  intro ds
  induction ds with
  | nil =>
    intro _ _ es es' a s post hz hp hs h
    have e := E_pure.1 h
    cases e
    exact ⟨rfl, Keep.refl s, hs, fun _ => hp⟩
  | cons d ds ih =>
    intro hwf hreg es es' a s post hz hp hs h
    simp only [evalDirectives] at h
    obtain ⟨a1, es1, h1, h2⟩ := E_bind.1 h
    simp only [List.length_cons, resolveDirectives]
    rw [wp_bind]
    have hz1 := encDirectives_z ds post hz
    refine wp_mono (resolveDirective_sim hd location d (hwf d (by simp)) (hreg d (by simp)) a1 (encDirectives ds ++ post) hz1
      (by rw [hp]; simp [encDirectives]) hs h1) ?_
    rintro x1 s1 ⟨rfl, k1, k2, k3⟩
    rcases x1 with _ | _ | _
    · have e := E_pure.1 h2
      cases e
      exact ⟨rfl, k1, k2, fun h => by cases h⟩
    · refine wp_mono (ih (fun x hx => hwf x (by simp [hx])) (fun x hx => hreg x (by simp [hx])) es1 es' a s1 post hz
        (k3 (by simp)) k2 h2) ?_
      rintro x2 s2 ⟨rfl, m1, m2, m3⟩
      exact ⟨rfl, k1.trans m1, m2, m3⟩
    · have e := E_pure.1 h2
      cases e
      exact ⟨rfl, k1, k2, fun h => by cases h⟩

end
end Eval
end Yarql
