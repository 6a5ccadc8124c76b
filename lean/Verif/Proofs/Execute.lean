import Verif.Proofs.Refine

/-! # Operations: the interpreter refines the evaluator -/

namespace Yarql
namespace Eval
open Doc Resolver Yarql.Bind

section
variable {F V W : Type} [DecidableEq F]
variable {r : Req F V W} {src : List Fragment} {res : Bytes} {frags : List Nat} {es es' : ES W} {s : RS V W}

theorem encVars_z (vs : Option (List VarDef)) (post : Bytes) (hz : ∃ q, post = 0 :: q) : ∃ q, encVars vs ++ post = 0 :: q := by
  cases vs with
  | none => exact hz
  | some vs => exact ⟨_, rfl⟩

/-- the name of an operation contains no NUL -/
theorem opName_no_nul {n : Bytes} (h : n = [] ∨ IsName n) : (0 : Byte) ∉ n := by
  rcases h with rfl | h
  · simp
  · exact name_no_nul h

/-- the interpreter on the encoding of an operation does what the evaluator does on the operation without the selection
sets behind arguments that end in a list -/
theorem operation_sim (hg : Good r src res frags) (fuel : Nat) (o : Operation) (hwf : o.WF)
    (hdecls : r.decls = o.vars.getD []) (hreg : selsTracked (names r) o.sels) (out : Out) (crit : Bool) (post : Bytes)
    (hp : res.drop s.charNr = encOperation o ++ post) (herrs : s.errs = es.errs.map rerr) (hworld : s.world = es.world)
    (hvars : s.varsParsed = es.varsParsed) (hpath : s.path = []) (hidx : s.idx = 0)
    (h : evalOperation r fuel o.cut es = some ((out, crit), es')) :
    wp (resolveOperation fuel) (cfgOf r res frags) s (fun x s' => x = crit ∧
      (∃ ms, out = .obj ms ∧ s'.out = s.out ++ printMembers true ms) ∧ s'.errs = es'.errs.map rerr ∧ s'.world = es'.world) := by
  obtain ⟨hname, hvwf, hdwf, hswf⟩ := hwf
  have hp0 : res.drop s.charNr = 0 :: c%'o' :: o.kind.code :: (if o.vars.isSome then c%'t' else c%'f') :: UInt8.ofNat o.dirs.length ::
      (o.name ++ (encVars o.vars ++ (encDirectives o.dirs ++ (encSels o.sels ++ (endI ++ post))))) := by
    rw [hp]
    simp [encOperation]
  have hp2 := drop_one (drop_one hp0)
  have hp3 := drop_one hp2
  have hp4 := drop_one hp3
  have hp5 := drop_one hp4
  -- an error that ends the request
  have stopE : ∀ (msg : Bytes) (s1 : RS V W), (report [] msg >>= fun _ => pure (Out.obj [], true) : E W (Out × Bool)) es = some ((out, crit), es') →
      s1.errs = s.errs → s1.world = s.world → s1.path = s.path → s1.out = s.out →
      wp (err msg >>= fun _ => pure true) (cfgOf r res frags) s1 (fun x s' => x = crit ∧
        (∃ ms, out = .obj ms ∧ s'.out = s.out ++ printMembers true ms) ∧ s'.errs = es'.errs.map rerr ∧ s'.world = es'.world) := by
    intro msg s1 h x1 x2 x3 x4
    obtain ⟨u, es2, h3, h4⟩ := E_bind.1 h
    have e3 : some ((), ({ es with errs := es.errs ++ [(msg, [])] } : ES W)) = some (u, es2) := h3
    cases e3
    have e := E_pure.1 h4
    cases e
    rw [wp_bind, wp_err, wp_pure]
    refine ⟨rfl, ⟨[], rfl, ?_⟩, ?_, ?_⟩
    · show s1.out = _
      rw [x4]
      simp [printMembers]
    · show s1.errs ++ [mkErr s1.path msg] = _
      rw [x1, x3, hpath, herrs]
      simp [mkErr, rerr, pathJSON]
    · show s1.world = _
      rw [x2, hworld]
  unfold resolveOperation
  rw [wp_bind, wp_getCfg, wp_bind, wp_skipInst, wp_bind]
  refine wp_readInst (s := { s with charNr := s.charNr + 2 }) hp2 ?_
  dsimp only
  -- everything after the root value was stored
  have main : ∀ (root : V) (t : RType F V) (s1 : RS V W), s1 = { s with charNr := s.charNr + 2 + 1, vals := fun i => if i = 0 then root else s.vals i } →
      (if o.dirs ≠ [] then do
          report [] b%"operation directives unsupported"
          return (.obj [], true)
        else do
          let (ms, crit) ← evalSels r fuel t root 0 [] 255 (selsCut o.sels)
          return (.obj ms, crit) : E W (Out × Bool)) es = some ((out, crit), es') →
      wp (do
        let hasArgs := (← readInst) == c%'t'
        setArgs hasArgs 0
        let directivesCount ← readInst
        if directivesCount > 0 then
          err b%"operation directives unsupported"
          return true
        let _ ← readToNul
        if hasArgs then
          let argumentsLen ← readUint32M
          setArgs true ((← getPos) + 5)
          skipInst (argumentsLen + 5)
        let (criticalErr, _) ← resolveSelectionSet fuel t 0 true
        return criticalErr) (cfgOf r res frags) s1 (fun x s' => x = crit ∧
        (∃ ms, out = .obj ms ∧ s'.out = s.out ++ printMembers true ms) ∧ s'.errs = es'.errs.map rerr ∧ s'.world = es'.world) := by
    rintro root t s1 rfl h
    rw [wp_bind]
    refine wp_readInst hp3 ?_
    dsimp only
    rw [wp_bind, wp_setArgs, wp_bind]
    refine wp_readInst (s := { s with charNr := s.charNr + 2 + 1 + 1, vals := fun i => if i = 0 then root else s.vals i, hasArgs := _, argsStart := 0 }) hp4 ?_
    dsimp only
    by_cases hdirs : o.dirs = []
    · rw [if_neg (by simpa using hdirs)] at h
      rw [if_neg (by rw [hdirs]; decide), wp_bind]
      rw [hdirs] at hp5
      simp only [encDirectives, List.nil_append] at hp5
      obtain ⟨⟨ms, c⟩, es1, h1, h2⟩ := E_bind.1 h
      have e := E_pure.1 h2
      cases e
      obtain ⟨qs, hqs⟩ := encSels_z o.sels post
      obtain ⟨qv, hqv⟩ := encVars_z o.vars (encSels o.sels ++ (endI ++ post)) ⟨qs, hqs⟩
      have hp6 : res.drop (s.charNr + 2 + 1 + 1 + 1) = o.name ++ 0 :: qv := by rw [← hqv]; exact hp5
      refine wp_readToNul (s := { s with charNr := s.charNr + 2 + 1 + 1 + 1, vals := fun i => if i = 0 then root else s.vals i, hasArgs := _, argsStart := 0 })
        hp6 (opName_no_nul hname) ?_
      have hp7 : 0 :: res.drop (s.charNr + 2 + 1 + 1 + 1 + o.name.length + 1) = encVars o.vars ++ (encSels o.sels ++ (endI ++ post)) := by
        rw [hqv, Nat.add_assoc _ o.name.length 1, drop_add (a := o.name ++ [0]) (rest := qv) (by rw [hp6]; simp) (by simp)]
      dsimp only
      generalize s.charNr + 2 + 1 + 1 + 1 + o.name.length + 1 = P at hp7
      have sels : ∀ (s2 : RS V W), s2.out = s.out → s2.errs = s.errs → s2.world = s.world → s2.varsParsed = s.varsParsed →
          s2.path = s.path → s2.idx = s.idx → s2.vals = (fun i => if i = 0 then root else s.vals i) →
          ArgsAt res r.decls s2.hasArgs s2.argsStart → 0 :: res.drop s2.charNr = encSels o.sels ++ (endI ++ post) →
          wp (resolveSelectionSet fuel t 0 true >>= fun x => pure x.1) (cfgOf r res frags) s2 (fun x s' => x = crit ∧
            (∃ ms', Out.obj ms = .obj ms' ∧ s'.out = s.out ++ printMembers true ms') ∧ s'.errs = es'.errs.map rerr ∧ s'.world = es'.world) := by
        intro s2 x1 x2 x3 x4 x5 x6 x7 x8 x9
        rw [wp_bind]
        have hs2 : Sim res r es [] s2 := ⟨by rw [x2, herrs], by rw [x3, hworld], by rw [x4, hvars], by rw [x5, hpath]; rfl, x8⟩
        refine wp_mono ((refines hg fuel).1 t root 0 [] 255 o.sels es es' ms crit s2 true post hswf hreg x9 hs2
          (by rw [x6, hidx]; rfl) (by rw [x7, x6, hidx]; rfl) h1) ?_
        rintro x s3 ⟨m1, m2, m3, _⟩
        exact ⟨m1, ⟨ms, rfl, by rw [m2.out, x1]⟩, m3.errs, m3.world⟩
      cases hv : o.vars with
      | none =>
        rw [hv] at hp7
        rw [if_neg (by simp)]
        refine sels { s with charNr := P, vals := fun i => if i = 0 then root else s.vals i, hasArgs := _, argsStart := 0 } rfl rfl rfl rfl rfl rfl rfl ?_ hp7
        exact Or.inl ⟨rfl, by rw [hdecls, hv]; rfl⟩
      | some vs =>
        rw [hv] at hp7
        have hp8 : res.drop P = len32 ([0, c%'A'] ++ encVarDefs vs ++ endI).length ++ (([0, c%'A'] ++ encVarDefs vs ++ endI) ++
            (encSels o.sels ++ (endI ++ post))) := by
          simpa [encVars] using hp7
        have hp9 : res.drop (P + 4) = ([0, c%'A'] ++ encVarDefs vs ++ endI) ++ (encSels o.sels ++ (endI ++ post)) := drop_add hp8 rfl
        have hL := body_lt hg.decls.len hp9
        rw [if_pos (by simp), wp_bind]
        refine wp_readUint32M (s := { s with charNr := P, vals := fun i => if i = 0 then root else s.vals i, hasArgs := _, argsStart := 0 }) hp8 ?_
        rw [wp_bind, wp_getPos, wp_bind, wp_setArgs, wp_bind, wp_skipInst, len32_toNat hL]
        refine sels { s with charNr := P + (([0, c%'A'] ++ encVarDefs vs ++ endI).length + 5), vals := fun i => if i = 0 then root else s.vals i, hasArgs := true, argsStart := P + 5 } rfl rfl rfl rfl rfl rfl rfl ?_ ?_
        · refine Or.inr ⟨rfl, encSels o.sels ++ (endI ++ post), ?_⟩
          have hp10 : res.drop (P + 4) = 0 :: (c%'A' :: (encVarDefs vs ++ (endI ++ (encSels o.sels ++ (endI ++ post))))) := by
            rw [hp9]; simp
          show 0 :: res.drop (P + 5) = _
          rw [show P + 5 = P + 4 + 1 from rfl, drop_one hp10, hdecls, hv]
          simp
        · have hp10 := drop_add hp9 rfl
          show 0 :: res.drop (P + (([0, c%'A'] ++ encVarDefs vs ++ endI).length + 5)) = _
          rw [hqs] at hp10 ⊢
          rw [show P + (([0, c%'A'] ++ encVarDefs vs ++ endI).length + 5) = P + 4 + ([0, c%'A'] ++ encVarDefs vs ++ endI).length + 1 by omega]
          rw [drop_one hp10]
    · rw [if_pos hdirs] at h
      have hc : UInt8.ofNat o.dirs.length > 0 := by
        show (0 : UInt8) < _
        rw [UInt8.lt_iff_toNat_lt, count_toNat hdwf.1]
        show 0 < _
        cases hd : o.dirs with
        | nil => exact (hdirs hd).elim
        | cons => simp
      rw [if_pos hc]
      exact stopE _ _ h rfl rfl rfl rfl
  unfold evalOperation at h
  rw [show o.cut.kind = o.kind from rfl, show o.cut.dirs = o.dirs from rfl, show o.cut.sels = selsCut o.sels from rfl] at h
  cases hk : o.kind with
  | subscription =>
    rw [hk] at h
    rw [if_pos (by rfl)]
    exact stopE _ _ h rfl rfl rfl rfl
  | query =>
    rw [hk] at h
    rw [if_neg (by decide), if_pos (by rfl), if_neg (by decide)]
    exact main r.schema.rootQueryValue r.schema.rootQuery _ rfl h
  | mutation =>
    rw [hk] at h
    rw [if_neg (by decide), if_neg (by decide), if_pos (by rfl)]
    exact main r.schema.rootMethodValue r.schema.rootMethod _ rfl h

end
end Eval
end Yarql
