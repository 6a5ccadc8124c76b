import Verif.Proofs.SelComplete
import Verif.Proofs.DocSound

/-! # Completeness: operations, fragments, documents -/

namespace Yarql
namespace Parser
open Grammar Doc

theorem opBody_complete {cfg fuel s ss ts rest} (hss : SelsT ss ts) (hat : AtToks cfg s.charNr (.punct c%'{' :: (ts ++ .punct c%'}' :: rest))) :
    wp True (opBody fuel) cfg s (ValDone cfg s (encSels ss ++ endI) rest) := by
  obtain ⟨_, hrem⟩ := hat.inv.punct
  unfold opBody
  rw [wp_bind, wp_incPos, wp_bind]
  refine wp_mono (parseSelectionSet_complete fuel { s with charNr := s.charNr + 1 } ss ts rest hss hrem) ?_
  rintro _ _ ⟨rfl, p, rfl, hrem2⟩
  unfold instructionEnd
  rw [if_neg (by simp), wp_bind, wp_emit, wp_pure]
  exact ⟨rfl, p, by simp [endI], hrem2⟩

theorem opDirectives_complete {cfg fuel s pre k tf mid dl ds td ss ts rest} (hr : s.res = pre ++ ([0, c%'o', k, tf, 0] ++ mid))
    (hdl : dl = pre.length + 4) (hd : DirsT ds td) (hn : ds.length ≤ 255) (hss : SelsT ss ts)
    (hrem : Rem cfg s.charNr (td ++ (.punct c%'{' :: (ts ++ .punct c%'}' :: rest)))) :
    wp True (opDirectives fuel dl) cfg s (LoopDone cfg s (pre ++ ([0, c%'o', k, tf, UInt8.ofNat ds.length] ++ (mid ++ (encDirectives ds ++ (encSels ss ++ endI))))) rest) := by
  subst hdl
  unfold opDirectives
  rw [wp_bind]
  have hh : ∀ cs, c%'{' ∉ cs → HeadNot cs (.punct c%'{' :: (ts ++ .punct c%'}' :: rest)) := by
    intro cs h x r c h1 h2
    cases h1; cases h2; exact h
  refine wp_mono (parseDirectives_complete fuel s 0 ds td _ hd (by simpa using hn) (by simp) (hh _ (by decide)) (Or.inl (hh _ (by decide))) hrem) ?_
  rintro ⟨n, crit⟩ s1 ⟨rfl, hn, p, rfl, hats⟩
  dsimp only at hn ⊢
  rw [wp_bind]
  refine setRes_wp (a := pre ++ [0, c%'o', k, tf]) (x := 0) (c := mid ++ encDirectives ds) (by simp [hr]) (by simp) ?_
  have hat := hats.inv
  obtain ⟨hq, _⟩ := hat.punct
  rw [if_neg (by simp), wp_bind]
  refine currentC_wp hq ?_
  rw [if_neg (by decide)]
  refine wp_mono (opBody_complete (s := { s with res := pre ++ [0, c%'o', k, tf] ++ n :: (mid ++ encDirectives ds), charNr := p }) hss hats) ?_
  rintro crit s' ⟨h1, p', h2, h3⟩
  refine ⟨h1, p', ?_, h3⟩
  have hn' : n.toNat = ds.length := by simpa using hn
  rw [h2, ← u8_ofNat_of hn']
  simp

theorem parseName_none {b cfg s toks c} (_h : AtToks cfg s.charNr toks) (hc : cfg.query[s.charNr]? = some c) (hn : ¬ NameStart c) :
    wp b parseAndWriteName cfg s (fun r s' => r = (0, false) ∧ s' = s) := by
  unfold parseAndWriteName
  rw [wp_bind, wp_getPos, wp_bind, wp_checkC, hc]
  dsimp only
  rw [if_neg (by rw [isNameStart_iff]; exact hn), wp_pure]
  exact ⟨rfl, rfl⟩

/-- A definition has been compiled. -/
def DefDone (cfg : PCfg) (s : PS) (d : Def) (rest : List Tok) (stop : Bool) (s' : PS) : Prop :=
  stop = false ∧ ∃ p, s' = { s with res := s.res ++ encDef d, charNr := p, frags := s.frags ++ fragPositions s.res.length [d], targetIdx := stepTgt cfg.target s.targetIdx (opPositions s.res.length [d]) } ∧
    Rem cfg p rest

/-- first tokens of the part of an operation after its name -/
theorem opTail_head {vs tv dirs td} {rest : List Tok} (hv : VarDefsT vs tv) (hd : DirsT dirs td) {x r c}
    (h1 : tv ++ (td ++ (.punct c%'{' :: rest)) = x :: r) (h2 : First x c) : ¬ NameStart c := by
  cases hv with
  | some => cases h1; cases h2; unfold NameStart; decide
  | none =>
    cases hd with
    | cons => cases h1; cases h2; unfold NameStart; decide
    | nil => cases h1; cases h2; unfold NameStart; decide

theorem parseOperation_complete {cfg fuel s k m n vs dirs ss tn tv td ts rest} (hm : instructionOfKeyword m = emit [0, c%'o', OpKind.code k, c%'f', 0])
    (hn : OpNameT n tn) (hv : VarDefsT vs tv) (hd : DirsT dirs td) (hdl : dirs.length ≤ 255) (hss : SelsT ss ts)
    (hrem : Rem cfg s.charNr (tn ++ (tv ++ (td ++ (.punct c%'{' :: (ts ++ .punct c%'}' :: rest)))))) :
    wp True (parseOperation fuel s.res.length m) cfg s (DefDone cfg s (.op ⟨k, n, vs, dirs, ss⟩) rest) := by
  unfold parseOperation
  rw [wp_bind, wp_setTargetIfNone]
  generalize hs0 : (if hasTarget cfg = true then s else { s with targetIdx := some s.res.length }) = s0
  have hs0' : s0 = { s with targetIdx := if hasTarget cfg then s.targetIdx else some s.res.length } := by
    rw [← hs0]; split <;> simp_all
  subst hs0'
  clear hs0
  rw [hm, wp_bind, wp_emit, wp_bind, wp_resLen, wp_bind, wp_resLen, wp_bind]
  dsimp only
  refine wp_mono (mightIgnore_toks hrem (by simp)) ?_
  rintro _ _ ⟨c, p, rfl, rfl, hq, hats⟩
  dsimp only
  rw [wp_bind, wp_resLen, wp_bind]
  -- after the name
  have key : ∀ p2, Rem cfg p2 (tv ++ (td ++ (.punct c%'{' :: (ts ++ .punct c%'}' :: rest)))) →
      wp True (do
        let name ← sliceResFrom (s.res ++ [0, c%'o', k.code, c%'f', 0]).length
        setTargetIfName name s.res.length
        match ← mightIgnore with
        | none => unexpectedEOF
        | some c =>
        if c == c%'(' then
          setRes ((s.res ++ [0, c%'o', k.code, c%'f', 0]).length - 2) c%'t'
          emit [0, 0, 0, 0, 0]
          let endAt := (← resLen) - 4
          let argumentsStartAt ← resLen
          incPos
          if ← parseOperatorArguments fuel then return true
          writeUint32 (UInt32.ofNat (← resLen) - UInt32.ofNat argumentsStartAt) endAt
          opDirectives fuel ((s.res ++ [0, c%'o', k.code, c%'f', 0]).length - 1)
        else
          opDirectives fuel ((s.res ++ [0, c%'o', k.code, c%'f', 0]).length - 1)) cfg
        { s with res := s.res ++ [0, c%'o', k.code, c%'f', 0] ++ n, charNr := p2, targetIdx := if hasTarget cfg then s.targetIdx else some s.res.length }
        (DefDone cfg s (.op ⟨k, n, vs, dirs, ss⟩) rest) := by
    intro p2 hrem2
    rw [wp_bind, wp_sliceResFrom, if_pos (by simp), wp_bind, wp_setTargetIfName]
    rw [List.drop_left]
    generalize hs0 : (if (decide (n.length > 0) && hasTarget cfg && cfg.target == some n) = true then _ else _) = s0
    have hs0' : s0 = { s with res := s.res ++ [0, c%'o', k.code, c%'f', 0] ++ n, charNr := p2, targetIdx := stepTgt cfg.target s.targetIdx [(s.res.length, n)] } := by
      rw [← hs0, ← target_step]
      split <;> rfl
    subst hs0'
    clear hs0
    rw [wp_bind]
    refine wp_mono (mightIgnore_toks hrem2 (by simp)) ?_
    rintro _ _ ⟨c, p3, rfl, rfl, hq3, hats3⟩
    dsimp only
    cases hv with
    | none =>
      have hc : c ≠ c%'(' := by
        have : HeadNot [c%'('] (td ++ (.punct c%'{' :: (ts ++ .punct c%'}' :: rest))) := by
          intro x r c h1 h2
          cases hd with
          | nil => cases h1; cases h2; decide
          | cons => cases h1; cases h2; decide
        have := hats3.not this hq3
        simpa using this
      rw [if_neg (by simpa using hc)]
      refine wp_mono (opDirectives_complete (pre := s.res) (k := k.code) (tf := c%'f') (mid := n) (by simp) (by simp) hd hdl hss (by simpa using hats3.rem)) ?_
      rintro crit s' ⟨h1, p', h2, h3⟩
      refine ⟨h1, p', ?_, h3⟩
      rw [h2]
      simp [encDef, encOperation, encVars, fragPositions, opPositions]
    | @some cm vs tvs hcm hvs =>
      have hat3 := hats3.inv
      obtain ⟨hq4, hrem4⟩ := AtTok.punct hat3
      rw [hq3] at hq4
      cases hq4
      rw [if_pos (by decide), wp_bind]
      refine setRes_wp (a := s.res ++ [0, c%'o', k.code]) (x := c%'f') (c := 0 :: n) (by simp) (by simp) ?_
      rw [wp_bind, wp_emit, wp_bind, wp_resLen, wp_bind, wp_resLen, wp_bind, wp_incPos, wp_bind]
      dsimp only
      refine wp_mono (parseOperatorArguments_complete (rest := td ++ (.punct c%'{' :: (ts ++ .punct c%'}' :: rest))) hcm hvs (by simpa using hrem4)) ?_
      rintro _ _ ⟨rfl, p5, rfl, hrem5⟩
      rw [if_neg (by simp), wp_bind, wp_resLen, wp_bind]
      generalize ho : ([0, c%'A'] ++ encVarDefs vs ++ endI : Bytes) = out
      refine writeUint32_wp (a := s.res ++ [0, c%'o', k.code] ++ c%'t' :: 0 :: n ++ [0]) (z := [0, 0, 0, 0]) (c := out)
        (by simp) rfl (by simp; omega) ?_
      have hlen : UInt32.ofNat (s.res ++ [0, c%'o', k.code] ++ c%'t' :: 0 :: n ++ [0, 0, 0, 0, 0] ++ out).length - UInt32.ofNat (s.res ++ [0, c%'o', k.code] ++ c%'t' :: 0 :: n ++ [0, 0, 0, 0, 0]).length
          = UInt32.ofNat out.length := by
        generalize (s.res ++ [0, c%'o', k.code] ++ c%'t' :: 0 :: n ++ [0, 0, 0, 0, 0]) = l
        rw [List.length_append, UInt32.ofNat_add]
        rw [UInt32.add_comm, UInt32.add_sub_cancel]
      dsimp only
      rw [hlen]
      refine wp_mono (opDirectives_complete (pre := s.res) (k := k.code) (tf := c%'t') (mid := n ++ ([0] ++ (len32 out.length ++ out)))
        (by simp [len32]) (by simp) hd hdl hss hrem5) ?_
      rintro crit s' ⟨h1, p', h2, h3⟩
      refine ⟨h1, p', ?_, h3⟩
      rw [h2, ← ho]
      simp [encDef, encOperation, encVars, fragPositions, opPositions]
  cases hn with
  | none =>
    have hnc : ¬ NameStart c := by
      obtain ⟨x, r, hx, hat⟩ := hats
      obtain ⟨d, hd', hf⟩ := hat.first
      rw [hq] at hd'
      cases hd'
      exact opTail_head hv hd hx hf
    refine wp_mono (parseName_none hats hq hnc) ?_
    rintro _ _ ⟨rfl, rfl⟩
    dsimp only
    rw [if_neg (by simp)]
    have := key p hats.rem
    rw [List.append_nil] at this
    exact this
  | @some n hn =>
    have hne : tv ++ (td ++ (.punct c%'{' :: (ts ++ .punct c%'}' :: rest))) ≠ [] := by simp
    obtain ⟨y, l, hyl⟩ := List.exists_cons_of_ne_nil hne
    have hat : AtTok cfg p (.name n) (tv ++ (td ++ (.punct c%'{' :: (ts ++ .punct c%'}' :: rest)))) := hats.inv
    rw [hyl] at hat
    refine wp_mono (parseName_tok hat) ?_
    rintro ⟨nl, crit⟩ s' ⟨rfl, _, _, _, rfl, hrem2⟩
    dsimp only
    rw [if_neg (by simp)]
    rw [← hyl] at hrem2
    exact key _ hrem2

theorem parseFragment_complete {cfg fuel s n ty ss ts rest} (hss : SelsT ss ts)
    (hrem : Rem cfg s.charNr (.name n :: .word b%"on" :: .name ty :: .punct c%'{' :: (ts ++ .punct c%'}' :: rest))) :
    wp True (parseFragment fuel) cfg s (DefDone cfg s (.frag ⟨n, ty, ss⟩) rest) := by
  unfold parseFragment instructionNewFragment
  rw [wp_bind, wp_resLen, wp_bind, wp_addFrag, wp_bind, wp_emit, wp_bind]
  dsimp only
  refine wp_mono (mightIgnore_rem hrem) ?_
  rintro _ _ ⟨c, p, rfl, rfl, hf, hq, hat⟩
  dsimp only
  rw [wp_bind]
  refine wp_mono (parseName_tok hat) ?_
  rintro ⟨nl, crit⟩ s' ⟨rfl, _, h0, _, rfl, hrem2⟩
  dsimp only at h0 ⊢
  rw [if_neg (by simp), if_neg (by rw [h0]; simp), wp_bind]
  refine wp_mono (mightIgnore_rem hrem2) ?_
  rintro _ _ ⟨c, p2, rfl, rfl, hf, hq2, hat2⟩
  dsimp only
  obtain ⟨_, hd, hrem3⟩ := hat2.word
  have hq2' := get_of_drop hd
  rw [hq2] at hq2'
  cases hq2'
  have hd2 := drop_succ_of hd
  have hq3 : cfg.query[p2 + 1]? = some c%'n' := get_of_drop hd2
  rw [if_neg (by decide), wp_bind, wp_incPos, wp_bind, wp_getPos, wp_bind, wp_checkC]
  dsimp only
  rw [hq3]
  dsimp only
  rw [if_neg (by decide), wp_bind, wp_incPos, wp_bind]
  dsimp only
  refine wp_mono (mightIgnore_rem hrem3) ?_
  rintro _ _ ⟨c, p4, rfl, rfl, hf, hq4, hat4⟩
  dsimp only
  rw [wp_bind, wp_emit, wp_bind]
  refine wp_mono (parseName_tok hat4) ?_
  rintro ⟨nl, crit⟩ s' ⟨rfl, _, h0, _, rfl, hrem5⟩
  dsimp only at h0 ⊢
  rw [if_neg (by simp), if_neg (by rw [h0]; simp), wp_bind]
  refine wp_mono (mightIgnore_rem hrem5) ?_
  rintro _ _ ⟨c, p6, rfl, rfl, hf, hq6, hat6⟩
  cases hf
  dsimp only
  rw [if_neg (by decide)]
  refine wp_mono (opBody_complete hss ⟨_, _, rfl, hat6⟩) ?_
  rintro crit s' ⟨h1, p', h2, h3⟩
  refine ⟨h1, p', ?_, h3⟩
  rw [h2]
  simp [encDef, encFragment, fragPositions, opPositions, stepTgt_nil]

theorem isName_keyword (k : OpKind) : IsName (keyword k) := by
  cases k
  · exact ⟨by decide, c%'q', b%"uery", rfl, by unfold NameStart; decide, by unfold NameChar NameStart; decide⟩
  · exact ⟨by decide, c%'m', b%"utation", rfl, by unfold NameStart; decide, by unfold NameChar NameStart; decide⟩
  · exact ⟨by decide, c%'s', b%"ubscription", rfl, by unfold NameStart; decide, by unfold NameChar NameStart; decide⟩

theorem isName_fragment : IsName b%"fragment" :=
  ⟨by decide, c%'f', b%"ragment", rfl, by unfold NameStart; decide, by unfold NameChar NameStart; decide⟩

def opNumber : OpKind → Nat
  | .query => 0
  | .mutation => 1
  | .subscription => 2

theorem keywordMatch {cfg s k ts} (h : AtTok cfg s.charNr (.word (keyword k)) ts) :
    wp True (matchesKw [b%"query", b%"mutation", b%"subscription"]) cfg s (fun r s' => r = some (opNumber k) ∧
      s' = { s with charNr := s.charNr + (keyword k).length } ∧ Rem cfg (s.charNr + (keyword k).length) ts) := by
  obtain ⟨_, hd, hrem⟩ := h.word
  have hat : At cfg.query s.charNr (keyword k) := at_iff_prefix.mpr ⟨_, hd⟩
  refine wp_mono (matchesKw_wp [b%"query", b%"mutation", b%"subscription"] (by simp)) ?_
  rintro r s' (⟨rfl, rfl, h3⟩ | ⟨m, key, rfl, hg, hat2, rfl⟩)
  · exact absurd hat (h3 _ (by cases k <;> simp [keyword]))
  · obtain ⟨r, hr⟩ := at_iff_prefix.mp hat2
    rw [hd] at hr
    have hm : (m = 0 ∧ key = b%"query") ∨ (m = 1 ∧ key = b%"mutation") ∨ (m = 2 ∧ key = b%"subscription") := by
      match m, hg with
      | 0, hg => left; simpa [eq_comm] using hg
      | 1, hg => right; left; simpa [eq_comm] using hg
      | 2, hg => right; right; simpa [eq_comm] using hg
      | m + 3, hg => simp at hg
    have : m = opNumber k ∧ key = keyword k := by
      rcases hm with ⟨rfl, rfl⟩ | ⟨rfl, rfl⟩ | ⟨rfl, rfl⟩ <;> cases k <;> simp [keyword, opNumber] at hr ⊢
    obtain ⟨rfl, rfl⟩ := this
    exact ⟨rfl, rfl, hrem⟩

theorem fragmentMatch {cfg s ts} (h : AtTok cfg s.charNr (.word b%"fragment") ts) :
    wp True (matchesKw [b%"query", b%"mutation", b%"subscription"]) cfg s (fun r s' => r = none ∧ s' = s) ∧
    wp True (matchesKw [b%"fragment"]) cfg s (fun r s' => r = some 0 ∧ s' = { s with charNr := s.charNr + 8 } ∧ Rem cfg (s.charNr + 8) ts) := by
  obtain ⟨_, hd, hrem⟩ := h.word
  have hat : At cfg.query s.charNr b%"fragment" := at_iff_prefix.mpr ⟨_, hd⟩
  refine ⟨wp_mono (matchesKw_wp [b%"query", b%"mutation", b%"subscription"] (by simp)) ?_, wp_mono (matchesKw_wp [b%"fragment"] (by simp)) ?_⟩
  · rintro r s' (⟨rfl, rfl, h3⟩ | ⟨m, key, rfl, hg, hat2, rfl⟩)
    · exact ⟨rfl, rfl⟩
    · exfalso
      obtain ⟨r, hr⟩ := at_iff_prefix.mp hat2
      rw [hd] at hr
      have hm : key = b%"query" ∨ key = b%"mutation" ∨ key = b%"subscription" := by
        simpa using List.mem_of_getElem? hg
      rcases hm with rfl | rfl | rfl <;> simp at hr
  · rintro r s' (⟨rfl, rfl, h3⟩ | ⟨m, key, rfl, hg, hat2, rfl⟩)
    · exact absurd hat (by simpa using h3)
    · have hm : m = 0 ∧ key = b%"fragment" := by
        cases m with
        | zero => simpa [eq_comm] using hg
        | succ m => simp at hg
      obtain ⟨rfl, rfl⟩ := hm
      exact ⟨rfl, rfl, hrem⟩

theorem parseOperatorOrFragment_complete {cfg fuel s d t rest} (hd : DefT d t) (hrem : Rem cfg s.charNr (t ++ rest)) :
    wp True (parseOperatorOrFragment fuel) cfg s (DefDone cfg s d rest) := by
  unfold parseOperatorOrFragment
  rw [wp_bind]
  cases hd with
  | @short ss ts hss =>
    refine wp_mono (mightIgnore_rem (t := .punct c%'{') (ts := ts ++ .punct c%'}' :: rest) (by simpa using hrem)) ?_
    rintro _ _ ⟨c, p, rfl, rfl, hf, hq, hat⟩
    cases hf
    dsimp only
    unfold instructionNewOperation
    rw [wp_bind, wp_resLen, if_pos (by decide), wp_bind, wp_setTargetIfNone, wp_bind, wp_emit]
    have e : (if hasTarget cfg = true then ({ s with charNr := p } : PS) else { s with charNr := p, targetIdx := some s.res.length }) =
        { s with charNr := p, targetIdx := stepTgt cfg.target s.targetIdx [(s.res.length, [])] } := by
      rw [← target_step]
      split <;> simp
    dsimp only
    rw [e]
    refine wp_mono (opBody_complete hss ⟨_, _, rfl, hat⟩) ?_
    rintro crit s' ⟨h1, p', h2, h3⟩
    refine ⟨h1, p', ?_, h3⟩
    rw [h2]
    simp [encDef, encOperation, encVars, encDirectives, OpKind.code, fragPositions, opPositions]
  | @op k n vs dirs ss tn tv td ts hn hv hdir hdl hss =>
    refine wp_mono (mightIgnore_rem (t := .word (keyword k)) (ts := tn ++ (tv ++ (td ++ (.punct c%'{' :: (ts ++ .punct c%'}' :: rest))))) (by simpa using hrem)) ?_
    rintro _ _ ⟨c, p, rfl, rfl, hf, hq, hat⟩
    obtain ⟨_, _, _, _, f0, _⟩ := nameStart_facts hf
    dsimp only
    rw [wp_bind, wp_resLen, if_neg (by simpa using f0), wp_bind]
    refine wp_mono (keywordMatch (s := { s with charNr := p }) hat) ?_
    rintro _ _ ⟨rfl, rfl, hrem2⟩
    dsimp only
    refine wp_mono (parseOperation_complete (s := { s with charNr := p + (keyword k).length }) (k := k) (m := opNumber k) (by cases k <;> rfl) hn hv hdir hdl hss hrem2) ?_
    rintro crit s' ⟨h1, p', h2, h3⟩
    exact ⟨h1, p', h2, h3⟩
  | @frag n ty ss ts hn hty hss =>
    refine wp_mono (mightIgnore_rem (t := .word b%"fragment") (ts := .name n :: .word b%"on" :: .name ty :: .punct c%'{' :: (ts ++ .punct c%'}' :: rest)) (by simpa using hrem)) ?_
    rintro _ _ ⟨c, p, rfl, rfl, hf, hq, hat⟩
    obtain ⟨_, _, _, _, f0, _⟩ := nameStart_facts hf
    dsimp only
    obtain ⟨g1, g2⟩ := fragmentMatch (s := { s with charNr := p }) hat
    rw [wp_bind, wp_resLen, if_neg (by simpa using f0), wp_bind]
    refine wp_mono g1 ?_
    rintro _ _ ⟨rfl, rfl⟩
    dsimp only
    rw [wp_bind]
    refine wp_mono g2 ?_
    rintro _ _ ⟨rfl, rfl, hrem2⟩
    dsimp only
    refine wp_mono (parseFragment_complete (s := { s with charNr := p + 8 }) hss hrem2) ?_
    rintro crit s' ⟨h1, p', h2, h3⟩
    exact ⟨h1, p', h2, h3⟩

theorem docLoop_complete {cfg fuel} : ∀ (n : Nat) (s : PS) (d : List Def) (toks : List Tok), DocT d toks → Rem cfg s.charNr toks →
    wp True (docLoop fuel n) cfg s (fun _ s' => s'.errs = s.errs ∧ s'.res = s.res ++ encDoc d ∧
      s'.frags = s.frags ++ fragPositions s.res.length d ∧ s'.targetIdx = stepTgt cfg.target s.targetIdx (opPositions s.res.length d))
  | 0, _, _, _, _, _ => trivial
  | n + 1, s, d, toks, hd, hrem => by
    unfold docLoop
    rw [wp_bind]
    cases hd with
    | nil =>
      unfold parseOperatorOrFragment
      rw [wp_bind]
      refine wp_mono (mightIgnore_end hrem) ?_
      rintro _ _ ⟨rfl, p, rfl⟩
      dsimp only
      rw [wp_pure, if_pos rfl, wp_pure]
      simp [encDoc, fragPositions, opPositions, stepTgt_nil]
    | @cons d ds t ts hd hds =>
      refine wp_mono (parseOperatorOrFragment_complete hd hrem) ?_
      rintro _ _ ⟨rfl, p, rfl, hrem2⟩
      rw [if_neg (by simp)]
      refine wp_mono (docLoop_complete n _ ds ts hds hrem2) ?_
      rintro _ s' ⟨h1, h2, h3, h4⟩
      refine ⟨h1, by rw [h2]; simp [encDoc], ?_, ?_⟩
      · rw [fragPositions_cons, h3]; simp
      · rw [opPositions_cons, h4, stepTgt_append]; simp

/-! ## The tokens of a document are good -/

abbrev Good (ts : List Tok) : Prop := ∀ t ∈ ts, GoodTok t

theorem good_cons {t ts} : Good (t :: ts) ↔ GoodTok t ∧ Good ts := by simp [Good]
theorem good_append {a b} : Good (a ++ b) ↔ Good a ∧ Good b := by
  simp only [Good, List.mem_append]
  exact ⟨fun h => ⟨fun t ht => h t (Or.inl ht), fun t ht => h t (Or.inr ht)⟩, fun h t ht => ht.elim (h.1 t) (h.2 t)⟩
theorem good_nil : Good [] := by simp [Good]

theorem goodPunct {c : Byte} (h : c ∈ b%"{}()[]:=!,") : GoodTok (.punct c) := by
  revert h
  simp only [List.mem_cons, List.not_mem_nil, or_false]
  rintro (rfl | rfl | rfl | rfl | rfl | rfl | rfl | rfl | rfl | rfl) <;> (unfold GoodTok IgnStart Blank; decide)

theorem goodSigil {c : Byte} {n : Bytes} (h : c = c%'$' ∨ c = c%'@') (hn : IsName n) : GoodTok (.sigil c n) := by
  refine ⟨?_, hn⟩
  rcases h with rfl | rfl <;> (unfold IgnStart Blank; decide)

theorem OptComma.good {c} (h : OptComma c) : Good c := by
  cases h with
  | none => exact good_nil
  | comma => exact good_cons.mpr ⟨goodPunct (by decide), good_nil⟩

mutual
theorem ValT.good : ∀ {v ts}, ValT v ts → Good ts
  | _, _, .var h => good_cons.mpr ⟨goodSigil (Or.inl rfl) h, good_nil⟩
  | _, _, .int _ => good_cons.mpr ⟨trivial, good_nil⟩
  | _, _, .float _ => good_cons.mpr ⟨trivial, good_nil⟩
  | _, _, .str => good_cons.mpr ⟨trivial, good_nil⟩
  | _, _, .true => good_cons.mpr ⟨isName_true, good_nil⟩
  | _, _, .false => good_cons.mpr ⟨isName_false, good_nil⟩
  | _, _, .null => good_cons.mpr ⟨isName_null, good_nil⟩
  | _, _, .enum h _ _ _ => good_cons.mpr ⟨h, good_nil⟩
  | _, _, .list h => good_cons.mpr ⟨goodPunct (by decide), good_append.mpr ⟨ValsT.good h, good_cons.mpr ⟨goodPunct (by decide), good_nil⟩⟩⟩
  | _, _, .obj h => good_cons.mpr ⟨goodPunct (by decide), good_append.mpr ⟨FieldsT.good h, good_cons.mpr ⟨goodPunct (by decide), good_nil⟩⟩⟩
theorem ValsT.good : ∀ {v ts}, ValsT v ts → Good ts
  | _, _, .nil => good_nil
  | _, _, .cons h1 h2 h3 => good_append.mpr ⟨ValT.good h1, good_append.mpr ⟨OptComma.good h2, ValsT.good h3⟩⟩
theorem FieldsT.good : ∀ {v ts}, FieldsT v ts → Good ts
  | _, _, .nil => good_nil
  | _, _, .cons h0 h1 h2 h3 => good_cons.mpr ⟨h0, good_cons.mpr ⟨goodPunct (by decide),
      good_append.mpr ⟨ValT.good h1, good_append.mpr ⟨OptComma.good h2, FieldsT.good h3⟩⟩⟩⟩
end

theorem ArgsT.good {a ts} (h : ArgsT a ts) : Good ts := by
  cases h with
  | none => exact good_nil
  | some h => exact good_cons.mpr ⟨goodPunct (by decide), good_append.mpr ⟨FieldsT.good h, good_cons.mpr ⟨goodPunct (by decide), good_nil⟩⟩⟩

theorem DirsT.good : ∀ {ds ts}, DirsT ds ts → Good ts
  | _, _, .nil => good_nil
  | _, _, .cons h1 h2 h3 => good_cons.mpr ⟨goodSigil (Or.inr rfl) h1, good_append.mpr ⟨ArgsT.good h2, DirsT.good h3⟩⟩

theorem good_braces {ts} (h : Good ts) : Good (.punct c%'{' :: (ts ++ [.punct c%'}'])) :=
  good_cons.mpr ⟨goodPunct (by decide), good_append.mpr ⟨h, good_cons.mpr ⟨goodPunct (by decide), good_nil⟩⟩⟩

mutual
theorem SelT.good : ∀ {s ts}, SelT s ts → Good ts
  | _, _, .field h1 h2 _ h3 _ h4 => good_cons.mpr ⟨h1, good_append.mpr ⟨DirsT.good h2, good_append.mpr ⟨ArgsT.good h3, BodyT.good h4⟩⟩⟩
  | _, _, .aliased h1 h0 h2 _ h3 _ h4 => good_cons.mpr ⟨h1, good_cons.mpr ⟨goodPunct (by decide), good_cons.mpr ⟨h0,
      good_append.mpr ⟨DirsT.good h2, good_append.mpr ⟨ArgsT.good h3, BodyT.good h4⟩⟩⟩⟩⟩
  | _, _, .spread h1 _ h2 _ => good_cons.mpr ⟨trivial, good_cons.mpr ⟨h1, DirsT.good h2⟩⟩
  | _, _, .inline h1 h2 _ h3 => good_cons.mpr ⟨trivial, good_cons.mpr ⟨isName_on, good_cons.mpr ⟨h1, good_append.mpr ⟨DirsT.good h2, good_braces (SelsT.good h3)⟩⟩⟩⟩
theorem BodyT.good : ∀ {s ts}, BodyT s ts → Good ts
  | _, _, .none => good_nil
  | _, _, .some h => good_braces (SelsT.good h)
theorem SelsT.good : ∀ {s ts}, SelsT s ts → Good ts
  | _, _, .nil => good_nil
  | _, _, .cons h1 h2 h3 => good_append.mpr ⟨SelT.good h1, good_append.mpr ⟨OptComma.good h2, SelsT.good h3⟩⟩
end

theorem TyT.good : ∀ {t ts}, TyT t ts → Good ts
  | _, _, .named h => good_cons.mpr ⟨h, good_nil⟩
  | _, _, .namedNN h => good_cons.mpr ⟨h, good_cons.mpr ⟨goodPunct (by decide), good_nil⟩⟩
  | _, _, .list h => good_cons.mpr ⟨goodPunct (by decide), good_append.mpr ⟨TyT.good h, good_cons.mpr ⟨trivial, good_nil⟩⟩⟩
  | _, _, .listNN h => good_cons.mpr ⟨goodPunct (by decide), good_append.mpr ⟨TyT.good h, good_cons.mpr ⟨trivial, good_nil⟩⟩⟩

theorem VarT.good {v ts} (h : VarT v ts) : Good ts := by
  cases h with
  | plain h1 h2 => exact good_cons.mpr ⟨goodSigil (Or.inl rfl) h1, good_cons.mpr ⟨goodPunct (by decide), TyT.good h2⟩⟩
  | default h1 h2 h3 => exact good_cons.mpr ⟨goodSigil (Or.inl rfl) h1, good_cons.mpr ⟨goodPunct (by decide), good_append.mpr ⟨TyT.good h2,
      good_cons.mpr ⟨goodPunct (by decide), ValT.good h3⟩⟩⟩⟩

theorem VarsT.good : ∀ {vs ts}, VarsT vs ts → Good ts
  | _, _, .nil => good_nil
  | _, _, .cons h1 h2 h3 => good_append.mpr ⟨VarT.good h1, good_append.mpr ⟨OptComma.good h2, VarsT.good h3⟩⟩

theorem DefT.good {d ts} (h : DefT d ts) : Good ts := by
  cases h with
  | short h => exact good_braces (SelsT.good h)
  | op hn hv hd _ hs =>
    refine good_cons.mpr ⟨isName_keyword _, good_append.mpr ⟨?_, good_append.mpr ⟨?_, good_append.mpr ⟨DirsT.good hd, good_braces (SelsT.good hs)⟩⟩⟩⟩
    · cases hn with
      | none => exact good_nil
      | some h => exact good_cons.mpr ⟨h, good_nil⟩
    · cases hv with
      | none => exact good_nil
      | some hc h => exact good_cons.mpr ⟨goodPunct (by decide), good_append.mpr ⟨OptComma.good hc, good_append.mpr ⟨VarsT.good h, good_cons.mpr ⟨goodPunct (by decide), good_nil⟩⟩⟩⟩
  | frag h1 h2 h3 => exact good_cons.mpr ⟨isName_fragment, good_cons.mpr ⟨h1, good_cons.mpr ⟨isName_on, good_cons.mpr ⟨h2, good_braces (SelsT.good h3)⟩⟩⟩⟩

theorem DocT.good : ∀ {d ts}, DocT d ts → Good ts
  | _, _, .nil => good_nil
  | _, _, .cons h1 h2 => good_append.mpr ⟨DefT.good h1, DocT.good h2⟩

/-- The whole parser on a text of a document. -/
theorem parseQuery_complete (query : Bytes) (target : Option Bytes) (d : List Def) (h : Text d query) :
    wp True (fun cfg s => docLoop (parseFuel query) (query.length + 2) cfg s) ⟨query, target⟩ PS.init (fun _ s' => s'.errs = [] ∧
      s'.res = encDoc d ∧ s'.frags = fragPositions 0 d ∧ s'.targetIdx = stepTgt target none (opPositions 0 d)) := by
  obtain ⟨toks, hd, hl⟩ := h
  refine wp_mono (docLoop_complete _ _ d toks hd ⟨by simpa [PS.init] using hl, DocT.good hd⟩) ?_
  rintro _ s' ⟨h1, h2, h3, h4⟩
  exact ⟨h1, by simpa [PS.init] using h2, by simpa [PS.init] using h3, h4⟩

end Parser
end Yarql
