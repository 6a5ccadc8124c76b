import Verif.Proofs.TextSel

/-! # Accepted texts are documents: definitions and documents -/

namespace Yarql
namespace Parser
open Grammar Doc

theorem opBody_text {cfg fuel} {s : PS} (hq : cfg.query[s.charNr]? = some c%'{') : wp True (opBody fuel) cfg s (fun crit s' =>
    Clean s s' (crit = false ∧ ∃ ss toks, SelsT ss toks ∧ Reads cfg.query s.charNr s'.charNr (.punct c%'{' :: (toks ++ [.punct c%'}'])))) := by
  unfold opBody instructionEnd
  rw [wp_bind, wp_incPos, wp_bind]
  refine wp_mono (parseSelectionSet_text fuel _) ?_
  intro crit s1 h2
  refine wp_if (fun hc => ?_) (fun hc => ?_)
  · rw [wp_pure]; exact clean_crit h2 hc
  rw [wp_bind, wp_emit, wp_pure]
  refine h2.mono (s := s) rfl ?_
  rintro ⟨_, ss, toks, h3, h4⟩
  exact ⟨rfl, ss, toks, h3, (Reads.punct hq (by decide)).trans h4⟩

/-- What `opDirectives` has read. -/
def OpEnd (q : Bytes) (n n' : Nat) : Prop := ∃ dirs td ss toks, DirsT dirs td ∧ dirs.length ≤ 255 ∧ SelsT ss toks ∧
  Reads q n n' (td ++ (.punct c%'{' :: (toks ++ [.punct c%'}'])))

theorem opDirectives_text {cfg fuel dcl} {s : PS} : wp True (opDirectives fuel dcl) cfg s (fun crit s' =>
    Clean s s' (crit = false ∧ OpEnd cfg.query s.charNr s'.charNr)) := by
  unfold opDirectives
  rw [wp_bind]
  refine wp_mono (parseDirectives_text fuel 0 _) ?_
  rintro ⟨am, crit⟩ s1 h2
  dsimp only at h2 ⊢
  refine setRes_any (fun r => ?_)
  refine wp_if (fun hc => ?_) (fun hc => ?_)
  · rw [wp_pure]; exact clean_crit (s' := s1) h2 hc
  rw [wp_bind, wp_currentC]
  dsimp only
  cases hq2 : cfg.query[s1.charNr]? with
  | none => trivial
  | some c2 =>
    dsimp only
    refine wp_if (fun h => errC_clean) (fun h3 => ?_)
    have : c2 = c%'{' := by simpa using h3
    subst this
    refine wp_mono (opBody_text (by exact hq2)) ?_
    intro crit s' h4
    refine h2.bind (h4.mono (s := s1) rfl (fun x => x)) ?_
    rintro ⟨_, ds, td, c3, d1, d2, d3, _⟩ ⟨h5, ss, toks, e1, e2⟩
    exact ⟨h5, ds, td, ss, toks, d1, by simpa using d2, e1, d3.trans e2⟩

/-- What `parseOperation` has read behind the keyword. -/
def OpRead (q : Bytes) (n n' : Nat) : Prop := ∃ nm tn vs tv dirs td ss toks, OpNameT nm tn ∧ VarDefsT vs tv ∧ DirsT dirs td ∧
  dirs.length ≤ 255 ∧ SelsT ss toks ∧ Reads q n n' (tn ++ (tv ++ (td ++ (.punct c%'{' :: (toks ++ [.punct c%'}'])))))

theorem setTargetIfNone_any {α} {f : Unit → P α} {cfg s n} {Q : α → PS → Prop}
    (h : ∀ t, wp True (f ()) cfg { s with targetIdx := t } Q) : wp True (setTargetIfNone n >>= f) cfg s Q := by
  rw [wp_bind, wp_setTargetIfNone]
  split
  · exact h _
  · exact h _

theorem setTargetIfName_any {α} {f : Unit → P α} {cfg s nm n} {Q : α → PS → Prop}
    (h : ∀ t, wp True (f ()) cfg { s with targetIdx := t } Q) : wp True (setTargetIfName nm n >>= f) cfg s Q := by
  rw [wp_bind, wp_setTargetIfName]
  split
  · exact h _
  · exact h _

theorem sliceResFrom_any {α} {f : Bytes → P α} {cfg s i} {Q : α → PS → Prop} (h : ∀ r, wp True (f r) cfg s Q) :
    wp True (sliceResFrom i >>= f) cfg s Q := by
  rw [wp_bind, wp_sliceResFrom]
  split
  · exact h _
  · trivial

theorem newOperation_any {α} {f : Unit → P α} {cfg s m} {Q : α → PS → Prop} (h : ∀ r, wp True (f ()) cfg { s with res := r } Q) :
    wp True (instructionOfKeyword m >>= f) cfg s Q := by
  unfold instructionOfKeyword instructionNewOperation
  rw [wp_bind]
  exact wp_if (fun _ => h _) (fun _ => wp_if (fun _ => h _) (fun _ => h _))

theorem parseOperation_text {cfg fuel at_ m} {s : PS} : wp True (parseOperation fuel at_ m) cfg s (fun crit s' =>
    Clean s s' (crit = false ∧ OpRead cfg.query s.charNr s'.charNr)) := by
  unfold parseOperation
  refine setTargetIfNone_any (fun t => ?_)
  refine newOperation_any (fun r => ?_)
  rw [wp_bind, wp_resLen, wp_bind, wp_resLen]
  refine wp_skip (fun p => eof_clean) ?_
  intro p c hsk
  dsimp only at hsk ⊢
  rw [wp_bind, wp_resLen]
  -- behind the name
  have key : ∀ (nm : Bytes) (tn : List Tok) (s1 : PS) (k hl dl : Nat), s1.errs = s.errs → OpNameT nm tn →
      Reads cfg.query s.charNr s1.charNr tn → wp True (do
        let name ← sliceResFrom k
        setTargetIfName name at_
        match ← mightIgnore with
        | none => unexpectedEOF
        | some c =>
        if c == c%'(' then
          setRes hl c%'t'
          emit [0, 0, 0, 0, 0]
          let endAt := (← resLen) - 4
          let argumentsStartAt ← resLen
          incPos
          if ← parseOperatorArguments fuel then return true
          writeUint32 (UInt32.ofNat (← resLen) - UInt32.ofNat argumentsStartAt) endAt
          opDirectives fuel dl
        else
          opDirectives fuel dl) cfg s1 (fun crit s' =>
    Clean s s' (crit = false ∧ OpRead cfg.query s.charNr s'.charNr)) := by
    intro nm tn s1 k hl dl he hnm hr
    refine sliceResFrom_any (fun x => ?_)
    refine setTargetIfName_any (fun x => ?_)
    refine wp_skip (fun p => eof_clean) ?_
    intro p2 c2 hsk2
    dsimp only at hsk2 ⊢
    refine wp_if (fun h1 => ?_) (fun h1 => ?_)
    · have : c2 = c%'(' := by simpa using h1
      subst this
      refine setRes_any (fun r => ?_)
      unfold parseOperatorArguments instructionNewOperationArgs
      rw [wp_bind, wp_emit, wp_bind, wp_resLen, wp_bind, wp_resLen, wp_bind, wp_incPos, wp_bind, wp_bind, wp_emit]
      refine wp_mono (operatorArgsLoop_text fuel _) ?_
      intro crit s2 h2
      refine wp_if (fun hc => ?_) (fun hc => ?_)
      · rw [wp_pure]; exact clean_crit h2 hc
      rw [wp_bind, wp_resLen]
      refine writeUint32_any (fun r => ?_)
      refine wp_mono opDirectives_text ?_
      intro crit s' h3
      refine (h2.mono (s := s) he (fun x => x)).bind (h3.mono (s := s2) rfl (fun x => x)) ?_
      rintro ⟨_, _, cm, vs, tv, v1, v2, v3⟩ ⟨h4, dirs, td, ss, toks, e1, e2, e3, e4⟩
      refine ⟨h4, nm, tn, _, _, dirs, td, ss, toks, hnm, .some v1 v2, e1, e2, e3, ?_⟩
      have := (hr.skip hsk2.reads).trans ((Reads.punct hsk2.get (by decide)).trans (v3.trans e4))
      simpa using this
    · refine wp_mono opDirectives_text ?_
      intro crit s' h3
      refine h3.mono (s := s) he ?_
      rintro ⟨h4, dirs, td, ss, toks, e1, e2, e3, e4⟩
      exact ⟨h4, nm, tn, none, [], dirs, td, ss, toks, hnm, .none, e1, e2, e3, (hr.skip hsk2.reads).trans e4⟩
  refine wp_name ?_ ?_ ?_
  · intro k s' l e h
    dsimp only
    rw [if_pos rfl, wp_pure]
    exact clean_err h
  · dsimp only
    rw [if_neg (by simp)]
    exact key [] [] _ _ _ _ rfl .none hsk.reads
  · intro k n hk hn
    dsimp only at hn ⊢
    rw [if_neg (by simp)]
    exact key n _ _ _ _ _ rfl (.some hn.isName) (hsk.reads.pre hn.reads)

def FragRead (q : Bytes) (n n' : Nat) : Prop := ∃ nm ty ss toks, IsName nm ∧ IsName ty ∧ SelsT ss toks ∧
  Reads q n n' (.name nm :: .word b%"on" :: .name ty :: .punct c%'{' :: (toks ++ [.punct c%'}']))

theorem parseFragment_text {cfg fuel} {s : PS} : wp True (parseFragment fuel) cfg s (fun crit s' =>
    Clean s s' (crit = false ∧ FragRead cfg.query s.charNr s'.charNr)) := by
  unfold parseFragment instructionNewFragment
  rw [wp_bind, wp_resLen, wp_bind, wp_addFrag, wp_bind, wp_emit]
  refine wp_skip (fun p => eof_clean) ?_
  intro p c hsk
  dsimp only at hsk ⊢
  refine wp_name ?_ ?_ ?_
  · intro k s' l e h
    dsimp only
    rw [if_pos rfl, wp_pure]
    exact clean_err h
  · dsimp only
    rw [if_neg (by simp), if_pos (by simp)]
    exact errHere
  intro k n hk hn
  dsimp only at hn ⊢
  rw [if_neg (by simp), if_neg (by simpa using hk)]
  refine wp_skip (fun p => eof_clean) ?_
  intro p2 c2 hsk2
  dsimp only at hsk2 ⊢
  refine wp_if (fun h => errC_clean) (fun h1 => ?_)
  have : c2 = c%'o' := by simpa using h1
  subst this
  rw [wp_bind, wp_incPos, wp_bind, wp_getPos, wp_bind, wp_checkC]
  dsimp only
  cases hq3 : cfg.query[p2 + 1]? with
  | none => exact eof_clean
  | some c3 =>
    dsimp only
    refine wp_if (fun h => errC_clean) (fun h2 => ?_)
    have : c3 = c%'n' := by simpa using h2
    subst this
    have hon : Reads cfg.query p2 (p2 + 1 + 1) [.word b%"on"] :=
      .tok isName_on .word (by rw [drop_eq_cons hsk2.get, drop_eq_cons hq3]; rfl) trivial
    rw [wp_bind, wp_incPos]
    refine wp_skip (fun p => eof_clean) ?_
    intro p4 c4 hsk4
    dsimp only at hsk4 ⊢
    rw [wp_bind, wp_emit]
    refine wp_name ?_ ?_ ?_
    · intro k s' l e h
      dsimp only
      rw [if_pos rfl, wp_pure]
      exact clean_err h
    · dsimp only
      rw [if_neg (by simp), if_pos (by simp)]
      exact errHere
    intro k2 n2 hk2 hn2
    dsimp only at hn2 ⊢
    rw [if_neg (by simp), if_neg (by simpa using hk2)]
    refine wp_skip (fun p => eof_clean) ?_
    intro p5 c5 hsk5
    dsimp only at hsk5 ⊢
    refine wp_if (fun h => errC_clean) (fun h3 => ?_)
    have : c5 = c%'{' := by simpa using h3
    subst this
    refine wp_mono (opBody_text (by exact hsk5.get)) ?_
    intro crit s' h4
    refine h4.mono (s := s) rfl ?_
    rintro ⟨h5, ss, toks, e1, e2⟩
    refine ⟨h5, n, n2, ss, toks, hn.isName, hn2.isName, e1, ?_⟩
    have := (hsk.reads.pre (hn.reads.skip hsk2.reads)).trans ((hon.skip hsk4.reads).trans ((hn2.reads.skip hsk5.reads).trans e2))
    simpa using this

theorem word_at {q p k} (hk : IsName k) (hat : At q p k) : Reads q p (p + k.length) [.word k] :=
  .tok hk .word hat.drop trivial

/-- What one definition (or the end of the text) is. -/
def DefRead (q : Bytes) (stop : Bool) (n n' : Nat) : Prop :=
  (stop = true ∧ Trailing (q.drop n)) ∨ (stop = false ∧ ∃ d toks, DefT d toks ∧ Reads q n n' toks)

theorem parseOperatorOrFragment_text {cfg fuel} {s : PS} : wp True (parseOperatorOrFragment fuel) cfg s (fun stop s' =>
    Clean s s' (DefRead cfg.query stop s.charNr s'.charNr)) := by
  unfold parseOperatorOrFragment
  rw [wp_bind]
  refine wp_mono mightIgnore_text ?_
  rintro r _ ⟨p, rfl, ht, hs⟩
  cases r with
  | none =>
    dsimp only
    rw [wp_pure]
    exact .of rfl (.inl ⟨rfl, ht rfl⟩)
  | some c =>
    have hsk := hs c rfl
    dsimp only
    rw [wp_bind, wp_resLen]
    refine wp_if (fun h1 => ?_) (fun h1 => ?_)
    · have : c = c%'{' := by simpa using h1
      subst this
      refine setTargetIfNone_any (fun t => ?_)
      unfold instructionNewOperation
      rw [wp_bind, wp_emit]
      refine wp_mono (opBody_text (by exact hsk.get)) ?_
      intro crit s' h4
      refine h4.mono (s := s) rfl ?_
      rintro ⟨h5, ss, toks, e1, e2⟩
      exact .inr ⟨h5, _, _, .short e1, hsk.reads.pre e2⟩
    rw [wp_bind]
    refine wp_mono (matchesKw_wp [b%"query", b%"mutation", b%"subscription"] (by decide)) ?_
    rintro r s1 (⟨rfl, rfl, _⟩ | ⟨m, key, rfl, hg, hat, rfl⟩)
    · dsimp only
      rw [wp_bind]
      refine wp_mono (matchesKw1 b%"fragment" (by simp)) ?_
      rintro r s1 (⟨rfl, rfl, _⟩ | ⟨rfl, hat, rfl⟩)
      · exact errC_clean
      · dsimp only at hat ⊢
        refine wp_mono parseFragment_text ?_
        intro crit s' h4
        refine h4.mono (s := s) rfl ?_
        rintro ⟨h5, nm, ty, ss, toks, e1, e2, e3, e4⟩
        exact .inr ⟨h5, _, _, .frag e1 e2 e3, hsk.reads.pre ((word_at isName_fragment hat).trans e4)⟩
    · dsimp only at hat ⊢
      refine wp_mono parseOperation_text ?_
      intro crit s' h4
      refine h4.mono (s := s) rfl ?_
      rintro ⟨h5, nm, tn, vs, tv, dirs, td, ss, toks, e1, e2, e3, e4, e5, e6⟩
      obtain ⟨k, rfl⟩ : ∃ k, key = keyword k := by
        match m, hg with
        | 0, hg => injection hg with hg; exact ⟨.query, hg.symm⟩
        | 1, hg => injection hg with hg; exact ⟨.mutation, hg.symm⟩
        | 2, hg => injection hg with hg; exact ⟨.subscription, hg.symm⟩
        | m + 3, hg => simp at hg
      have hk : IsName (keyword k) := isName_keyword k
      exact .inr ⟨h5, _, _, .op e1 e2 e3 e4 e5, hsk.reads.pre ((word_at hk hat).trans e6)⟩

theorem docLoop_text {cfg fuel} : ∀ (n : Nat) (s : PS), wp True (docLoop fuel n) cfg s (fun _ s' =>
    Clean s s' (∃ d toks, DocT d toks ∧ Good toks ∧ Lex toks (cfg.query.drop s.charNr)))
  | 0, _ => by unfold docLoop; trivial
  | n + 1, s => by
    unfold docLoop
    rw [wp_bind]
    refine wp_mono parseOperatorOrFragment_text ?_
    intro stop s1 h1
    refine wp_if (fun hc => ?_) (fun hc => ?_)
    · rw [wp_pure]
      subst hc
      refine h1.mono rfl ?_
      rintro (⟨_, h2⟩ | ⟨h2, _⟩)
      · exact ⟨[], [], .nil, good_nil, .trailing h2⟩
      · cases h2
    · refine wp_mono (docLoop_text n s1) ?_
      intro _ s' h2
      refine h1.bind h2 ?_
      rintro (⟨h3, _⟩ | ⟨_, d, toks, h3, h4⟩) ⟨ds, ts, h5, h6, h7⟩
      · exact absurd h3 (by simpa using hc)
      · exact ⟨d :: ds, toks ++ ts, .cons h3 h5, good_append.mpr ⟨h4.good, h6⟩, h4.lex ts h6 h7⟩

/-- A text that is parsed without an error is a text of some document. -/
theorem parseQuery_text {query : Bytes} {target : Option Bytes} {s : PS} (h : parseQuery query target = .ok () s) (he : s.errs = []) :
    ∃ d, Text d query := by
  have := docLoop_text (cfg := ⟨query, target⟩) (fuel := parseFuel query) (query.length + 2) PS.init
  unfold parseQuery at h
  unfold wp at this
  rw [h] at this
  obtain ⟨_, d, toks, h1, _, h2⟩ := this he
  exact ⟨d, toks, h1, h2⟩

end Parser
end Yarql
