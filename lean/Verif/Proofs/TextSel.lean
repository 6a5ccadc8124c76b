import Verif.Proofs.TextDir

/-! # Accepted texts are documents: selections -/

namespace Yarql
namespace Parser
open Grammar Doc

/-- The rest of a selection set, with its closing brace. -/
def SelsRead (q : Bytes) (n n' : Nat) : Prop := ∃ ss toks, SelsT ss toks ∧ Reads q n n' (toks ++ [.punct c%'}'])

/-- As `SelsRead`, behind a selection. -/
def NextRead (q : Bytes) (n n' : Nat) : Prop := ∃ cm ss toks, OptComma cm ∧ SelsT ss toks ∧
  Reads q n n' (cm ++ (toks ++ [.punct c%'}']))

def BodyRead (q : Bytes) (n n' : Nat) : Prop := ∃ body tb cm ss toks, BodyT body tb ∧ OptComma cm ∧ SelsT ss toks ∧
  Reads q n n' (tb ++ (cm ++ (toks ++ [.punct c%'}'])))

def ArgsRead (q : Bytes) (c : Byte) (n n' : Nat) : Prop := ∃ args ta body tb cm ss toks, ArgsT args ta ∧ (c ≠ c%'(' → args = none) ∧
  BodyT body tb ∧ OptComma cm ∧ SelsT ss toks ∧ Reads q n n' (ta ++ (tb ++ (cm ++ (toks ++ [.punct c%'}']))))

def TailRead (q : Bytes) (n n' : Nat) : Prop := ∃ dirs td args ta body tb cm ss toks, DirsT dirs td ∧ dirs.length ≤ 255 ∧
  ArgsT args ta ∧ Apart dirs args ∧ BodyT body tb ∧ OptComma cm ∧ SelsT ss toks ∧
  Reads q n n' (td ++ (ta ++ (tb ++ (cm ++ (toks ++ [.punct c%'}'])))))

/-- What follows the name of a spread. -/
def SpreadEnd (q : Bytes) (isInline : Bool) (n n' : Nat) : Prop := ∃ body tb cm ss toks,
  (isInline = true ∧ (∃ ts, SelsT body ts ∧ tb = .punct c%'{' :: (ts ++ [.punct c%'}'])) ∨ isInline = false ∧ tb = []) ∧
  OptComma cm ∧ SelsT ss toks ∧ Reads q n n' (tb ++ (cm ++ (toks ++ [.punct c%'}'])))

def SpreadRead (q : Bytes) (isInline : Bool) (n n' : Nat) : Prop := ∃ nm dirs td body tb cm ss toks, NameAt q n nm ∧
  DirsT dirs td ∧ dirs.length ≤ 255 ∧
  (isInline = true ∧ (∃ ts, SelsT body ts ∧ tb = .punct c%'{' :: (ts ++ [.punct c%'}'])) ∨ isInline = false ∧ tb = []) ∧
  OptComma cm ∧ SelsT ss toks ∧ Reads q n n' (.name nm :: (td ++ (tb ++ (cm ++ (toks ++ [.punct c%'}'])))))

theorem newSpread_any {α} {f : Unit → P α} {cfg s b} {Q : α → PS → Prop} (h : ∀ r, wp True (f ()) cfg { s with res := r } Q) :
    wp True (instructionNewFragmentSpread b >>= f) cfg s Q := by
  unfold instructionNewFragmentSpread
  rw [wp_bind]
  exact wp_if (fun _ => h _) (fun _ => h _)

theorem selNext_text {cfg s c again} (hq : cfg.query[s.charNr]? = some c)
    (h : ∀ s, wp True again cfg s (fun crit s' => Clean s s' (crit = false ∧ SelsRead cfg.query s.charNr s'.charNr))) :
    wp True (selNext c again) cfg s (fun crit s' => Clean s s' (crit = false ∧ NextRead cfg.query s.charNr s'.charNr)) := by
  unfold selNext
  have fin : ∀ (s1 : PS) (c : Byte) (cm : List Tok), s1.errs = s.errs → cfg.query[s1.charNr]? = some c → OptComma cm →
      Reads cfg.query s.charNr s1.charNr cm → wp True (do
        if c == c%'}' then
          incPos
          return false
        else again) cfg s1 (fun crit s' => Clean s s' (crit = false ∧ NextRead cfg.query s.charNr s'.charNr)) := by
    intro s1 c cm he hq hcm hr
    refine wp_if (fun h1 => ?_) (fun h1 => ?_)
    · have : c = c%'}' := by simpa using h1
      subst this
      rw [wp_bind, wp_incPos, wp_pure]
      exact .of he ⟨rfl, cm, [], [], hcm, .nil, hr.trans (Reads.punct hq (by decide))⟩
    · refine wp_mono (h s1) ?_
      intro crit s' h1
      refine h1.mono he ?_
      rintro ⟨h2, ss, toks, h3, h4⟩
      exact ⟨h2, cm, ss, toks, hcm, h3, hr.trans h4⟩
  refine wp_if (fun h5 => ?_) (fun h5 => ?_)
  · have : c = c%',' := by simpa using h5
    subst this
    rw [wp_bind, wp_incPos]
    refine wp_skip (fun p => eof_clean) ?_
    intro p2 c2 hsk2
    exact fin { s with charNr := p2 } c2 _ rfl hsk2.get .comma ((Reads.punct hq (by decide)).skip hsk2.reads)
  · exact fin s c _ rfl hq .none .refl

mutual
theorem parseSelectionSet_text {cfg} : ∀ (fuel : Nat) (s : PS), wp True (parseSelectionSet fuel) cfg s (fun crit s' =>
    Clean s s' (crit = false ∧ SelsRead cfg.query s.charNr s'.charNr))
  | 0, _ => by unfold parseSelectionSet; trivial
  | fuel + 1, s => by
    unfold parseSelectionSet
    refine wp_skip (fun p => eof_clean) ?_
    intro p c hsk
    dsimp only
    refine wp_if (fun h1 => ?_) (fun h1 => ?_)
    · have : c = c%'}' := by simpa using h1
      subst this
      rw [wp_bind, wp_incPos, wp_pure]
      exact .of rfl ⟨rfl, [], [], .nil, hsk.reads.pre (Reads.punct hsk.get (by decide))⟩
    · refine wp_mono (selLoop_text fuel _) ?_
      intro crit s' h1
      refine h1.mono rfl ?_
      rintro ⟨h2, ss, toks, h3, h4⟩
      exact ⟨h2, ss, toks, h3, hsk.reads.pre h4⟩

theorem selLoop_text {cfg} : ∀ (fuel : Nat) (s : PS), wp True (selLoop fuel) cfg s (fun crit s' =>
    Clean s s' (crit = false ∧ SelsRead cfg.query s.charNr s'.charNr))
  | 0, _ => by unfold selLoop; trivial
  | fuel + 1, s => by
    unfold selLoop instructionNewField
    rw [wp_bind, wp_emit, wp_bind, wp_resLen, wp_bind, wp_resLen, wp_bind, wp_emit]
    refine wp_name ?_ ?_ ?_
    · intro k s' l e h
      dsimp only
      rw [if_pos rfl, wp_pure]
      exact clean_err h
    · dsimp only
      rw [if_neg (by simp)]
      refine setRes_any (fun r => ?_)
      rw [if_pos (by simp), wp_bind, wp_resLen]
      refine truncRes_any (fun r => ?_)
      rw [wp_bind]
      refine wp_mono (matchesKw1 b%"..." (by simp)) ?_
      rintro r s2 (⟨rfl, rfl, hno⟩ | ⟨rfl, hat, rfl⟩)
      · rw [if_neg (by decide)]
        exact errHere
      · rw [if_pos (by decide)]
        refine wp_mono (spread_text fuel _) ?_
        intro crit s' h1
        refine h1.mono rfl ?_
        rintro ⟨h2, sel, t, cm, ss, toks, h3, h4, h5, h6⟩
        refine ⟨h2, sel :: ss, _, .cons h3 h4 h5, ?_⟩
        have h7 : Reads cfg.query s.charNr (s.charNr + 3) [.dots] := .tok trivial .dots hat.drop trivial
        have := h7.trans h6
        simpa using this
    intro k n hk hn
    dsimp only at hn ⊢
    rw [if_neg (by simp)]
    refine setRes_any (fun r => ?_)
    rw [if_neg (by simpa using hk)]
    refine wp_skip (fun p => eof_clean) ?_
    intro p c hsk
    dsimp only at hsk ⊢
    rw [wp_bind, wp_resLen, wp_bind, wp_emit]
    refine wp_if (fun h1 => ?_) (fun h1 => ?_)
    · have : c = c%':' := by simpa using h1
      subst this
      rw [wp_bind, wp_incPos]
      refine wp_skip (fun p => eof_clean) ?_
      intro p2 c2 hsk2
      dsimp only at hsk2 ⊢
      have hhead := (hn.reads.trans (hsk.reads.pre (Reads.punct hsk.get (by decide)))).skip hsk2.reads
      refine wp_name ?_ ?_ ?_
      · intro k s' l e h
        dsimp only
        rw [if_pos rfl, wp_pure]
        exact clean_err h
      · dsimp only
        rw [if_neg (by simp), if_pos (by simp)]
        exact errC_clean
      intro k2 n2 hk2 hn2
      dsimp only at hn2 ⊢
      rw [if_neg (by simp), if_neg (by simpa using hk2)]
      refine setRes_any (fun r => ?_)
      refine wp_skip (fun p => eof_clean) ?_
      intro p3 c3 hsk3
      dsimp only at hsk3 ⊢
      refine sliceRes_any (fun r => ?_)
      refine writeUint32_any (fun r => ?_)
      refine wp_mono (fieldTail_text fuel _ _ c3 _ hsk3.get) ?_
      intro crit s' h1
      refine h1.mono rfl ?_
      rintro ⟨h2, dirs, td, args, ta, body, tb, cm, ss, toks, t1, t2, t3, t4, t5, t6, t7, h3⟩
      refine ⟨h2, _, _, .cons (.aliased hn.isName hn2.isName t1 t2 t3 t4 t5) t6 t7, ?_⟩
      have := hhead.trans ((hn2.reads.skip hsk3.reads).trans h3)
      simpa using this
    · refine sliceRes_any (fun r => ?_)
      refine writeUint32_any (fun r => ?_)
      refine wp_mono (fieldTail_text fuel _ _ c _ hsk.get) ?_
      intro crit s' h1
      refine h1.mono rfl ?_
      rintro ⟨h2, dirs, td, args, ta, body, tb, cm, ss, toks, t1, t2, t3, t4, t5, t6, t7, h3⟩
      refine ⟨h2, _, _, .cons (.field hn.isName t1 t2 t3 t4 t5) t6 t7, ?_⟩
      have := (hn.reads.skip hsk.reads).trans h3
      simpa using this

theorem fieldTail_text {cfg} : ∀ (fuel dcl sf : Nat) (c : Byte) (s : PS), cfg.query[s.charNr]? = some c →
    wp True (fieldTail fuel dcl sf c) cfg s (fun crit s' => Clean s s' (crit = false ∧ TailRead cfg.query s.charNr s'.charNr))
  | 0, _, _, _, _, _ => by unfold fieldTail; trivial
  | fuel + 1, dcl, sf, c, s, hq => by
    unfold fieldTail
    refine wp_if (fun h1 => ?_) (fun h1 => ?_)
    · rw [wp_bind]
      refine wp_mono (parseDirectives_text fuel 0 s) ?_
      rintro ⟨am, crit⟩ s1 h2
      dsimp only at h2 ⊢
      refine setRes_any (fun r => ?_)
      refine wp_if (fun hc => ?_) (fun hc => ?_)
      · rw [wp_pure]; exact clean_crit (s' := s1) h2 hc
      rw [wp_bind, wp_currentC]
      dsimp only
      cases hq2 : cfg.query[s1.charNr]? with
      | none => trivial
      | some c2 =>
        dsimp only
        refine wp_mono (fieldArgs_text fuel sf c2 _ (by exact hq2)) ?_
        intro crit s' h3
        refine h2.bind (h3.mono (s := s1) rfl (fun x => x)) ?_
        rintro ⟨_, ds, td, c3, d1, d2, d3, d4, d5, _⟩ ⟨h4, args, ta, body, tb, cm, ss, toks, e1, e2, e3, e4, e5, e6⟩
        rw [hq2] at d4
        injection d4 with d4
        subst d4
        refine ⟨h4, ds, td, args, ta, body, tb, cm, ss, toks, d1, by simpa using d2, e1, ?_, e3, e4, e5, d3.trans e6⟩
        by_cases hp : c2 = c%'('
        · exact .inr (fun d hd hda => d5 d hd hda hp)
        · exact .inl (e2 hp)
    · refine wp_mono (fieldArgs_text fuel sf c _ hq) ?_
      intro crit s' h3
      refine h3.mono rfl ?_
      rintro ⟨h4, args, ta, body, tb, cm, ss, toks, e1, e2, e3, e4, e5, e6⟩
      exact ⟨h4, [], [], args, ta, body, tb, cm, ss, toks, .nil, by simp, e1, .inr (by simp), e3, e4, e5, e6⟩

theorem fieldArgs_text {cfg} : ∀ (fuel sf : Nat) (c : Byte) (s : PS), cfg.query[s.charNr]? = some c →
    wp True (fieldArgs fuel sf c) cfg s (fun crit s' => Clean s s' (crit = false ∧ ArgsRead cfg.query c s.charNr s'.charNr))
  | 0, _, _, _, _ => by unfold fieldArgs; trivial
  | fuel + 1, sf, c, s, hq => by
    unfold fieldArgs
    refine wp_if (fun h1 => ?_) (fun h1 => ?_)
    · have : c = c%'(' := by simpa using h1
      subst this
      rw [wp_bind, wp_incPos]
      refine wp_skip (fun p => eof_clean) ?_
      intro p c hsk
      dsimp only at hsk ⊢
      rw [wp_bind]
      refine wp_mono (parseAssignmentSet_text fuel c%')' (by decide) _) ?_
      intro crit s1 h2
      refine wp_if (fun hc => ?_) (fun hc => ?_)
      · rw [wp_pure]; exact clean_crit h2 hc
      refine wp_skip (fun p => eof_clean) ?_
      intro p2 c2 hsk2
      refine wp_mono (fieldSel_text fuel sf c2 _ (by exact hsk2.get)) ?_
      intro crit s' h3
      refine (h2.mono (s := s) rfl (fun x => x)).bind (h3.mono (s := s1) rfl (fun x => x)) ?_
      rintro ⟨_, fs, tf, f1, f2⟩ ⟨h4, body, tb, cm, ss, toks, e1, e2, e3, e4⟩
      refine ⟨h4, _, _, body, tb, cm, ss, toks, .some f1, by simp, e1, e2, e3, ?_⟩
      have := ((Reads.punct hq (by decide)).skip hsk.reads).trans ((f2.skip hsk2.reads).trans e4)
      simpa using this
    · refine wp_mono (fieldSel_text fuel sf c _ hq) ?_
      intro crit s' h3
      refine h3.mono rfl ?_
      rintro ⟨h4, body, tb, cm, ss, toks, e1, e2, e3, e4⟩
      exact ⟨h4, none, [], body, tb, cm, ss, toks, .none, fun _ => rfl, e1, e2, e3, e4⟩

theorem fieldSel_text {cfg} : ∀ (fuel sf : Nat) (c : Byte) (s : PS), cfg.query[s.charNr]? = some c →
    wp True (fieldSel fuel sf c) cfg s (fun crit s' => Clean s s' (crit = false ∧ BodyRead cfg.query s.charNr s'.charNr))
  | 0, _, _, _, _ => by unfold fieldSel; trivial
  | fuel + 1, sf, c, s, hq => by
    unfold fieldSel instructionEnd
    refine wp_if (fun h1 => ?_) (fun h1 => ?_)
    · have : c = c%'{' := by simpa using h1
      subst this
      rw [wp_bind, wp_incPos, wp_bind]
      refine wp_mono (parseSelectionSet_text fuel _) ?_
      intro crit s1 h2
      refine wp_if (fun hc => ?_) (fun hc => ?_)
      · rw [wp_pure]; exact clean_crit h2 hc
      refine wp_skip (fun p => eof_clean) ?_
      intro p2 c2 hsk2
      dsimp only
      rw [wp_bind, wp_emit, wp_bind, wp_resLen]
      refine writeUint32_any (fun r => ?_)
      refine wp_mono (selNext_text (by exact hsk2.get) (selLoop_text fuel)) ?_
      intro crit s' h3
      refine (h2.mono (s := s) rfl (fun x => x)).bind (h3.mono (s := s1) rfl (fun x => x)) ?_
      rintro ⟨_, body, tb, f1, f2⟩ ⟨h4, cm, ss, toks, e2, e3, e4⟩
      refine ⟨h4, body, _, cm, ss, toks, .some f1, e2, e3, ?_⟩
      have := (Reads.punct hq (by decide)).trans ((f2.skip hsk2.reads).trans e4)
      simpa using this
    · rw [wp_bind, wp_emit, wp_bind, wp_resLen]
      refine writeUint32_any (fun r => ?_)
      refine wp_mono (selNext_text (by exact hq) (selLoop_text fuel)) ?_
      intro crit s' h3
      refine h3.mono (s := s) rfl ?_
      rintro ⟨h4, cm, ss, toks, e2, e3, e4⟩
      exact ⟨h4, [], [], cm, ss, toks, .none, e2, e3, e4⟩

theorem spread_text {cfg} : ∀ (fuel : Nat) (s : PS), wp True (spread fuel) cfg s (fun crit s' =>
    Clean s s' (crit = false ∧ ∃ sel t cm ss toks, SelT sel (.dots :: t) ∧ OptComma cm ∧ SelsT ss toks ∧
      Reads cfg.query s.charNr s'.charNr (t ++ (cm ++ (toks ++ [.punct c%'}'])))))
  | 0, _ => by unfold spread; trivial
  | fuel + 1, s => by
    unfold spread
    refine wp_skip (fun p => eof_clean) ?_
    intro p c hsk
    dsimp only
    rw [wp_bind]
    refine wp_mono (matchesWord_wp [b%"on"] (by decide)) ?_
    rintro r s1 (⟨rfl, rfl, h7⟩ | ⟨m, key, rfl, hg, hat, rfl, hn⟩)
    · rw [if_neg (by decide), show ((none : Option Nat) == some 0) = false by decide]
      refine wp_mono (spreadName_text fuel false _) ?_
      intro crit s' h1
      refine h1.mono rfl ?_
      rintro ⟨h2, nm, dirs, td, body, tb, cm, ss, toks, hn, e1, e2, e3, e4, e5, e6⟩
      have hno := not_keyword hn (keys := [b%"on"]) (by
          intro k hk
          simp only [List.mem_cons, List.not_mem_nil, or_false] at hk
          subst hk
          exact isName_on) (by decide) h7
      simp only [List.mem_cons, List.not_mem_nil, or_false] at hno
      obtain ⟨h, _⟩ | ⟨_, rfl⟩ := e3
      · cases h
      refine ⟨h2, _, _, cm, ss, toks, .spread hn.isName hno e1 e2, e4, e5, ?_⟩
      have := hsk.reads.pre e6
      simpa using this
    · match m, hg with
      | 0, hg =>
        injection hg with hg
        subst hg
        rw [if_pos (by decide), show (some 0 == some 0) = true by decide]
        refine wp_skip (fun p => eof_clean) ?_
        intro p2 c2 hsk2
        dsimp only at hsk2 hat hn ⊢
        refine wp_mono (spreadName_text fuel true _) ?_
        intro crit s' h1
        refine h1.mono rfl ?_
        rintro ⟨h2, nm, dirs, td, body, tb, cm, ss, toks, hn2, e1, e2, e3, e4, e5, e6⟩
        obtain ⟨_, ts, e7, rfl⟩ | ⟨h, _⟩ := e3
        · refine ⟨h2, _, _, cm, ss, toks, .inline hn2.isName e1 e2 e7, e4, e5, ?_⟩
          have := (hsk.reads.pre ((word_reads isName_on hat hn).skip hsk2.reads)).trans e6
          simpa using this
        · cases h
      | m + 1, hg => simp at hg

theorem spreadName_text {cfg} : ∀ (fuel : Nat) (isInline : Bool) (s : PS), wp True (spreadName fuel isInline) cfg s (fun crit s' =>
    Clean s s' (crit = false ∧ SpreadRead cfg.query isInline s.charNr s'.charNr))
  | 0, _, _ => by unfold spreadName; trivial
  | fuel + 1, isInline, s => by
    unfold spreadName
    refine newSpread_any (fun r => ?_)
    rw [wp_bind, wp_resLen, wp_bind, wp_resLen]
    refine wp_name ?_ ?_ ?_
    · intro k s' l e h
      dsimp only
      rw [if_pos rfl, wp_pure]
      exact clean_err h
    · dsimp only
      rw [if_neg (by simp)]
      refine wp_skip (fun p => eof_clean) ?_
      intro p c _
      dsimp only
      rw [if_pos (by simp)]
      exact wp_if (fun _ => errC_clean) (fun _ => errC_clean)
    intro k n hk hn
    dsimp only at hn ⊢
    rw [if_neg (by simp)]
    refine wp_skip (fun p => eof_clean) ?_
    intro p c hsk
    dsimp only at hsk ⊢
    rw [if_neg (by simpa using hk)]
    refine wp_if (fun h1 => ?_) (fun h1 => ?_)
    · rw [wp_bind]
      refine wp_mono (parseDirectives_text fuel 0 _) ?_
      rintro ⟨am, crit⟩ s1 h2
      dsimp only at h2 ⊢
      refine setRes_any (fun r => ?_)
      refine wp_if (fun hc => ?_) (fun hc => ?_)
      · rw [wp_pure]; exact clean_crit (s' := s1) h2 hc
      rw [wp_bind, wp_currentC]
      dsimp only
      cases hq2 : cfg.query[s1.charNr]? with
      | none => trivial
      | some c2 =>
        dsimp only
        refine wp_mono (spreadTail_text fuel isInline _ c2 _ (by exact hq2)) ?_
        intro crit s' h3
        refine (h2.mono (s := s) rfl (fun x => x)).bind (h3.mono (s := s1) rfl (fun x => x)) ?_
        rintro ⟨_, ds, td, c3, d1, d2, d3, _⟩ ⟨h4, body, tb, cm, ss, toks, e1, e2, e3, e4⟩
        refine ⟨h4, n, ds, td, body, tb, cm, ss, toks, hn, d1, by simpa using d2, e1, e2, e3, ?_⟩
        have := (hn.reads.skip hsk.reads).trans (d3.trans e4)
        simpa using this
    · refine wp_mono (spreadTail_text fuel isInline _ c _ (by exact hsk.get)) ?_
      intro crit s' h3
      refine h3.mono (s := s) rfl ?_
      rintro ⟨h4, body, tb, cm, ss, toks, e1, e2, e3, e4⟩
      refine ⟨h4, n, [], [], body, tb, cm, ss, toks, hn, .nil, by simp, e1, e2, e3, ?_⟩
      have := (hn.reads.skip hsk.reads).trans e4
      simpa using this

theorem spreadTail_text {cfg} : ∀ (fuel : Nat) (isInline : Bool) (sf : Nat) (c : Byte) (s : PS), cfg.query[s.charNr]? = some c →
    wp True (spreadTail fuel isInline sf c) cfg s (fun crit s' =>
      Clean s s' (crit = false ∧ SpreadEnd cfg.query isInline s.charNr s'.charNr))
  | 0, _, _, _, _, _ => by unfold spreadTail; trivial
  | fuel + 1, isInline, sf, c, s, hq => by
    unfold spreadTail instructionEnd
    refine wp_if (fun h1 => ?_) (fun h1 => ?_)
    · refine wp_if (fun h => errC_clean) (fun h2 => ?_)
      have : c = c%'{' := by simpa using h2
      subst this
      rw [wp_bind, wp_incPos, wp_bind]
      refine wp_mono (parseSelectionSet_text fuel _) ?_
      intro crit s1 h2
      rw [wp_bind, wp_emit]
      refine wp_skip (fun p => eof_clean) ?_
      intro p2 c2 hsk2
      dsimp only at hsk2 ⊢
      rw [wp_bind, wp_resLen]
      refine writeUint32_any (fun r => ?_)
      refine wp_mono (selNext_text (by exact hsk2.get) (selLoop_text fuel)) ?_
      intro crit s' h3
      refine (h2.mono (s := s) rfl (fun x => x)).bind (h3.mono (s := s1) rfl (fun x => x)) ?_
      rintro ⟨_, body, tb, f1, f2⟩ ⟨h4, cm, ss, toks, e2, e3, e4⟩
      refine ⟨h4, body, _, cm, ss, toks, .inl ⟨h1, tb, f1, rfl⟩, e2, e3, ?_⟩
      have := (Reads.punct hq (by decide)).trans ((f2.skip hsk2.reads).trans e4)
      simpa using this
    · rw [wp_bind, wp_resLen]
      refine writeUint32_any (fun r => ?_)
      refine wp_mono (selNext_text (by exact hq) (selLoop_text fuel)) ?_
      intro crit s' h3
      refine h3.mono (s := s) rfl ?_
      rintro ⟨h4, cm, ss, toks, e2, e3, e4⟩
      exact ⟨h4, [], [], cm, ss, toks, .inr ⟨by simpa using h1, rfl⟩, e2, e3, e4⟩
end

end Parser
end Yarql
