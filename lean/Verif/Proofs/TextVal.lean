import Verif.Proofs.TextStr

/-! # Accepted texts are documents: values and directives -/

namespace Yarql
namespace Parser
open Grammar Doc

theorem clean_crit {s s0 s' : PS} {crit : Bool} {X Y : Prop} (h : Clean s s' (crit = false ∧ X)) (hc : crit = true) : Clean s0 s' Y :=
  fun he => absurd (h he).2.1 (by simp [hc])

theorem Clean.bind {s s1 s2 : PS} {X Y Z : Prop} (h : Clean s s1 X) (h' : Clean s1 s2 Y) (hz : X → Y → Z) : Clean s s2 Z :=
  fun he => ⟨(h (h' he).1).1, hz (h (h' he).1).2 (h' he).2⟩

/-- A step that reads a name. -/
theorem wp_name {α} {f : UInt8 × Bool → P α} {cfg s} {Q : α → PS → Prop}
    (hcrit : ∀ k s' l e, s'.errs = l ++ [e] → wp True (f (k, true)) cfg s' Q)
    (hnone : wp True (f (0, false)) cfg s Q)
    (hsome : ∀ k n, (k == 0) = false → NameAt cfg.query s.charNr n →
      wp True (f (k, false)) cfg { s with res := s.res ++ n, charNr := s.charNr + n.length } Q) :
    wp True (parseAndWriteName >>= f) cfg s Q := by
  rw [wp_bind]
  refine wp_mono parseName_text ?_
  rintro ⟨k, crit⟩ s' (⟨h1, l, e, h⟩ | ⟨h1, rfl⟩ | ⟨h1, h2, n, h3, rfl⟩)
  · dsimp only at h1; subst h1; exact hcrit k s' l e h
  · injection h1 with h1 h2; subst h1; subst h2; exact hnone
  · dsimp only at h1 h2; subst h1; exact hsome k n h2 h3

theorem errHere {pre s0 cfg s} {X : Bool → PS → Prop} : wp True (do errC pre (← currentC)) cfg s (fun r s' => Clean s0 s' (X r s')) := by
  rw [wp_bind, wp_currentC]
  cases cfg.query[s.charNr]? with
  | none => trivial
  | some c => dsimp only; rw [wp_errC]; exact clean_err rfl

/-- A step that skips ignored text. -/
theorem wp_skip {α} {f : Option Byte → P α} {cfg s} {Q : α → PS → Prop}
    (hnone : ∀ p, wp True (f none) cfg { s with charNr := p } Q)
    (hsome : ∀ p c, Skipped cfg.query s.charNr p c → wp True (f (some c)) cfg { s with charNr := p } Q) :
    wp True (mightIgnore >>= f) cfg s Q := by
  rw [wp_bind]
  refine wp_mono mightIgnore_text ?_
  rintro r _ ⟨p, rfl, _, h2⟩
  cases r with
  | none => exact hnone p
  | some c => exact hsome p c (h2 c rfl)

theorem eof_clean {s0 cfg s} {X : Bool → PS → Prop} : wp True unexpectedEOF cfg s (fun r s' => Clean s0 s' (X r s')) := by
  rw [wp_unexpectedEOF]; exact clean_err rfl

theorem errC_clean {s0 cfg s pre c} {X : Bool → PS → Prop} : wp True (errC pre c) cfg s (fun r s' => Clean s0 s' (X r s')) := by
  rw [wp_errC]; exact clean_err rfl

/-- What a value parser has read. -/
def ValRead (q : Bytes) (n n' : Nat) : Prop := n' < q.length → ∃ v toks, ValT v toks ∧ Reads q n n' toks

def ListRead (q : Bytes) (n n' : Nat) : Prop := ∃ vs toks, ValsT vs toks ∧ Reads q n n' (toks ++ [.punct c%']'])

def ObjRead (q : Bytes) (close : Byte) (n n' : Nat) : Prop := ∃ fs toks, FieldsT fs toks ∧ Reads q n n' (toks ++ [.punct close])

theorem enum_text {cfg s s0} (hs : s.errs = s0.errs) (hn : s.charNr = s0.charNr)
    (hno : ∀ n, NameAt cfg.query s0.charNr n → n ≠ b%"true" ∧ n ≠ b%"false" ∧ n ≠ b%"null") :
    wp True (do
          instructionNewValueEnum
          let startOfEnum ← resLen
          let (nameLen, crit) ← parseAndWriteName
          if crit then return crit
          if nameLen == 0 then
            errC b%"unknown value kind, got character: \"" (← currentC)
          else
            closeLen startOfEnum
            return false) cfg s (fun crit s' => Clean s0 s' (crit = false ∧ ValRead cfg.query s0.charNr s'.charNr)) := by
  unfold instructionNewValueEnum
  rw [wp_bind, wp_emit, wp_bind, wp_resLen]
  refine wp_name ?_ ?_ ?_
  · intro k s' l e h
    dsimp only
    rw [if_pos rfl, wp_pure]
    exact clean_err h
  · dsimp only
    rw [if_neg (by simp), if_pos (by simp)]
    exact errHere
  · intro k n hk h
    dsimp only at h ⊢
    rw [if_neg (by simp), if_neg (by simpa using hk), wp_bind]
    refine wp_mono closeLen_text ?_
    rintro _ s2 ⟨h4, h5⟩
    rw [wp_pure]
    rw [hn] at h
    obtain ⟨h1, h2, h3⟩ := hno n h
    refine .of (h5.trans hs) ⟨rfl, fun _ => ⟨_, _, .enum h.isName h1 h2 h3, ?_⟩⟩
    rw [h4]
    dsimp only
    rw [hn]
    exact h.reads

/-- The first character of a name. -/
theorem NameAt.head {q p n c} (h : NameAt q p n) (hc : q[p]? = some c) : ∃ r, n = c :: r := by
  obtain ⟨_, d, r, rfl, _, _⟩ := h.isName
  have := h.text
  rw [drop_eq_cons hc] at this
  injection this with this _
  exact ⟨r, by rw [this]⟩

theorem word_reads {q p k} (hk : IsName k) (hat : At q p k) (hn : ∀ c, q[p + k.length]? = some c → isNameChar c = false) :
    Reads q p (p + k.length) [.name k] :=
  .tok hk .name hat.drop (fun c r hr => by
    have := hn c (get_of_drop hr)
    rw [← isNameChar_iff, this]; simp)


mutual
theorem parseInputValue_text {cfg} : ∀ (fuel : Nat) (s : PS), wp True (parseInputValue fuel) cfg s (fun crit s' =>
    Clean s s' (crit = false ∧ ValRead cfg.query s.charNr s'.charNr))
  | 0, _ => by unfold parseInputValue; trivial
  | fuel + 1, s => by
    unfold parseInputValue
    refine wp_skip (fun p => eof_clean) ?_
    intro p c hsk
    dsimp only
    have hq := hsk.get
    refine wp_if (fun h1 => ?_) (fun h1 => ?_)
    · have : c = c%'$' := by simpa using h1
      subst this
      unfold instructionNewValueVariable
      rw [wp_bind, wp_incPos, wp_bind, wp_emit, wp_bind, wp_resLen]
      refine wp_name ?_ ?_ ?_
      · intro k s' l e h
        dsimp only
        rw [if_pos rfl, wp_pure]
        exact clean_err h
      · dsimp only
        rw [if_neg (by simp), if_pos (by simp)]
        exact errHere
      · intro k n hk h
        dsimp only at h ⊢
        rw [if_neg (by simp), if_neg (by simpa using hk), wp_bind]
        refine wp_mono closeLen_text ?_
        rintro _ s2 ⟨h4, h5⟩
        rw [wp_pure]
        refine .of h5 ⟨rfl, fun _ => ⟨_, _, .var h.isName, ?_⟩⟩
        rw [h4]
        exact hsk.reads.pre (h.sigil hq (.inl rfl))
    refine wp_if (fun h2 => ?_) (fun h2 => ?_)
    · refine wp_mono (parseNumber_text (s := { s with charNr := p }) hq (by simpa [isDigit, or_assoc] using h2)) ?_
      intro crit s' h
      refine h.mono rfl ?_
      rintro ⟨h3, h4⟩
      refine ⟨h3, fun hl => ?_⟩
      obtain ⟨num, h5⟩ := h4 hl
      cases hi : num.isInt with
      | true => exact ⟨_, _, .int hi, hsk.reads.pre h5⟩
      | false => exact ⟨_, _, .float hi, hsk.reads.pre h5⟩
    refine wp_if (fun h3 => ?_) (fun h3 => ?_)
    · have : c = c%'"' := by simpa using h3
      subst this
      refine wp_mono (parseString_text (s := { s with charNr := p }) hq) ?_
      intro crit s' h
      refine h.mono rfl ?_
      rintro ⟨h4, v, h5⟩
      exact ⟨h4, fun _ => ⟨_, _, .str, hsk.reads.pre h5⟩⟩
    refine wp_if (fun h4 => ?_) (fun h4 => ?_)
    · have : c = c%'[' := by simpa using h4
      subst this
      have hopen := hsk.reads.pre (Reads.punct hq (by decide))
      unfold instructionNewValueList
      rw [wp_bind, wp_incPos, wp_bind, wp_emit, wp_bind, wp_resLen]
      refine wp_skip (fun p => eof_clean) ?_
      intro p2 c2 hsk2
      dsimp only at hsk2 ⊢
      refine wp_if (fun h5 => ?_) (fun h5 => ?_)
      · have : c2 = c%']' := by simpa using h5
        subst this
        unfold instructionEnd
        rw [wp_bind, wp_incPos, wp_bind, wp_emit, wp_bind]
        refine wp_mono closeLen_text ?_
        rintro _ s2 ⟨h6, h7⟩
        rw [wp_pure]
        refine .of h7 ⟨rfl, fun _ => ⟨_, _, .list .nil, ?_⟩⟩
        rw [h6]
        exact hopen.trans (hsk2.reads.pre (Reads.punct hsk2.get (by decide)))
      · refine wp_mono (listLoop_text fuel _ _) ?_
        intro crit s' h
        refine h.mono rfl ?_
        rintro ⟨h6, vs, toks, h7, h8⟩
        exact ⟨h6, fun _ => ⟨_, _, .list h7, hopen.trans (hsk2.reads.pre h8)⟩⟩
    refine wp_if (fun h5 => ?_) (fun h5 => ?_)
    · have : c = c%'{' := by simpa using h5
      subst this
      have hopen := hsk.reads.pre (Reads.punct hq (by decide))
      rw [wp_bind, wp_incPos]
      refine wp_mono (parseAssignmentSet_text fuel c%'}' (by decide) _) ?_
      intro crit s' h
      refine h.mono rfl ?_
      rintro ⟨h6, fs, toks, h7, h8⟩
      exact ⟨h6, fun _ => ⟨_, _, .obj h7, hopen.trans h8⟩⟩
    -- words
    have enum : (∀ n, NameAt cfg.query p n → n ≠ b%"true" ∧ n ≠ b%"false" ∧ n ≠ b%"null") → wp True (do
          instructionNewValueEnum
          let startOfEnum ← resLen
          let (nameLen, crit) ← parseAndWriteName
          if crit then return crit
          if nameLen == 0 then
            errC b%"unknown value kind, got character: \"" (← currentC)
          else
            closeLen startOfEnum
            return false) cfg { s with charNr := p } (fun crit s' => Clean s s' (crit = false ∧ ValRead cfg.query s.charNr s'.charNr)) := by
      intro hno
      refine wp_mono (enum_text (s0 := { s with charNr := p }) rfl rfl hno) ?_
      intro crit s' h
      refine h.mono rfl ?_
      rintro ⟨h6, h7⟩
      refine ⟨h6, fun hl => ?_⟩
      obtain ⟨v, toks, h8, h9⟩ := h7 hl
      exact ⟨v, toks, h8, hsk.reads.pre h9⟩
    refine wp_if (fun h6 => ?_) (fun h6 => ?_)
    · rw [wp_bind]
      refine wp_mono (matchesWord_wp [b%"false", b%"true"] (by decide)) ?_
      rintro r s1 (⟨rfl, rfl, h7⟩ | ⟨m, key, rfl, hg, hat, rfl, hn⟩)
      · dsimp only
        refine enum (fun n hn => ?_)
        have h8 := not_keyword hn (keys := [b%"false", b%"true"]) (by
          intro k hk
          simp only [List.mem_cons, List.not_mem_nil, or_false] at hk
          rcases hk with rfl | rfl
          · exact isName_false
          · exact isName_true) (by decide) h7
        simp only [List.mem_cons, List.not_mem_nil, or_false, not_or] at h8
        refine ⟨h8.2, h8.1, ?_⟩
        rintro rfl
        obtain ⟨r, hr⟩ := hn.head hq
        injection hr with hr _
        subst hr
        simp at h6
      · unfold instructionNewValueBoolean
        dsimp only at hat hn ⊢
        match m, hg with
        | 0, hg =>
          injection hg with hg
          subst hg
          rw [if_neg (by decide), wp_bind, wp_emit, wp_pure]
          exact .of rfl ⟨rfl, fun _ => ⟨_, _, .false, hsk.reads.pre (word_reads isName_false hat hn)⟩⟩
        | 1, hg =>
          injection hg with hg
          subst hg
          rw [if_pos (by decide), wp_bind, wp_emit, wp_pure]
          exact .of rfl ⟨rfl, fun _ => ⟨_, _, .true, hsk.reads.pre (word_reads isName_true hat hn)⟩⟩
        | m + 2, hg => simp at hg
    refine wp_if (fun h7 => ?_) (fun h7 => ?_)
    · rw [wp_bind]
      refine wp_mono (matchesWord_wp [b%"null"] (by decide)) ?_
      rintro r s1 (⟨rfl, rfl, h7⟩ | ⟨m, key, rfl, hg, hat, rfl, hn⟩)
      · rw [if_neg (by decide)]
        refine enum (fun n hn => ?_)
        have h8 := not_keyword hn (keys := [b%"null"]) (by
          intro k hk
          simp only [List.mem_cons, List.not_mem_nil, or_false] at hk
          subst hk
          exact isName_null) (by decide) h7
        simp only [List.mem_cons, List.not_mem_nil, or_false] at h8
        obtain ⟨r, hr⟩ := hn.head hq
        refine ⟨?_, ?_, h8⟩
        · rintro rfl
          injection hr with hr _
          subst hr
          simp at h6
        · rintro rfl
          injection hr with hr _
          subst hr
          simp at h6
      · match m, hg with
        | 0, hg =>
          rw [if_pos (by decide)]
          unfold instructionNewValueNull
          dsimp only at hat hn ⊢
          rw [wp_bind, wp_emit, wp_pure]
          injection hg with hg
          subst hg
          exact .of rfl ⟨rfl, fun _ => ⟨_, _, .null, hsk.reads.pre (word_reads isName_null hat hn)⟩⟩
        | m + 1, hg => simp at hg
    · refine enum (fun n hn => ?_)
      obtain ⟨r, hr⟩ := hn.head hq
      refine ⟨?_, ?_, ?_⟩
      · rintro rfl
        injection hr with hr _
        subst hr
        simp at h6
      · rintro rfl
        injection hr with hr _
        subst hr
        simp at h6
      · rintro rfl
        injection hr with hr _
        subst hr
        simp at h7

theorem listLoop_text {cfg} : ∀ (fuel : Nat) (st : Nat) (s : PS), wp True (listLoop fuel st) cfg s (fun crit s' =>
    Clean s s' (crit = false ∧ ListRead cfg.query s.charNr s'.charNr))
  | 0, _, _ => by unfold listLoop; trivial
  | fuel + 1, st, s => by
    unfold listLoop
    rw [wp_bind]
    refine wp_mono (parseInputValue_text fuel s) ?_
    intro crit s1 h1
    refine wp_if (fun hc => ?_) (fun hc => ?_)
    · rw [wp_pure]; exact clean_crit h1 hc
    refine wp_skip (fun p => eof_clean) ?_
    intro p c hsk
    dsimp only
    have fin : ∀ (s2 : PS) (c : Byte) (cm : List Tok), s2.errs = s1.errs → cfg.query[s2.charNr]? = some c → OptComma cm →
        Reads cfg.query s1.charNr s2.charNr cm → wp True (do
        if c == c%']' then
          incPos
          instructionEnd
          closeLen st
          return false
        else listLoop fuel st) cfg s2 (fun crit s' => Clean s s' (crit = false ∧ ListRead cfg.query s.charNr s'.charNr)) := by
      intro s2 c cm he hq hcm hr
      refine wp_if (fun h5 => ?_) (fun h5 => ?_)
      · have : c = c%']' := by simpa using h5
        subst this
        unfold instructionEnd
        rw [wp_bind, wp_incPos, wp_bind, wp_emit, wp_bind]
        refine wp_mono closeLen_text ?_
        rintro _ s3 ⟨h6, h7⟩
        rw [wp_pure]
        refine h1.bind (Clean.of (h7.trans he) trivial) ?_
        rintro ⟨_, h8⟩ _
        obtain ⟨v, toks, h9, h10⟩ := h8 hsk.lt
        refine ⟨rfl, [v], toks ++ (cm ++ []), .cons h9 hcm .nil, ?_⟩
        rw [h6]
        have := (h10.trans hr).trans (Reads.punct hq (by decide))
        simpa using this
      · refine wp_mono (listLoop_text fuel st s2) ?_
        intro crit s' h
        refine h1.bind (h.mono he (fun x => x)) ?_
        rintro ⟨_, h8⟩ ⟨h6, vs, toks', h9, h10⟩
        obtain ⟨v, toks, h11, h12⟩ := h8 hsk.lt
        refine ⟨h6, v :: vs, toks ++ (cm ++ toks'), .cons h11 hcm h9, ?_⟩
        have := (h12.trans hr).trans h10
        simpa using this
    refine wp_if (fun h5 => ?_) (fun h5 => ?_)
    · have : c = c%',' := by simpa using h5
      subst this
      rw [wp_bind, wp_incPos]
      refine wp_skip (fun p => eof_clean) ?_
      intro p2 c2 hsk2
      exact fin { s1 with charNr := p2 } c2 _ rfl hsk2.get .comma ((hsk.reads.pre (Reads.punct hsk.get (by decide))).skip hsk2.reads)
    · exact fin { s1 with charNr := p } c _ rfl hsk.get .none hsk.reads

theorem parseAssignmentSet_text {cfg} : ∀ (fuel : Nat) (close : Byte), close ∈ b%"{}()[]:=!," → ∀ (s : PS),
    wp True (parseAssignmentSet fuel close) cfg s (fun crit s' => Clean s s' (crit = false ∧ ObjRead cfg.query close s.charNr s'.charNr))
  | 0, _, _, _ => by unfold parseAssignmentSet; trivial
  | fuel + 1, close, hcl, s => by
    unfold parseAssignmentSet instructionNewValueObject
    rw [wp_bind, wp_emit, wp_bind, wp_resLen]
    refine wp_skip (fun p => eof_clean) ?_
    intro p c hsk
    dsimp only at hsk ⊢
    refine wp_if (fun h5 => ?_) (fun h5 => ?_)
    · have : c = close := by simpa using h5
      subst this
      unfold instructionEnd
      rw [wp_bind, wp_emit, wp_bind, wp_incPos, wp_bind]
      refine wp_mono closeLen_text ?_
      rintro _ s3 ⟨h6, h7⟩
      rw [wp_pure]
      refine .of h7 ⟨rfl, [], [], .nil, ?_⟩
      rw [h6]
      exact hsk.reads.pre (Reads.punct hsk.get hcl)
    · refine wp_mono (assignLoop_text fuel close hcl _ _) ?_
      intro crit s' h
      refine h.mono rfl ?_
      rintro ⟨h6, fs, toks, h7, h8⟩
      exact ⟨h6, fs, toks, h7, hsk.reads.pre h8⟩

theorem assignLoop_text {cfg} : ∀ (fuel : Nat) (close : Byte), close ∈ b%"{}()[]:=!," → ∀ (st : Nat) (s : PS),
    wp True (assignLoop fuel close st) cfg s (fun crit s' => Clean s s' (crit = false ∧ ObjRead cfg.query close s.charNr s'.charNr))
  | 0, _, _, _, _ => by unfold assignLoop; trivial
  | fuel + 1, close, hcl, st, s => by
    unfold assignLoop instructionStartNewValueObjectField
    rw [wp_bind, wp_emit]
    refine wp_name ?_ ?_ ?_
    · intro k s' l e h
      dsimp only
      rw [if_pos rfl, wp_pure]
      exact clean_err h
    · dsimp only
      rw [if_neg (by simp), if_pos (by simp)]
      exact errHere
    intro k n hk hn
    dsimp only at hn ⊢
    rw [if_neg (by simp), if_neg (by simpa using hk)]
    refine wp_skip (fun p => eof_clean) ?_
    intro p0 c0 hsk0
    dsimp only at hsk0 ⊢
    refine wp_if (fun h0 => errC_clean) (fun h0 => ?_)
    have : c0 = c%':' := by simpa using h0
    subst this
    have hhead := hn.reads.trans (hsk0.reads.pre (Reads.punct hsk0.get (by decide)))
    rw [wp_bind, wp_incPos, wp_bind]
    refine wp_mono (parseInputValue_text fuel _) ?_
    intro crit s1 h1
    refine wp_if (fun hc => ?_) (fun hc => ?_)
    · rw [wp_pure]; exact clean_crit h1 hc
    refine wp_skip (fun p => eof_clean) ?_
    intro p c hsk
    dsimp only
    dsimp only at h1
    have fin : ∀ (s2 : PS) (c : Byte) (cm : List Tok), s2.errs = s1.errs → cfg.query[s2.charNr]? = some c → OptComma cm →
        Reads cfg.query s1.charNr s2.charNr cm → wp True (do
          if c == close then
            instructionEnd
            incPos
            closeLen st
            return false
          else assignLoop fuel close st) cfg s2 (fun crit s' => Clean s s' (crit = false ∧ ObjRead cfg.query close s.charNr s'.charNr)) := by
      intro s2 c cm he hq hcm hr
      refine wp_if (fun h5 => ?_) (fun h5 => ?_)
      · have : c = close := by simpa using h5
        subst this
        unfold instructionEnd
        rw [wp_bind, wp_emit, wp_bind, wp_incPos, wp_bind]
        refine wp_mono closeLen_text ?_
        rintro _ s3 ⟨h6, h7⟩
        rw [wp_pure]
        refine (h1.mono (s := s) rfl (fun x => x)).bind (Clean.of (h7.trans he) trivial) ?_
        rintro ⟨_, h8⟩ _
        obtain ⟨v, toks, h9, h10⟩ := h8 hsk.lt
        refine ⟨rfl, [(n, v)], _, .cons hn.isName h9 hcm .nil, ?_⟩
        rw [h6]
        have := hhead.trans ((h10.trans hr).trans (Reads.punct hq hcl))
        simpa using this
      · refine wp_mono (assignLoop_text fuel close hcl st s2) ?_
        intro crit s' h
        refine (h1.mono (s := s) rfl (fun x => x)).bind (h.mono he (fun x => x)) ?_
        rintro ⟨_, h8⟩ ⟨h6, vs, toks', h9, h10⟩
        obtain ⟨v, toks, h11, h12⟩ := h8 hsk.lt
        refine ⟨h6, (n, v) :: vs, _, .cons hn.isName h11 hcm h9, ?_⟩
        have := hhead.trans ((h12.trans hr).trans h10)
        simpa using this
    refine wp_if (fun h5 => ?_) (fun h5 => ?_)
    · have : c = c%',' := by simpa using h5
      subst this
      rw [wp_bind, wp_incPos]
      refine wp_skip (fun p => eof_clean) ?_
      intro p2 c2 hsk2
      exact fin { s1 with charNr := p2 } c2 _ rfl hsk2.get .comma ((hsk.reads.pre (Reads.punct hsk.get (by decide))).skip hsk2.reads)
    · exact fin { s1 with charNr := p } c _ rfl hsk.get .none hsk.reads
end

end Parser
end Yarql
