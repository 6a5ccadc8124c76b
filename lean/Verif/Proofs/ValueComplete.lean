import Verif.Proofs.StrComplete

/-! # Completeness: input values -/

namespace Yarql
namespace Parser
open Grammar Doc

/-- A value has been compiled and `rest` is left. -/
def ValDone (cfg : PCfg) (s : PS) (out : Bytes) (rest : List Tok) (crit : Bool) (s' : PS) : Prop :=
  crit = false ∧ ∃ p, s' = { s with res := s.res ++ out, charNr := p } ∧ Rem cfg p rest

/-- What a bare name denotes as a value. -/
def nameValue (n : Bytes) : Value :=
  if n = b%"true" then .bool true else if n = b%"false" then .bool false else if n = b%"null" then .null else .enum n

/-- First tokens of a value. -/
def VHead : Tok → Prop
  | .punct c => c = c%'[' ∨ c = c%'{'
  | .sigil c _ => c = c%'$'
  | .name _ => True
  | .num _ => True
  | .str _ => True
  | _ => False

theorem _root_.Yarql.Grammar.ValT.head {v : Value} {ts : List Tok} (h : ValT v ts) : ∃ t r, ts = t :: r ∧ VHead t := by
  cases h <;> exact ⟨_, _, rfl, by simp [VHead]⟩

theorem VHead.first {t : Tok} (h : VHead t) {c : Byte} (hc : First t c) : c ≠ c%',' ∧ c ≠ c%']' ∧ c ≠ c%'}' ∧ c ≠ c%')' := by
  refine ⟨?_, ?_, ?_, ?_⟩ <;>
  · rintro rfl
    cases t <;> simp [VHead, First] at h hc
    · rcases h with rfl | rfl <;> simp at hc
    · subst h; simp at hc
    · revert hc; unfold NameStart; decide
    · revert hc; unfold NumStart; decide

/-- Not one of the structural characters tested before names. -/
theorem nameStart_facts {c : Byte} (h : NameStart c) : c ≠ c%'$' ∧ (c ≠ c%'-' ∧ c ≠ c%'+' ∧ c ≠ c%'.' ∧ isDigit c = false) ∧ c ≠ c%'"' ∧
    c ≠ c%'[' ∧ c ≠ c%'{' ∧ c ≠ c%'}' ∧ c ≠ c%')' ∧ c ≠ c%',' ∧ c ≠ c%']' ∧ c ≠ c%':' ∧ c ≠ c%'@' ∧ c ≠ c%'(' := by
  have hd : isDigit c = false := by
    rw [Bool.eq_false_iff]
    intro hd
    simp only [isDigit, Bool.and_eq_true, decide_eq_true_eq, UInt8.le_iff_toNat_le] at hd
    simp only [NameStart, UInt8.le_iff_toNat_le] at h
    simp at h hd
    rcases h with h | h | rfl
    · omega
    · omega
    · simp at hd
  refine ⟨?_, ⟨?_, ?_, ?_, hd⟩, ?_, ?_, ?_, ?_, ?_, ?_, ?_, ?_, ?_, ?_⟩ <;> (rintro rfl; revert h; unfold NameStart; decide)

theorem enum_tok {cfg s n t ts} (h : AtTok cfg s.charNr (.name n) (t :: ts)) :
    wp True (do
      instructionNewValueEnum
      let startOfEnum ← resLen
      let (nameLen, crit) ← parseAndWriteName
      if crit then return crit
      if nameLen == 0 then
        errC b%"unknown value kind, got character: \"" (← currentC)
      else
        closeLen startOfEnum
        return false) cfg s (ValDone cfg s (encValue (.enum n)) (t :: ts)) := by
  unfold instructionNewValueEnum
  rw [wp_bind, wp_emit, wp_bind, wp_resLen, wp_bind]
  refine wp_mono (parseName_tok (s := { s with res := s.res ++ [0, c%'v', c%'e', 0, 0, 0, 0] }) h) ?_
  rintro ⟨k, crit⟩ s' ⟨rfl, _, h0, _, rfl, hrem⟩
  simp only [Bool.false_eq_true, if_false] at h0 ⊢
  rw [h0, if_neg (by simp), wp_bind]
  refine closeLen_wp (pre := s.res) (k := c%'e') (body := n) (by simp [hdr]) (by simp) ?_
  rw [wp_pure]
  exact ⟨rfl, _, by simp [encValue], hrem⟩

theorem isName_true : IsName b%"true" := ⟨by decide, c%'t', b%"rue", rfl, by unfold NameStart; decide, by unfold NameChar NameStart; decide⟩
theorem isName_false : IsName b%"false" := ⟨by decide, c%'f', b%"alse", rfl, by unfold NameStart; decide, by unfold NameChar NameStart; decide⟩
theorem isName_null : IsName b%"null" := ⟨by decide, c%'n', b%"ull", rfl, by unfold NameStart; decide, by unfold NameChar NameStart; decide⟩
theorem isName_on : IsName b%"on" := ⟨by decide, c%'o', b%"n", rfl, by unfold NameStart; decide, by unfold NameChar NameStart; decide⟩

/-- head of a name token's text -/
theorem AtTok.headName {cfg p n ts c} (h : AtTok cfg p (.name n) ts) (hc : cfg.query[p]? = some c) : n.head? = some c := by
  obtain ⟨hn, hd, _⟩ := h.name
  obtain ⟨_, c', cs, rfl, _⟩ := hn
  rw [get_of_drop hd] at hc
  simpa using hc

/-- The part of `parseInputValue` for bare words. -/
theorem word_tok {cfg s n t ts c} (h : AtTok cfg s.charNr (.name n) (t :: ts)) (hc : cfg.query[s.charNr]? = some c) {enum : P Bool}
    (he : wp True enum cfg s (ValDone cfg s (encValue (.enum n)) (t :: ts))) :
    wp True (if c == c%'t' || c == c%'f' then do
          match ← matchesWord [b%"false", b%"true"] with
          | some m =>
            instructionNewValueBoolean (m == 1)
            return false
          | none => enum
        else if c == c%'n' then do
          if (← matchesWord [b%"null"]) == some 0 then
            instructionNewValueNull
            return false
          else enum
        else enum) cfg s (ValDone cfg s (encValue (nameValue n)) (t :: ts)) := by
  have hhd := h.headName hc
  refine wp_if (fun h1 => ?_) (fun h1 => ?_)
  · rw [wp_bind]
    refine wp_mono (matchesWord_tok [b%"false", b%"true"] (by simp [isName_true, isName_false]) (by decide) h) ?_
    rintro r s' (⟨rfl, rfl, hn⟩ | ⟨m, rfl, hm, rfl, hrem⟩)
    · have : nameValue n = .enum n := by
        simp at hn
        unfold nameValue
        rw [if_neg hn.2, if_neg hn.1, if_neg ?_]
        rintro rfl
        simp at hhd
        subst hhd
        revert h1; decide
      rw [this]
      exact he
    · dsimp only
      have hm' : (m = 0 ∧ n = b%"false") ∨ (m = 1 ∧ n = b%"true") := by
        match m, hm with
        | 0, hm => left; simpa [eq_comm] using hm
        | 1, hm => right; simpa [eq_comm] using hm
        | m + 2, hm => simp at hm
      rcases hm' with ⟨rfl, rfl⟩ | ⟨rfl, rfl⟩
      · unfold instructionNewValueBoolean
        wps
        exact ⟨rfl, _, rfl, hrem⟩
      · unfold instructionNewValueBoolean
        wps
        exact ⟨rfl, _, rfl, hrem⟩
  · refine wp_if (fun h2 => ?_) (fun h2 => ?_)
    · rw [wp_bind]
      refine wp_mono (matchesWord_tok [b%"null"] (by simp [isName_null]) (by decide) h) ?_
      rintro r s' (⟨rfl, rfl, hn⟩ | ⟨m, rfl, hm, rfl, hrem⟩)
      · have : nameValue n = .enum n := by
          simp at hn
          unfold nameValue
          rw [if_neg ?_, if_neg ?_, if_neg hn]
          · rintro rfl
            simp at hhd
            subst hhd
            revert h2; decide
          · rintro rfl
            simp at hhd
            subst hhd
            revert h2; decide
        rw [this, if_neg (by decide)]
        exact he
      · have hm' : m = 0 ∧ n = b%"null" := by
          cases m with
          | zero => simpa [eq_comm] using hm
          | succ m => simp at hm
        obtain ⟨rfl, rfl⟩ := hm'
        rw [if_pos (by decide)]
        unfold instructionNewValueNull
        wps
        exact ⟨rfl, _, rfl, hrem⟩
    · have : nameValue n = .enum n := by
        unfold nameValue
        rw [if_neg ?_, if_neg ?_, if_neg ?_]
        · rintro rfl
          simp at hhd
          subst hhd
          exact h2 (by decide)
        · rintro rfl
          simp at hhd
          subst hhd
          exact h1 (by decide)
        · rintro rfl
          simp at hhd
          subst hhd
          exact h1 (by decide)
      rw [this]
      exact he

/-- After the element: an optional comma, then either the closing token or the next element. -/
theorem sep_tok {cfg s c ts t rest} {cl : Byte} {fin : Byte → P Bool} {Q : Bool → PS → Prop} (hcl : cl ≠ c%',') (hcm : OptComma c)
    (hrem : Rem cfg s.charNr (c ++ (ts ++ .punct cl :: rest)))
    (hts : ts = [] ∨ ∃ t r, ts = t :: r ∧ ∀ c, First t c → c ≠ c%',' ∧ c ≠ cl)
    (hnil : ts = [] → ∀ p, AtTok cfg p (.punct cl) rest → wp True (fin cl) cfg { s with charNr := p } Q)
    (hcons : ∀ x r p d, ts = x :: r → First x d → d ≠ cl → cfg.query[p]? = some d → AtTok cfg p x (r ++ .punct cl :: rest) →
      wp True (fin d) cfg { s with charNr := p } Q) (ht : t = mightIgnore) :
    wp True (do
      match ← t with
      | none => unexpectedEOF
      | some c =>
        if c == c%',' then do
          incPos
          match ← mightIgnore with
          | none => unexpectedEOF
          | some c => fin c
        else fin c) cfg s Q := by
  subst ht
  -- without comma
  have plain : ∀ s1 : PS, s1 = { s with charNr := s1.charNr } → Rem cfg s1.charNr (ts ++ .punct cl :: rest) →
      wp True mightIgnore cfg s1 (fun r s' => ∃ c, r = some c ∧ c ≠ c%',' ∧ wp True (fin c) cfg s' Q) := by
    intro s1 hs1 hr
    rcases hts with rfl | ⟨x, r, rfl, hf⟩
    · refine wp_mono (mightIgnore_rem hr) ?_
      rintro _ _ ⟨c, p, rfl, rfl, hf, hq, hat⟩
      cases hf
      refine ⟨cl, rfl, hcl, ?_⟩
      rw [hs1]
      exact hnil rfl p hat
    · refine wp_mono (mightIgnore_rem (t := x) (ts := r ++ .punct cl :: rest) hr) ?_
      rintro _ _ ⟨c, p, rfl, rfl, hff, hq, hat⟩
      refine ⟨c, rfl, (hf c hff).1, ?_⟩
      rw [hs1]
      exact hcons x r p c rfl hff (hf c hff).2 hq hat
  rw [wp_bind]
  cases hcm with
  | none =>
    refine wp_mono (plain s rfl hrem) ?_
    rintro _ s1 ⟨c, rfl, hc, hw⟩
    dsimp only
    rw [if_neg (by simpa using hc)]
    exact hw
  | comma =>
    refine wp_mono (mightIgnore_rem (t := .punct c%',') (ts := ts ++ .punct cl :: rest) hrem) ?_
    rintro _ _ ⟨c, p, rfl, rfl, hf, hq, hat⟩
    cases hf
    dsimp only
    rw [if_pos (by decide), wp_bind, wp_incPos, wp_bind]
    refine wp_mono (plain { s with charNr := p + 1 } rfl hat.punct.2) ?_
    rintro _ s1 ⟨c, rfl, hc, hw⟩
    exact hw

theorem _root_.Yarql.Grammar.FieldsT.head {fs ts} (h : FieldsT fs ts) : ts = [] ∨ ∃ n r, ts = .name n :: r := by
  cases h with
  | nil => exact Or.inl rfl
  | cons => exact Or.inr ⟨_, _, rfl⟩

theorem _root_.Yarql.Grammar.ValsT.head {fs ts} (h : ValsT fs ts) : ts = [] ∨ ∃ t r, ts = t :: r ∧ VHead t := by
  cases h with
  | nil => exact Or.inl rfl
  | cons h1 _ _ =>
    obtain ⟨t, r, rfl, ht⟩ := h1.head
    exact Or.inr ⟨_, _, rfl, ht⟩


theorem ValDone.shift {cfg s out rest p crit s'} (h : ValDone cfg { s with charNr := p } out rest crit s') : ValDone cfg s out rest crit s' := by
  obtain ⟨h1, p', h2, h3⟩ := h
  exact ⟨h1, p', h2, h3⟩

/-- A value that is a bare word. -/
theorem wordValue_tok {cfg fuel s n t rest} (hrem : Rem cfg s.charNr (.name n :: t :: rest)) :
    wp True (parseInputValue (fuel + 1)) cfg s (ValDone cfg s (encValue (nameValue n)) (t :: rest)) := by
  unfold parseInputValue
  rw [wp_bind]
  refine wp_mono (mightIgnore_rem hrem) ?_
  rintro _ _ ⟨c, p, rfl, rfl, hf, hq, hat⟩
  obtain ⟨f1, ⟨f2, f3, f4, f5⟩, f6, f7, f8, _⟩ := nameStart_facts hf
  dsimp only
  rw [if_neg (by simpa using f1), if_neg (by simp [f2, f3, f4, f5]), if_neg (by simpa using f6), if_neg (by simpa using f7), if_neg (by simpa using f8)]
  exact wp_mono (word_tok (s := { s with charNr := p }) hat hq (enum_tok (s := { s with charNr := p }) hat)) (fun _ _ h => h.shift)

theorem numStart_facts {c : Byte} (h : NumStart c) : c ≠ c%'$' ∧ (c == c%'-' || c == c%'+' || c == c%'.' || isDigit c) = true := by
  refine ⟨?_, ?_⟩
  · rintro rfl; revert h; unfold NumStart; decide
  · unfold NumStart at h
    simpa [isDigit, or_assoc] using h

/-- The number case. -/
theorem numValue_tok {cfg fuel s n t rest} (hrem : Rem cfg s.charNr (.num n :: t :: rest)) :
    wp True (parseInputValue (fuel + 1)) cfg s (ValDone cfg s (encHead (if n.isInt then c%'i' else c%'f') n.text) (t :: rest)) := by
  unfold parseInputValue
  rw [wp_bind]
  refine wp_mono (mightIgnore_rem hrem) ?_
  rintro _ _ ⟨c, p, rfl, rfl, hf, hq, hat⟩
  obtain ⟨f1, f2⟩ := numStart_facts hf
  dsimp only
  rw [if_neg (by simpa using f1), if_pos f2]
  exact wp_mono (parseNumber_tok (s := { s with charNr := p }) hat) (fun _ _ h => ValDone.shift (p := p) h)

/-- `ts` is the rest of an element sequence closed by `cl`; there is always a next token. -/
theorem cons_of_closing {c ts : List Tok} {cl : Tok} {rest : List Tok} : ∃ x r, c ++ (ts ++ cl :: rest) = x :: r := by
  cases c with
  | nil => cases ts with
    | nil => exact ⟨_, _, rfl⟩
    | cons => exact ⟨_, _, rfl⟩
  | cons => exact ⟨_, _, rfl⟩

def LoopDone (cfg : PCfg) (s : PS) (res : Bytes) (rest : List Tok) (crit : Bool) (s' : PS) : Prop :=
  crit = false ∧ ∃ p, s' = { s with res := res, charNr := p } ∧ Rem cfg p rest

theorem LoopDone.of {cfg s s1 res rest crit s'} (h : LoopDone cfg s1 res rest crit s') {p r} (h1 : s1 = { s with res := r, charNr := p }) :
    LoopDone cfg s res rest crit s' := by
  obtain ⟨h2, p', h3, h4⟩ := h
  subst h1
  exact ⟨h2, p', h3, h4⟩

theorem _root_.Yarql.Grammar.ValsT.nil_inv {vs ts} (h : ValsT vs ts) (hts : ts = []) : vs = [] := by
  cases h with
  | nil => rfl
  | cons h1 _ _ =>
    obtain ⟨t, r, rfl, ht⟩ := h1.head
    cases hts

mutual
theorem parseInputValue_complete {cfg} : ∀ (fuel : Nat) (s : PS) (v : Value) (ts : List Tok) (t : Tok) (rest : List Tok),
    ValT v ts → Rem cfg s.charNr (ts ++ t :: rest) → wp True (parseInputValue fuel) cfg s (ValDone cfg s (encValue v) (t :: rest))
  | 0, _, _, _, _, _, _, _ => trivial
  | fuel + 1, s, v, ts, t, rest, hv, hrem => by
    cases hv with
    | true => exact wordValue_tok (n := b%"true") hrem
    | false => exact wordValue_tok (n := b%"false") hrem
    | null => exact wordValue_tok (n := b%"null") hrem
    | @enum n h1 h2 h3 h4 =>
      have : nameValue n = .enum n := by unfold nameValue; rw [if_neg h2, if_neg h3, if_neg h4]
      have h := wordValue_tok (fuel := fuel) (n := n) hrem
      rw [this] at h
      exact h
    | int hi =>
      have h := numValue_tok (fuel := fuel) hrem
      rw [hi, if_pos rfl] at h
      simpa [encValue] using h
    | float hi =>
      have h := numValue_tok (fuel := fuel) hrem
      rw [hi, if_neg (by simp)] at h
      simpa [encValue] using h
    | @var n hn =>
      unfold parseInputValue
      rw [wp_bind]
      refine wp_mono (mightIgnore_rem (t := .sigil c%'$' n) (ts := t :: rest) hrem) ?_
      rintro _ _ ⟨c, p, rfl, rfl, hf, hq, hat⟩
      cases hf
      dsimp only
      unfold instructionNewValueVariable
      rw [if_pos (by decide), wp_bind, wp_incPos, wp_bind, wp_emit, wp_bind, wp_resLen, wp_bind]
      dsimp only
      refine wp_mono (parseName_tok (s := { s with res := s.res ++ [0, c%'v', c%'$', 0, 0, 0, 0], charNr := p + 1 }) hat.sigil.2) ?_
      rintro ⟨k, crit⟩ s' ⟨rfl, _, h0, _, rfl, hrem⟩
      simp only [Bool.false_eq_true, if_false] at h0 ⊢
      rw [h0, if_neg (by simp), wp_bind]
      refine closeLen_wp (pre := s.res) (k := c%'$') (body := n) (by simp [hdr]) (by simp) ?_
      rw [wp_pure]
      exact ⟨rfl, _, by simp [encValue], hrem⟩
    | str =>
      unfold parseInputValue
      rw [wp_bind]
      refine wp_mono (mightIgnore_rem hrem) ?_
      rintro _ _ ⟨c, p, rfl, rfl, hf, hq, hat⟩
      cases hf
      dsimp only
      rw [if_neg (by decide), if_neg (by decide), if_pos (by decide)]
      exact wp_mono (parseString_tok (s := { s with charNr := p }) hat) (fun _ _ h => ValDone.shift (p := p) h)
    | @list vs ts' h =>
      unfold parseInputValue
      rw [wp_bind]
      refine wp_mono (mightIgnore_rem (t := .punct c%'[') (ts := ts' ++ .punct c%']' :: t :: rest) (by simpa using hrem)) ?_
      rintro _ _ ⟨c, p, rfl, rfl, hf, hq, hat⟩
      cases hf
      dsimp only
      unfold instructionNewValueList
      rw [if_neg (by decide), if_neg (by decide), if_neg (by decide), if_pos (by decide), wp_bind, wp_incPos, wp_bind, wp_emit, wp_bind, wp_resLen, wp_bind]
      dsimp only
      have hrem' := hat.punct.2
      rcases h.head with rfl | ⟨x, r, rfl, hx⟩
      · have := h.nil_inv rfl
        subst this
        refine wp_mono (mightIgnore_rem (t := .punct c%']') (ts := t :: rest) hrem') ?_
        rintro _ _ ⟨c, p2, rfl, rfl, hf, hq2, hat2⟩
        cases hf
        dsimp only
        unfold instructionEnd
        rw [if_pos (by decide), wp_bind, wp_incPos, wp_bind, wp_emit, wp_bind]
        refine closeLen_wp (pre := s.res) (k := c%'l') (body := endI) (by simp [hdr, endI]) (by simp) ?_
        rw [wp_pure]
        exact ⟨rfl, _, by simp [encValue, encValues], hat2.punct.2⟩
      · refine wp_mono (mightIgnore_rem (t := x) (ts := r ++ .punct c%']' :: t :: rest) hrem') ?_
        rintro _ _ ⟨c, p2, rfl, rfl, hf, hq2, hat2⟩
        have hc := (hx.first hf).2.1
        dsimp only
        rw [if_neg (by simpa using hc)]
        have hlen : (s.res ++ [0, 118, 108, 0, 0, 0, 0] : Bytes).length = s.res.length + 7 := by simp
        rw [hlen]
        refine wp_mono (listLoop_complete (pre := s.res) (body := []) fuel _ vs (x :: r) (t :: rest) h (by simp) (by simpa using hat2.rem) (by simp [hdr])) ?_
        intro crit s' hd
        obtain ⟨h2, p', h3, h4⟩ := hd
        exact ⟨h2, p', by rw [h3]; simp [encValue], h4⟩
    | @obj fs ts' h =>
      unfold parseInputValue
      rw [wp_bind]
      refine wp_mono (mightIgnore_rem (t := .punct c%'{') (ts := ts' ++ .punct c%'}' :: t :: rest) (by simpa using hrem)) ?_
      rintro _ _ ⟨c, p, rfl, rfl, hf, hq, hat⟩
      cases hf
      dsimp only
      rw [if_neg (by decide), if_neg (by decide), if_neg (by decide), if_neg (by decide), if_pos (by decide), wp_bind, wp_incPos]
      dsimp only
      exact wp_mono (parseAssignmentSet_complete fuel { s with charNr := p + 1 } c%'}' fs ts' (t :: rest) (Or.inl rfl) h hat.punct.2)
        (fun _ _ h => ValDone.shift (p := p + 1) h)

theorem listLoop_complete {cfg pre body} : ∀ (fuel : Nat) (s : PS) (vs : List Value) (ts rest : List Tok),
    ValsT vs ts → ts ≠ [] → Rem cfg s.charNr (ts ++ .punct c%']' :: rest) → s.res = pre ++ (hdr c%'l' ++ body) →
    wp True (listLoop fuel (pre.length + 7)) cfg s (LoopDone cfg s (pre ++ encHead c%'l' (body ++ encValues vs ++ endI)) rest)
  | 0, _, _, _, _, _, _, _, _ => trivial
  | fuel + 1, s, vs, ts, rest, hv, hne, hrem, hres => by
    cases hv with
    | nil => exact absurd rfl hne
    | @cons v vs t c ts hv hc hvs =>
      unfold listLoop
      rw [wp_bind]
      obtain ⟨x, r, hx⟩ := cons_of_closing (c := c) (ts := ts) (cl := .punct c%']') (rest := rest)
      refine wp_mono (parseInputValue_complete fuel s v t x r hv (by rw [← hx]; simpa using hrem)) ?_
      rintro _ _ ⟨rfl, p, rfl, hrem1⟩
      rw [if_neg (by simp)]
      rw [← hx] at hrem1
      refine sep_tok (t := mightIgnore) (cl := c%']') (c := c) (ts := ts) (rest := rest)
        (fin := fun c => if c == c%']' then do
          incPos
          instructionEnd
          closeLen (pre.length + 7)
          return false
        else listLoop fuel (pre.length + 7)) (by decide) hc hrem1 ?_ ?_ ?_ rfl
      · rcases hvs.head with h | ⟨y, r', rfl, hy⟩
        · exact Or.inl h
        · exact Or.inr ⟨_, _, rfl, fun c hc => ⟨(hy.first hc).1, (hy.first hc).2.1⟩⟩
      · rintro rfl p2 hat2
        have := hvs.nil_inv rfl
        subst this
        unfold instructionEnd
        rw [if_pos (by decide), wp_bind, wp_incPos, wp_bind, wp_emit, wp_bind]
        refine closeLen_wp (pre := pre) (k := c%'l') (body := body ++ encValue v ++ endI) (by simp [hres, endI]) rfl ?_
        rw [wp_pure]
        exact ⟨rfl, _, by simp [encValues], hat2.punct.2⟩
      · rintro y r' p2 d rfl hf hd hq hat2
        rw [if_neg (by simpa using hd)]
        refine wp_mono (listLoop_complete (pre := pre) (body := body ++ encValue v) fuel _ vs (y :: r') rest hvs (by simp) (by simpa using hat2.rem) (by simp [hres])) ?_
        intro crit s' hd
        obtain ⟨h2, p', h3, h4⟩ := hd
        exact ⟨h2, p', by rw [h3]; simp [encValues], h4⟩

theorem parseAssignmentSet_complete {cfg} : ∀ (fuel : Nat) (s : PS) (cl : Byte) (fs : List (Bytes × Value)) (ts rest : List Tok),
    (cl = c%'}' ∨ cl = c%')') → FieldsT fs ts → Rem cfg s.charNr (ts ++ .punct cl :: rest) →
    wp True (parseAssignmentSet fuel cl) cfg s (ValDone cfg s (encValue (.obj fs)) rest)
  | 0, _, _, _, _, _, _, _, _ => trivial
  | fuel + 1, s, cl, fs, ts, rest, hcl, hf, hrem => by
    unfold parseAssignmentSet instructionNewValueObject
    rw [wp_bind, wp_emit, wp_bind, wp_resLen, wp_bind]
    rcases hf.head with rfl | ⟨n, r, rfl⟩
    · cases hf
      refine wp_mono (mightIgnore_rem (s := { s with res := s.res ++ [0, c%'v', c%'o', 0, 0, 0, 0] }) (t := .punct cl) (ts := rest) hrem) ?_
      rintro _ _ ⟨c, p2, rfl, rfl, hf, hq2, hat2⟩
      cases hf
      dsimp only
      unfold instructionEnd
      rw [if_pos (by simp), wp_bind, wp_emit, wp_bind, wp_incPos, wp_bind]
      refine closeLen_wp (pre := s.res) (k := c%'o') (body := endI) (by simp [hdr, endI]) (by simp) ?_
      rw [wp_pure]
      exact ⟨rfl, _, by simp [encValue, encFields], hat2.punct.2⟩
    · refine wp_mono (mightIgnore_rem (s := { s with res := s.res ++ [0, c%'v', c%'o', 0, 0, 0, 0] }) (t := .name n) (ts := r ++ .punct cl :: rest) hrem) ?_
      rintro _ _ ⟨c, p2, rfl, rfl, hfst, hq2, hat2⟩
      obtain ⟨_, _, _, _, _, f1, f2, _⟩ := nameStart_facts hfst
      dsimp only
      rw [if_neg (by rcases hcl with rfl | rfl <;> simpa)]
      have hlen : (s.res ++ [0, 118, 111, 0, 0, 0, 0] : Bytes).length = s.res.length + 7 := by simp
      rw [hlen]
      refine wp_mono (assignLoop_complete (pre := s.res) (body := []) fuel _ cl fs n r rest hcl hf hat2 (by simp [hdr])) ?_
      intro crit s' hd
      obtain ⟨h2, p', h3, h4⟩ := hd
      exact ⟨h2, p', by rw [h3]; simp [encValue], h4⟩

theorem assignLoop_complete {cfg pre body} : ∀ (fuel : Nat) (s : PS) (cl : Byte) (fs : List (Bytes × Value)) (n : Bytes) (r rest : List Tok),
    (cl = c%'}' ∨ cl = c%')') → FieldsT fs (.name n :: r) → AtTok cfg s.charNr (.name n) (r ++ .punct cl :: rest) → s.res = pre ++ (hdr c%'o' ++ body) →
    wp True (assignLoop fuel cl (pre.length + 7)) cfg s (LoopDone cfg s (pre ++ encHead c%'o' (body ++ encFields fs ++ endI)) rest)
  | 0, _, _, _, _, _, _, _, _, _, _ => trivial
  | fuel + 1, s, cl, fs, n, r, rest, hcl, hf, hat, hres => by
    cases hf with
    | @cons _ v fs t c ts hn hv hc hfs =>
      unfold assignLoop instructionStartNewValueObjectField
      rw [wp_bind, wp_emit, wp_bind]
      refine wp_mono (parseName_tok (s := { s with res := s.res ++ [0, c%'u'] }) hat) ?_
      rintro ⟨k, crit⟩ s' ⟨rfl, _, h0, _, rfl, hrem⟩
      simp only [Bool.false_eq_true, if_false] at h0 ⊢
      rw [h0, if_neg (by simp), wp_bind]
      refine wp_mono (mightIgnore_rem (t := .punct c%':') hrem) ?_
      rintro _ _ ⟨d, p, rfl, rfl, hff, hq, hat2⟩
      cases hff
      dsimp only
      rw [if_neg (by decide), wp_bind, wp_incPos, wp_bind]
      dsimp only
      obtain ⟨x, r, hx⟩ := cons_of_closing (c := c) (ts := ts) (cl := .punct cl) (rest := rest)
      refine wp_mono (parseInputValue_complete fuel _ v t x r hv (by rw [← hx]; simpa using hat2.punct.2)) ?_
      rintro _ _ ⟨rfl, p, rfl, hrem1⟩
      rw [if_neg (by simp)]
      rw [← hx] at hrem1
      refine sep_tok (t := mightIgnore) (cl := cl) (c := c) (ts := ts) (rest := rest)
        (fin := fun c => if c == cl then do
          instructionEnd
          incPos
          closeLen (pre.length + 7)
          return false
        else assignLoop fuel cl (pre.length + 7)) (by rcases hcl with rfl | rfl <;> decide) hc hrem1 ?_ ?_ ?_ rfl
      · rcases hfs.head with h | ⟨y, r', rfl⟩
        · exact Or.inl h
        · refine Or.inr ⟨_, _, rfl, fun c hc => ?_⟩
          obtain ⟨_, _, _, _, _, f1, f2, f3, _⟩ := nameStart_facts hc
          exact ⟨f3, by rcases hcl with rfl | rfl <;> assumption⟩
      · rintro rfl p2 hat2
        cases hfs
        unfold instructionEnd
        rw [if_pos (by simp), wp_bind, wp_emit, wp_bind, wp_incPos, wp_bind]
        refine closeLen_wp (pre := pre) (k := c%'o') (body := body ++ ([0, 117] ++ n ++ encValue v) ++ endI) (by simp [hres, endI]) rfl ?_
        rw [wp_pure]
        exact ⟨rfl, _, by simp [encFields], hat2.punct.2⟩
      · rintro y r' p2 d rfl hf hd hq hat2
        rw [if_neg (by simpa using hd)]
        rcases hfs.head with h | ⟨m, r2, h⟩
        · cases h
        cases h
        refine wp_mono (assignLoop_complete (pre := pre) (body := body ++ ([0, 117] ++ n ++ encValue v)) fuel _ cl fs m r' rest hcl hfs hat2 (by simp [hres])) ?_
        intro crit s' hd
        obtain ⟨h2, p', h3, h4⟩ := hd
        exact ⟨h2, p', by rw [h3]; simp [encFields], h4⟩
end

end Parser
end Yarql
