import Verif.Proofs.ValueComplete

/-! # Completeness: directives, types, variable definitions -/

namespace Yarql
namespace Parser
open Grammar Doc

/-- Position `p` is the first character of the first token of `toks`. -/
def AtToks (cfg : PCfg) (p : Nat) (toks : List Tok) : Prop := ∃ x r, toks = x :: r ∧ AtTok cfg p x r

/-- The first character of the first token is none of `cs`. -/
def HeadNot (cs : List Byte) (toks : List Tok) : Prop := ∀ x r c, toks = x :: r → First x c → c ∉ cs

theorem AtToks.rem {cfg p toks} (h : AtToks cfg p toks) : Rem cfg p toks := by
  obtain ⟨x, r, rfl, h⟩ := h
  exact h.rem

theorem AtToks.not {cfg p toks cs c} (h : AtToks cfg p toks) (hn : HeadNot cs toks) (hc : cfg.query[p]? = some c) : c ∉ cs := by
  obtain ⟨x, r, rfl, h⟩ := h
  obtain ⟨d, hd, hf⟩ := h.first
  rw [hd] at hc
  cases hc
  exact hn x r _ rfl hf

theorem AtToks.get {cfg p toks} (h : AtToks cfg p toks) : ∃ c, cfg.query[p]? = some c := by
  obtain ⟨x, r, rfl, h⟩ := h
  obtain ⟨d, hd, hf⟩ := h.first
  exact ⟨d, hd⟩

theorem AtToks.inv {cfg p x r} (h : AtToks cfg p (x :: r)) : AtTok cfg p x r := by
  obtain ⟨_, _, h1, h⟩ := h
  cases h1
  exact h

theorem AtToks.inv' {cfg p x r a} (h : AtToks cfg p (a ++ x :: r)) (ha : a = []) : AtTok cfg p x r := by
  subst ha
  exact AtToks.inv h

theorem mightIgnore_toks {b cfg s toks} (h : Rem cfg s.charNr toks) (hne : toks ≠ []) :
    wp b mightIgnore cfg s (fun r s' => ∃ c p, r = some c ∧ s' = { s with charNr := p } ∧ cfg.query[p]? = some c ∧ AtToks cfg p toks) := by
  cases toks with
  | nil => exact absurd rfl hne
  | cons x r =>
    refine wp_mono (mightIgnore_rem h) ?_
    rintro _ _ ⟨c, p, h1, h2, _, h3, h4⟩
    exact ⟨c, p, h1, h2, h3, x, r, rfl, h4⟩

theorem HeadNot.mono {cs cs' toks} (h : HeadNot cs toks) (hs : ∀ c ∈ cs', c ∈ cs) : HeadNot cs' toks :=
  fun x r c h1 h2 h3 => h x r c h1 h2 (hs c h3)

/-! ## Directives -/

def DirDone (cfg : PCfg) (s : PS) (n : UInt8) (ds : List Directive) (rest : List Tok) (r : UInt8 × Bool) (s' : PS) : Prop :=
  r.2 = false ∧ r.1.toNat = n.toNat + ds.length ∧ ∃ p, s' = { s with res := s.res ++ encDirectives ds, charNr := p } ∧ AtToks cfg p rest

theorem parseDirectives_complete {cfg} : ∀ (fuel : Nat) (s : PS) (n : UInt8) (ds : List Directive) (td rest : List Tok), DirsT ds td →
    n.toNat + ds.length ≤ 255 → rest ≠ [] → HeadNot [c%'@'] rest → (HeadNot [c%'('] rest ∨ ∀ d, ds.getLast? = some d → d.args ≠ none) →
    Rem cfg s.charNr (td ++ rest) → wp True (parseDirectives fuel n) cfg s (DirDone cfg s n ds rest)
  | 0, _, _, _, _, _, _, _, _, _, _, _ => trivial
  | fuel + 1, s, n, ds, td, rest, hd, hn, hne, hat, hpar, hrem => by
    unfold parseDirectives
    rw [wp_bind]
    refine wp_mono (mightIgnore_toks hrem (by simp [hne])) ?_
    rintro _ _ ⟨c, p, rfl, rfl, hq, hats⟩
    dsimp only
    cases hd with
    | nil =>
      have := hats.not hat hq
      rw [if_pos (by simpa using this), wp_pure]
      exact ⟨rfl, by simp, p, by simp [encDirectives], hats⟩
    | @cons m a ta ds td' hm ha hds =>
      have hat1 := AtToks.inv hats
      obtain ⟨hq1, hat2⟩ := hat1.sigil
      rw [hq] at hq1
      cases hq1
      have hn255 : n.toNat ≠ 255 := by simp at hn; omega
      have hneq : ¬ (n == 255) = true := by
        simp only [beq_iff_eq]
        rintro rfl
        exact hn255 rfl
      rw [if_neg (by decide), if_neg hneq]
      unfold instructionNewDirective
      rw [wp_bind, wp_incPos, wp_bind, wp_emit, wp_bind, wp_resLen, wp_bind]
      dsimp only
      have hcons : ∃ y l, (ta ++ (td' ++ rest)) = y :: l := by
        cases h : ta ++ (td' ++ rest) with
        | nil => simp at h; exact absurd h.2.2 hne
        | cons y l => exact ⟨y, l, rfl⟩
      obtain ⟨y, l, hyl⟩ := hcons
      refine wp_mono (parseName_tok (s := { s with res := s.res ++ [0, c%'d', c%'f'], charNr := p + 1 }) (n := m) (t := y) (ts := l)
        (by rw [← hyl]; simpa using hat2)) ?_
      rintro ⟨k, crit⟩ s' ⟨rfl, _, h0, _, rfl, hrem2⟩
      simp only [Bool.false_eq_true, if_false] at h0 ⊢
      rw [h0, if_neg (by simp), wp_bind]
      rw [← hyl] at hrem2
      refine wp_mono (mightIgnore_toks hrem2 (by rw [hyl]; simp)) ?_
      rintro _ _ ⟨c, p2, rfl, rfl, hq2, hats2⟩
      dsimp only
      have hlast : HeadNot [c%'('] rest ∨ ∀ d, ds.getLast? = some d → d.args ≠ none := by
        rcases hpar with h | h
        · exact Or.inl h
        · refine Or.inr (fun d hd => h d ?_)
          rw [List.getLast?_cons]; simp [hd]
      cases ha with
      | none =>
        have hnp : HeadNot [c%'('] (td' ++ rest) := by
          cases hds with
          | nil =>
            rcases hpar with h | h
            · exact h
            · exact absurd rfl (h ⟨m, none⟩ rfl)
          | cons =>
            intro x r c h1 h2
            cases h1
            cases h2
            decide
        have := hats2.not hnp hq2
        rw [if_pos (by simpa using this)]
        refine wp_mono (parseDirectives_complete fuel _ (n + 1) ds td' rest hds (by rw [u8_succ hneq]; simp at hn; omega) hne hat hlast hats2.rem) ?_
        rintro r s' ⟨h1, h2, p', h3, h4⟩
        refine ⟨h1, by rw [h2, u8_succ hneq]; simp; omega, p', ?_, h4⟩
        rw [h3]; simp [encDirectives, encDirective, encArgs]
      | @some fs tf hf =>
        have hat3 := AtToks.inv hats2
        obtain ⟨hq3, hrem3⟩ := hat3.punct
        rw [hq2] at hq3
        cases hq3
        rw [if_neg (by decide), wp_bind]
        refine setRes_wp (a := s.res ++ [0, 100]) (x := 102) (c := m) (by simp) (by simp) ?_
        rw [wp_bind, wp_incPos, wp_bind]
        refine wp_mono (parseAssignmentSet_complete fuel _ c%')' fs tf (td' ++ rest) (Or.inr rfl) hf (by simpa using hrem3)) ?_
        rintro crit s3 ⟨rfl, p3, rfl, hrem4⟩
        rw [if_neg (by simp)]
        refine wp_mono (parseDirectives_complete fuel _ (n + 1) ds td' rest hds (by rw [u8_succ hneq]; simp at hn; omega) hne hat hlast hrem4) ?_
        rintro r s' ⟨h1, h2, p', h3, h4⟩
        refine ⟨h1, by rw [h2, u8_succ hneq]; simp; omega, p', ?_, h4⟩
        rw [h3]; simp [encDirectives, encDirective, encArgs]

/-! ## Types and variable definitions -/

theorem parseGraphqlTypeName_complete {cfg} : ∀ (fuel : Nat) (s : PS) (c : Byte) (ty : Ty) (ts rest : List Tok), TyT ty ts →
    rest ≠ [] → HeadNot [c%'!'] rest → AtToks cfg s.charNr (ts ++ rest) → cfg.query[s.charNr]? = some c →
    wp True (parseGraphqlTypeName fuel c) cfg s (ValDone cfg s (encTy ty) rest)
  | 0, _, _, _, _, _, _, _, _, _, _ => trivial
  | fuel + 1, s, c, ty, ts, rest, ht, hne, hbang, hat, hq => by
    unfold parseGraphqlTypeName
    rw [wp_bind, wp_resLen]
    have named : ∀ (n : Bytes) (nn : Bool) (tl : List Tok), IsName n → tl = (if nn then .punct c%'!' :: rest else rest) → AtToks cfg s.charNr (.name n :: tl) →
        wp True (do
          emit [c%'n']
          let (nameLen, crit) ← parseAndWriteName
          if crit then return crit
          if nameLen == 0 then errC b%"invalid typename char \"" (← currentC)
          else
          match ← mightIgnore with
          | none => unexpectedEOF
          | some c =>
          if c == c%'!' then
            setRes s.res.length c%'N'
            incPos
            return false
          else return false) cfg s (ValDone cfg s (encTy (.named n nn)) rest) := by
      intro n nn tl hn htl hat
      have htl' : ∃ y l, tl = y :: l := by
        cases tl with
        | nil => cases nn <;> simp at htl; exact absurd htl hne
        | cons y l => exact ⟨y, l, rfl⟩
      obtain ⟨y, l, rfl⟩ := htl'
      rw [wp_bind, wp_emit, wp_bind]
      refine wp_mono (parseName_tok (s := { s with res := s.res ++ [c%'n'] }) hat.inv) ?_
      rintro ⟨k, crit⟩ s' ⟨rfl, _, h0, _, rfl, hrem2⟩
      simp only [Bool.false_eq_true, if_false] at h0 ⊢
      rw [h0, if_neg (by simp), wp_bind]
      refine wp_mono (mightIgnore_toks hrem2 (by simp)) ?_
      rintro _ _ ⟨c, p2, rfl, rfl, hq2, hats2⟩
      dsimp only
      cases nn with
      | true =>
        rw [if_pos rfl] at htl
        rw [htl] at hats2
        obtain ⟨hq3, hrem3⟩ := hats2.inv.punct
        rw [hq2] at hq3
        cases hq3
        rw [if_pos (by decide), wp_bind]
        refine setRes_wp (a := s.res) (x := 110) (c := n) (by simp) rfl ?_
        rw [wp_bind, wp_incPos, wp_pure]
        exact ⟨rfl, _, by simp [encTy], hrem3⟩
      | false =>
        rw [if_neg (by simp)] at htl
        rw [htl] at hats2
        have := hats2.not hbang hq2
        rw [if_neg (by simpa using this), wp_pure]
        exact ⟨rfl, _, by simp [encTy], hats2.rem⟩
    -- the list forms
    have list : ∀ (t : Ty) (tt : List Tok) (nn : Bool), TyT t tt →
        AtToks cfg s.charNr (.punct c%'[' :: (tt ++ (if nn then Tok.listEndBang else .listEnd) :: rest)) →
        wp True (do
          emit [c%'l']
          incPos
          match ← mightIgnore with
          | none => unexpectedEOF
          | some c =>
          if ← parseGraphqlTypeName fuel c then return true
          match ← mightIgnore with
          | none => unexpectedEOF
          | some c =>
          if c != c%']' then errC b%"expected list closure (\"]\") but got \"" c
          else
          incPos
          match ← checkC (← getPos) with
          | none => unexpectedEOF
          | some c =>
          if c == c%'!' then
            setRes s.res.length c%'L'
            incPos
            return false
          else return false) cfg s (ValDone cfg s (encTy (.list t nn)) rest) := by
      intro t tt nn htt hat
      rw [wp_bind, wp_emit, wp_bind, wp_incPos, wp_bind]
      refine wp_mono (mightIgnore_toks (s := { s with res := s.res ++ [c%'l'], charNr := s.charNr + 1 }) hat.inv.punct.2 (by simp)) ?_
      rintro _ _ ⟨c, p2, rfl, rfl, hq2, hats2⟩
      dsimp only
      rw [wp_bind]
      refine wp_mono (parseGraphqlTypeName_complete fuel { s with res := s.res ++ [c%'l'], charNr := p2 } c t tt _ htt (by simp) ?_ hats2 hq2) ?_
      · intro x r c h1 h2
        cases nn with
        | true => simp at h1; rw [← h1.1] at h2; cases h2; decide
        | false => simp at h1; rw [← h1.1] at h2; cases h2; decide
      · rintro _ _ ⟨rfl, p3, rfl, hrem3⟩
        rw [if_neg (by simp), wp_bind]
        refine wp_mono (mightIgnore_toks (s := { s with res := s.res ++ [c%'l'] ++ encTy t, charNr := p3 }) hrem3 (by simp)) ?_
        rintro _ _ ⟨c, p4, rfl, rfl, hq4, hats4⟩
        dsimp only
        cases nn with
        | true =>
          obtain ⟨h5, h6, h7⟩ := (AtToks.inv hats4).listEndBang
          rw [hq4] at h5
          cases h5
          rw [if_neg (by decide), wp_bind, wp_incPos, wp_bind, wp_getPos, wp_bind, wp_checkC]
          dsimp only
          rw [h6]
          dsimp only
          rw [if_pos (by decide), wp_bind]
          refine setRes_wp (a := s.res) (x := 108) (c := encTy t) (by simp) rfl ?_
          rw [wp_bind, wp_incPos, wp_pure]
          exact ⟨rfl, _, by simp [encTy], h7⟩
        | false =>
          have h0 : AtTok cfg p4 .listEnd rest := AtToks.inv hats4
          obtain ⟨h5, h7, h6⟩ := h0.bracket
          rw [hq4] at h5
          cases h5
          rw [if_neg (by decide), wp_bind, wp_incPos, wp_bind, wp_getPos, wp_bind, wp_checkC]
          dsimp only
          have : ∃ d, cfg.query[p4 + 1]? = some d := by
            cases rest with
            | nil => exact absurd rfl hne
            | cons y l =>
              obtain ⟨c, r, hr⟩ := h7.ne
              exact ⟨c, get_of_drop hr⟩
          obtain ⟨d, hd⟩ := this
          rw [hd] at h6 ⊢
          dsimp only
          rw [if_neg (by simpa using h6), wp_pure]
          exact ⟨rfl, _, by simp [encTy], h7⟩
    cases ht with
    | @named n hn =>
      obtain ⟨_, hq', hf⟩ := hat.inv.first
      rw [hq] at hq'
      cases hq'
      obtain ⟨_, _, _, f, _⟩ := nameStart_facts hf
      rw [if_neg (by simpa using f)]
      exact named n false rest hn (by simp) hat
    | @namedNN n hn =>
      obtain ⟨_, hq', hf⟩ := hat.inv.first
      rw [hq] at hq'
      cases hq'
      obtain ⟨_, _, _, f, _⟩ := nameStart_facts hf
      rw [if_neg (by simpa using f)]
      exact named n true _ hn (by simp) hat
    | @list t tt htt =>
      obtain ⟨_, hq', hf⟩ := hat.inv.first
      rw [hq] at hq'
      cases hq'
      cases hf
      rw [if_pos (by decide)]
      exact list t tt false htt (by simpa using hat)
    | @listNN t tt htt =>
      obtain ⟨_, hq', hf⟩ := hat.inv.first
      rw [hq] at hq'
      cases hq'
      cases hf
      rw [if_pos (by decide)]
      exact list t tt true htt (by simpa using hat)

theorem _root_.Yarql.Grammar.TyT.ne {ty ts} (h : TyT ty ts) : ts ≠ [] := by
  cases h <;> simp

/-- One variable definition, entered on its name (behind the `$`). -/
theorem parseOperatorArgument_complete {cfg fuel s v n ts rest} (hv : VarT v (.sigil c%'$' n :: ts)) (hne : rest ≠ [])
    (hend : HeadNot [c%'!', c%'='] rest) (hat : AtTok cfg s.charNr (.name n) (ts ++ rest)) :
    wp True (parseOperatorArgument fuel) cfg s (ValDone cfg s (encVarDef v) rest) := by
  -- the two forms
  have key : ∃ ty tt dflt td, IsName n ∧ TyT ty tt ∧ v = ⟨n, ty, dflt⟩ ∧ ts = .punct c%':' :: (tt ++ td) ∧
      ((dflt = none ∧ td = []) ∨ ∃ d tv, dflt = some d ∧ td = .punct c%'=' :: tv ∧ ValT d tv) := by
    cases hv with
    | plain hn ht => exact ⟨_, _, none, [], hn, ht, rfl, by simp, Or.inl ⟨rfl, rfl⟩⟩
    | default hn ht hd => exact ⟨_, _, _, _, hn, ht, rfl, rfl, Or.inr ⟨_, _, rfl, rfl, hd⟩⟩
  obtain ⟨ty, tt, dflt, td, hn, htt, rfl, rfl, hd⟩ := key
  unfold parseOperatorArgument instructionNewOperationArg
  rw [wp_bind, wp_resLen, wp_bind, wp_bind, wp_emit, wp_bind, wp_resLen, wp_pure, wp_bind]
  refine wp_mono (parseName_tok (s := { s with res := s.res ++ [0, c%'a', 0, 0, 0, 0] }) hat) ?_
  rintro ⟨k, crit⟩ s' ⟨rfl, _, h0, _, rfl, hrem2⟩
  simp only [Bool.false_eq_true, if_false] at h0 ⊢
  rw [h0, if_neg (by simp), wp_bind]
  refine wp_mono (mightIgnore_rem hrem2) ?_
  rintro _ _ ⟨c, p2, rfl, rfl, hf, hq2, hat2⟩
  cases hf
  dsimp only
  rw [if_neg (by decide), wp_bind, wp_incPos, wp_bind, wp_emit, wp_bind]
  dsimp only
  refine wp_mono (mightIgnore_toks hat2.punct.2 (by simp [hne])) ?_
  rintro _ _ ⟨c, p3, rfl, rfl, hq3, hats3⟩
  dsimp only
  rw [wp_bind]
  refine wp_mono (parseGraphqlTypeName_complete fuel _ c ty tt (td ++ rest) htt (by simp [hne]) ?_ (by simpa using hats3) hq3) ?_
  · rcases hd with ⟨_, rfl⟩ | ⟨d, tv, _, rfl, _⟩
    · exact hend.mono (by simp)
    · intro x r c h1 h2
      cases h1
      cases h2
      decide
  rintro _ _ ⟨rfl, p4, rfl, hrem4⟩
  rw [if_neg (by simp), wp_bind, wp_emit, wp_bind]
  dsimp only
  refine wp_mono (mightIgnore_toks hrem4 (by simp [hne])) ?_
  rintro _ _ ⟨c, p5, rfl, rfl, hq5, hats5⟩
  dsimp only
  have fin : ∀ (p : Nat) (body : Bytes) (v : VarDef), body = encVarBody v → Rem cfg p rest →
      wp True (do
        let endOfArgument ← resLen
        writeUint32 (UInt32.ofNat (endOfArgument - (s.res.length + 1))) (List.length (s.res ++ [0, c%'a', 0, 0, 0, 0]) - 4)
        return false) cfg { s with res := s.res ++ ([0, 97] ++ ([0, 0, 0, 0] ++ body)), charNr := p } (ValDone cfg s (encVarDef v) rest) := by
    rintro p body v rfl hrem
    rw [wp_bind, wp_resLen, wp_bind]
    refine writeUint32_wp (a := s.res ++ [0, 97]) (z := [0, 0, 0, 0]) (c := encVarBody v) (by simp) rfl (by simp) ?_
    rw [wp_pure]
    have : (s.res ++ ([0, 97] ++ ([0, 0, 0, 0] ++ encVarBody v))).length - (s.res.length + 1) = (encVarBody v).length + 5 := by
      simp; omega
    refine ⟨rfl, p, ?_, hrem⟩
    dsimp only
    rw [this]; simp [encVarDef, len32]
  rcases hd with ⟨rfl, rfl⟩ | ⟨d, tv, rfl, rfl, hdv⟩
  · have := hats5.not (hend.mono (cs' := [c%'=']) (by simp)) hq5
    rw [if_neg (by simpa using this), wp_bind, wp_emit]
    have := fin p5 (n ++ [0] ++ encTy ty ++ [0] ++ [102]) ⟨n, ty, none⟩ (by simp [encVarBody]) hats5.rem
    simpa using this
  · obtain ⟨hq6, hrem6⟩ := (AtToks.inv hats5).punct
    rw [hq5] at hq6
    cases hq6
    rw [if_pos (by decide), wp_bind, wp_emit, wp_bind, wp_incPos, wp_bind]
    dsimp only
    refine wp_mono (mightIgnore_toks hrem6 (by simp [hne])) ?_
    rintro _ _ ⟨c, p7, rfl, rfl, hq7, hats7⟩
    dsimp only
    rw [wp_bind]
    cases rest with
    | nil => exact absurd rfl hne
    | cons y l =>
      refine wp_mono (parseInputValue_complete fuel _ d tv y l hdv hats7.rem) ?_
      rintro _ _ ⟨rfl, p8, rfl, hrem8⟩
      rw [if_neg (by simp)]
      have := fin p8 (n ++ [0] ++ encTy ty ++ [0] ++ (116 :: encValue d)) ⟨n, ty, some d⟩ (by simp [encVarBody]) hrem8
      simpa using this

theorem _root_.Yarql.Grammar.VarsT.head {vs ts} (h : VarsT vs ts) : ts = [] ∧ vs = [] ∨ ∃ n r, ts = .sigil c%'$' n :: r := by
  cases h with
  | nil => exact Or.inl ⟨rfl, rfl⟩
  | cons h1 _ _ => cases h1 <;> exact Or.inr ⟨_, _, rfl⟩

theorem operatorArgsLoop_complete {cfg} : ∀ (fuel : Nat) (s : PS) (vs : List VarDef) (cm ts rest : List Tok), OptComma cm → VarsT vs ts →
    Rem cfg s.charNr (cm ++ (ts ++ .punct c%')' :: rest)) →
    wp True (operatorArgsLoop fuel) cfg s (ValDone cfg s (encVarDefs vs ++ endI) rest)
  | 0, _, _, _, _, _, _, _, _ => trivial
  | fuel + 1, s, vs, cm, ts, rest, hcm, hvs, hrem => by
    unfold operatorArgsLoop
    refine sep_tok (t := mightIgnore) (cl := c%')') (c := cm) (ts := ts) (rest := rest)
      (fin := fun c => if c == c%')' then do
          incPos
          instructionEnd
          return false
        else if c != c%'$' then errC b%"expected \"$\" but got \"" c
        else do
        incPos
        if ← parseOperatorArgument fuel then return true
        operatorArgsLoop fuel) (by decide) hcm hrem ?_ ?_ ?_ rfl
    · rcases hvs.head with ⟨h, _⟩ | ⟨n, r, rfl⟩
      · exact Or.inl h
      · refine Or.inr ⟨_, _, rfl, fun c hc => ?_⟩
        cases hc
        decide
    · rintro rfl p2 hat2
      rcases hvs.head with ⟨_, rfl⟩ | ⟨n, r, h⟩
      · unfold instructionEnd
        rw [if_pos (by decide), wp_bind, wp_incPos, wp_bind, wp_emit, wp_pure]
        exact ⟨rfl, _, by simp [encVarDefs, endI], hat2.punct.2⟩
      · cases h
    · rintro y r' p2 d hts hf hd hq hat2
      cases hvs with
      | nil => cases hts
      | @cons v vs t c ts hv hc hvs =>
        obtain ⟨n, tr, rfl⟩ : ∃ n tr, t = .sigil c%'$' n :: tr := by cases hv <;> exact ⟨_, _, rfl⟩
        simp only [List.cons_append, List.cons.injEq] at hts
        obtain ⟨rfl, rfl⟩ := hts
        cases hf
        rw [if_neg (by decide), if_neg (by decide), wp_bind, wp_incPos, wp_bind]
        dsimp only
        obtain ⟨x, l, hx⟩ := cons_of_closing (c := c) (ts := ts) (cl := .punct c%')') (rest := rest)
        refine wp_mono (parseOperatorArgument_complete (rest := c ++ (ts ++ .punct c%')' :: rest)) hv (by rw [hx]; simp) ?_ (by simpa using hat2.sigil.2)) ?_
        · intro x r d h1 h2
          cases hc with
          | none =>
            rcases hvs.head with ⟨rfl, _⟩ | ⟨n, r, rfl⟩
            · cases h1; cases h2; decide
            · cases h1; cases h2; decide
          | comma => cases h1; cases h2; decide
        · rintro _ _ ⟨rfl, p3, rfl, hrem3⟩
          rw [if_neg (by simp)]
          refine wp_mono (operatorArgsLoop_complete fuel _ vs c ts rest hc hvs hrem3) ?_
          rintro crit s' ⟨h1, p', h2, h3⟩
          exact ⟨h1, p', by rw [h2]; simp [encVarDefs], h3⟩

theorem parseOperatorArguments_complete {cfg fuel s vs cm ts rest} (hcm : OptComma cm) (hvs : VarsT vs ts)
    (hrem : Rem cfg s.charNr (cm ++ (ts ++ .punct c%')' :: rest))) :
    wp True (parseOperatorArguments fuel) cfg s (ValDone cfg s ([0, c%'A'] ++ encVarDefs vs ++ endI) rest) := by
  unfold parseOperatorArguments instructionNewOperationArgs
  rw [wp_bind, wp_emit]
  refine wp_mono (operatorArgsLoop_complete fuel _ vs cm ts rest hcm hvs hrem) ?_
  rintro crit s' ⟨h1, p', h2, h3⟩
  exact ⟨h1, p', by rw [h2]; simp, h3⟩

end Parser
end Yarql
