import Verif.Proofs.DirComplete

/-! # Completeness: selection sets -/

namespace Yarql
namespace Parser
open Grammar Doc

/-- First tokens of a selection. -/
theorem _root_.Yarql.Grammar.SelT.head {s ts} (h : SelT s ts) : ∃ x r, ts = x :: r ∧ (x = .dots ∨ ∃ n, x = .name n) := by
  cases h with
  | field => exact ⟨_, _, rfl, Or.inr ⟨_, rfl⟩⟩
  | aliased => exact ⟨_, _, rfl, Or.inr ⟨_, rfl⟩⟩
  | spread => exact ⟨_, _, rfl, Or.inl rfl⟩
  | inline => exact ⟨_, _, rfl, Or.inl rfl⟩

theorem _root_.Yarql.Grammar.SelsT.head {ss ts} (h : SelsT ss ts) : (ts = [] ∧ ss = []) ∨ ∃ x r, ts = x :: r ∧ (x = .dots ∨ ∃ n, x = .name n) := by
  cases h with
  | nil => exact Or.inl ⟨rfl, rfl⟩
  | cons h1 _ _ =>
    obtain ⟨x, r, rfl, h⟩ := h1.head
    exact Or.inr ⟨_, _, rfl, h⟩

theorem selHead_first {x : Tok} (h : x = .dots ∨ ∃ n, x = .name n) {c : Byte} (hf : First x c) :
    c ∉ [c%'@', c%'(', c%'{', c%':', c%'}', c%','] := by
  rcases h with rfl | ⟨n, rfl⟩
  · cases hf; decide
  · obtain ⟨_, _, _, _, f0, f1, f2, f3, _, f5, f6, f7⟩ := nameStart_facts hf
    simp [f0, f1, f3, f5, f6, f7]

/-- What follows a selection. -/
theorem follow_head {cm ss ts rest} (hcm : OptComma cm) (hss : SelsT ss ts) :
    HeadNot [c%'@', c%'(', c%'{', c%':'] (cm ++ (ts ++ .punct c%'}' :: rest)) := by
  intro x r c h1 h2
  cases hcm with
  | comma => cases h1; cases h2; decide
  | none =>
    rcases hss.head with ⟨rfl, _⟩ | ⟨y, l, rfl, hy⟩
    · cases h1; cases h2; decide
    · cases h1
      have := selHead_first hy h2
      simp at this ⊢
      simp [this]

theorem body_head {sels tb rest} (h : BodyT sels tb) (hr : HeadNot [c%'@', c%'(', c%'{', c%':'] rest) :
    HeadNot [c%'@', c%'(', c%':'] (tb ++ rest) := by
  cases h with
  | none => exact hr.mono (by decide)
  | some => intro x r c h1 h2; cases h1; cases h2; decide

theorem args_head {args ta rest} (h : ArgsT args ta) (hr : HeadNot [c%'@', c%'(', c%':'] rest) :
    HeadNot [c%'@', c%':'] (ta ++ rest) := by
  cases h with
  | none => exact hr.mono (by simp)
  | some => intro x r c h1 h2; cases h1; cases h2; decide

theorem dirs_head {dirs td rest} (h : DirsT dirs td) (hr : HeadNot [c%'@', c%':'] rest) :
    HeadNot [c%':'] (td ++ rest) := by
  cases h with
  | nil => exact hr.mono (by simp)
  | cons => intro x r c h1 h2; cases h1; cases h2; decide

theorem selNext_complete {cfg s c cm ss ts rest} {again : P Bool} {Q : Bool → PS → Prop} (hcm : OptComma cm) (hss : SelsT ss ts)
    (hat : AtToks cfg s.charNr (cm ++ (ts ++ .punct c%'}' :: rest))) (hc : cfg.query[s.charNr]? = some c)
    (hend : ss = [] → ∀ p, Rem cfg p rest → Q false { s with charNr := p })
    (hag : ∀ p x r, ts = x :: r → AtTok cfg p x (r ++ .punct c%'}' :: rest) → wp True again cfg { s with charNr := p } Q) :
    wp True (selNext c again) cfg s Q := by
  have fin : ∀ p c, AtToks cfg p (ts ++ .punct c%'}' :: rest) → cfg.query[p]? = some c →
      wp True (if c == c%'}' then do
        incPos
        return false
      else again) cfg { s with charNr := p } Q := by
    intro p c hat hc
    rcases hss.head with ⟨rfl, hnil⟩ | ⟨y, l, rfl, hy⟩
    · have h0 : AtTok cfg p (.punct c%'}') rest := AtToks.inv hat
      obtain ⟨h1, h2⟩ := h0.punct
      rw [h1] at hc
      cases hc
      rw [if_pos (by decide), wp_bind, wp_incPos, wp_pure]
      exact hend hnil _ h2
    · have h0 := AtToks.inv hat
      obtain ⟨d, hd, hf⟩ := h0.first
      rw [hc] at hd
      cases hd
      have := selHead_first hy hf
      rw [if_neg (by simp at this; simp [this])]
      exact hag p y l rfl h0
  unfold selNext
  dsimp only
  cases hcm with
  | none =>
    have : c ≠ c%',' := by
      rcases hss.head with ⟨rfl, hnil⟩ | ⟨y, l, rfl, hy⟩
      · have h0 : AtTok cfg s.charNr (.punct c%'}') rest := AtToks.inv hat
        obtain ⟨h1, h2⟩ := h0.punct
        rw [h1] at hc
        cases hc
        decide
      · have h0 := AtToks.inv hat
        obtain ⟨d, hd, hf⟩ := h0.first
        rw [hc] at hd
        cases hd
        have := selHead_first hy hf
        simp at this
        simp [this]
    rw [if_neg (by simpa using this)]
    exact fin s.charNr c hat hc
  | comma =>
    have h0 : AtTok cfg s.charNr (.punct c%',') (ts ++ .punct c%'}' :: rest) := AtToks.inv hat
    obtain ⟨h1, h2⟩ := h0.punct
    rw [h1] at hc
    cases hc
    rw [if_pos (by decide), wp_bind, wp_incPos, wp_bind]
    refine wp_mono (mightIgnore_toks (s := { s with charNr := s.charNr + 1 }) h2 (by simp)) ?_
    rintro _ _ ⟨c, p, rfl, rfl, hq, hats⟩
    exact fin p c hats hq

/-- `...` is not a name -/
theorem parseName_dots {b cfg s ts} (h : AtTok cfg s.charNr .dots ts) :
    wp b parseAndWriteName cfg s (fun r s' => r = (0, false) ∧ s' = s) := by
  obtain ⟨c, hc, hf⟩ := h.first
  cases hf
  unfold parseAndWriteName
  rw [wp_bind, wp_getPos, wp_bind, wp_checkC, hc]
  dsimp only
  rw [if_neg (by decide), wp_pure]
  exact ⟨rfl, rfl⟩

theorem matchesDots {cfg s ts} (h : AtTok cfg s.charNr .dots ts) :
    wp True (matchesKw [b%"..."]) cfg s (fun r s' => r = some 0 ∧ s' = { s with charNr := s.charNr + 3 } ∧ Rem cfg (s.charNr + 3) ts) := by
  obtain ⟨h1, h2⟩ := h.dots
  refine wp_mono (matchesKw_wp [b%"..."] (by simp)) ?_
  rintro r s' (⟨rfl, rfl, h3⟩ | ⟨m, key, rfl, hg, _, rfl⟩)
  · exact absurd h1 (by simpa using h3)
  · have hm : m = 0 ∧ key = b%"..." := by
      cases m with
      | zero => simpa [eq_comm] using hg
      | succ m => simp at hg
    obtain ⟨rfl, rfl⟩ := hm
    exact ⟨rfl, rfl, h2⟩

theorem selLoop_dots {cfg fuel s ts} {Q : Bool → PS → Prop} (hat : AtTok cfg s.charNr .dots ts)
    (h : Rem cfg (s.charNr + 3) ts → wp True (spread fuel) cfg { s with charNr := s.charNr + 3 } Q) : wp True (selLoop (fuel + 1)) cfg s Q := by
  unfold selLoop instructionNewField
  rw [wp_bind, wp_emit, wp_bind, wp_resLen, wp_bind, wp_resLen, wp_bind, wp_emit, wp_bind]
  refine wp_mono (parseName_dots (s := { s with res := s.res ++ [0, c%'f', 0, 0, 0, 0, 0, 0, 0, 0, 0] ++ [0] }) hat) ?_
  rintro _ _ ⟨rfl, rfl⟩
  dsimp only
  rw [if_neg (by simp), wp_bind]
  refine setRes_wp (a := s.res ++ [0, 102, 0, 0, 0, 0, 0, 0, 0, 0, 0]) (x := 0) (c := []) rfl rfl ?_
  rw [if_pos (by simp), wp_bind, wp_resLen, wp_bind, wp_truncRes, if_pos (by simp)]
  have e : (s.res ++ [0, 102, 0, 0, 0, 0, 0, 0, 0, 0, 0] ++ [(0 : Byte)]).take
      ((s.res ++ [0, 102, 0, 0, 0, 0, 0, 0, 0, 0, 0] ++ [(0 : Byte)]).length - 12) = s.res := by
    rw [List.append_assoc]
    simp
  dsimp only
  rw [e, wp_bind]
  refine wp_mono (matchesDots hat) ?_
  rintro _ _ ⟨rfl, rfl, hrem⟩
  rw [if_pos (by simp)]
  exact h hrem

mutual
theorem parseSelectionSet_complete {cfg} : ∀ (fuel : Nat) (s : PS) (ss : List Sel) (ts rest : List Tok), SelsT ss ts →
    Rem cfg s.charNr (ts ++ .punct c%'}' :: rest) → wp True (parseSelectionSet fuel) cfg s (ValDone cfg s (encSels ss) rest)
  | 0, _, _, _, _, _, _ => by unfold parseSelectionSet; exact wp_oof.mpr trivial
  | fuel + 1, s, ss, ts, rest, hss, hrem => by
    unfold parseSelectionSet
    rw [wp_bind]
    refine wp_mono (mightIgnore_toks hrem (by simp)) ?_
    rintro _ _ ⟨c, p, rfl, rfl, hq, hats⟩
    dsimp only
    rcases hss.head with ⟨rfl, rfl⟩ | ⟨y, l, rfl, hy⟩
    · have h0 : AtTok cfg p (.punct c%'}') rest := AtToks.inv hats
      obtain ⟨h1, h2⟩ := h0.punct
      rw [h1] at hq
      cases hq
      rw [if_pos (by decide), wp_bind, wp_incPos, wp_pure]
      exact ⟨rfl, _, by simp [encSels], h2⟩
    · have h0 := AtToks.inv hats
      obtain ⟨d, hd, hf⟩ := h0.first
      rw [hq] at hd
      cases hd
      have := selHead_first hy hf
      rw [if_neg (by simp at this; simp [this])]
      exact wp_mono (selLoop_complete fuel { s with charNr := p } ss y l rest hss h0) (fun _ _ h => ValDone.shift (p := p) h)
  termination_by fuel => fuel

theorem selLoop_complete {cfg} : ∀ (fuel : Nat) (s : PS) (ss : List Sel) (x : Tok) (r rest : List Tok), SelsT ss (x :: r) →
    AtTok cfg s.charNr x (r ++ .punct c%'}' :: rest) → wp True (selLoop fuel) cfg s (ValDone cfg s (encSels ss) rest)
  | 0, _, _, _, _, _, _, _ => by unfold selLoop; exact wp_oof.mpr trivial
  | fuel + 1, s, ss, x, r, rest, hss, hat => by
    generalize htoks : x :: r = toks at hss
    cases hss with
    | nil => cases htoks
    | @cons sel ss t cm ts hsel hcm hss =>
      cases hsel with
      | @spread n dirs td hn hon hd hdl =>
        simp only [List.cons_append, List.cons.injEq] at htoks
        obtain ⟨rfl, rfl⟩ := htoks
        refine selLoop_dots hat (fun hrem => ?_)
        exact wp_mono (spread_complete fuel { s with charNr := s.charNr + 3 } _ ss _ cm ts rest (.spread hn hon hd hdl) hcm hss (by simpa using hrem))
          (fun _ _ h => ValDone.shift (p := s.charNr + 3) h)
      | @inline n dirs sels td tsel hn hd hdl hse =>
        simp only [List.cons_append, List.cons.injEq] at htoks
        obtain ⟨rfl, rfl⟩ := htoks
        refine selLoop_dots hat (fun hrem => ?_)
        exact wp_mono (spread_complete fuel { s with charNr := s.charNr + 3 } _ ss _ cm ts rest (.inline hn hd hdl hse) hcm hss (by simpa using hrem))
          (fun _ _ h => ValDone.shift (p := s.charNr + 3) h)
      | @field k dirs args sels td ta tb hk hd hdl ha hap hb =>
        unfold selLoop instructionNewField
        rw [wp_bind, wp_emit, wp_bind, wp_resLen, wp_bind, wp_resLen, wp_bind, wp_emit, wp_bind]
        dsimp only
        simp only [List.cons_append, List.cons.injEq] at htoks
        obtain ⟨rfl, rfl⟩ := htoks
        have hf0 := follow_head (rest := rest) hcm hss
        have hf1 := body_head hb hf0
        have hf2 := args_head ha hf1
        have hf3 := dirs_head hd hf2
        have hr0 : (td ++ (ta ++ tb)) ++ (cm ++ ts) ++ Tok.punct c%'}' :: rest = td ++ (ta ++ (tb ++ (cm ++ (ts ++ .punct c%'}' :: rest)))) := by simp
        rw [hr0] at hat
        have hne : td ++ (ta ++ (tb ++ (cm ++ (ts ++ .punct c%'}' :: rest)))) ≠ [] := by simp
        obtain ⟨y, l, hyl⟩ := List.exists_cons_of_ne_nil hne
        refine wp_mono (parseName_tok (s := { s with res := s.res ++ [0, c%'f', 0, 0, 0, 0, 0, 0, 0, 0, 0] ++ [0] }) (n := k) (t := y) (ts := l) (by rw [← hyl]; exact hat)) ?_
        rintro ⟨nl, crit⟩ s' ⟨rfl, hlen, h0, hnl, rfl, hrem⟩
        rw [← hyl] at hrem
        dsimp only at h0 hlen hnl ⊢
        rw [if_neg (by simp), wp_bind]
        refine setRes_wp (a := s.res ++ [0, 102, 0, 0, 0, 0, 0, 0, 0, 0, 0]) (x := 0) (c := k) (by simp) rfl ?_
        rw [if_neg (by rw [h0]; simp), wp_bind]
        dsimp only at hrem ⊢
        refine wp_mono (mightIgnore_toks hrem hne) ?_
        rintro _ _ ⟨c, p, rfl, rfl, hq, hats⟩
        dsimp only
        have hc := hats.not hf3 hq
        rw [wp_bind, wp_resLen, wp_bind, wp_emit, if_neg (by simpa using hc)]
        dsimp only
        rw [wp_bind, wp_sliceRes, if_pos (by simp; omega), wp_bind]
        rw [slice_mid (a := s.res ++ [0, 102, 0, 0, 0, 0, 0, 0, 0, 0, 0] ++ [nl]) (b := k) (c := [0]) (by simp) (by simp) (by simp [hlen]; try omega)]
        refine writeUint32_wp (a := s.res ++ [0, 102, 0, 0, 0, 0, 0]) (z := [0, 0, 0, 0]) (c := nl :: k ++ [0]) (by simp) rfl
          (by simp) ?_
        refine wp_mono (fieldTail_complete (pre := s.res) (h := Doc.fnv1 k) (body := nl :: k ++ [0])
          fuel _ _ _ c dirs args sels ss td ta tb cm ts rest (by simp [fnv1_eq]) (by simp) (by simp) hd hdl ha hap hb hcm hss hats hq) ?_
        rintro crit s' ⟨h1, p', h2, h3⟩
        refine ⟨h1, p', ?_, h3⟩
        rw [h2]
        simp [encSels, encSel, FieldOut, encFieldHead, hnl]
      | @aliased k n dirs args sels td ta tb hk hn hd hdl ha hap hb =>
        unfold selLoop instructionNewField
        rw [wp_bind, wp_emit, wp_bind, wp_resLen, wp_bind, wp_resLen, wp_bind, wp_emit, wp_bind]
        dsimp only
        simp only [List.cons_append, List.cons.injEq] at htoks
        obtain ⟨rfl, rfl⟩ := htoks
        have hr0 : Tok.punct c%':' :: Tok.name n :: (td ++ (ta ++ tb) ++ (cm ++ ts)) ++ Tok.punct c%'}' :: rest =
          .punct c%':' :: .name n :: (td ++ (ta ++ (tb ++ (cm ++ (ts ++ .punct c%'}' :: rest))))) := by simp
        rw [hr0] at hat
        have hne : td ++ (ta ++ (tb ++ (cm ++ (ts ++ .punct c%'}' :: rest)))) ≠ [] := by simp
        obtain ⟨y, l, hyl⟩ := List.exists_cons_of_ne_nil hne
        refine wp_mono (parseName_tok (s := { s with res := s.res ++ [0, c%'f', 0, 0, 0, 0, 0, 0, 0, 0, 0] ++ [0] }) hat) ?_
        rintro ⟨nl, crit⟩ s' ⟨rfl, hlen, h0, hnl, rfl, hrem⟩
        dsimp only at h0 hlen hnl ⊢
        rw [if_neg (by simp), wp_bind]
        refine setRes_wp (a := s.res ++ [0, 102, 0, 0, 0, 0, 0, 0, 0, 0, 0]) (x := 0) (c := k) (by simp) rfl ?_
        rw [if_neg (by rw [h0]; simp), wp_bind]
        dsimp only at hrem ⊢
        refine wp_mono (mightIgnore_rem hrem) ?_
        rintro _ _ ⟨c, p, rfl, rfl, hf, hq, hat1⟩
        cases hf
        dsimp only
        rw [wp_bind, wp_resLen, wp_bind, wp_emit, if_pos (by decide), wp_bind, wp_incPos, wp_bind]
        dsimp only
        refine wp_mono (mightIgnore_rem hat1.punct.2) ?_
        rintro _ _ ⟨c2, p2, rfl, rfl, hf2, hq2, hat2⟩
        dsimp only
        rw [wp_bind]
        rw [hyl] at hat2
        refine wp_mono (parseName_tok (n := n) hat2) ?_
        rintro ⟨nl2, crit⟩ s' ⟨rfl, hlen2, h02, hnl2, rfl, hrem2⟩
        rw [← hyl] at hrem2
        dsimp only at h02 hlen2 hnl2 ⊢
        rw [if_neg (by simp), if_neg (by rw [h02]; simp), wp_bind]
        refine setRes_wp (a := s.res ++ [0, 102, 0, 0, 0, 0, 0, 0, 0, 0, 0] ++ nl :: k) (x := 0) (c := n) (by simp) rfl ?_
        rw [wp_bind]
        refine wp_mono (mightIgnore_toks hrem2 hne) ?_
        rintro _ _ ⟨c3, p3, rfl, rfl, hq3, hats3⟩
        dsimp only
        rw [wp_bind, wp_sliceRes, if_pos (by simp; omega), wp_bind]
        rw [slice_mid (a := s.res ++ [0, 102, 0, 0, 0, 0, 0, 0, 0, 0, 0] ++ nl :: k ++ [nl2]) (b := n) (c := []) (by simp) (by simp; omega) (by simp [hlen2]; omega)]
        refine writeUint32_wp (a := s.res ++ [0, 102, 0, 0, 0, 0, 0]) (z := [0, 0, 0, 0]) (c := nl :: k ++ nl2 :: n) (by simp) rfl
          (by simp) ?_
        refine wp_mono (fieldTail_complete (pre := s.res) (h := Doc.fnv1 n) (body := nl :: k ++ nl2 :: n)
          fuel _ _ _ c3 dirs args sels ss td ta tb cm ts rest (by simp [fnv1_eq]) (by simp) (by simp) hd hdl ha hap hb hcm hss hats3 hq3) ?_
        rintro crit s' ⟨h1, p', h2, h3⟩
        refine ⟨h1, p', ?_, h3⟩
        rw [h2]
        simp [encSels, encSel, FieldOut, encFieldHead, hnl, hnl2]
  termination_by fuel => fuel

theorem fieldTail_complete {cfg pre h body} : ∀ (fuel : Nat) (s : PS) (dl sf : Nat) (c : Byte) (dirs : List Directive) (args : Option (List (Bytes × Value)))
    (sels ss : List Sel) (td ta tb cm ts rest : List Tok),
    s.res = pre ++ ([0, c%'f', 0] ++ ([0, 0, 0, 0] ++ (le32 h ++ body))) → dl = pre.length + 2 → sf = pre.length + 11 →
    DirsT dirs td → dirs.length ≤ 255 → ArgsT args ta → Apart dirs args → BodyT sels tb → OptComma cm → SelsT ss ts →
    AtToks cfg s.charNr (td ++ (ta ++ (tb ++ (cm ++ (ts ++ .punct c%'}' :: rest))))) → cfg.query[s.charNr]? = some c →
    wp True (fieldTail fuel dl sf c) cfg s (LoopDone cfg s (pre ++ FieldOut (UInt8.ofNat dirs.length) h
      (body ++ encDirectives dirs ++ encArgs args ++ encSels sels ++ endI) ss) rest)
  | 0, _, _, _, _, _, _, _, _, _, _, _, _, _, _, _, _, _, _, _, _, _, _, _, _, _, _ => by unfold fieldTail; exact wp_oof.mpr trivial
  | fuel + 1, s, dl, sf, c, dirs, args, sels, ss, td, ta, tb, cm, ts, rest, hr, hdl, hsf, hd, hdn, ha, hap, hb, hcm, hss, hats, hq => by
    subst hdl hsf
    unfold fieldTail
    have hf0 := follow_head (rest := rest) hcm hss
    have hf1 := body_head hb hf0
    have hf2 := args_head ha hf1
    cases hd with
    | nil =>
      have hc := hats.not (hf2.mono (cs' := [c%'@']) (by simp)) hq
      rw [if_neg (by simpa using hc)]
      have := fieldArgs_complete (pre := pre) (dc := 0) (h := h) (body := body) fuel s (pre.length + 11) c args sels ss ta tb cm ts rest hr rfl ha hb hcm hss
        (by simpa using hats) hq
      simpa [encDirectives] using this
    | @cons m a ta' ds td' hm hargs hds =>
      obtain ⟨hq1, _⟩ := (AtToks.inv hats).sigil
      rw [hq] at hq1
      cases hq1
      rw [if_pos (by decide), wp_bind]
      refine wp_mono (parseDirectives_complete fuel s 0 (⟨m, a⟩ :: ds) _ (ta ++ (tb ++ (cm ++ (ts ++ .punct c%'}' :: rest)))) (.cons hm hargs hds)
        (by simpa using hdn) (by simp) (hf2.mono (by simp)) ?_ hats.rem) ?_
      · rcases hap with rfl | hap
        · left
          cases ha
          exact hf1.mono (by simp)
        · exact Or.inr hap
      · rintro ⟨n, crit⟩ s1 ⟨rfl, hn, p, rfl, hats2⟩
        dsimp only at hn ⊢
        rw [wp_bind]
        refine setRes_wp (a := pre ++ [0, c%'f']) (x := 0) (c := [0, 0, 0, 0] ++ (le32 h ++ (body ++ encDirectives (⟨m, a⟩ :: ds)))) (by simp [hr]) (by simp) ?_
        obtain ⟨c2, hc2⟩ := hats2.get
        rw [if_neg (by simp), wp_bind]
        refine currentC_wp hc2 ?_
        have hn' : n.toNat = (⟨m, a⟩ :: ds : List Directive).length := by simpa using hn
        rw [← u8_ofNat_of hn']
        refine wp_mono (fieldArgs_complete (pre := pre) (dc := n) (h := h) (body := body ++ encDirectives (⟨m, a⟩ :: ds)) fuel _ (pre.length + 11) c2
          args sels ss ta tb cm ts rest (by simp) (by simp) ha hb hcm hss hats2 hc2) ?_
        rintro crit s' ⟨h1, p', h2, h3⟩
        exact ⟨h1, p', by rw [h2], h3⟩
  termination_by fuel => fuel

theorem fieldArgs_complete {cfg pre dc h body} : ∀ (fuel : Nat) (s : PS) (sf : Nat) (c : Byte) (args : Option (List (Bytes × Value)))
    (sels ss : List Sel) (ta tb cm ts rest : List Tok),
    s.res = pre ++ ([0, c%'f', dc] ++ ([0, 0, 0, 0] ++ (le32 h ++ body))) → sf = pre.length + 11 →
    ArgsT args ta → BodyT sels tb → OptComma cm → SelsT ss ts →
    AtToks cfg s.charNr (ta ++ (tb ++ (cm ++ (ts ++ .punct c%'}' :: rest)))) → cfg.query[s.charNr]? = some c →
    wp True (fieldArgs fuel sf c) cfg s (LoopDone cfg s (pre ++ FieldOut dc h (body ++ encArgs args ++ encSels sels ++ endI) ss) rest)
  | 0, _, _, _, _, _, _, _, _, _, _, _, _, _, _, _, _, _, _, _ => by unfold fieldArgs; exact wp_oof.mpr trivial
  | fuel + 1, s, sf, c, args, sels, ss, ta, tb, cm, ts, rest, hr, hsf, ha, hb, hcm, hss, hats, hq => by
    subst hsf
    unfold fieldArgs
    have hf0 := follow_head (rest := rest) hcm hss
    have hf1 := body_head hb hf0
    cases ha with
    | none =>
      have hc := hats.not (hf1.mono (cs' := [c%'(']) (by simp)) hq
      rw [if_neg (by simpa using hc)]
      have := fieldSel_complete (pre := pre) (dc := dc) (h := h) (body := body) fuel s (pre.length + 11) c sels ss tb cm ts rest hr rfl hb hcm hss
        (by simpa using hats) hq
      simpa [encArgs] using this
    | @some fs tf hf =>
      have hat0 := AtToks.inv hats
      obtain ⟨hq1, hrem1⟩ := hat0.punct
      rw [hq] at hq1
      cases hq1
      rw [if_pos (by decide), wp_bind, wp_incPos, wp_bind]
      refine wp_mono (mightIgnore_toks (s := { s with charNr := s.charNr + 1 }) hrem1 (by simp)) ?_
      rintro _ _ ⟨c2, p2, rfl, rfl, hq2, hats2⟩
      dsimp only
      rw [wp_bind]
      refine wp_mono (parseAssignmentSet_complete fuel { s with charNr := p2 } c%')' fs tf (tb ++ (cm ++ (ts ++ .punct c%'}' :: rest))) (Or.inr rfl) hf (by simpa using hats2.rem)) ?_
      rintro _ _ ⟨rfl, p3, rfl, hrem3⟩
      rw [if_neg (by simp), wp_bind]
      refine wp_mono (mightIgnore_toks (s := { s with res := s.res ++ encValue (.obj fs), charNr := p3 }) hrem3 (by simp)) ?_
      rintro _ _ ⟨c4, p4, rfl, rfl, hq4, hats4⟩
      dsimp only
      refine wp_mono (fieldSel_complete (pre := pre) (dc := dc) (h := h) (body := body ++ encValue (.obj fs)) fuel _ (pre.length + 11) c4 sels ss tb cm ts rest
        (by simp [hr]) rfl hb hcm hss hats4 hq4) ?_
      rintro crit s' ⟨h1, p', h2, h3⟩
      exact ⟨h1, p', by rw [h2]; simp [encArgs], h3⟩
  termination_by fuel => fuel

theorem fieldSel_complete {cfg pre dc h body} : ∀ (fuel : Nat) (s : PS) (sf : Nat) (c : Byte) (sels ss : List Sel) (tb cm ts rest : List Tok),
    s.res = pre ++ ([0, c%'f', dc] ++ ([0, 0, 0, 0] ++ (le32 h ++ body))) → sf = pre.length + 11 →
    BodyT sels tb → OptComma cm → SelsT ss ts →
    AtToks cfg s.charNr (tb ++ (cm ++ (ts ++ .punct c%'}' :: rest))) → cfg.query[s.charNr]? = some c →
    wp True (fieldSel fuel sf c) cfg s (LoopDone cfg s (pre ++ FieldOut dc h (body ++ encSels sels ++ endI) ss) rest)
  | 0, _, _, _, _, _, _, _, _, _, _, _, _, _, _, _, _ => by unfold fieldSel; exact wp_oof.mpr trivial
  | fuel + 1, s, sf, c, sels, ss, tb, cm, ts, rest, hr, hsf, hb, hcm, hss, hats, hq => by
    subst hsf
    have fin : ∀ (p : Nat) (c : Byte), AtToks cfg p (cm ++ (ts ++ .punct c%'}' :: rest)) → cfg.query[p]? = some c →
        wp True (do
          instructionEnd
          writeUint32 (UInt32.ofNat ((← resLen) - (pre.length + 11))) (pre.length + 11 - 8)
          selNext c (selLoop fuel)) cfg { s with res := s.res ++ encSels sels, charNr := p }
          (LoopDone cfg s (pre ++ FieldOut dc h (body ++ encSels sels ++ endI) ss) rest) := by
      intro p c hats hq
      unfold instructionEnd
      rw [wp_bind, wp_emit, wp_bind, wp_resLen, wp_bind]
      refine writeUint32_wp (a := pre ++ [0, c%'f', dc]) (z := [0, 0, 0, 0]) (c := le32 h ++ (body ++ encSels sels ++ endI)) (by simp [hr, endI]) rfl
        (by simp) ?_
      dsimp only
      have hlen : (s.res ++ encSels sels ++ [0, 101]).length - (pre.length + 11) = (body ++ encSels sels ++ endI).length := by
        rw [hr]; simp [endI, le32_length]; omega
      rw [hlen]
      refine selNext_complete hcm hss hats hq ?_ ?_
      · rintro rfl p' hrem
        exact ⟨rfl, p', by simp [FieldOut, encSels, len32], hrem⟩
      · rintro p' x r rfl hat
        refine wp_mono (selLoop_complete fuel _ ss x r rest hss hat) ?_
        rintro crit s' ⟨h1, p', h2, h3⟩
        exact ⟨h1, p', by rw [h2]; simp [FieldOut, len32], h3⟩
    unfold fieldSel
    have hf0 := follow_head (rest := rest) hcm hss
    cases hb with
    | none =>
      have hc := hats.not (hf0.mono (cs' := [c%'{']) (by simp)) hq
      rw [if_neg (by simpa using hc)]
      have := fin s.charNr c (by simpa using hats) hq
      simpa [encSels] using this
    | @some _ tsel hsel =>
      have hat0 := AtToks.inv hats
      obtain ⟨hq1, hrem1⟩ := hat0.punct
      rw [hq] at hq1
      cases hq1
      rw [if_pos (by decide), wp_bind, wp_incPos, wp_bind]
      refine wp_mono (parseSelectionSet_complete fuel { s with charNr := s.charNr + 1 } sels tsel (cm ++ (ts ++ .punct c%'}' :: rest)) hsel (by simpa using hrem1)) ?_
      rintro _ _ ⟨rfl, p3, rfl, hrem3⟩
      rw [if_neg (by simp), wp_bind]
      refine wp_mono (mightIgnore_toks (s := { s with res := s.res ++ encSels sels, charNr := p3 }) hrem3 (by simp)) ?_
      rintro _ _ ⟨c4, p4, rfl, rfl, hq4, hats4⟩
      exact fin p4 c4 hats4 hq4
  termination_by fuel => fuel

theorem spread_complete {cfg} : ∀ (fuel : Nat) (s : PS) (sel : Sel) (ss : List Sel) (tr cm ts rest : List Tok), SelT sel (.dots :: tr) →
    OptComma cm → SelsT ss ts → Rem cfg s.charNr (tr ++ (cm ++ (ts ++ .punct c%'}' :: rest))) →
    wp True (spread fuel) cfg s (ValDone cfg s (encSels (sel :: ss)) rest)
  | 0, _, _, _, _, _, _, _, _, _, _, _ => by unfold spread; exact wp_oof.mpr trivial
  | fuel + 1, s, sel, ss, tr, cm, ts, rest, hsel, hcm, hss, hrem => by
    unfold spread
    rw [wp_bind]
    cases hsel with
    | @spread n dirs td hn hon hd hdl =>
      refine wp_mono (mightIgnore_rem (t := .name n) (ts := td ++ (cm ++ (ts ++ .punct c%'}' :: rest))) (by simpa using hrem)) ?_
      rintro _ _ ⟨c, p, rfl, rfl, hf, hq, hat⟩
      dsimp only
      rw [wp_bind]
      refine wp_mono (matchesWord_tok (s := { s with charNr := p }) [b%"on"] (by simp [isName_on]) (by decide) hat) ?_
      rintro r s' (⟨rfl, rfl, hnn⟩ | ⟨m, rfl, hm, rfl, _⟩)
      · rw [if_neg (by decide)]
        exact wp_mono (spreadName_complete fuel { s with charNr := p } false n dirs [] ss td [] cm ts rest hn hd hdl .nil (by simp) hcm hss (by simpa using hat))
          (fun _ _ h => ValDone.shift (p := p) h)
      · exfalso
        cases m with
        | zero => simp at hm; exact hon hm.symm
        | succ m => simp at hm
    | @inline n dirs sels td tsel hn hd hdl hse =>
      refine wp_mono (mightIgnore_rem (t := .name b%"on") (ts := .name n :: (td ++ (.punct c%'{' :: (tsel ++ [.punct c%'}'])) ++ (cm ++ (ts ++ .punct c%'}' :: rest)))) (by simpa using hrem)) ?_
      rintro _ _ ⟨c, p, rfl, rfl, hf, hq, hat⟩
      dsimp only
      rw [wp_bind]
      refine wp_mono (matchesWord_tok (s := { s with charNr := p }) [b%"on"] (by simp [isName_on]) (by decide) hat) ?_
      rintro r s' (⟨rfl, rfl, hnn⟩ | ⟨m, rfl, hm, rfl, hrem2⟩)
      · simp at hnn
      · have : m = 0 := by
          cases m with
          | zero => rfl
          | succ m => simp at hm
        subst this
        rw [if_pos (by decide), wp_bind]
        refine wp_mono (mightIgnore_rem hrem2) ?_
        rintro _ _ ⟨c, p2, rfl, rfl, hf, hq, hat2⟩
        dsimp only
        exact wp_mono (spreadName_complete fuel { s with charNr := p2 } true n dirs sels ss td tsel cm ts rest hn hd hdl hse (by simp) hcm hss (by simpa using hat2))
          (fun _ _ h => ValDone.shift (p := p2) h)
  termination_by fuel => fuel

theorem spreadName_complete {cfg} : ∀ (fuel : Nat) (s : PS) (inl : Bool) (n : Bytes) (dirs : List Directive) (sels ss : List Sel) (td tsel cm ts rest : List Tok),
    IsName n → DirsT dirs td → dirs.length ≤ 255 → SelsT sels tsel → (inl = false → sels = []) → OptComma cm → SelsT ss ts →
    AtTok cfg s.charNr (.name n) (td ++ ((if inl then .punct c%'{' :: (tsel ++ [.punct c%'}']) else []) ++ (cm ++ (ts ++ .punct c%'}' :: rest)))) →
    wp True (spreadName fuel inl) cfg s (ValDone cfg s (encSels ((if inl then .inline n dirs sels else .spread n dirs) :: ss)) rest)
  | 0, _, _, _, _, _, _, _, _, _, _, _, _, _, _, _, _, _, _, _ => by unfold spreadName; exact wp_oof.mpr trivial
  | fuel + 1, s, inl, n, dirs, sels, ss, td, tsel, cm, ts, rest, hn, hd, hdl, hsel, hinl, hcm, hss, hat => by
    unfold spreadName
    rw [spreadInstr_eq, wp_bind, wp_emit, wp_bind, wp_resLen, wp_bind, wp_resLen, wp_bind]
    dsimp only
    have hf0 := follow_head (rest := rest) hcm hss
    have hf1 : HeadNot [c%'@', c%'('] ((if inl then .punct c%'{' :: (tsel ++ [.punct c%'}']) else []) ++ (cm ++ (ts ++ .punct c%'}' :: rest))) := by
      cases inl with
      | true => intro x r c h1 h2; cases h1; cases h2; decide
      | false => exact hf0.mono (by decide)
    have hne : (if inl then .punct c%'{' :: (tsel ++ [.punct c%'}']) else []) ++ (cm ++ (ts ++ .punct c%'}' :: rest)) ≠ [] := by simp
    generalize htl : (if inl then .punct c%'{' :: (tsel ++ [.punct c%'}']) else []) ++ (cm ++ (ts ++ .punct c%'}' :: rest)) = tl at hat hf1 hne
    have hne2 : td ++ tl ≠ [] := by simp [hne]
    obtain ⟨y, l, hyl⟩ := List.exists_cons_of_ne_nil hne2
    rw [hyl] at hat
    refine wp_mono (parseName_tok (s := { s with res := s.res ++ [0, c%'s', if inl then c%'t' else c%'f', 0, 0, 0, 0, 0] }) hat) ?_
    rintro ⟨nl, crit⟩ s' ⟨rfl, hlen, h0, hnl, rfl, hrem⟩
    rw [← hyl] at hrem
    dsimp only at h0 hlen hnl hrem ⊢
    rw [if_neg (by simp), wp_bind]
    refine wp_mono (mightIgnore_toks hrem hne2) ?_
    rintro _ _ ⟨c, p, rfl, rfl, hq, hats⟩
    dsimp only
    rw [if_neg (by rw [h0]; simp)]
    have mkSel : SpreadOut (if inl then c%'t' else c%'f') (UInt8.ofNat dirs.length)
        (if inl then (n ++ encDirectives dirs) ++ encSels sels ++ endI else (n ++ encDirectives dirs)) ss =
        encSels ((if inl then .inline n dirs sels else .spread n dirs) :: ss) := by
      cases inl with
      | true => simp [encSels, encSel, SpreadOut]
      | false => simp [encSels, encSel, SpreadOut]
    rw [← mkSel]
    cases hd with
    | nil =>
      have hc := hats.not (hf1.mono (cs' := [c%'@']) (by simp)) hq
      rw [if_neg (by simpa using hc)]
      subst htl
      refine wp_mono (spreadTail_complete (pre := s.res) (dc := 0) (body := n) fuel _ inl _ c sels ss tsel cm ts rest (by simp) (by simp) hsel hcm hss
        (by simpa using hats) hq) ?_
      rintro crit s' ⟨h1, p', h2, h3⟩
      exact ⟨h1, p', by rw [h2]; simp [encDirectives], h3⟩
    | @cons m a ta' ds td' hm hargs hds =>
      obtain ⟨hq1, _⟩ := (AtToks.inv hats).sigil
      rw [hq] at hq1
      cases hq1
      rw [if_pos (by decide), wp_bind]
      refine wp_mono (parseDirectives_complete fuel _ 0 (⟨m, a⟩ :: ds) _ tl (.cons hm hargs hds)
        (by simpa using hdl) hne (hf1.mono (by simp)) (Or.inl (hf1.mono (by simp))) hats.rem) ?_
      rintro ⟨k, crit⟩ s1 ⟨rfl, hn, p, rfl, hats2⟩
      dsimp only at hn ⊢
      rw [wp_bind]
      refine setRes_wp (a := s.res ++ [0, c%'s', if inl then c%'t' else c%'f']) (x := 0) (c := [0, 0, 0, 0] ++ (n ++ encDirectives (⟨m, a⟩ :: ds)))
        (by simp) (by simp) ?_
      obtain ⟨c2, hc2⟩ := hats2.get
      rw [if_neg (by simp), wp_bind]
      refine currentC_wp hc2 ?_
      have hn' : k.toNat = (⟨m, a⟩ :: ds : List Directive).length := by simpa using hn
      rw [← u8_ofNat_of hn']
      subst htl
      refine wp_mono (spreadTail_complete (pre := s.res) (dc := k) (body := n ++ encDirectives (⟨m, a⟩ :: ds)) fuel _ inl _ c2 sels ss tsel cm ts rest
        (by simp) (by simp) hsel hcm hss hats2 hc2) ?_
      rintro crit s' ⟨h1, p', h2, h3⟩
      exact ⟨h1, p', by rw [h2], h3⟩
  termination_by fuel => fuel

theorem spreadTail_complete {cfg pre dc body} : ∀ (fuel : Nat) (s : PS) (inl : Bool) (sf : Nat) (c : Byte) (sels ss : List Sel) (tsel cm ts rest : List Tok),
    s.res = pre ++ ([0, c%'s', if inl then c%'t' else c%'f', dc] ++ ([0, 0, 0, 0] ++ body)) → sf = pre.length + 8 →
    SelsT sels tsel → OptComma cm → SelsT ss ts →
    AtToks cfg s.charNr ((if inl then .punct c%'{' :: (tsel ++ [.punct c%'}']) else []) ++ (cm ++ (ts ++ .punct c%'}' :: rest))) → cfg.query[s.charNr]? = some c →
    wp True (spreadTail fuel inl sf c) cfg s (LoopDone cfg s
      (pre ++ SpreadOut (if inl then c%'t' else c%'f') dc (if inl then body ++ encSels sels ++ endI else body) ss) rest)
  | 0, _, _, _, _, _, _, _, _, _, _, _, _, _, _, _, _, _ => by unfold spreadTail; exact wp_oof.mpr trivial
  | fuel + 1, s, inl, sf, c, sels, ss, tsel, cm, ts, rest, hr, hsf, hsel, hcm, hss, hats, hq => by
    subst hsf
    have fin : ∀ (p : Nat) (c : Byte) (o : Bytes) (s1 : PS), s1 = { s with res := pre ++ ([0, c%'s', if inl then c%'t' else c%'f', dc] ++ ([0, 0, 0, 0] ++ o)), charNr := p } →
        AtToks cfg p (cm ++ (ts ++ .punct c%'}' :: rest)) → cfg.query[p]? = some c →
        wp True (do
          writeUint32 (UInt32.ofNat ((← resLen) - (pre.length + 8))) (pre.length + 8 - 4)
          selNext c (selLoop fuel)) cfg s1
          (LoopDone cfg s (pre ++ SpreadOut (if inl then c%'t' else c%'f') dc o ss) rest) := by
      rintro p c o _ rfl hats hq
      rw [wp_bind, wp_resLen, wp_bind]
      refine writeUint32_wp (a := pre ++ [0, c%'s', if inl then c%'t' else c%'f', dc]) (z := [0, 0, 0, 0]) (c := o) (by simp) rfl
        (by simp) ?_
      dsimp only
      have hlen : (pre ++ ([0, c%'s', if inl then c%'t' else c%'f', dc] ++ ([0, 0, 0, 0] ++ o))).length - (pre.length + 8) = o.length := by
        simp; omega
      rw [hlen]
      refine selNext_complete hcm hss hats hq ?_ ?_
      · rintro rfl p' hrem
        exact ⟨rfl, p', by simp [SpreadOut, encSels, len32], hrem⟩
      · rintro p' x r rfl hat
        refine wp_mono (selLoop_complete fuel _ ss x r rest hss hat) ?_
        rintro crit s' ⟨h1, p', h2, h3⟩
        exact ⟨h1, p', by rw [h2]; simp [SpreadOut, len32], h3⟩
    unfold spreadTail
    cases inl with
    | false =>
      rw [if_neg (by simp)]
      exact fin s.charNr c body s (by rw [← hr]) (by simpa using hats) hq
    | true =>
      have hat0 : AtTok cfg s.charNr (.punct c%'{') (tsel ++ .punct c%'}' :: (cm ++ (ts ++ .punct c%'}' :: rest))) := by simpa using AtToks.inv hats
      obtain ⟨hq1, hrem1⟩ := hat0.punct
      rw [hq] at hq1
      cases hq1
      rw [if_pos rfl, if_neg (by decide), wp_bind, wp_incPos, wp_bind]
      refine wp_mono (parseSelectionSet_complete fuel { s with charNr := s.charNr + 1 } sels tsel (cm ++ (ts ++ .punct c%'}' :: rest)) hsel hrem1) ?_
      rintro _ _ ⟨rfl, p3, rfl, hrem3⟩
      unfold instructionEnd
      rw [wp_bind, wp_emit, wp_bind]
      refine wp_mono (mightIgnore_toks (s := { s with res := s.res ++ encSels sels ++ [0, c%'e'], charNr := p3 }) hrem3 (by simp)) ?_
      rintro _ _ ⟨c4, p4, rfl, rfl, hq4, hats4⟩
      exact fin p4 c4 (body ++ encSels sels ++ endI) _ (by simp [hr, endI]) hats4 hq4
  termination_by fuel => fuel
end

end Parser
end Yarql
