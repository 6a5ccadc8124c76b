import Verif.Proofs.DirSound

/-! # Selection sets: safety and soundness -/

namespace Yarql
namespace Parser
open Grammar Doc

theorem fnv1_eq (n : Bytes) : fnv1 n = Doc.fnv1 n := rfl

/-- Post-condition of the selection functions with output `pre` before the selections. -/
def SelPost (cfg : PCfg) (pre : Bytes) (s : PS) : Bool → PS → Prop :=
  Post cfg pre (fun out => ∃ ss, selsWF ss ∧ out = encSels ss) s

theorem selNext_wp {b cfg s c} {again : P Bool} {Q : Bool → PS → Prop} (hc : cfg.query[s.charNr]? = some c)
    (hend : ∀ p, s.charNr < p → Q false { s with charNr := p })
    (heof : ∀ p m t, s.charNr ≤ p → Q true { s with charNr := p, errs := s.errs ++ [mkErr cfg t m] })
    (hag : ∀ p, s.charNr ≤ p → p < cfg.query.length → wp b again cfg { s with charNr := p } Q) :
    wp b (selNext c again) cfg s Q := by
  unfold selNext
  have hlt := query_lt hc
  dsimp only
  refine wp_if (fun h1 => ?_) (fun h1 => ?_)
  · rw [wp_bind, wp_incPos, wp_bind]
    refine wp_mono mightIgnore_wp ?_
    rintro (_ | c2) s1 ⟨p2, rfl, hp2, hq2⟩
    · dsimp only
      rw [wp_unexpectedEOF]
      exact heof p2 _ _ (by simp at hp2; omega)
    · dsimp only
      simp only at hp2
      refine wp_if (fun h1 => ?_) (fun h1 => ?_)
      · rw [wp_bind, wp_incPos, wp_pure]
        exact hend (p2 + 1) (by omega)
      · exact hag p2 (by omega) (query_lt hq2)
  · refine wp_if (fun h1 => ?_) (fun h1 => ?_)
    · rw [wp_bind, wp_incPos, wp_pure]
      exact hend _ (by omega)
    · exact hag s.charNr (by omega) hlt

/-- Output of a field whose header has been written. -/
def FieldOut (dc : Byte) (h : UInt32) (body : Bytes) (ss : List Sel) : Bytes :=
  [0, c%'f', dc] ++ (len32 body.length ++ (le32 h ++ (body ++ encSels ss)))

/-- Output of a spread whose header has been written. -/
def SpreadOut (tf dc : Byte) (body : Bytes) (ss : List Sel) : Bytes :=
  [0, c%'s', tf, dc] ++ (len32 body.length ++ (body ++ encSels ss))

/-- Post-condition of `fieldSel` -/
def FieldSelPost (cfg : PCfg) (pre : Bytes) (dc : Byte) (h : UInt32) (body : Bytes) (s : PS) : Bool → PS → Prop :=
  Post cfg pre (fun out => ∃ sels ss, selsWF sels ∧ selsWF ss ∧ out = FieldOut dc h (body ++ encSels sels ++ endI) ss) s

/-- Post-condition of `fieldArgs` -/
def FieldArgsPost (cfg : PCfg) (pre : Bytes) (dc : Byte) (h : UInt32) (body : Bytes) (s : PS) : Bool → PS → Prop :=
  Post cfg pre (fun out => ∃ args sels ss, argsWF args ∧ selsWF sels ∧ selsWF ss ∧
    out = FieldOut dc h (body ++ encArgs args ++ encSels sels ++ endI) ss) s

/-- Post-condition of `fieldTail` -/
def FieldTailPost (cfg : PCfg) (pre : Bytes) (h : UInt32) (body : Bytes) (s : PS) : Bool → PS → Prop :=
  Post cfg pre (fun out => ∃ dirs args sels ss, dirsWF dirs ∧ argsWF args ∧ selsWF sels ∧ selsWF ss ∧
    out = FieldOut (UInt8.ofNat dirs.length) h (body ++ encDirectives dirs ++ encArgs args ++ encSels sels ++ endI) ss) s

/-- Post-condition of `spreadTail` -/
def SpreadTailPost (cfg : PCfg) (pre : Bytes) (inl : Bool) (dc : Byte) (body : Bytes) (s : PS) : Bool → PS → Prop :=
  Post cfg pre (fun out => ∃ sels ss, selsWF sels ∧ selsWF ss ∧
    out = SpreadOut (if inl then c%'t' else c%'f') dc (if inl then body ++ encSels sels ++ endI else body) ss) s

theorem u8_ofNat_of {n : UInt8} {k : Nat} (h : n.toNat = k) : n = UInt8.ofNat k := by
  subst h; simp

theorem slice_mid {l a b c : Bytes} {i j : Nat} (hl : l = a ++ (b ++ c)) (hi : i = a.length) (hj : j = a.length + b.length) :
    (l.take j).drop i = b := by
  subst hl hi hj
  rw [List.take_length_add_append, List.take_left, List.drop_left]

theorem spreadInstr_eq (inl : Bool) : instructionNewFragmentSpread inl =
    emit [0, c%'s', if inl then c%'t' else c%'f', 0, 0, 0, 0, 0] := by
  cases inl <;> rfl

mutual
theorem parseSelectionSet_sound {b cfg} : ∀ (fuel : Nat) (s : PS), Fuel cfg s 2 fuel →
    wp b (parseSelectionSet fuel) cfg s (SelPost cfg s.res s)
  | 0, s, hf => by unfold Fuel at hf; omega
  | fuel + 1, s, hf => by
    unfold Fuel at hf
    unfold parseSelectionSet
    rw [wp_bind]
    refine wp_mono mightIgnore_wp ?_
    rintro (_ | c) s1 ⟨p, rfl, hp, hq⟩
    · dsimp only
      rw [wp_unexpectedEOF]
      exact Mid.refl.fail (by simpa using hp) rfl rfl rfl ⟨[], by simp⟩
    · dsimp only
      have hlt := query_lt hq
      refine wp_if (fun h1 => ?_) (fun h1 => ?_)
      · wps
        have := Post.good (cfg := cfg) (pre := s.res) (V := fun out => ∃ ss, selsWF ss ∧ out = encSels ss) (s := s) (out := []) (p := p + 1)
          ⟨[], trivial, rfl⟩ (by omega)
        rw [List.append_nil] at this; exact this
      · refine wp_mono (selLoop_sound fuel _ (by unfold Fuel; simp; omega)) ?_
        intro crit s' h
        exact Post.step h (Ext.of (by simpa using hp) rfl rfl rfl) (fun _ _ h => h)
  termination_by fuel => fuel

theorem selLoop_sound {b cfg} : ∀ (fuel : Nat) (s : PS), Fuel cfg s 1 fuel →
    wp b (selLoop fuel) cfg s (SelPost cfg s.res s)
  | 0, s, hf => by unfold Fuel at hf; omega
  | fuel + 1, s, hf => by
    unfold Fuel at hf
    unfold selLoop instructionNewField
    rw [wp_bind, wp_emit, wp_bind, wp_resLen, wp_bind, wp_resLen, wp_bind, wp_emit, wp_bind]
    refine wp_mono parseAndWriteName_sound ?_
    rintro ⟨nl, crit⟩ s' (⟨rfl, out, p', m, t, hp', rfl⟩ | ⟨h, rfl, hlt'⟩ | ⟨rfl, name, hnm, hlen, hlt', rfl⟩)
    · dsimp only
      rw [if_pos rfl, wp_pure]
      exact Mid.refl.fail (by simpa using hp') rfl rfl rfl ⟨_, by simp; rfl⟩
    · cases h
      dsimp only
      rw [if_neg (by simp), wp_bind]
      refine setRes_wp (a := s.res ++ [0, 102, 0, 0, 0, 0, 0, 0, 0, 0, 0]) (x := 0) (c := []) rfl rfl ?_
      rw [if_pos (by simp), wp_bind, wp_resLen, wp_bind, wp_truncRes, if_pos (by simp)]
      have e : (s.res ++ [0, 102, 0, 0, 0, 0, 0, 0, 0, 0, 0] ++ [(0 : Byte)]).take
          ((s.res ++ [0, 102, 0, 0, 0, 0, 0, 0, 0, 0, 0] ++ [(0 : Byte)]).length - 12) = s.res := by
        rw [List.append_assoc]
        simp
      dsimp only
      rw [e, wp_bind]
      refine wp_mono (matchesKw_wp [b%"..."] (by simp)) ?_
      rintro r s' (⟨rfl, rfl, _⟩ | ⟨m, key, rfl, hg, _, rfl⟩)
      · rw [if_neg (by simp)]
        simp only at hlt'
        wps
        rw [List.getElem?_eq_getElem hlt']
        exact Mid.refl.fail (by simp) rfl rfl rfl ⟨[], by simp⟩
      · have hm : m = 0 ∧ key = b%"..." := by
          cases m with
          | zero => simpa [eq_comm] using hg
          | succ m => simp at hg
        obtain ⟨rfl, rfl⟩ := hm
        rw [if_pos (by simp)]
        refine wp_mono (spread_sound fuel _ (by unfold Fuel; simp; simp at hlt'; omega)) ?_
        intro crit s' h
        exact Post.step h (Ext.of (by simp) rfl rfl rfl) (fun _ _ h => h)
    · simp only at hlen hlt'
      have hnp := name_pos hnm
      have hnl := u8_ofNat_of hlen
      dsimp only
      rw [if_neg (by simp), wp_bind]
      refine setRes_wp (a := s.res ++ [0, 102, 0, 0, 0, 0, 0, 0, 0, 0, 0]) (x := 0) (c := name) (by simp) rfl ?_
      rw [if_neg (by rw [name_ne_zero hnm hlen]; simp), wp_bind]
      refine wp_mono mightIgnore_wp ?_
      rintro (_ | c) s1 ⟨p, rfl, hp, hq⟩
      · dsimp only
        rw [wp_unexpectedEOF]
        exact Mid.refl.fail (by simp at hp ⊢; omega) rfl rfl rfl ⟨_, by simp; rfl⟩
      · simp only at hp
        have hlt := query_lt hq
        dsimp only
        rw [wp_bind, wp_resLen, wp_bind, wp_emit]
        refine wp_if (fun h1 => ?_) (fun h1 => ?_)
        · rw [wp_bind, wp_incPos, wp_bind]
          refine wp_mono mightIgnore_wp ?_
          rintro (_ | c2) s1 ⟨p2, rfl, hp2, hq2⟩
          · dsimp only
            rw [wp_unexpectedEOF]
            exact Mid.refl.fail (by simp at hp2 ⊢; omega) rfl rfl rfl ⟨_, by simp; rfl⟩
          · simp only at hp2
            dsimp only
            rw [wp_bind]
            refine wp_mono parseAndWriteName_sound ?_
            rintro ⟨nl2, crit⟩ s' (⟨rfl, out, p', m, t, hp', rfl⟩ | ⟨h, rfl, hlt''⟩ | ⟨rfl, name2, hnm2, hlen2, hlt2, rfl⟩)
            · dsimp only
              rw [if_pos rfl, wp_pure]
              exact Mid.refl.fail (by simp at hp' ⊢; omega) rfl rfl rfl ⟨_, by simp; rfl⟩
            · cases h
              dsimp only
              rw [if_neg (by simp), if_pos (by simp), wp_errC]
              exact Mid.refl.fail (by simp; omega) rfl rfl rfl ⟨_, by simp; rfl⟩
            · simp only at hlen2 hlt2
              have hnp2 := name_pos hnm2
              have hnl2 := u8_ofNat_of hlen2
              dsimp only
              rw [if_neg (by simp), if_neg (by rw [name_ne_zero hnm2 hlen2]; simp), wp_bind]
              refine setRes_wp (a := s.res ++ [0, 102, 0, 0, 0, 0, 0, 0, 0, 0, 0] ++ nl :: name) (x := 0) (c := name2) (by simp) rfl ?_
              rw [wp_bind]
              refine wp_mono mightIgnore_wp ?_
              rintro (_ | c3) s1 ⟨p3, rfl, hp3, hq3⟩
              · dsimp only
                rw [wp_unexpectedEOF]
                exact Mid.refl.fail (by simp at hp3 ⊢; omega) rfl rfl rfl ⟨_, by simp; rfl⟩
              · simp only at hp3
                have hlt3 := query_lt hq3
                dsimp only
                rw [wp_bind, wp_sliceRes, if_pos (by simp; omega), wp_bind]
                rw [slice_mid (a := s.res ++ [0, 102, 0, 0, 0, 0, 0, 0, 0, 0, 0] ++ nl :: name ++ [nl2]) (b := name2) (c := []) (by simp) (by simp; omega) (by simp [hlen2]; omega)]
                refine writeUint32_wp (a := s.res ++ [0, 102, 0, 0, 0, 0, 0]) (z := [0, 0, 0, 0]) (c := nl :: name ++ nl2 :: name2) (by simp) rfl
                  (by simp) ?_
                refine wp_mono (fieldTail_sound (pre := s.res) (h := Doc.fnv1 name2) (body := nl :: name ++ nl2 :: name2)
                  fuel _ _ _ c3 (by unfold Fuel; simp; omega) (by simp [fnv1_eq]) (by simp) (by simp) hq3) ?_
                intro crit s' h
                refine Post.step h (Ext.of (by simp; omega) rfl rfl rfl) ?_
                rintro _ out ⟨dirs, args, sels, ss, hd, ha, hse, hss, rfl⟩
                refine ⟨.field name (some name2) dirs args sels :: ss, ⟨⟨hnm, by simp [hnm2], hd, ha, hse⟩, hss⟩, ?_⟩
                simp [encSels, encSel, FieldOut, encFieldHead, hnl, hnl2]
        · rw [wp_bind, wp_sliceRes, if_pos (by simp; omega), wp_bind]
          rw [slice_mid (a := s.res ++ [0, 102, 0, 0, 0, 0, 0, 0, 0, 0, 0] ++ [nl]) (b := name) (c := [0]) (by simp) (by simp) (by simp [hlen]; try omega)]
          refine writeUint32_wp (a := s.res ++ [0, 102, 0, 0, 0, 0, 0]) (z := [0, 0, 0, 0]) (c := nl :: name ++ [0]) (by simp) rfl
            (by simp) ?_
          refine wp_mono (fieldTail_sound (pre := s.res) (h := Doc.fnv1 name) (body := nl :: name ++ [0])
            fuel _ _ _ c (by unfold Fuel; simp; omega) (by simp [fnv1_eq]) (by simp) (by simp) hq) ?_
          intro crit s' h
          refine Post.step h (Ext.of (by simp; omega) rfl rfl rfl) ?_
          rintro _ out ⟨dirs, args, sels, ss, hd, ha, hse, hss, rfl⟩
          refine ⟨.field name none dirs args sels :: ss, ⟨⟨hnm, by simp, hd, ha, hse⟩, hss⟩, ?_⟩
          simp [encSels, encSel, FieldOut, encFieldHead, hnl]
  termination_by fuel => fuel

theorem fieldTail_sound {b cfg pre h body} : ∀ (fuel : Nat) (s : PS) (dl sf : Nat) (c : Byte), Fuel cfg s 5 fuel →
    s.res = pre ++ ([0, c%'f', 0] ++ ([0, 0, 0, 0] ++ (le32 h ++ body))) →
    dl = pre.length + 2 → sf = pre.length + 11 → cfg.query[s.charNr]? = some c →
    wp b (fieldTail fuel dl sf c) cfg s (FieldTailPost cfg pre h body s)
  | 0, s, dl, sf, c, hf, hr, hd, hs, hc => by unfold Fuel at hf; omega
  | fuel + 1, s, dl, sf, c, hf, hr, hd, hs, hc => by
    unfold Fuel at hf
    subst hd hs
    unfold fieldTail
    refine wp_if (fun h1 => ?_) (fun h1 => ?_)
    · rw [wp_bind]
      refine wp_mono (parseDirectives_sound fuel s 0 (by unfold Fuel; omega)) ?_
      rintro ⟨n, crit⟩ s1 ⟨h2, h3, h4, out, h5, h6⟩
      dsimp only at h3 h4 h5 h6 ⊢
      rw [wp_bind]
      refine setRes_wp (a := pre ++ [0, c%'f']) (x := 0) (c := [0, 0, 0, 0] ++ (le32 h ++ (body ++ out))) (by simp [h5, hr]) (by simp) ?_
      cases crit with
      | true =>
        rw [if_pos rfl, wp_pure]
        have := h3 rfl
        exact ⟨h2.trans (Ext.of (by simp) rfl rfl rfl), fun _ => this, by simp, _, by rw [List.append_assoc], by simp; omega⟩
      | false =>
        obtain ⟨c2, hc2⟩ := h4 rfl
        have hp := h2.pos
        rw [if_neg (by simp), wp_bind]
        refine currentC_wp hc2 ?_
        refine wp_mono (fieldArgs_sound (pre := pre) (dc := n) (h := h) (body := body ++ out)
          fuel _ _ c2 (by unfold Fuel; simp; omega) (by simp) (by simp) hc2) ?_
        intro crit s' h
        refine Post.step h (h2.trans (Ext.of (by simp) rfl rfl rfl)) ?_
        rintro he out' ⟨args, sels, ss, ha, hse, hss, rfl⟩
        obtain ⟨ds, hds, rfl, hn⟩ := h6 he
        have hn' : n.toNat = ds.length := by simpa using hn
        refine ⟨ds, args, sels, ss, ⟨?_, hds⟩, ha, hse, hss, ?_⟩
        · have := n.toNat_lt; omega
        · rw [u8_ofNat_of hn']
    · refine wp_mono (fieldArgs_sound (pre := pre) (dc := 0) (h := h) (body := body)
          fuel _ _ c (by unfold Fuel; omega) hr (by simp) hc) ?_
      intro crit s' h
      refine Post.step h Ext.refl ?_
      rintro he out' ⟨args, sels, ss, ha, hse, hss, rfl⟩
      exact ⟨[], args, sels, ss, ⟨by simp, by simp⟩, ha, hse, hss, by simp [encDirectives]⟩
  termination_by fuel => fuel

theorem fieldArgs_sound {b cfg pre dc h body} : ∀ (fuel : Nat) (s : PS) (sf : Nat) (c : Byte), Fuel cfg s 4 fuel →
    s.res = pre ++ ([0, c%'f', dc] ++ ([0, 0, 0, 0] ++ (le32 h ++ body))) →
    sf = pre.length + 11 → cfg.query[s.charNr]? = some c →
    wp b (fieldArgs fuel sf c) cfg s (FieldArgsPost cfg pre dc h body s)
  | 0, s, sf, c, hf, hr, hs, hc => by unfold Fuel at hf; omega
  | fuel + 1, s, sf, c, hf, hr, hs, hc => by
    unfold Fuel at hf
    have hlt := query_lt hc
    subst hs
    have hm0 : Mid cfg pre s s := ⟨Ext.refl, _, hr⟩
    unfold fieldArgs
    refine wp_if (fun h1 => ?_) (fun h1 => ?_)
    · rw [wp_bind, wp_incPos, wp_bind]
      refine wp_mono mightIgnore_wp ?_
      rintro (_ | c2) s1 ⟨p2, rfl, hp2, hq2⟩
      · dsimp only
        rw [wp_unexpectedEOF]
        exact hm0.fail (by simp at hp2 ⊢; omega) rfl rfl rfl ⟨[], by simp⟩
      · simp only at hp2
        dsimp only
        rw [wp_bind]
        have hm1 := hm0.step (s2 := { s with charNr := p2 }) (by simp; omega) rfl rfl rfl ⟨[], by simp⟩
        refine wp_mono (parseAssignmentSet_sound fuel _ c%')' (by unfold Fuel; simp; omega)) ?_
        intro crit s3 h3
        cases crit with
        | true => rw [if_pos rfl, wp_pure]; exact hm1.crit h3
        | false =>
          rw [if_neg (by simp), wp_bind]
          have hm3 := hm1.trans h3
          obtain ⟨-, -, hadv3, out, hout, hV⟩ := h3
          simp only at hadv3 hout hV
          have hadv3 := hadv3 trivial
          refine wp_mono mightIgnore_wp ?_
          rintro (_ | c4) s4 ⟨p4, rfl, hp4, hq4⟩
          · dsimp only
            rw [wp_unexpectedEOF]
            exact hm3.fail hp4 rfl rfl rfl ⟨[], by simp⟩
          · dsimp only
            refine wp_mono (fieldSel_sound (pre := pre) (dc := dc) (h := h) (body := body ++ out)
              fuel _ _ c4 (by unfold Fuel; simp; omega) (by simp [hout, hr]) (by simp) hq4) ?_
            intro crit s' h
            refine Post.step h (hm3.ext.trans (Ext.of hp4 rfl rfl rfl)) ?_
            rintro he out' ⟨sels, ss, hse, hss, rfl⟩
            obtain ⟨fs, hfs, rfl⟩ := hV he
            exact ⟨some fs, sels, ss, hfs, hse, hss, by simp [encArgs]⟩
    · refine wp_mono (fieldSel_sound (pre := pre) (dc := dc) (h := h) (body := body)
        fuel _ _ c (by unfold Fuel; omega) hr (by simp) hc) ?_
      intro crit s' h
      refine Post.step h Ext.refl ?_
      rintro he out' ⟨sels, ss, hse, hss, rfl⟩
      exact ⟨none, sels, ss, trivial, hse, hss, by simp [encArgs]⟩
  termination_by fuel => fuel

theorem fieldSel_sound {b cfg pre dc h body} : ∀ (fuel : Nat) (s : PS) (sf : Nat) (c : Byte), Fuel cfg s 3 fuel →
    s.res = pre ++ ([0, c%'f', dc] ++ ([0, 0, 0, 0] ++ (le32 h ++ body))) →
    sf = pre.length + 11 → cfg.query[s.charNr]? = some c →
    wp b (fieldSel fuel sf c) cfg s (FieldSelPost cfg pre dc h body s)
  | 0, s, sf, c, hf, hr, hs, hc => by unfold Fuel at hf; omega
  | fuel + 1, s, sf, c, hf, hr, hs, hc => by
    unfold Fuel at hf
    have hlt := query_lt hc
    subst hs
    have hm0 : Mid cfg pre s s := ⟨Ext.refl, _, hr⟩
    have fin : ∀ (s1 : PS) (c : Byte) (o : Bytes), Mid cfg pre s s1 → cfg.query[s1.charNr]? = some c →
        s1.res = pre ++ ([0, c%'f', dc] ++ ([0, 0, 0, 0] ++ (le32 h ++ (body ++ o)))) →
        (s1.errs.length = s.errs.length → ∃ sels, selsWF sels ∧ o = encSels sels) →
        wp b (do
          instructionEnd
          writeUint32 (UInt32.ofNat ((← resLen) - (pre.length + 11))) (pre.length + 11 - 8)
          selNext c (selLoop fuel)) cfg s1 (FieldSelPost cfg pre dc h body s) := by
      intro s1 c o hm hc hr hV
      unfold instructionEnd
      rw [wp_bind, wp_emit, wp_bind, wp_resLen, wp_bind]
      refine writeUint32_wp (a := pre ++ [0, c%'f', dc]) (z := [0, 0, 0, 0]) (c := le32 h ++ (body ++ o ++ endI)) (by simp [hr, endI]) rfl
        (by simp) ?_
      dsimp only
      have hlen : (s1.res ++ [0, 101]).length - (pre.length + 11) = (body ++ o ++ endI).length := by
        rw [hr]; simp [endI, le32_length]; omega
      rw [hlen]
      have hp := hm.ext.pos
      have hle := hm.ext.errLen
      refine selNext_wp hc ?_ ?_ ?_
      · intro p hp'
        simp only at hp'
        refine ⟨hm.ext.trans (Ext.of (by simp; omega) rfl rfl rfl), by simp, fun _ => by simp; omega, _, by dsimp only; rw [List.append_assoc], fun he => ?_⟩
        obtain ⟨sels, hse, rfl⟩ := hV he
        exact ⟨sels, [], hse, trivial, by simp [FieldOut, encSels, len32]⟩
      · intro p m t hp'
        simp only at hp'
        refine ⟨hm.ext.trans (Ext.err (by simp; omega) rfl rfl rfl), by simp; omega, by simp, _, by dsimp only; rw [List.append_assoc], by simp; omega⟩
      · intro p hp' hp2
        simp only at hp'
        refine wp_mono (selLoop_sound fuel _ (by unfold Fuel; simp; omega)) ?_
        rintro crit s' ⟨h1, h2, h3, out, h4, h5⟩
        simp only at h2 h3 h4 h5
        have hle1 := h1.errLen
        simp only at hle1
        refine ⟨hm.ext.trans (Ext.trans (s' := { s1 with charNr := p }) (Ext.of (by simp; omega) rfl rfl rfl) ⟨h1.pos, h1.frags, h1.tgt, h1.errs⟩),
          fun hc => by have := h2 hc; omega, fun hc => by have := h3 hc; omega, _, by rw [h4, List.append_assoc, List.append_assoc], fun he => ?_⟩
        obtain ⟨sels, hse, rfl⟩ := hV (by omega)
        obtain ⟨ss, hss, rfl⟩ := h5 (by omega)
        exact ⟨sels, ss, hse, hss, by simp [FieldOut, len32]⟩
    unfold fieldSel
    refine wp_if (fun h1 => ?_) (fun h1 => ?_)
    · rw [wp_bind, wp_incPos, wp_bind]
      have hm1 := hm0.step (s2 := { s with charNr := s.charNr + 1 }) (by simp) rfl rfl rfl ⟨[], by simp⟩
      refine wp_mono (parseSelectionSet_sound fuel _ (by unfold Fuel; simp; omega)) ?_
      intro crit s3 h3
      cases crit with
      | true => rw [if_pos rfl, wp_pure]; exact hm1.crit h3
      | false =>
        rw [if_neg (by simp), wp_bind]
        have hm3 := hm1.trans h3
        obtain ⟨-, -, hadv3, out, hout, hV⟩ := h3
        simp only at hadv3 hout hV
        refine wp_mono mightIgnore_wp ?_
        rintro (_ | c4) s4 ⟨p4, rfl, hp4, hq4⟩
        · dsimp only
          rw [wp_unexpectedEOF]
          exact hm3.fail hp4 rfl rfl rfl ⟨[], by simp⟩
        · exact fin _ c4 out (hm3.step hp4 rfl rfl rfl ⟨[], by simp⟩) hq4 (by simp [hout, hr]) hV
    · exact fin s c [] hm0 hc (by simp [hr]) (fun _ => ⟨[], trivial, rfl⟩)
  termination_by fuel => fuel

theorem spread_sound {b cfg} : ∀ (fuel : Nat) (s : PS), Fuel cfg s 5 fuel →
    wp b (spread fuel) cfg s (SelPost cfg s.res s)
  | 0, s, hf => by unfold Fuel at hf; omega
  | fuel + 1, s, hf => by
    unfold Fuel at hf
    unfold spread
    rw [wp_bind]
    refine wp_mono mightIgnore_wp ?_
    rintro (_ | c) s1 ⟨p, rfl, hp, hq⟩
    · dsimp only
      rw [wp_unexpectedEOF]
      exact Mid.refl.fail (by simpa using hp) rfl rfl rfl ⟨[], by simp⟩
    · dsimp only
      rw [wp_bind]
      refine wp_mono (matchesWord_wp [b%"on"] (by simp)) ?_
      intro r s2 h2
      have hs2 : ∃ p2, p ≤ p2 ∧ s2 = { s with charNr := p2 } := by
        rcases h2 with ⟨_, rfl, _⟩ | ⟨_, _, _, _, _, rfl, _⟩
        · exact ⟨p, Nat.le_refl _, rfl⟩
        · exact ⟨_, by simp, rfl⟩
      obtain ⟨p2, hp2, rfl⟩ := hs2
      refine wp_if (fun h1 => ?_) (fun h1 => ?_)
      · rw [wp_bind]
        refine wp_mono mightIgnore_wp ?_
        rintro (_ | c) s1 ⟨p3, rfl, hp3, hq⟩
        · dsimp only
          rw [wp_unexpectedEOF]
          exact Mid.refl.fail (by simp at hp3 ⊢; omega) rfl rfl rfl ⟨[], by simp⟩
        · simp only at hp3
          dsimp only
          refine wp_mono (spreadName_sound fuel _ _ (by unfold Fuel; simp; omega)) ?_
          intro crit s' h
          exact Post.step h (Ext.of (by simp; omega) rfl rfl rfl) (fun _ _ h => h)
      · refine wp_mono (spreadName_sound fuel _ _ (by unfold Fuel; simp; omega)) ?_
        intro crit s' h
        exact Post.step h (Ext.of (by simp; omega) rfl rfl rfl) (fun _ _ h => h)
  termination_by fuel => fuel

theorem spreadName_sound {b cfg} : ∀ (fuel : Nat) (s : PS) (inl : Bool), Fuel cfg s 4 fuel →
    wp b (spreadName fuel inl) cfg s (SelPost cfg s.res s)
  | 0, s, inl, hf => by unfold Fuel at hf; omega
  | fuel + 1, s, inl, hf => by
    unfold Fuel at hf
    unfold spreadName
    rw [spreadInstr_eq, wp_bind, wp_emit, wp_bind, wp_resLen, wp_bind, wp_resLen, wp_bind]
    refine wp_mono parseAndWriteName_sound ?_
    rintro ⟨nl, crit⟩ s' (⟨rfl, out, p', m, t, hp', rfl⟩ | ⟨h, rfl, hlt'⟩ | ⟨rfl, name, hnm, hlen, hlt', rfl⟩)
    · dsimp only
      rw [if_pos rfl, wp_pure]
      exact Mid.refl.fail (by simpa using hp') rfl rfl rfl ⟨_, by simp; rfl⟩
    · cases h
      dsimp only
      rw [if_neg (by simp), wp_bind]
      refine wp_mono mightIgnore_wp ?_
      rintro (_ | c) s1 ⟨p3, rfl, hp3, hq⟩
      · dsimp only
        rw [wp_unexpectedEOF]
        exact Mid.refl.fail (by simp at hp3 ⊢; omega) rfl rfl rfl ⟨_, by simp; rfl⟩
      · simp only at hp3
        dsimp only
        rw [if_pos (by simp)]
        refine wp_if (fun h1 => ?_) (fun h1 => ?_)
        · rw [wp_errC]
          exact Mid.refl.fail (by simp; omega) rfl rfl rfl ⟨_, by simp; rfl⟩
        · rw [wp_errC]
          exact Mid.refl.fail (by simp; omega) rfl rfl rfl ⟨_, by simp; rfl⟩
    · simp only at hlen hlt'
      have hnp := name_pos hnm
      dsimp only
      rw [if_neg (by simp), wp_bind]
      refine wp_mono mightIgnore_wp ?_
      rintro (_ | c) s1 ⟨p3, rfl, hp3, hq⟩
      · dsimp only
        rw [wp_unexpectedEOF]
        exact Mid.refl.fail (by simp at hp3 ⊢; omega) rfl rfl rfl ⟨_, by simp; rfl⟩
      · simp only at hp3
        have hlt := query_lt hq
        dsimp only
        rw [if_neg (by rw [name_ne_zero hnm hlen]; simp)]
        have mkSel : ∀ (dirs : List Directive) (sels ss : List Sel) (out : Bytes), dirsWF dirs → selsWF sels → selsWF ss →
            out = SpreadOut (if inl then c%'t' else c%'f') (UInt8.ofNat dirs.length)
              (if inl then name ++ encDirectives dirs ++ encSels sels ++ endI else name ++ encDirectives dirs) ss →
            ∃ ss, selsWF ss ∧ out = encSels ss := by
          rintro dirs sels ss out hd hse hss rfl
          cases inl with
          | true =>
            exact ⟨.inline name dirs sels :: ss, ⟨⟨hnm, hd, hse⟩, hss⟩, by simp [encSels, encSel, SpreadOut]⟩
          | false =>
            exact ⟨.spread name dirs :: ss, ⟨⟨hnm, hd⟩, hss⟩, by simp [encSels, encSel, SpreadOut]⟩
        refine wp_if (fun h1 => ?_) (fun h1 => ?_)
        · rw [wp_bind]
          refine wp_mono (parseDirectives_sound fuel _ 0 (by unfold Fuel; simp; omega)) ?_
          rintro ⟨n, crit⟩ s1 ⟨h2, h3, h4, out, h5, h6⟩
          dsimp only at h3 h4 h5 h6 ⊢
          have hext : Ext cfg s s1 := Ext.trans (s' := { s with res := s.res ++ [0, c%'s', if inl then c%'t' else c%'f', 0, 0, 0, 0, 0] ++ name, charNr := p3 })
            (Ext.of (by simp; omega) rfl rfl rfl) h2
          rw [wp_bind]
          refine setRes_wp (a := s.res ++ [0, c%'s', if inl then c%'t' else c%'f']) (x := 0) (c := [0, 0, 0, 0] ++ (name ++ out)) (by simp [h5])
            (by simp) ?_
          cases crit with
          | true =>
            rw [if_pos rfl, wp_pure]
            have := h3 rfl
            exact ⟨hext.trans (Ext.of (by simp) rfl rfl rfl), fun _ => this, by simp, _, by rw [List.append_assoc], by simp; omega⟩
          | false =>
            obtain ⟨c2, hc2⟩ := h4 rfl
            have hp := h2.pos
            simp only at hp
            rw [if_neg (by simp), wp_bind]
            refine currentC_wp hc2 ?_
            refine wp_mono (spreadTail_sound (pre := s.res) (dc := n) (body := name ++ out)
              fuel _ _ _ c2 (by unfold Fuel; simp; omega) (by simp) (by simp) hc2) ?_
            intro crit s' h
            refine Post.step h (hext.trans (Ext.of (by simp) rfl rfl rfl)) ?_
            rintro he out' ⟨sels, ss, hse, hss, rfl⟩
            obtain ⟨ds, hds, rfl, hn⟩ := h6 he
            have hn' : n.toNat = ds.length := by simpa using hn
            refine mkSel ds sels ss _ ⟨?_, hds⟩ hse hss ?_
            · have := n.toNat_lt; omega
            · rw [u8_ofNat_of hn']
        · refine wp_mono (spreadTail_sound (pre := s.res) (dc := 0) (body := name)
              fuel _ _ _ c (by unfold Fuel; simp; omega) (by simp) (by simp) hq) ?_
          intro crit s' h
          refine Post.step h (Ext.of (by simp; omega) rfl rfl rfl) ?_
          rintro he out' ⟨sels, ss, hse, hss, rfl⟩
          exact mkSel [] sels ss _ ⟨by simp, by simp⟩ hse hss (by simp [encDirectives])
  termination_by fuel => fuel

theorem spreadTail_sound {b cfg pre dc body} : ∀ (fuel : Nat) (s : PS) (inl : Bool) (sf : Nat) (c : Byte), Fuel cfg s 3 fuel →
    s.res = pre ++ ([0, c%'s', if inl then c%'t' else c%'f', dc] ++ ([0, 0, 0, 0] ++ body)) →
    sf = pre.length + 8 → cfg.query[s.charNr]? = some c →
    wp b (spreadTail fuel inl sf c) cfg s (SpreadTailPost cfg pre inl dc body s)
  | 0, s, inl, sf, c, hf, hr, hs, hc => by unfold Fuel at hf; omega
  | fuel + 1, s, inl, sf, c, hf, hr, hs, hc => by
    unfold Fuel at hf
    have hlt := query_lt hc
    subst hs
    have hm0 : Mid cfg pre s s := ⟨Ext.refl, _, hr⟩
    have fin : ∀ (s1 : PS) (c : Byte) (o : Bytes), Mid cfg pre s s1 → cfg.query[s1.charNr]? = some c →
        s1.res = pre ++ ([0, c%'s', if inl then c%'t' else c%'f', dc] ++ ([0, 0, 0, 0] ++ o)) →
        (s1.errs.length = s.errs.length → ∃ sels, selsWF sels ∧ o = (if inl then body ++ encSels sels ++ endI else body)) →
        wp b (do
          writeUint32 (UInt32.ofNat ((← resLen) - (pre.length + 8))) (pre.length + 8 - 4)
          selNext c (selLoop fuel)) cfg s1 (SpreadTailPost cfg pre inl dc body s) := by
      intro s1 c o hm hc hr hV
      rw [wp_bind, wp_resLen, wp_bind]
      refine writeUint32_wp (a := pre ++ [0, c%'s', if inl then c%'t' else c%'f', dc]) (z := [0, 0, 0, 0]) (c := o) (by simp [hr]) rfl
        (by simp) ?_
      skip
      have hlen : s1.res.length - (pre.length + 8) = o.length := by
        rw [hr]; simp; omega
      rw [hlen]
      have hp := hm.ext.pos
      have hle := hm.ext.errLen
      refine selNext_wp hc ?_ ?_ ?_
      · intro p hp'
        simp only at hp'
        refine ⟨hm.ext.trans (Ext.of (by simp; omega) rfl rfl rfl), by simp, fun _ => by simp; omega, _, by dsimp only; rw [List.append_assoc], fun he => ?_⟩
        obtain ⟨sels, hse, rfl⟩ := hV he
        exact ⟨sels, [], hse, trivial, by simp [SpreadOut, encSels, len32]⟩
      · intro p m t hp'
        simp only at hp'
        refine ⟨hm.ext.trans (Ext.err (by simp; omega) rfl rfl rfl), by simp; omega, by simp, _, by dsimp only; rw [List.append_assoc], by simp; omega⟩
      · intro p hp' hp2
        simp only at hp'
        refine wp_mono (selLoop_sound fuel _ (by unfold Fuel; simp; omega)) ?_
        rintro crit s' ⟨h1, h2, h3, out, h4, h5⟩
        simp only at h2 h3 h4 h5
        have hle1 := h1.errLen
        simp only at hle1
        refine ⟨hm.ext.trans (Ext.trans (s' := { s1 with charNr := p }) (Ext.of (by simp; omega) rfl rfl rfl) ⟨h1.pos, h1.frags, h1.tgt, h1.errs⟩),
          fun hc => by have := h2 hc; omega, fun hc => by have := h3 hc; omega, _, by rw [h4, List.append_assoc, List.append_assoc], fun he => ?_⟩
        obtain ⟨sels, hse, rfl⟩ := hV (by omega)
        obtain ⟨ss, hss, rfl⟩ := h5 (by omega)
        exact ⟨sels, ss, hse, hss, by simp [SpreadOut, len32]⟩
    unfold spreadTail
    refine wp_if (fun h1 => ?_) (fun h1 => ?_)
    · subst h1
      refine wp_if (fun h2 => ?_) (fun h2 => ?_)
      · rw [wp_errC]
        exact hm0.fail (by simp) rfl rfl rfl ⟨[], by simp⟩
      · rw [wp_bind, wp_incPos, wp_bind]
        have hm1 := hm0.step (s2 := { s with charNr := s.charNr + 1 }) (by simp) rfl rfl rfl ⟨[], by simp⟩
        refine wp_mono (parseSelectionSet_sound fuel _ (by unfold Fuel; simp; omega)) ?_
        intro crit s3 h3
        have hm3 := hm1.trans h3
        obtain ⟨-, -, -, out, hout, hV⟩ := h3
        simp only at hout hV
        unfold instructionEnd
        rw [wp_bind, wp_emit, wp_bind]
        have hm4 := hm3.step (s2 := { s3 with res := s3.res ++ [0, 101] }) (by simp) rfl rfl rfl ⟨_, rfl⟩
        refine wp_mono mightIgnore_wp ?_
        rintro (_ | c4) s4 ⟨p4, rfl, hp4, hq4⟩
        · dsimp only
          rw [wp_unexpectedEOF]
          exact hm4.fail hp4 rfl rfl rfl ⟨[], by simp⟩
        · refine fin _ c4 (body ++ out ++ endI) (hm4.step hp4 rfl rfl rfl ⟨[], by simp⟩) hq4 (by simp [hout, hr, endI]) (fun he => ?_)
          obtain ⟨ss, hss, rfl⟩ := hV he
          exact ⟨ss, hss, by simp⟩
    · have h1 : inl = false := by simpa using h1
      subst h1
      exact fin s c body hm0 hc (by simp [hr]) (fun _ => ⟨[], trivial, by simp⟩)
  termination_by fuel => fuel
end

end Parser
end Yarql
