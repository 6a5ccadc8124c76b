import Verif.Proofs.ValueSound

/-! # Directives, type names and variable definitions: safety and soundness -/

namespace Yarql
namespace Parser
open Grammar Doc

/-- Part-way through a function that started at `s` with output `pre`. -/
structure Mid (cfg : PCfg) (pre : Bytes) (s s1 : PS) : Prop where
  ext : Ext cfg s s1
  out : ∃ out, s1.res = pre ++ out

theorem Mid.refl {cfg s} : Mid cfg s.res s s := ⟨Ext.refl, [], by simp⟩

theorem Mid.fail {cfg pre s s1 V s2} {t : Nat} {m : Bytes} (hm : Mid cfg pre s s1) (hp : s1.charNr ≤ s2.charNr)
    (hf : s2.frags = s1.frags) (ht : s2.targetIdx = s1.targetIdx) (he : s2.errs = s1.errs ++ [mkErr cfg t m])
    (ho : ∃ o, s2.res = s1.res ++ o) : Post cfg pre V s true s2 := by
  obtain ⟨h1, out, h2⟩ := hm
  obtain ⟨o, ho⟩ := ho
  have := h1.errLen
  exact ⟨h1.trans (Ext.err hp hf ht he), by simp [he]; omega, by simp, out ++ o, by simp [ho, h2], by simp [he]; omega⟩

theorem Mid.step {cfg pre s s1 s2} (hm : Mid cfg pre s s1) (hp : s1.charNr ≤ s2.charNr)
    (hf : s2.frags = s1.frags) (ht : s2.targetIdx = s1.targetIdx) (he : s2.errs = s1.errs)
    (ho : ∃ o, s2.res = s1.res ++ o) : Mid cfg pre s s2 := by
  obtain ⟨h1, out, h2⟩ := hm
  obtain ⟨o, ho⟩ := ho
  exact ⟨h1.trans (Ext.of hp hf ht he), out ++ o, by simp [ho, h2]⟩

theorem Mid.ofPost {cfg pre s V s1 crit} (h : Post cfg pre V s crit s1) : Mid cfg pre s s1 := by
  obtain ⟨h1, _, _, o, h2, _⟩ := h
  exact ⟨h1, o, h2⟩

/-- An inner critical return is passed on. -/
theorem Mid.crit {cfg pre s s1 V V' s2} (hm : Mid cfg pre s s1) (h : Post cfg s1.res V' s1 true s2) :
    Post cfg pre V s true s2 := by
  obtain ⟨h1, out, h2⟩ := hm
  obtain ⟨h3, h4, _, o, h5, _⟩ := h
  have := h1.errLen
  have := h4 rfl
  exact ⟨h1.trans h3, by simp; omega, by simp, out ++ o, by simp [h5, h2], by omega⟩

theorem Mid.trans {cfg pre s s1 V' s2 crit} (hm : Mid cfg pre s s1) (h : Post cfg s1.res V' s1 crit s2) :
    Mid cfg pre s s2 := by
  obtain ⟨h1, out, h2⟩ := hm
  obtain ⟨h3, h4, _, o, h5, _⟩ := h
  exact ⟨h1.trans h3, out ++ o, by simp [h5, h2]⟩

theorem setRes_wp {b cfg s i y} {a c : Bytes} {x : Byte} {Q : Unit → PS → Prop} (hres : s.res = a ++ x :: c) (hi : i = a.length)
    (hq : Q () { s with res := a ++ y :: c }) : wp b (setRes i y) cfg s Q := by
  rw [wp_setRes, if_pos (by rw [hres, hi]; simp), hres, hi]
  simpa using hq

theorem writeUint32_wp {b cfg s i v} {a z c : Bytes} {Q : Unit → PS → Prop} (hres : s.res = a ++ (z ++ c))
    (hz : z.length = 4) (hi : i = a.length) (hq : Q () { s with res := a ++ (le32 v ++ c) }) :
    wp b (writeUint32 v i) cfg s Q := by
  rw [wp_writeUint32, if_pos (by rw [hres, hi]; simp; omega), hres, hi]
  have h := patch_append a z c (le32 v) (by simp [hz, le32_length])
  rw [List.append_assoc] at h
  rw [h, List.append_assoc]
  exact hq

theorem currentC_wp {b cfg s c} {Q : Byte → PS → Prop} (h : cfg.query[s.charNr]? = some c) (hq : Q c s) :
    wp b currentC cfg s Q := by
  rw [wp_currentC, h]; exact hq

/-! ## Directives -/

/-- Post-condition of `parseDirectives` started with count `n`. -/
structure DirPost (cfg : PCfg) (s : PS) (n : UInt8) (r : UInt8 × Bool) (s' : PS) : Prop where
  ext : Ext cfg s s'
  bad : r.2 = true → s.errs.length < s'.errs.length
  cur : r.2 = false → ∃ c, cfg.query[s'.charNr]? = some c
  out : ∃ out, s'.res = s.res ++ out ∧ (s'.errs.length = s.errs.length →
    ∃ ds : List Directive, (∀ d ∈ ds, d.WF) ∧ out = encDirectives ds ∧ r.1.toNat = n.toNat + ds.length)

theorem DirPost.fail {cfg s n r s1 s2} {t : Nat} {m : Bytes} (hm : Mid cfg s.res s s1) (hr : r.2 = true) (hp : s1.charNr ≤ s2.charNr)
    (hf : s2.frags = s1.frags) (ht : s2.targetIdx = s1.targetIdx) (he : s2.errs = s1.errs ++ [mkErr cfg t m])
    (ho : ∃ o, s2.res = s1.res ++ o) : DirPost cfg s n r s2 := by
  obtain ⟨h1, h2, h3, out, h4, h5⟩ := Mid.fail (V := fun _ => False) hm hp hf ht he ho
  exact ⟨h1, fun _ => h2 rfl, by simp [hr], out, h4, fun h => (h5 h).elim⟩

theorem DirPost.step {cfg s n n' r s1 s2} (h : DirPost cfg s1 n' r s2) (he : Ext cfg s s1)
    (hv : ∃ o, s1.res = s.res ++ o ∧ (s1.errs.length = s.errs.length → ∃ d : Directive, d.WF ∧ o = encDirective d))
    (hn : n'.toNat = n.toNat + 1) : DirPost cfg s n r s2 := by
  obtain ⟨h1, h2, h3, out, h4, h5⟩ := h
  obtain ⟨o, ho, hv⟩ := hv
  have hl := he.errLen
  have hl' := h1.errLen
  refine ⟨he.trans h1, fun hc => by have := h2 hc; omega, h3, o ++ out, by simp [h4, ho], ?_⟩
  intro hh
  obtain ⟨ds, h6, rfl, h7⟩ := h5 (by omega)
  obtain ⟨d, hd, rfl⟩ := hv (by omega)
  exact ⟨d :: ds, by simpa [hd] using h6, by simp [encDirectives], by simp; omega⟩

theorem u8_succ {n : UInt8} (h : ¬ (n == 255) = true) : (n + 1).toNat = n.toNat + 1 := by
  have h1 : n ≠ 255 := by simpa using h
  have h2 : n.toNat ≠ 255 := fun h => h1 (UInt8.toNat_inj.mp h)
  have := n.toNat_lt
  rw [UInt8.toNat_add]
  simp only [show UInt8.toNat 1 = 1 from rfl]
  omega

theorem parseDirectives_sound {b cfg} : ∀ (fuel : Nat) (s : PS) (n : UInt8), Fuel cfg s 1 fuel →
    wp b (parseDirectives fuel n) cfg s (DirPost cfg s n)
  | 0, s, n, hf => by unfold Fuel at hf; omega
  | fuel + 1, s, n, hf => by
    unfold Fuel at hf
    unfold parseDirectives
    rw [wp_bind]
    refine wp_mono mightIgnore_wp ?_
    rintro r s1 ⟨p, rfl, hp, hq⟩
    cases r with
    | none =>
      dsimp only
      wps
      exact DirPost.fail Mid.refl rfl (by simpa using hp) rfl rfl rfl ⟨[], by simp⟩
    | some c =>
      have hlt := query_lt hq
      dsimp only
      refine wp_if (fun hc => ?_) (fun hc => ?_)
      · wps
        exact ⟨Ext.of (by simpa using hp) rfl rfl rfl, by simp, fun _ => ⟨c, hq⟩, [], by simp, fun _ => ⟨[], by simp, rfl, by simp⟩⟩
      · refine wp_if (fun hn => ?_) (fun hn => ?_)
        · wps
          exact DirPost.fail Mid.refl rfl (by simpa using hp) rfl rfl rfl ⟨[], by simp⟩
        · unfold instructionNewDirective
          wps
          refine wp_mono parseAndWriteName_sound ?_
          rintro ⟨nl, crit⟩ s' (⟨rfl, out, p', m, t, hp', rfl⟩ | ⟨h, rfl, hlt'⟩ | ⟨rfl, name, hnm, hlen, hlt', rfl⟩)
          · simp only [if_true]
            exact DirPost.fail Mid.refl rfl (by simp at hp' ⊢; omega) rfl rfl rfl ⟨_, by simp; rfl⟩
          · cases h
            simp only [Bool.false_eq_true, if_false, beq_self_eq_true, if_true]
            simp only at hlt'
            rw [List.getElem?_eq_getElem hlt']
            exact DirPost.fail Mid.refl rfl (by simp; omega) rfl rfl rfl ⟨_, by simp; rfl⟩
          · simp only at hlen hlt'
            simp only [Bool.false_eq_true, if_false, name_ne_zero hnm hlen]
            have hnp := name_pos hnm
            refine wp_mono mightIgnore_wp ?_
            rintro r s1 ⟨p2, rfl, hp2, hq2⟩
            simp only at hp2
            cases r with
            | none =>
              dsimp only
              wps
              exact DirPost.fail Mid.refl rfl (by simp; omega) rfl rfl rfl ⟨_, by simp; rfl⟩
            | some d =>
              dsimp only
              refine wp_if (fun hd => ?_) (fun hd => ?_)
              · refine wp_mono (parseDirectives_sound fuel _ (n + 1) (by unfold Fuel; simp; omega)) ?_
                intro r s' h
                refine h.step (Ext.of (by simp; omega) rfl rfl rfl) ⟨[0, 100, 102] ++ name, by simp, fun _ => ?_⟩ (u8_succ hn)
                exact ⟨⟨name, none⟩, ⟨hnm, trivial⟩, by simp [encDirective, encArgs]⟩
              · rw [wp_bind]
                refine setRes_wp (a := s.res ++ [0, 100]) (x := 102) (c := name) (by simp) (by simp) ?_
                rw [wp_bind, wp_incPos, wp_bind]
                refine wp_mono (parseAssignmentSet_sound fuel _ c%')' (by unfold Fuel; simp; omega)) ?_
                intro crit s3 h3
                obtain ⟨h4, h5, h6, out, h7, h8⟩ := h3
                simp only at h5 h6 h7 h8
                have hext : Ext cfg s s3 :=
                  Ext.trans (s' := { s with res := s.res ++ [0, 100] ++ 116 :: name, charNr := p2 + 1 }) (Ext.of (by simp; omega) rfl rfl rfl) h4
                cases crit with
                | true =>
                  rw [if_pos rfl, wp_pure]
                  have h5' := h5 rfl
                  exact ⟨hext, fun _ => h5', by simp, _, by rw [h7, List.append_assoc, List.append_assoc], fun h => by omega⟩
                | false =>
                  have h6' := h6 rfl
                  rw [if_neg (by simp)]
                  refine wp_mono (parseDirectives_sound fuel _ (n + 1) (by unfold Fuel; omega)) ?_
                  intro r s' h
                  refine h.step hext ⟨[0, 100] ++ 116 :: name ++ out, by rw [h7]; simp, fun he => ?_⟩ (u8_succ hn)
                  obtain ⟨fs, hfs, rfl⟩ := h8 he
                  exact ⟨⟨name, some fs⟩, ⟨hnm, hfs⟩, by simp [encDirective, encArgs]⟩

/-! ## Type names and variable definitions -/

theorem parseGraphqlTypeName_sound {b cfg} : ∀ (fuel : Nat) (s : PS) (c : Byte), Fuel cfg s 1 fuel →
    cfg.query[s.charNr]? = some c →
    wp b (parseGraphqlTypeName fuel c) cfg s (Post cfg s.res (fun out => ∃ t : Ty, t.WF ∧ out = encTy t) s)
  | 0, s, c, hf, hc => by unfold Fuel at hf; omega
  | fuel + 1, s, c, hf, hc => by
    unfold Fuel at hf
    have hlt := query_lt hc
    unfold parseGraphqlTypeName
    rw [wp_bind, wp_resLen]
    refine wp_if (fun hl => ?_) (fun hl => ?_)
    · wps
      have hm0 : Mid cfg s.res s { s with res := s.res ++ [108], charNr := s.charNr + 1 } :=
        Mid.refl.step (by simp) rfl rfl rfl ⟨_, rfl⟩
      refine wp_mono mightIgnore_wp ?_
      rintro (_ | c1) s1 ⟨p1, rfl, hp1, hq1⟩
      · dsimp only
        rw [wp_unexpectedEOF]
        exact hm0.fail hp1 rfl rfl rfl ⟨[], by simp⟩
      · simp only at hp1
        have hm1 := hm0.step (s2 := { s with res := s.res ++ [108], charNr := p1 }) hp1 rfl rfl rfl ⟨[], by simp⟩
        dsimp only
        rw [wp_bind]
        refine wp_mono (parseGraphqlTypeName_sound fuel _ c1 (by unfold Fuel; simp; omega) hq1) ?_
        intro crit s2 h2
        cases crit with
        | true =>
          rw [if_pos rfl, wp_pure]
          exact hm1.crit h2
        | false =>
          rw [if_neg (by simp), wp_bind]
          have hm2 := hm1.trans h2
          obtain ⟨hext2, -, hadv2, out, hout, hV⟩ := h2
          simp only at hadv2 hout hV
          have hadv2 := hadv2 trivial
          refine wp_mono mightIgnore_wp ?_
          rintro (_ | c3) s3 ⟨p3, rfl, hp3, hq3⟩
          · dsimp only
            rw [wp_unexpectedEOF]
            exact hm2.fail hp3 rfl rfl rfl ⟨[], by simp⟩
          · skip
            have hm3 := hm2.step (s2 := { s2 with charNr := p3 }) hp3 rfl rfl rfl ⟨[], by simp⟩
            dsimp only
            refine wp_if (fun hcl => ?_) (fun hcl => ?_)
            · rw [wp_errC]
              exact hm3.fail (by simp) rfl rfl rfl ⟨[], by simp⟩
            · wps
              have hm4 := hm3.step (s2 := { s2 with charNr := p3 + 1 }) (by simp) rfl rfl rfl ⟨[], by simp⟩
              cases hq4 : cfg.query[p3 + 1]? with
              | none =>
                dsimp only
                rw [wp_unexpectedEOF]
                exact hm4.fail (by simp) rfl rfl rfl ⟨[], by simp⟩
              | some c4 =>
                dsimp only
                refine wp_if (fun hb => ?_) (fun hb => ?_)
                · rw [wp_bind]
                  refine setRes_wp (a := s.res) (x := 108) (c := out) (by simp [hout]) rfl ?_
                  wps
                  have h5 := hm4.ext.trans (s'' := { s2 with res := s.res ++ 76 :: out, charNr := p3 + 1 + 1 }) (Ext.of (by simp) rfl rfl rfl)
                  refine ⟨h5, by simp, fun _ => by simp; omega, 76 :: out, rfl, fun he => ?_⟩
                  obtain ⟨t, ht, rfl⟩ := hV he
                  exact ⟨.list t true, ht, by simp [encTy]⟩
                · wps
                  refine ⟨hm4.ext, by simp, fun _ => by simp; omega, 108 :: out, by simp [hout], fun he => ?_⟩
                  obtain ⟨t, ht, rfl⟩ := hV he
                  exact ⟨.list t false, ht, by simp [encTy]⟩
    · wps
      refine wp_mono parseAndWriteName_sound ?_
      rintro ⟨nl, crit⟩ s' (⟨rfl, out, p', m, t, hp', rfl⟩ | ⟨h, rfl, hlt'⟩ | ⟨rfl, name, hnm, hlen, hlt', rfl⟩)
      · simp only [if_true]
        exact Mid.refl.fail (by simpa using hp') rfl rfl rfl ⟨_, by simp; rfl⟩
      · cases h
        simp only [Bool.false_eq_true, if_false, beq_self_eq_true, if_true, hc]
        exact Mid.refl.fail (by simp) rfl rfl rfl ⟨_, rfl⟩
      · simp only at hlen hlt'
        have hnp := name_pos hnm
        simp only [Bool.false_eq_true, if_false, name_ne_zero hnm hlen]
        refine wp_mono mightIgnore_wp ?_
        rintro (_ | c1) s1 ⟨p1, rfl, hp1, hq1⟩
        · simp only at hp1
          dsimp only
          rw [wp_unexpectedEOF]
          exact Mid.refl.fail (by simp; omega) rfl rfl rfl ⟨_, by simp; rfl⟩
        · simp only at hp1
          dsimp only
          refine wp_if (fun hb => ?_) (fun hb => ?_)
          · rw [wp_bind]
            refine setRes_wp (a := s.res) (x := 110) (c := name) (by simp) rfl ?_
            wps
            exact Post.good (s := s) (p := p1 + 1) ⟨.named name true, hnm, by simp [encTy]⟩ (by omega)
          · wps
            rw [List.append_assoc]
            exact Post.good (s := s) ⟨.named name false, hnm, by simp [encTy]⟩ (by omega)

theorem parseOperatorArgument_sound {b cfg fuel s} (hf : Fuel cfg s 1 fuel) :
    wp b (parseOperatorArgument fuel) cfg s
      (Post cfg s.res (fun out => ∃ v : VarDef, v.WF ∧ out = encVarDef v) s) := by
  unfold Fuel at hf
  unfold parseOperatorArgument instructionNewOperationArg
  wps
  refine wp_mono parseAndWriteName_sound ?_
  rintro ⟨nl, crit⟩ s' (⟨rfl, out, p', m, t, hp', rfl⟩ | ⟨h, rfl, hlt'⟩ | ⟨rfl, name, hnm, hlen, hlt', rfl⟩)
  · simp only [if_true]
    exact Mid.refl.fail (by simpa using hp') rfl rfl rfl ⟨_, by simp; rfl⟩
  · cases h
    simp only at hlt'
    simp only [Bool.false_eq_true, if_false, beq_self_eq_true, if_true]
    rw [List.getElem?_eq_getElem hlt']
    exact Mid.refl.fail (by simp) rfl rfl rfl ⟨_, rfl⟩
  · simp only at hlen hlt'
    have hnp := name_pos hnm
    simp only [Bool.false_eq_true, if_false, name_ne_zero hnm hlen]
    refine wp_mono mightIgnore_wp ?_
    rintro (_ | c1) s1 ⟨p1, rfl, hp1, hq1⟩
    · simp only at hp1
      dsimp only
      rw [wp_unexpectedEOF]
      exact Mid.refl.fail (by simp; omega) rfl rfl rfl ⟨_, by simp; rfl⟩
    · simp only at hp1
      have hlt1 := query_lt hq1
      dsimp only
      refine wp_if (fun hb => ?_) (fun hb => ?_)
      · wps
        rw [hq1]
        exact Mid.refl.fail (by simp; omega) rfl rfl rfl ⟨_, by simp; rfl⟩
      · wps
        refine wp_mono mightIgnore_wp ?_
        rintro (_ | c2) s2 ⟨p2, rfl, hp2, hq2⟩
        · simp only at hp2
          dsimp only
          rw [wp_unexpectedEOF]
          exact Mid.refl.fail (by simp; omega) rfl rfl rfl ⟨_, by simp; rfl⟩
        · simp only at hp2
          have hm2 : Mid cfg s.res s { s with res := s.res ++ [0, 97, 0, 0, 0, 0] ++ name ++ [0], charNr := p2 } :=
            Mid.refl.step (by simp; omega) rfl rfl rfl ⟨_, by simp; rfl⟩
          dsimp only
          rw [wp_bind]
          refine wp_mono (parseGraphqlTypeName_sound fuel _ c2 (by unfold Fuel; simp; omega) hq2) ?_
          intro crit s3 h3
          cases crit with
          | true =>
            rw [if_pos rfl, wp_pure]
            exact hm2.crit h3
          | false =>
            rw [if_neg (by simp)]
            have hm3 := hm2.trans h3
            obtain ⟨-, -, hadv3, out, hout, hV⟩ := h3
            simp only at hadv3 hout hV
            have hadv3 := hadv3 trivial
            wps
            have hm3' := hm3.step (s2 := { s3 with res := s3.res ++ [0] }) (by simp) rfl rfl rfl ⟨_, rfl⟩
            refine wp_mono mightIgnore_wp ?_
            rintro (_ | c4) s4 ⟨p4, rfl, hp4, hq4⟩
            · dsimp only
              rw [wp_unexpectedEOF]
              exact hm3'.fail hp4 rfl rfl rfl ⟨[], by simp⟩
            · simp only at hp4
              have hlt4 := query_lt hq4
              have hm4 := hm3'.step (s2 := { s3 with res := s3.res ++ [0], charNr := p4 }) hp4 rfl rfl rfl ⟨[], by simp⟩
              have fin : ∀ (s5 : PS) (body : Bytes), Mid cfg s.res s s5 → s.charNr < s5.charNr →
                  s5.res = s.res ++ ([0, 97] ++ ([0, 0, 0, 0] ++ body)) →
                  (s5.errs.length = s.errs.length → ∃ v : VarDef, v.WF ∧ body = encVarBody v) →
                  wp b (do
                    let endOfArgument ← resLen
                    writeUint32 (UInt32.ofNat (endOfArgument - ((List.length s.res) + 1))) (List.length (s.res ++ [0, 97, 0, 0, 0, 0]) - 4)
                    return false) cfg s5 (Post cfg s.res (fun out => ∃ v : VarDef, v.WF ∧ out = encVarDef v) s) := by
                intro s5 body hm hlt hres hv
                rw [wp_bind, wp_resLen, wp_bind]
                refine writeUint32_wp (a := s.res ++ [0, 97]) (z := [0, 0, 0, 0]) (c := body) (by simp [hres]) rfl (by simp) ?_
                rw [wp_pure]
                refine ⟨hm.ext.trans (Ext.of (by simp) rfl rfl rfl), by simp, fun _ => by simpa using hlt, _, by rw [List.append_assoc], fun he => ?_⟩
                obtain ⟨v, hv', rfl⟩ := hv he
                refine ⟨v, hv', ?_⟩
                have : s5.res.length - (s.res.length + 1) = (encVarBody v).length + 5 := by
                  rw [hres]; simp; omega
                simp [encVarDef, this, len32]
              dsimp only
              refine wp_if (fun hb => ?_) (fun hb => ?_)
              · wps
                have hm4' := hm4.step (s2 := { s3 with res := s3.res ++ [0] ++ [116], charNr := p4 + 1 }) (by simp) rfl rfl rfl ⟨_, rfl⟩
                refine wp_mono mightIgnore_wp ?_
                rintro (_ | c5) s5 ⟨p5, rfl, hp5, hq5⟩
                · dsimp only
                  rw [wp_unexpectedEOF]
                  exact hm4'.fail hp5 rfl rfl rfl ⟨[], by simp⟩
                · simp only at hp5
                  have hlt5 := query_lt hq5
                  have hm5 := hm4'.step (s2 := { s3 with res := s3.res ++ [0] ++ [116], charNr := p5 }) hp5 rfl rfl rfl ⟨[], by simp⟩
                  dsimp only
                  rw [wp_bind]
                  refine wp_mono (parseInputValue_sound fuel _ (by unfold Fuel; simp; omega)) ?_
                  intro crit s6 h6
                  cases crit with
                  | true =>
                    rw [if_pos rfl, wp_pure]
                    exact hm5.crit h6
                  | false =>
                    rw [if_neg (by simp)]
                    have hm6 := hm5.trans h6
                    obtain ⟨hext6, -, hadv6, out6, hout6, hV6⟩ := h6
                    simp only at hadv6 hout6 hV6
                    have hadv6 := hadv6 trivial
                    have hl6 := hext6.errLen
                    have hl2 := hm3.ext.errLen
                    simp only at hl6
                    refine fin s6 (name ++ [0] ++ out ++ [0] ++ (116 :: out6)) hm6 (by omega) (by simp [hout6, hout]) (fun he => ?_)
                    obtain ⟨t, ht, rfl⟩ := hV (by omega)
                    obtain ⟨v, hv, rfl⟩ := hV6 (by omega)
                    exact ⟨⟨name, t, some v⟩, ⟨hnm, ht, by simp [hv]⟩, by simp [encVarBody]⟩
              · rw [wp_bind, wp_emit]
                have hm5 := hm4.step (s2 := { s3 with res := s3.res ++ [0] ++ [102], charNr := p4 }) (by simp) rfl rfl rfl ⟨_, rfl⟩
                refine fin _ (name ++ [0] ++ out ++ [0] ++ [102]) hm5 (by simp; omega) (by simp [hout]) (fun he => ?_)
                obtain ⟨t, ht, rfl⟩ := hV (by simpa using he)
                exact ⟨⟨name, t, none⟩, ⟨hnm, ht, by simp⟩, by simp [encVarBody]⟩

theorem operatorArgsLoop_sound {b cfg} : ∀ (fuel : Nat) (s : PS), Fuel cfg s 1 fuel →
    wp b (operatorArgsLoop fuel) cfg s
      (Post cfg s.res (fun out => ∃ vs : List VarDef, (∀ v ∈ vs, v.WF) ∧ out = encVarDefs vs ++ endI) s)
  | 0, s, hf => by unfold Fuel at hf; omega
  | fuel + 1, s, hf => by
    unfold Fuel at hf
    unfold operatorArgsLoop
    rw [wp_bind]
    have rest : ∀ (p : Nat) (c : Byte), s.charNr ≤ p → cfg.query[p]? = some c →
        wp b (do
          if c == c%')' then
            incPos
            instructionEnd
            return false
          else if c != c%'$' then errC b%"expected \"$\" but got \"" c
          else
          incPos
          if ← parseOperatorArgument fuel then return true
          operatorArgsLoop fuel) cfg { s with charNr := p }
          (Post cfg s.res (fun out => ∃ vs : List VarDef, (∀ v ∈ vs, v.WF) ∧ out = encVarDefs vs ++ endI) s) := by
      intro p c hp hq
      have hlt := query_lt hq
      refine wp_if (fun h1 => ?_) (fun h1 => ?_)
      · unfold instructionEnd
        wps
        exact Post.good (s := s) ⟨[], by simp, by simp [encVarDefs, endI]⟩ (by omega)
      · refine wp_if (fun h2 => ?_) (fun h2 => ?_)
        · rw [wp_errC]
          exact Mid.refl.fail (by simpa using hp) rfl rfl rfl ⟨[], by simp⟩
        · rw [wp_bind, wp_incPos, wp_bind]
          have hm1 : Mid cfg s.res s { s with charNr := p + 1 } := Mid.refl.step (by simp; omega) rfl rfl rfl ⟨[], by simp⟩
          refine wp_mono (parseOperatorArgument_sound (by unfold Fuel; simp; omega)) ?_
          intro crit s2 h2
          cases crit with
          | true => rw [if_pos rfl, wp_pure]; exact hm1.crit h2
          | false =>
            rw [if_neg (by simp)]
            have hm2 := hm1.trans h2
            obtain ⟨-, -, hadv2, out, hout, hV⟩ := h2
            simp only at hadv2 hout hV
            have hadv2 := hadv2 trivial
            refine wp_mono (operatorArgsLoop_sound fuel s2 (by unfold Fuel; omega)) ?_
            rintro crit s3 ⟨h4, h5, h6, o, h7, h8⟩
            have hl2 := hm2.ext.errLen
            have hl4 := h4.errLen
            refine ⟨hm2.ext.trans h4, fun h => by have := h5 h; omega, fun h => by have := h6 h; omega, out ++ o, by simp [h7, hout], fun he => ?_⟩
            obtain ⟨vs, hvs, rfl⟩ := h8 (by omega)
            obtain ⟨v, hv, rfl⟩ := hV (by omega)
            exact ⟨v :: vs, by simpa [hv] using hvs, by simp [encVarDefs]⟩
    refine wp_mono mightIgnore_wp ?_
    rintro (_ | c) s1 ⟨p, rfl, hp, hq⟩
    · dsimp only
      rw [wp_unexpectedEOF]
      exact Mid.refl.fail (by simpa using hp) rfl rfl rfl ⟨[], by simp⟩
    · dsimp only
      refine wp_if (fun h1 => ?_) (fun h1 => ?_)
      · rw [wp_bind, wp_incPos, wp_bind]
        refine wp_mono mightIgnore_wp ?_
        rintro (_ | c) s1 ⟨p2, rfl, hp2, hq2⟩
        · dsimp only
          rw [wp_unexpectedEOF]
          exact Mid.refl.fail (by simp at hp2 ⊢; omega) rfl rfl rfl ⟨[], by simp⟩
        · exact rest p2 c (by simp at hp2; omega) hq2
      · exact rest p c hp hq

theorem parseOperatorArguments_sound {b cfg fuel s} (hf : Fuel cfg s 1 fuel) :
    wp b (parseOperatorArguments fuel) cfg s
      (Post cfg s.res (fun out => ∃ vs : List VarDef, (∀ v ∈ vs, v.WF) ∧ out = [0, c%'A'] ++ encVarDefs vs ++ endI) s) := by
  unfold parseOperatorArguments instructionNewOperationArgs
  rw [wp_bind, wp_emit]
  refine wp_mono (operatorArgsLoop_sound fuel _ hf) ?_
  rintro crit s3 ⟨h4, h5, h6, o, h7, h8⟩
  refine ⟨Ext.trans (s' := { s with res := s.res ++ [0, 65] }) (Ext.of (by simp) rfl rfl rfl) h4, h5, h6, [0, 65] ++ o, by simp [h7], fun he => ?_⟩
  obtain ⟨vs, hvs, rfl⟩ := h8 he
  exact ⟨vs, hvs, by simp⟩

end Parser
end Yarql
