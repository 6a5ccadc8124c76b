import Verif.Proofs.StringLit

/-! # Input values: safety and soundness -/

namespace Yarql
namespace Parser
open Grammar Doc

theorem Post.step {cfg pre V V' s s1 crit s'} (h : Post cfg pre V' s1 crit s') (he : Ext cfg s s1)
    (hv : s1.errs.length = s.errs.length → ∀ out, V' out → V out) : Post cfg pre V s crit s' := by
  obtain ⟨h1, h2, h3, out, h4, h5⟩ := h
  have hl := he.errLen
  have hl' := h1.errLen
  refine ⟨he.trans h1, ?_, ?_, out, h4, ?_⟩
  · intro hc; have := h2 hc; omega
  · intro hc; have := h3 hc; have := he.pos; omega
  · intro hh
    exact hv (by omega) out (h5 (by omega))

/-- Success: the state differs from `s` only in output and position. -/
theorem Post.good {cfg : PCfg} {pre : Bytes} {V : Bytes → Prop} {s : PS} {out : Bytes} {p : Nat} (hv : V out) (hp : s.charNr < p) :
    Post cfg pre V s false { s with res := pre ++ out, charNr := p } :=
  ⟨Ext.of (by simp; omega) rfl rfl rfl, by simp, by simpa using hp, out, rfl, fun _ => hv⟩

theorem Post.numFail {cfg pre V s crit s'} (h : NumFail cfg pre s crit s') : Post cfg pre V s crit s' := by
  obtain ⟨rfl, out, p, m, t, hp, rfl⟩ := h
  exact Post.fail hp rfl rfl rfl ⟨out, rfl⟩

theorem Post.ofStr {cfg s crit s'} (h : StrPost cfg s.res s crit s') :
    Post cfg s.res (fun out => ∃ v, Value.WF v ∧ out = encValue v) s crit s' := by
  rcases h with h | ⟨rfl, v, p, hp, rfl⟩
  · exact Post.numFail h
  · exact Post.good ⟨.str v, by simp [Value.WF], by simp [encValue]⟩ hp

/-- Value post-condition -/
def ValPost (cfg : PCfg) (s : PS) : Bool → PS → Prop :=
  Post cfg s.res (fun out => ∃ v, Value.WF v ∧ out = encValue v) s

theorem enumValue_sound {b cfg s} :
    wp b (do
      instructionNewValueEnum
      let startOfEnum ← resLen
      let (nameLen, crit) ← parseAndWriteName
      if crit then return crit
      if nameLen == 0 then
        errC b%"unknown value kind, got character: \"" (← currentC)
      else
        closeLen startOfEnum
        return false) cfg s (ValPost cfg s) := by
  unfold instructionNewValueEnum
  wps
  refine wp_mono parseAndWriteName_sound ?_
  rintro ⟨n, crit⟩ s' (⟨rfl, out, p, m, t, hp, rfl⟩ | ⟨h, rfl, hlt⟩ | ⟨rfl, name, hn, hlen, hlt, rfl⟩)
  · simp only [if_true]
    exact Post.fail (by simpa using hp) rfl rfl rfl ⟨_, by simp; rfl⟩
  · cases h
    simp only [Bool.false_eq_true, if_false, beq_self_eq_true, if_true]
    simp only at hlt
    rw [List.getElem?_eq_getElem hlt]
    exact Post.fail (by simp) rfl rfl rfl ⟨_, rfl⟩
  · have hn0 : (n == 0) = false := by
      have hpos : 0 < name.length := by
        obtain ⟨_, c, cs, rfl, _⟩ := hn
        simp
      simp only at hlen
      simp only [beq_eq_false_iff_ne]
      rintro rfl
      simp at hlen
      omega
    simp only [Bool.false_eq_true, if_false, hn0]
    refine closeLen_wp (pre := s.res) (k := c%'e') (body := name) (by simp [hdr]) (by simp) ?_
    refine Post.good (s := s) ⟨.enum name, hn, by simp [encValue]⟩ ?_
    obtain ⟨_, c, cs, rfl, _⟩ := hn
    simp

/-- How much fuel a function needs at a state. -/
def Fuel (cfg : PCfg) (s : PS) (k fuel : Nat) : Prop := 8 * (cfg.query.length - s.charNr) + k ≤ fuel

/-- Post-condition of the element loop of a list whose header starts after `pre`. -/
def ListPost (cfg : PCfg) (pre body : Bytes) (s : PS) : Bool → PS → Prop :=
  Post cfg pre (fun out => ∃ vs, valuesWF vs ∧ out = encHead c%'l' (body ++ encValues vs ++ endI)) s

/-- Post-condition of the field loop of an object / argument list whose header starts after `pre`. -/
def ObjPost (cfg : PCfg) (pre body : Bytes) (s : PS) : Bool → PS → Prop :=
  Post cfg pre (fun out => ∃ fs, fieldsWF fs ∧ out = encHead c%'o' (body ++ encFields fs ++ endI)) s

/-- Post-condition of `parseAssignmentSet`. -/
def AssignPost (cfg : PCfg) (s : PS) : Bool → PS → Prop :=
  Post cfg s.res (fun out => ∃ fs, fieldsWF fs ∧ out = encValue (.obj fs)) s

theorem name_ne_zero {n : UInt8} {name : Bytes} (hn : IsName name) (hlen : n.toNat = name.length) : (n == 0) = false := by
  have hpos : 0 < name.length := by
    obtain ⟨_, c, cs, rfl, _⟩ := hn
    simp
  simp only [beq_eq_false_iff_ne]
  rintro rfl
  simp at hlen
  omega

theorem name_pos {name : Bytes} (hn : IsName name) : 0 < name.length := by
  obtain ⟨_, c, cs, rfl, _⟩ := hn
  simp

theorem wp_if {b cfg s} {α : Type} {c : Prop} [Decidable c] {x y : P α} {Q : α → PS → Prop}
    (h1 : c → wp b x cfg s Q) (h2 : ¬c → wp b y cfg s Q) : wp b (if c then x else y) cfg s Q := by
  by_cases h : c
  · rw [if_pos h]; exact h1 h
  · rw [if_neg h]; exact h2 h

mutual
theorem parseInputValue_sound {b cfg} : ∀ (fuel : Nat) (s : PS), Fuel cfg s 1 fuel →
    wp b (parseInputValue fuel) cfg s (ValPost cfg s)
  | 0, s, hf => by unfold Fuel at hf; omega
  | fuel + 1, s, hf => by
    unfold Fuel at hf
    unfold parseInputValue
    rw [wp_bind]
    refine wp_mono mightIgnore_wp ?_
    rintro r s1 ⟨p, rfl, hp, hq⟩
    cases r with
    | none =>
      dsimp only
      rw [wp_unexpectedEOF]
      exact Post.fail (by simpa using hp) rfl rfl rfl ⟨[], by simp⟩
    | some c =>
      have hlt := query_lt hq
      dsimp only
      -- shift the starting position
      have shift : ∀ crit s', ValPost cfg { s with charNr := p } crit s' → ValPost cfg s crit s' := by
        intro crit s' h
        exact Post.step h (Ext.of (by simpa using hp) rfl rfl rfl) (fun _ _ h => h)
      refine wp_if (fun hc => ?_) (fun _ => ?_)
      · -- variable
        unfold instructionNewValueVariable
        wps
        refine wp_mono parseAndWriteName_sound ?_
        rintro ⟨n, crit⟩ s' (⟨rfl, out, p', m, t, hp', rfl⟩ | ⟨h, rfl, hlt'⟩ | ⟨rfl, name, hn, hlen, hlt', rfl⟩)
        · simp only [if_true]
          exact Post.fail (by simp at hp' ⊢; omega) rfl rfl rfl ⟨_, by simp; rfl⟩
        · cases h
          simp only [Bool.false_eq_true, if_false, beq_self_eq_true, if_true]
          simp only at hlt'
          rw [List.getElem?_eq_getElem hlt']
          exact Post.fail (by simp; omega) rfl rfl rfl ⟨_, rfl⟩
        · simp only at hlen
          simp only [Bool.false_eq_true, if_false, name_ne_zero hn hlen]
          refine closeLen_wp (pre := s.res) (k := c%'$') (body := name) (by simp [hdr]) (by simp) ?_
          exact Post.good (s := s) ⟨.var name, hn, by simp [encValue]⟩ (by simp; omega)
      · refine wp_if (fun hc => ?_) (fun _ => ?_)
        · -- number
          refine wp_mono (parseNumberInputValue_sound (c := c) hq (by simpa [or_assoc] using hc)) ?_
          rintro crit s' (h | ⟨rfl, v, p', hv, hp', _, rfl⟩)
          · exact shift _ _ (Post.numFail h)
          · exact shift _ _ (Post.good ⟨v, hv, rfl⟩ hp')
        · refine wp_if (fun hc => ?_) (fun _ => ?_)
          · -- string
            refine wp_mono parseStringInputValue_sound ?_
            intro crit s' h
            exact shift _ _ (Post.ofStr h)
          · refine wp_if (fun hc => ?_) (fun _ => ?_)
            · -- list
              unfold instructionNewValueList
              wps
              refine wp_mono mightIgnore_wp ?_
              rintro r s1 ⟨p2, rfl, hp2, hq2⟩
              simp only at hp2
              cases r with
              | none =>
                simp only
                wps
                exact Post.fail (by simp; omega) rfl rfl rfl ⟨_, rfl⟩
              | some d =>
                simp only
                wps
                split
                · unfold instructionEnd
                  wps
                  refine closeLen_wp (pre := s.res) (k := c%'l') (body := endI) (by simp [hdr, endI]) (by simp) ?_
                  exact Post.good (s := s) ⟨.list [], by simp [Value.WF, valuesWF], by simp [encValue, encValues]⟩ (by simp; omega)
                · have hlen : (s.res ++ [0, 118, 108, 0, 0, 0, 0] : Bytes).length = s.res.length + 7 := by simp
                  rw [hlen]
                  refine wp_mono (listLoop_sound (pre := s.res) (body := []) fuel _ (by unfold Fuel; simp; omega) (by simp [hdr])) ?_
                  intro crit s' h
                  refine Post.step h (Ext.of (by simp; omega) rfl rfl rfl) ?_
                  rintro _ out ⟨vs, hvs, rfl⟩
                  exact ⟨.list vs, by simpa [Value.WF] using hvs, by simp [encValue]⟩
            · refine wp_if (fun hc => ?_) (fun _ => ?_)
              · -- object
                rw [wp_bind, wp_incPos]
                refine wp_mono (parseAssignmentSet_sound fuel { s with charNr := p + 1 } c%'}' (by unfold Fuel; simp; omega)) ?_
                intro crit s' h
                refine Post.step h (Ext.of (by simp; omega) rfl rfl rfl) ?_
                rintro _ out ⟨fs, hfs, rfl⟩
                exact ⟨.obj fs, by simpa [Value.WF] using hfs, rfl⟩
              · have enumW := enumValue_sound (b := b) (cfg := cfg) (s := { s with charNr := p })
                have enumW' : wp b _ cfg { s with charNr := p } (ValPost cfg s) := wp_mono enumW shift
                refine wp_if (fun hc => ?_) (fun _ => ?_)
                · -- true / false
                  rw [wp_bind]
                  refine wp_mono (matchesWord_wp [b%"false", b%"true"] (by simp)) ?_
                  rintro r s' (⟨rfl, rfl, _⟩ | ⟨m, key, rfl, hg, _, rfl, _⟩)
                  · exact enumW'
                  · simp only
                    have hm : (m = 0 ∧ key = b%"false") ∨ (m = 1 ∧ key = b%"true") := by
                      match m, hg with
                      | 0, hg => left; simpa [eq_comm] using hg
                      | 1, hg => right; simpa [eq_comm] using hg
                      | m + 2, hg => simp at hg
                    rcases hm with ⟨rfl, rfl⟩ | ⟨rfl, rfl⟩
                    · unfold instructionNewValueBoolean
                      wps
                      exact Post.good (s := s) ⟨.bool false, by simp [Value.WF], by simp [encValue, encHead, len32]; rfl⟩ (by simp; omega)
                    · unfold instructionNewValueBoolean
                      wps
                      exact Post.good (s := s) ⟨.bool true, by simp [Value.WF], by simp [encValue, encHead, len32]; rfl⟩ (by simp; omega)
                · refine wp_if (fun hc => ?_) (fun _ => ?_)
                  · -- null
                    rw [wp_bind]
                    refine wp_mono (matchesWord_wp [b%"null"] (by simp)) ?_
                    rintro r s' (⟨rfl, rfl, _⟩ | ⟨m, key, rfl, hg, _, rfl, _⟩)
                    · simp only [show ((none : Option Nat) == some 0) = false by decide, Bool.false_eq_true, if_false]
                      exact enumW'
                    · have hm : m = 0 ∧ key = b%"null" := by
                        cases m with
                        | zero => simpa [eq_comm] using hg
                        | succ m => simp at hg
                      obtain ⟨rfl, rfl⟩ := hm
                      simp only [beq_self_eq_true, if_true]
                      unfold instructionNewValueNull
                      wps
                      exact Post.good (s := s) ⟨.null, by simp [Value.WF], by simp [encValue, encHead, len32]; rfl⟩ (by simp; omega)
                  · exact enumW'

theorem listLoop_sound {b cfg pre body} : ∀ (fuel : Nat) (s : PS), Fuel cfg s 2 fuel →
    s.res = pre ++ (hdr c%'l' ++ body) →
    wp b (listLoop fuel (pre.length + 7)) cfg s (ListPost cfg pre body s)
  | 0, s, hf, hr => by unfold Fuel at hf; omega
  | fuel + 1, s, hf, hr => by
    unfold Fuel at hf
    unfold listLoop
    wps
    refine wp_mono (parseInputValue_sound fuel s (by unfold Fuel; omega)) ?_
    rintro crit s1 ⟨hext, hbad, hadv, out, hout, hV⟩
    have hres1 : s1.res = pre ++ (hdr c%'l' ++ (body ++ out)) := by rw [hout, hr]; simp
    cases crit with
    | true =>
      simp only [if_true]
      exact ⟨hext, hbad, by simp, _, hres1, by have := hbad rfl; omega⟩
    | false =>
      have hadv' := hadv rfl
      simp only [Bool.false_eq_true, if_false]
      -- what happens after the element
      have fin : ∀ (s2 : PS) (c : Byte), s2 = { s1 with charNr := s2.charNr } → s1.charNr ≤ s2.charNr →
          cfg.query[s2.charNr]? = some c →
          wp b (do
            if c == c%']' then
              incPos
              instructionEnd
              closeLen (pre.length + 7)
              return false
            else listLoop fuel (pre.length + 7)) cfg s2 (ListPost cfg pre body s) := by
        intro s2 c hs2 hle hc2
        have hext2 : Ext cfg s s2 := hext.trans (Ext.of (by omega) (by rw [hs2]) (by rw [hs2]) (by rw [hs2]))
        have hres2 : s2.res = pre ++ (hdr c%'l' ++ (body ++ out)) := by rw [hs2]; exact hres1
        have herr2 : s2.errs.length = s1.errs.length := by rw [hs2]
        unfold instructionEnd
        wps
        split
        · refine closeLen_wp (pre := pre) (k := c%'l') (body := body ++ out ++ endI) (by simp [hres2, endI]) rfl ?_
          refine ⟨hext2.trans (Ext.of (by simp) rfl rfl rfl), by simp, by simp; omega, _, rfl, ?_⟩
          intro hh
          simp only at hh
          obtain ⟨v, hv, rfl⟩ := hV (by omega)
          exact ⟨[v], by simp [valuesWF, hv], by simp [encValues]⟩
        · have hlt := query_lt hc2
          refine wp_mono (listLoop_sound (pre := pre) (body := body ++ out) fuel s2 (by unfold Fuel; omega) hres2) ?_
          intro crit s' h
          refine Post.step h hext2 ?_
          rintro he o ⟨vs, hvs, rfl⟩
          obtain ⟨v, hv, rfl⟩ := hV (by omega)
          exact ⟨v :: vs, by simp [valuesWF, hv, hvs], by simp [encValues]⟩
      refine wp_mono mightIgnore_wp ?_
      rintro r s2 ⟨p, rfl, hp, hq⟩
      cases r with
      | none =>
        simp only
        wps
        refine ⟨hext.trans (Ext.err (by simpa using hp) rfl rfl rfl), ?_, by simp, _, hres1, ?_⟩
        · have := hext.errLen; simp; omega
        · have := hext.errLen; simp; omega
      | some c =>
        simp only
        wps
        split
        · refine wp_mono mightIgnore_wp ?_
          rintro r s2 ⟨p2, rfl, hp2, hq2⟩
          simp only at hp2
          cases r with
          | none =>
            simp only
            wps
            refine ⟨hext.trans (Ext.err (by simp; omega) rfl rfl rfl), ?_, by simp, _, hres1, ?_⟩
            · have := hext.errLen; simp; omega
            · have := hext.errLen; simp; omega
          | some d =>
            simp only
            exact fin { s1 with charNr := p2 } d rfl (by simp; omega) hq2
        · have := fin { s1 with charNr := p } c rfl (by simpa using hp) hq
          wps at this
          exact this

theorem parseAssignmentSet_sound {b cfg} : ∀ (fuel : Nat) (s : PS) (closure : Byte), Fuel cfg s 2 fuel →
    wp b (parseAssignmentSet fuel closure) cfg s (AssignPost cfg s)
  | 0, s, cl, hf => by unfold Fuel at hf; omega
  | fuel + 1, s, cl, hf => by
    unfold Fuel at hf
    unfold parseAssignmentSet instructionNewValueObject instructionEnd
    wps
    refine wp_mono mightIgnore_wp ?_
    rintro r s1 ⟨p, rfl, hp, hq⟩
    simp only at hp
    cases r with
    | none =>
      simp only
      wps
      exact Post.fail (by simpa using hp) rfl rfl rfl ⟨_, rfl⟩
    | some c =>
      simp only
      wps
      split
      · refine closeLen_wp (pre := s.res) (k := c%'o') (body := endI) (by simp [hdr, endI]) (by simp) ?_
        exact Post.good (s := s) (p := p + 1) ⟨[], by simp [fieldsWF], by simp [encValue, encFields]⟩ (by omega)
      · have hlen : (s.res ++ [0, 118, 111, 0, 0, 0, 0] : Bytes).length = s.res.length + 7 := by simp
        rw [hlen]
        refine wp_mono (assignLoop_sound (pre := s.res) (body := []) fuel _ cl (by unfold Fuel; simp; omega) (by simp [hdr])) ?_
        intro crit s' h
        refine Post.step h (Ext.of (by simpa using hp) rfl rfl rfl) ?_
        rintro _ out ⟨fs, hfs, rfl⟩
        exact ⟨fs, hfs, by simp [encValue]⟩

theorem assignLoop_sound {b cfg pre body} : ∀ (fuel : Nat) (s : PS) (closure : Byte), Fuel cfg s 1 fuel →
    s.res = pre ++ (hdr c%'o' ++ body) →
    wp b (assignLoop fuel closure (pre.length + 7)) cfg s (ObjPost cfg pre body s)
  | 0, s, cl, hf, hr => by unfold Fuel at hf; omega
  | fuel + 1, s, cl, hf, hr => by
    unfold Fuel at hf
    unfold assignLoop instructionStartNewValueObjectField
    wps
    refine wp_mono parseAndWriteName_sound ?_
    rintro ⟨n, crit⟩ s' (⟨rfl, out, p', m, t, hp', rfl⟩ | ⟨h, rfl, hlt'⟩ | ⟨rfl, name, hn, hlen, hlt', rfl⟩)
    · simp only [if_true]
      exact Post.fail (by simpa using hp') rfl rfl rfl ⟨hdr c%'o' ++ (body ++ [0, 117] ++ out), by simp [hr]⟩
    · cases h
      simp only [Bool.false_eq_true, if_false, beq_self_eq_true, if_true]
      simp only at hlt'
      rw [List.getElem?_eq_getElem hlt']
      exact Post.fail (by simp) rfl rfl rfl ⟨hdr c%'o' ++ (body ++ [0, 117]), by simp [hr]⟩
    · simp only at hlen hlt'
      have hnp := name_pos hn
      simp only [Bool.false_eq_true, if_false, name_ne_zero hn hlen]
      refine wp_mono mightIgnore_wp ?_
      rintro r s1 ⟨p, rfl, hp, hq⟩
      simp only at hp
      cases r with
      | none =>
        simp only
        wps
        exact Post.fail (by simp; omega) rfl rfl rfl ⟨hdr c%'o' ++ (body ++ [0, 117] ++ name), by simp [hr]⟩
      | some c =>
        have hlt2 := query_lt hq
        simp only
        wps
        split
        · exact Post.fail (by simp; omega) rfl rfl rfl ⟨hdr c%'o' ++ (body ++ [0, 117] ++ name), by simp [hr]⟩
        · refine wp_mono (parseInputValue_sound fuel _ (by unfold Fuel; simp; omega)) ?_
          rintro crit s1 ⟨hext0, hbad0, hadv0, out, hout0, hV0⟩
          simp only at hbad0 hadv0 hout0 hV0
          have hext : Ext cfg s s1 := Ext.trans (s' := { s with res := s.res ++ [0, 117] ++ name, charNr := p + 1 }) (Ext.of (by simp; omega) rfl rfl rfl) hext0
          have hbad : crit = true → s.errs.length < s1.errs.length := hbad0
          have hV := hV0
          have hres1 : s1.res = pre ++ (hdr c%'o' ++ (body ++ ([0, 117] ++ name ++ out))) := by rw [hout0, hr]; simp
          cases crit with
          | true =>
            simp only [if_true]
            exact ⟨hext, hbad, by simp, _, hres1, by have := hbad rfl; omega⟩
          | false =>
            have hadv' := hadv0 rfl
            simp only [Bool.false_eq_true, if_false]
            have fin : ∀ (s2 : PS) (c : Byte), s2 = { s1 with charNr := s2.charNr } → s1.charNr ≤ s2.charNr →
                cfg.query[s2.charNr]? = some c →
                wp b (do
                  if c == cl then
                    instructionEnd
                    incPos
                    closeLen (pre.length + 7)
                    return false
                  else assignLoop fuel cl (pre.length + 7)) cfg s2 (ObjPost cfg pre body s) := by
              intro s2 c hs2 hle hc2
              have hext2 : Ext cfg s s2 := hext.trans (Ext.of (by omega) (by rw [hs2]) (by rw [hs2]) (by rw [hs2]))
              have hres2 : s2.res = pre ++ (hdr c%'o' ++ (body ++ ([0, 117] ++ name ++ out))) := by rw [hs2]; exact hres1
              have herr2 : s2.errs.length = s1.errs.length := by rw [hs2]
              unfold instructionEnd
              wps
              split
              · refine closeLen_wp (pre := pre) (k := c%'o') (body := body ++ ([0, 117] ++ name ++ out) ++ endI) (by simp [hres2, endI]) rfl ?_
                refine ⟨hext2.trans (Ext.of (by simp) rfl rfl rfl), by simp, by simp; omega, _, rfl, ?_⟩
                intro hh
                simp only at hh
                obtain ⟨v, hv, rfl⟩ := hV (by omega)
                exact ⟨[(name, v)], by simp [fieldsWF, hv, hn], by simp [encFields]⟩
              · have hlt := query_lt hc2
                refine wp_mono (assignLoop_sound (pre := pre) (body := body ++ ([0, 117] ++ name ++ out)) fuel s2 cl (by unfold Fuel; omega) hres2) ?_
                intro crit s' h
                refine Post.step h hext2 ?_
                rintro he o ⟨fs, hfs, rfl⟩
                obtain ⟨v, hv, rfl⟩ := hV (by omega)
                exact ⟨(name, v) :: fs, by simp [fieldsWF, hv, hfs, hn], by simp [encFields]⟩
            refine wp_mono mightIgnore_wp ?_
            rintro r s2 ⟨p, rfl, hp, hq⟩
            cases r with
            | none =>
              simp only
              wps
              refine ⟨hext.trans (Ext.err (by simpa using hp) rfl rfl rfl), ?_, by simp, _, hres1, ?_⟩
              · have := hext.errLen; simp; omega
              · have := hext.errLen; simp; omega
            | some c =>
              simp only
              wps
              split
              · refine wp_mono mightIgnore_wp ?_
                rintro r s2 ⟨p2, rfl, hp2, hq2⟩
                simp only at hp2
                cases r with
                | none =>
                  simp only
                  wps
                  refine ⟨hext.trans (Ext.err (by simp; omega) rfl rfl rfl), ?_, by simp, _, hres1, ?_⟩
                  · have := hext.errLen; simp; omega
                  · have := hext.errLen; simp; omega
                | some d =>
                  simp only
                  exact fin { s1 with charNr := p2 } d rfl (by simp; omega) hq2
              · have := fin { s1 with charNr := p } c rfl (by simpa using hp) hq
                wps at this
                exact this
end

end Parser
end Yarql
