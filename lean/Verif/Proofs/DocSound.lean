import Verif.Proofs.SelSound

/-! # Operations, fragments and documents: safety and soundness -/

namespace Yarql
namespace Parser
open Grammar Doc

theorem opBody_sound {b cfg fuel s} (hf : Fuel cfg s 2 fuel) (hlt : s.charNr < cfg.query.length) :
    wp b (opBody fuel) cfg s (Post cfg s.res (fun out => ∃ ss, selsWF ss ∧ out = encSels ss ++ endI) s) := by
  unfold Fuel at hf
  unfold opBody
  rw [wp_bind, wp_incPos, wp_bind]
  have hm1 : Mid cfg s.res s { s with charNr := s.charNr + 1 } := Mid.refl.step (by simp) rfl rfl rfl ⟨[], by simp⟩
  refine wp_mono (parseSelectionSet_sound fuel _ (by unfold Fuel; simp; omega)) ?_
  intro crit s3 h3
  cases crit with
  | true => rw [if_pos rfl, wp_pure]; exact hm1.crit h3
  | false =>
    rw [if_neg (by simp)]
    have hm3 := hm1.trans h3
    obtain ⟨-, -, hadv3, out, hout, hV⟩ := h3
    simp only at hadv3 hout hV
    have hadv3 := hadv3 trivial
    unfold instructionEnd
    wps
    refine ⟨hm3.ext.trans (Ext.of (by simp) rfl rfl rfl), by simp, fun _ => by simp; omega, out ++ endI, by simp [hout, endI], fun he => ?_⟩
    obtain ⟨ss, hss, rfl⟩ := hV he
    exact ⟨ss, hss, rfl⟩

theorem opDirectives_sound {b cfg fuel s pre k tf mid dl} (hf : Fuel cfg s 2 fuel)
    (hr : s.res = pre ++ ([0, c%'o', k, tf, 0] ++ mid)) (hd : dl = pre.length + 4) :
    wp b (opDirectives fuel dl) cfg s (Post cfg pre (fun out => ∃ ds ss, dirsWF ds ∧ selsWF ss ∧
      out = [0, c%'o', k, tf, UInt8.ofNat ds.length] ++ (mid ++ (encDirectives ds ++ (encSels ss ++ endI)))) s) := by
  unfold Fuel at hf
  subst hd
  unfold opDirectives
  rw [wp_bind]
  refine wp_mono (parseDirectives_sound fuel s 0 (by unfold Fuel; omega)) ?_
  rintro ⟨n, crit⟩ s1 ⟨h2, h3, h4, out, h5, h6⟩
  dsimp only at h3 h4 h5 h6 ⊢
  rw [wp_bind]
  refine setRes_wp (a := pre ++ [0, c%'o', k, tf]) (x := 0) (c := mid ++ out) (by simp [h5, hr]) (by simp) ?_
  have hl2 := h2.errLen
  cases crit with
  | true =>
    rw [if_pos rfl, wp_pure]
    have := h3 rfl
    exact ⟨h2.trans (Ext.of (by simp) rfl rfl rfl), fun _ => this, by simp, _, by rw [List.append_assoc], by simp; omega⟩
  | false =>
    obtain ⟨c2, hc2⟩ := h4 rfl
    have hp := h2.pos
    rw [if_neg (by simp), wp_bind]
    refine currentC_wp hc2 ?_
    refine wp_if (fun h1 => ?_) (fun h1 => ?_)
    · rw [wp_errC]
      exact ⟨h2.trans (Ext.err (by simp) rfl rfl rfl), by simp; omega, by simp, _, by rw [List.append_assoc], by simp; omega⟩
    · refine wp_mono (opBody_sound (by unfold Fuel; simp; omega) (query_lt hc2)) ?_
      rintro crit s' ⟨h7, h8, h9, o, h10, h11⟩
      dsimp only at h8 h9 h10 h11
      have hl7 := h7.errLen
      simp only at hl7
      refine ⟨h2.trans (Ext.trans (s' := { s1 with res := pre ++ [0, c%'o', k, tf] ++ n :: (mid ++ out) }) (Ext.of (by simp) rfl rfl rfl) h7),
        fun h => by have := h8 h; omega, fun h => by have := h9 h; omega, _, by rw [h10, List.append_assoc, List.append_assoc], fun he => ?_⟩
      obtain ⟨ds, hds, rfl, hn⟩ := h6 (by omega)
      obtain ⟨ss, hss, rfl⟩ := h11 (by omega)
      have hn' : n.toNat = ds.length := by simpa using hn
      refine ⟨ds, ss, ⟨?_, hds⟩, hss, ?_⟩
      · have := n.toNat_lt; omega
      · rw [u8_ofNat_of hn']; simp

/-- Target index after seeing operations `ops`. -/
def stepTgt (target : Option Bytes) (t : Option Nat) (ops : List (Nat × Bytes)) : Option Nat :=
  match selectedOp target ops with
  | some i => some i
  | none => t

theorem stepTgt_nil (target : Option Bytes) (t : Option Nat) : stepTgt target t [] = t := by
  unfold stepTgt selectedOp
  match target with
  | none => rfl
  | some [] => rfl
  | some (x :: xs) => rfl

/-- Post-condition of `parseOperatorOrFragment`. -/
structure DefPost (cfg : PCfg) (s : PS) (stop : Bool) (s' : PS) : Prop where
  pos : s.charNr ≤ s'.charNr
  errs : ∃ es, s'.errs = s.errs ++ es ∧ ∀ e ∈ es, Located cfg.query e
  stopped : stop = true → s.errs.length < s'.errs.length ∨
    (s'.errs = s.errs ∧ s'.res = s.res ∧ s'.frags = s.frags ∧ s'.targetIdx = s.targetIdx)
  adv : stop = false → s.charNr < s'.charNr ∧ s.charNr < cfg.query.length
  out : stop = false → s'.errs.length = s.errs.length → ∃ d : Def, d.WF ∧ s'.res = s.res ++ encDef d ∧
    s'.frags = s.frags ++ fragPositions s.res.length [d] ∧
    s'.targetIdx = stepTgt cfg.target s.targetIdx (opPositions s.res.length [d])

theorem DefPost.fail {cfg : PCfg} {s s' : PS} {t : Nat} {m : Bytes} (hp : s.charNr ≤ s'.charNr)
    (he : s'.errs = s.errs ++ [mkErr cfg t m]) : DefPost cfg s true s' :=
  ⟨hp, ⟨_, he, by simp [mkErr_located]⟩, fun _ => Or.inl (by simp [he]), by simp, by simp⟩

/-- A definition whose tail was parsed from `s1` (which has the errors of `s`). -/
theorem DefPost.ofPost {cfg s s1 V crit s'} (h : Post cfg s.res V s1 crit s') (hp : s.charNr ≤ s1.charNr) (he : s1.errs = s.errs)
    (hlt : s.charNr < cfg.query.length)
    (hv : ∀ out, V out → ∃ d : Def, d.WF ∧ out = encDef d ∧ s1.frags = s.frags ++ fragPositions s.res.length [d] ∧
      s1.targetIdx = stepTgt cfg.target s.targetIdx (opPositions s.res.length [d])) : DefPost cfg s crit s' := by
  obtain ⟨h1, h2, h3, out, h4, h5⟩ := h
  refine ⟨Nat.le_trans hp h1.pos, ?_, fun hc => Or.inl ?_, fun hc => ⟨?_, hlt⟩, fun _ hl => ?_⟩
  · rw [← he]; exact h1.errs
  · rw [← he]; exact h2 hc
  · have := h3 hc; omega
  · obtain ⟨d, hd, rfl, hf, ht⟩ := hv out (h5 (by rw [hl, he]))
    exact ⟨d, hd, h4, by rw [h1.frags, hf], by rw [h1.tgt, ht]⟩

theorem hasTarget_false {cfg : PCfg} (h : hasTarget cfg = false) (ops) :
    selectedOp cfg.target ops = (ops.getLast?).map (·.1) := by
  unfold hasTarget at h
  unfold selectedOp
  match ht : cfg.target with
  | none => rfl
  | some [] => rfl
  | some (x :: xs) => rw [ht] at h; simp at h

theorem hasTarget_true {cfg : PCfg} (h : hasTarget cfg = true) : ∃ t, cfg.target = some t ∧ t ≠ [] ∧
    ∀ ops, selectedOp cfg.target ops = ((ops.filter (fun o => o.2 == t)).getLast?).map (·.1) := by
  unfold hasTarget at h
  match ht : cfg.target with
  | none => rw [ht] at h; simp at h
  | some [] => rw [ht] at h; simp at h
  | some (x :: xs) => exact ⟨x :: xs, rfl, by simp, fun _ => rfl⟩

/-- The two target assignments of an operation amount to `stepTgt`. -/
theorem target_step (cfg : PCfg) (t : Option Nat) (at_ : Nat) (name : Bytes) :
    (if decide (name.length > 0) && hasTarget cfg && cfg.target == some name then some at_
      else if hasTarget cfg then t else some at_) = stepTgt cfg.target t [(at_, name)] := by
  unfold stepTgt
  cases h : hasTarget cfg with
  | false => rw [hasTarget_false h]; simp
  | true =>
    obtain ⟨x, h1, h2, h3⟩ := hasTarget_true h
    rw [h3, h1]
    by_cases hn : name = x
    · subst hn
      have : 0 < name.length := List.length_pos_iff.mpr h2
      simp [this]
    · have h4 : (name == x) = false := by simpa using hn
      have h5 : (some x == some name) = false := by
        rw [beq_eq_false_iff_ne]; intro h; injection h with h; exact hn h.symm
      simp [h4, h5]

theorem parseOperation_sound {b cfg fuel s m} (hf : Fuel cfg s 4 fuel) :
    wp b (parseOperation fuel s.res.length m) cfg s (DefPost cfg s) := by
  unfold Fuel at hf
  unfold parseOperation
  rw [wp_bind, wp_setTargetIfNone]
  have hk : ∃ kind : OpKind, instructionOfKeyword m = emit [0, c%'o', kind.code, c%'f', 0] := by
    unfold instructionOfKeyword
    by_cases h0 : (m == 0) = true
    · exact ⟨.query, by rw [if_pos h0]; rfl⟩
    · by_cases h1 : (m == 1) = true
      · exact ⟨.mutation, by rw [if_neg h0, if_pos h1]; rfl⟩
      · exact ⟨.subscription, by rw [if_neg h0, if_neg h1]; rfl⟩
  obtain ⟨kind, hk⟩ := hk
  generalize hs0 : (if hasTarget cfg = true then s else { s with targetIdx := some s.res.length }) = s0
  have hs0' : s0 = { s with targetIdx := if hasTarget cfg then s.targetIdx else some s.res.length } := by
    rw [← hs0]; split <;> simp_all
  subst hs0'
  clear hs0
  rw [hk, wp_bind, wp_emit, wp_bind, wp_resLen, wp_bind, wp_resLen, wp_bind]
  refine wp_mono mightIgnore_wp ?_
  rintro (_ | c) s1 ⟨p, rfl, hp, hq⟩
  · dsimp only
    rw [wp_unexpectedEOF]
    exact DefPost.fail (by simpa using hp) rfl
  · simp only at hp
    have hltp := query_lt hq
    have hlt : s.charNr < cfg.query.length := by omega
    dsimp only
    rw [wp_bind, wp_resLen, wp_bind]
    refine wp_mono parseAndWriteName_sound ?_
    have key : ∀ (crit0 : UInt8) (name : Bytes), (name = [] ∨ IsName name) → ∀ (p2 : Nat), p ≤ p2 → ∀ (hl : p2 < cfg.query.length),
        wp b (do
          let name ← sliceResFrom (s.res ++ [0, c%'o', kind.code, c%'f', 0]).length
          setTargetIfName name s.res.length
          match ← mightIgnore with
          | none => unexpectedEOF
          | some c =>
          if c == c%'(' then
            setRes ((s.res ++ [0, c%'o', kind.code, c%'f', 0]).length - 2) c%'t'
            emit [0, 0, 0, 0, 0]
            let endAt := (← resLen) - 4
            let argumentsStartAt ← resLen
            incPos
            if ← parseOperatorArguments fuel then return true
            writeUint32 (UInt32.ofNat (← resLen) - UInt32.ofNat argumentsStartAt) endAt
            opDirectives fuel ((s.res ++ [0, c%'o', kind.code, c%'f', 0]).length - 1)
          else
            opDirectives fuel ((s.res ++ [0, c%'o', kind.code, c%'f', 0]).length - 1)) cfg
          { s with res := s.res ++ [0, c%'o', kind.code, c%'f', 0] ++ name, charNr := p2, targetIdx := if hasTarget cfg then s.targetIdx else some s.res.length }
          (DefPost cfg s) := by
      intro _ name hname p2 hp2 hl
      rw [wp_bind, wp_sliceResFrom, if_pos (by simp), wp_bind, wp_setTargetIfName]
      rw [List.drop_left]
      generalize hs0 : (if (decide (name.length > 0) && hasTarget cfg && cfg.target == some name) = true then _ else _) = s0
      have hs0' : s0 = { s with res := s.res ++ [0, c%'o', kind.code, c%'f', 0] ++ name, charNr := p2, targetIdx := stepTgt cfg.target s.targetIdx [(s.res.length, name)] } := by
        rw [← hs0, ← target_step]
        split <;> rfl
      subst hs0'
      clear hs0
      rw [wp_bind]
      refine wp_mono mightIgnore_wp ?_
      rintro (_ | c) s1 ⟨p3, rfl, hp3, hq3⟩
      · dsimp only
        rw [wp_unexpectedEOF]
        exact DefPost.fail (by simp at hp3 ⊢; omega) rfl
      · simp only at hp3
        have hlt3 := query_lt hq3
        dsimp only
        refine wp_if (fun h1 => ?_) (fun h1 => ?_)
        · rw [wp_bind]
          refine setRes_wp (a := s.res ++ [0, c%'o', kind.code]) (x := c%'f') (c := 0 :: name) (by simp) (by simp) ?_
          rw [wp_bind, wp_emit, wp_bind, wp_resLen, wp_bind, wp_resLen, wp_bind, wp_incPos, wp_bind]
          refine wp_mono (parseOperatorArguments_sound (by unfold Fuel; simp; omega)) ?_
          rintro crit s4 ⟨h4, h5, h6, out, h7, h8⟩
          dsimp only at h5 h6 h7 h8
          have hext : Ext cfg { s with charNr := p3, targetIdx := stepTgt cfg.target s.targetIdx [(s.res.length, name)] } s4 :=
            ⟨by have := h4.pos; simp only at this ⊢; omega, h4.frags, h4.tgt, h4.errs⟩
          cases crit with
          | true =>
            rw [if_pos rfl, wp_pure]
            refine DefPost.ofPost (V := fun _ => False) (s1 := { s with charNr := p3, targetIdx := stepTgt cfg.target s.targetIdx [(s.res.length, name)] })
              ⟨hext, h5, by simp, _, by rw [h7]; simp only [List.append_assoc]; rfl, ?_⟩ (by simp; omega) rfl hlt (by simp)
            have := h5 rfl
            simp only; omega
          | false =>
            have h6 := h6 rfl
            rw [if_neg (by simp), wp_bind, wp_resLen, wp_bind]
            refine writeUint32_wp (a := s.res ++ [0, c%'o', kind.code] ++ c%'t' :: 0 :: name ++ [0]) (z := [0, 0, 0, 0]) (c := out)
              (by simp [h7]) rfl (by simp; omega) ?_
            have hlen : UInt32.ofNat s4.res.length - UInt32.ofNat (s.res ++ [0, c%'o', kind.code] ++ c%'t' :: 0 :: name ++ [0, 0, 0, 0, 0]).length
                = UInt32.ofNat out.length := by
              rw [h7]
              generalize (s.res ++ [0, c%'o', kind.code] ++ c%'t' :: 0 :: name ++ [0, 0, 0, 0, 0]) = l
              rw [List.length_append, UInt32.ofNat_add]
              rw [UInt32.add_comm, UInt32.add_sub_cancel]
            dsimp only
            rw [hlen]
            refine wp_mono (opDirectives_sound (pre := s.res) (k := kind.code) (tf := c%'t') (mid := name ++ ([0] ++ (len32 out.length ++ out)))
              (by unfold Fuel; simp; omega) (by simp [len32]) (by simp)) ?_
            rintro crit s' ⟨g1, g2, g3, o, g4, g5⟩
            dsimp only at g2 g3 g4 g5
            have hle4 := h4.errLen
            have hle1 := g1.errLen
            simp only at hle4 hle1
            refine DefPost.ofPost (V := fun o => ∃ d : Def, d.WF ∧ o = encDef d ∧ fragPositions s.res.length [d] = [] ∧ opPositions s.res.length [d] = [(s.res.length, name)])
              (s1 := { s with charNr := p3, targetIdx := stepTgt cfg.target s.targetIdx [(s.res.length, name)] })
              ⟨hext.trans (Ext.trans (s' := { s4 with charNr := s4.charNr }) (Ext.of (by simp) rfl rfl rfl) ⟨g1.pos, g1.frags, g1.tgt, g1.errs⟩),
                fun h => by have := g2 h; simp only; omega, fun h => by have := g3 h; simp only; omega, o, g4, ?_⟩ (by simp; omega) rfl hlt ?_
            · intro he
              simp only at he
              obtain ⟨ds, ss, hds, hss, rfl⟩ := g5 (by omega)
              obtain ⟨vs, hvs, rfl⟩ := h8 (by omega)
              refine ⟨.op ⟨kind, name, some vs, ds, ss⟩, ⟨hname, by simpa using hvs, hds, hss⟩, ?_, by simp [fragPositions], by simp [opPositions]⟩
              simp [encDef, encOperation, encVars]
            · rintro out ⟨d, hd, rfl, hf, ho⟩
              exact ⟨d, hd, rfl, by simp [hf], by simp [ho]⟩
        · refine wp_mono (opDirectives_sound (pre := s.res) (k := kind.code) (tf := c%'f') (mid := name)
              (by unfold Fuel; simp; omega) (by simp) (by simp)) ?_
          intro crit s' h
          refine DefPost.ofPost h (by simp; omega) rfl hlt ?_
          rintro out ⟨ds, ss, hds, hss, rfl⟩
          refine ⟨.op ⟨kind, name, none, ds, ss⟩, ⟨hname, by simp, hds, hss⟩, ?_, by simp [fragPositions], by simp [opPositions]⟩
          simp [encDef, encOperation, encVars]
    rintro ⟨nl, crit⟩ s' (⟨rfl, out, p', m', t, hp', rfl⟩ | ⟨h, rfl, hlt'⟩ | ⟨rfl, name, hnm, hlen, hlt', rfl⟩)
    · dsimp only
      rw [if_pos rfl, wp_pure]
      exact DefPost.fail (by simp at hp' ⊢; omega) rfl
    · cases h
      dsimp only
      rw [if_neg (by simp)]
      have := key 0 [] (Or.inl rfl) p (Nat.le_refl _) hltp
      rw [List.append_nil] at this
      exact this
    · simp only at hlen hlt'
      dsimp only
      rw [if_neg (by simp)]
      exact key 0 name (Or.inr hnm) (p + name.length) (by omega) hlt'

theorem parseFragment_sound {b cfg fuel s} (hf : Fuel cfg s 4 fuel) :
    wp b (parseFragment fuel) cfg s (DefPost cfg s) := by
  unfold Fuel at hf
  unfold parseFragment instructionNewFragment
  rw [wp_bind, wp_resLen, wp_bind, wp_addFrag, wp_bind, wp_emit, wp_bind]
  refine wp_mono mightIgnore_wp ?_
  rintro (_ | c) s1 ⟨p, rfl, hp, hq⟩
  · dsimp only
    rw [wp_unexpectedEOF]
    exact DefPost.fail (by simpa using hp) rfl
  · simp only at hp
    have hlt : s.charNr < cfg.query.length := by have := query_lt hq; omega
    dsimp only
    rw [wp_bind]
    refine wp_mono parseAndWriteName_sound ?_
    rintro ⟨nl, crit⟩ s' (⟨rfl, out, p', m', t, hp', rfl⟩ | ⟨h, rfl, hlt'⟩ | ⟨rfl, name, hnm, hlen, hlt', rfl⟩)
    · dsimp only
      rw [if_pos rfl, wp_pure]
      exact DefPost.fail (by simp at hp' ⊢; omega) rfl
    · cases h
      dsimp only
      rw [if_neg (by simp), if_pos (by simp), wp_bind]
      refine currentC_wp hq ?_
      rw [wp_errC]
      exact DefPost.fail (by simp; omega) rfl
    · simp only at hlen hlt'
      have hnp := name_pos hnm
      dsimp only
      rw [if_neg (by simp), if_neg (by rw [name_ne_zero hnm hlen]; simp), wp_bind]
      refine wp_mono mightIgnore_wp ?_
      rintro (_ | c) s1 ⟨p2, rfl, hp2, hq2⟩
      · dsimp only
        rw [wp_unexpectedEOF]
        exact DefPost.fail (by simp at hp2 ⊢; omega) rfl
      · simp only at hp2
        dsimp only
        refine wp_if (fun h1 => ?_) (fun h1 => ?_)
        · rw [wp_errC]
          exact DefPost.fail (by simp; omega) rfl
        · rw [wp_bind, wp_incPos, wp_bind, wp_getPos, wp_bind, wp_checkC]
          dsimp only
          cases hq3 : cfg.query[p2 + 1]? with
          | none =>
            dsimp only
            rw [wp_unexpectedEOF]
            exact DefPost.fail (by simp; omega) rfl
          | some c3 =>
            dsimp only
            refine wp_if (fun h1 => ?_) (fun h1 => ?_)
            · rw [wp_errC]
              exact DefPost.fail (by simp; omega) rfl
            · rw [wp_bind, wp_incPos, wp_bind]
              refine wp_mono mightIgnore_wp ?_
              rintro (_ | c) s1 ⟨p4, rfl, hp4, hq4⟩
              · dsimp only
                rw [wp_unexpectedEOF]
                exact DefPost.fail (by simp at hp4 ⊢; omega) rfl
              · simp only at hp4
                dsimp only
                rw [wp_bind, wp_emit, wp_bind]
                refine wp_mono parseAndWriteName_sound ?_
                rintro ⟨nl2, crit⟩ s' (⟨rfl, out, p', m', t, hp', rfl⟩ | ⟨h, rfl, hlt''⟩ | ⟨rfl, name2, hnm2, hlen2, hlt2, rfl⟩)
                · dsimp only
                  rw [if_pos rfl, wp_pure]
                  exact DefPost.fail (by simp at hp' ⊢; omega) rfl
                · cases h
                  dsimp only
                  rw [if_neg (by simp), if_pos (by simp), wp_bind]
                  refine currentC_wp hq4 ?_
                  rw [wp_errC]
                  exact DefPost.fail (by simp; omega) rfl
                · simp only at hlen2 hlt2
                  dsimp only
                  rw [if_neg (by simp), if_neg (by rw [name_ne_zero hnm2 hlen2]; simp), wp_bind]
                  refine wp_mono mightIgnore_wp ?_
                  rintro (_ | c) s1 ⟨p5, rfl, hp5, hq5⟩
                  · dsimp only
                    rw [wp_unexpectedEOF]
                    exact DefPost.fail (by simp at hp5 ⊢; omega) rfl
                  · simp only at hp5
                    dsimp only
                    refine wp_if (fun h1 => ?_) (fun h1 => ?_)
                    · rw [wp_errC]
                      exact DefPost.fail (by simp; omega) rfl
                    · refine wp_mono (opBody_sound (by unfold Fuel; simp; omega) (query_lt hq5)) ?_
                      rintro crit s' ⟨h2, h3, h4, o, h5, h6⟩
                      dsimp only at h3 h4 h5 h6
                      refine DefPost.ofPost (V := fun out => ∃ ss, selsWF ss ∧ out = [0, c%'F'] ++ name ++ [0] ++ name2 ++ (encSels ss ++ endI))
                        (s1 := { s with frags := s.frags ++ [s.res.length + 1], charNr := p5 }) ⟨⟨h2.pos, h2.frags, h2.tgt, h2.errs⟩, h3, h4, [0, c%'F'] ++ name ++ [0] ++ name2 ++ o, by simp [h5], fun he => ?_⟩
                        (by simp; omega) rfl hlt ?_
                      · obtain ⟨ss, hss, rfl⟩ := h6 he
                        exact ⟨ss, hss, rfl⟩
                      · rintro out ⟨ss, hss, rfl⟩
                        exact ⟨.frag ⟨name, name2, ss⟩, ⟨hnm, hnm2, hss⟩, by simp [encDef, encFragment], by simp [fragPositions],
                          by simp [opPositions, stepTgt_nil]⟩

theorem parseOperatorOrFragment_sound {b cfg fuel s} (hf : Fuel cfg s 4 fuel) :
    wp b (parseOperatorOrFragment fuel) cfg s (DefPost cfg s) := by
  unfold Fuel at hf
  unfold parseOperatorOrFragment
  rw [wp_bind]
  refine wp_mono mightIgnore_wp ?_
  rintro (_ | c) s1 ⟨p, rfl, hp, hq⟩
  · dsimp only
    rw [wp_pure]
    exact ⟨by simpa using hp, ⟨[], by simp, by simp⟩, fun _ => Or.inr ⟨rfl, rfl, rfl, rfl⟩, by simp, by simp⟩
  · have hlt := query_lt hq
    dsimp only
    rw [wp_bind, wp_resLen]
    refine wp_if (fun h1 => ?_) (fun h1 => ?_)
    · unfold instructionNewOperation
      rw [wp_bind, wp_setTargetIfNone, wp_bind, wp_emit]
      have e : (if hasTarget cfg = true then ({ s with charNr := p } : PS) else { s with charNr := p, targetIdx := some s.res.length }) =
          { s with charNr := p, targetIdx := stepTgt cfg.target s.targetIdx [(s.res.length, [])] } := by
        rw [← target_step]
        split <;> simp
      rw [e]
      refine wp_mono (opBody_sound (by unfold Fuel; simp; omega) hlt) ?_
      rintro crit s' ⟨h2, h3, h4, o, h5, h6⟩
      dsimp only at h3 h4 h5 h6
      refine DefPost.ofPost (V := fun out => ∃ ss, selsWF ss ∧ out = [0, c%'o', c%'q', c%'f', 0] ++ (encSels ss ++ endI))
        (s1 := { s with charNr := p, targetIdx := stepTgt cfg.target s.targetIdx [(s.res.length, [])] }) ⟨⟨h2.pos, h2.frags, h2.tgt, h2.errs⟩, h3, h4, [0, c%'o', c%'q', c%'f', 0] ++ o, by simp [h5], fun he => ?_⟩
        hp rfl (by omega) ?_
      · obtain ⟨ss, hss, rfl⟩ := h6 he
        exact ⟨ss, hss, rfl⟩
      · rintro out ⟨ss, hss, rfl⟩
        exact ⟨.op ⟨.query, [], none, [], ss⟩, ⟨Or.inl rfl, by simp, ⟨by simp, by simp⟩, hss⟩,
          by simp [encDef, encOperation, encVars, encDirectives, OpKind.code], by simp [fragPositions], by simp [opPositions]⟩
    · rw [wp_bind]
      have shift : ∀ {p'} {crit s'}, s.charNr ≤ p' → DefPost cfg { s with charNr := p' } crit s' → DefPost cfg s crit s' := by
        rintro p' crit s' hp' ⟨h1, h2, h3, h4, h5⟩
        simp only at h1 h2 h3 h4 h5
        exact ⟨by omega, h2, h3, fun h => ⟨by have := (h4 h).1; omega, by have := (h4 h).2; omega⟩, h5⟩
      refine wp_mono (matchesKw_wp [b%"query", b%"mutation", b%"subscription"] (by simp)) ?_
      rintro r s' (⟨rfl, rfl, _⟩ | ⟨m, key, rfl, hg, hat, rfl⟩)
      · dsimp only
        rw [wp_bind]
        refine wp_mono (matchesKw_wp [b%"fragment"] (by simp)) ?_
        rintro r s' (⟨rfl, rfl, _⟩ | ⟨m, key, rfl, hg, hat, rfl⟩)
        · dsimp only
          rw [wp_errC]
          exact DefPost.fail (by simpa using hp) rfl
        · dsimp only
          refine wp_mono (parseFragment_sound (by unfold Fuel; simp; omega)) ?_
          intro crit s' h
          exact shift (by omega) h
      · dsimp only
        refine wp_mono (parseOperation_sound (s := { s with charNr := p + key.length }) (by unfold Fuel; simp; omega)) ?_
        intro crit s' h
        exact shift (by omega) h

theorem selectedOp_append (target : Option Bytes) (a b : List (Nat × Bytes)) :
    selectedOp target (a ++ b) = match selectedOp target b with | some i => some i | none => selectedOp target a := by
  unfold selectedOp
  have key : ∀ (a b : List (Nat × Bytes)), Option.map (·.1) (a ++ b).getLast? =
      match Option.map (·.1) b.getLast? with | some i => some i | none => Option.map (·.1) a.getLast? := by
    intro a b
    rcases List.eq_nil_or_concat b with rfl | ⟨b, x, rfl⟩
    · simp
    · rw [List.concat_eq_append, ← List.append_assoc]; simp
  split
  · exact key a b
  · exact key a b
  · rw [List.filter_append]; exact key _ _

theorem stepTgt_append (target : Option Bytes) (t : Option Nat) (a b : List (Nat × Bytes)) :
    stepTgt target (stepTgt target t a) b = stepTgt target t (a ++ b) := by
  unfold stepTgt
  rw [selectedOp_append]
  split <;> rename_i h <;> simp_all

theorem opPositions_cons (n : Nat) (d : Def) (ds : List Def) :
    opPositions n (d :: ds) = opPositions n [d] ++ opPositions (n + (encDef d).length) ds := by
  cases d <;> simp [opPositions, encDef]

theorem fragPositions_cons (n : Nat) (d : Def) (ds : List Def) :
    fragPositions n (d :: ds) = fragPositions n [d] ++ fragPositions (n + (encDef d).length) ds := by
  cases d <;> simp [fragPositions, encDef]

/-- Post-condition of the whole parser. -/
structure DocPost (cfg : PCfg) (s s' : PS) : Prop where
  errs : ∃ es, s'.errs = s.errs ++ es ∧ ∀ e ∈ es, Located cfg.query e
  out : s'.errs = s.errs → ∃ d : List Def, docWF d ∧ s'.res = s.res ++ encDoc d ∧
    s'.frags = s.frags ++ fragPositions s.res.length d ∧
    s'.targetIdx = stepTgt cfg.target s.targetIdx (opPositions s.res.length d)

theorem docLoop_sound {b cfg fuel} (hf : 8 * cfg.query.length + 4 ≤ fuel) : ∀ (n : Nat) (s : PS),
    cfg.query.length - s.charNr + 2 ≤ n → wp b (docLoop fuel n) cfg s (fun _ s' => DocPost cfg s s')
  | 0, s, h => by omega
  | n + 1, s, h => by
    unfold docLoop
    rw [wp_bind]
    refine wp_mono (parseOperatorOrFragment_sound (by unfold Fuel; omega)) ?_
    rintro stop s1 ⟨h1, ⟨es, he, hes⟩, h3, h4, h5⟩
    cases stop with
    | true =>
      rw [if_pos rfl, wp_pure]
      refine ⟨⟨es, he, hes⟩, fun hh => ?_⟩
      rcases h3 rfl with h3 | ⟨_, h6, h7, h8⟩
      · rw [hh] at h3; omega
      · exact ⟨[], by simp [docWF], by simp [h6, encDoc], by simp [h7, fragPositions],
          by simp [opPositions, stepTgt_nil, h8]⟩
    | false =>
      rw [if_neg (by simp)]
      obtain ⟨h6, h7⟩ := h4 rfl
      refine wp_mono (docLoop_sound hf n s1 (by omega)) ?_
      rintro _ s2 ⟨⟨es2, he2, hes2⟩, hout⟩
      refine ⟨⟨es ++ es2, by simp [he2, he], ?_⟩, fun hh => ?_⟩
      · intro e hmem
        rcases List.mem_append.mp hmem with hmem | hmem
        · exact hes e hmem
        · exact hes2 e hmem
      · rw [he2, he] at hh
        simp at hh
        obtain ⟨rfl, rfl⟩ := hh
        simp only [List.append_nil] at he he2
        obtain ⟨d, hd, hr, hfr, ht⟩ := h5 rfl (by rw [he])
        obtain ⟨ds, hds, hr2, hfr2, ht2⟩ := hout he2
        refine ⟨d :: ds, ?_, ?_, ?_, ?_⟩
        · intro x hx
          rcases List.mem_cons.mp hx with rfl | hx
          · exact hd
          · exact hds x hx
        · simp [hr2, hr, encDoc]
        · rw [fragPositions_cons, hfr2, hfr, hr]; try simp
        · rw [opPositions_cons, ht2, ht, stepTgt_append, hr]; try simp

/-- The parser as a whole: it returns normally, its errors are located, without errors its output is the encoding of a
well-formed document. -/
theorem parseQuery_sound (query : Bytes) (target : Option Bytes) :
    wp False (fun cfg s => docLoop (parseFuel query) (query.length + 2) cfg s) ⟨query, target⟩ PS.init (fun _ s' => DocPost ⟨query, target⟩ PS.init s') :=
  docLoop_sound (by unfold parseFuel; simp) _ _ (by simp [PS.init])

end Parser
end Yarql
