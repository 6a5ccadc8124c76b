import Verif.Proofs.TextVal

/-! # Accepted texts are documents: directives, types and variables -/

namespace Yarql
namespace Parser
open Grammar Doc

theorem setRes_any {α} {f : Unit → P α} {cfg s i x} {Q : α → PS → Prop} (h : ∀ r, wp True (f ()) cfg { s with res := r } Q) :
    wp True (setRes i x >>= f) cfg s Q := by
  rw [wp_bind, wp_setRes]
  split
  · exact h _
  · trivial

theorem truncRes_any {α} {f : Unit → P α} {cfg s i} {Q : α → PS → Prop} (h : ∀ r, wp True (f ()) cfg { s with res := r } Q) :
    wp True (truncRes i >>= f) cfg s Q := by
  rw [wp_bind, wp_truncRes]
  split
  · exact h _
  · trivial

theorem writeUint32_any {α} {f : Unit → P α} {cfg s i x} {Q : α → PS → Prop} (h : ∀ r, wp True (f ()) cfg { s with res := r } Q) :
    wp True (writeUint32 x i >>= f) cfg s Q := by
  rw [wp_bind, wp_writeUint32]
  split
  · exact h _
  · trivial

theorem sliceRes_any {α} {f : Bytes → P α} {cfg s i j} {Q : α → PS → Prop} (h : ∀ r, wp True (f r) cfg s Q) :
    wp True (sliceRes i j >>= f) cfg s Q := by
  rw [wp_bind, wp_sliceRes]
  split
  · exact h _
  · trivial

/-- What `parseDirectives` has read. -/
def DirsRead (q : Bytes) (amount : UInt8) (n n' : Nat) : Prop := ∃ ds toks c, DirsT ds toks ∧ amount.toNat + ds.length ≤ 255 ∧
  Reads q n n' toks ∧ q[n']? = some c ∧ (∀ d, ds.getLast? = some d → d.args = none → c ≠ c%'(') ∧
  (ds = [] → ∀ c0, q[n]? = some c0 → ¬ IgnStart c0 → n' = n)

theorem parseDirectives_text {cfg} : ∀ (fuel : Nat) (amount : UInt8) (s : PS), wp True (parseDirectives fuel amount) cfg s (fun r s' =>
    Clean s s' (r.2 = false ∧ DirsRead cfg.query amount s.charNr s'.charNr))
  | 0, _, _ => by unfold parseDirectives; trivial
  | fuel + 1, amount, s => by
    unfold parseDirectives
    refine wp_skip ?_ ?_
    · intro p
      dsimp only
      rw [wp_bind, wp_unexpectedEOF, wp_pure]
      exact clean_err rfl
    intro p c hsk
    dsimp only
    refine wp_if (fun h1 => ?_) (fun h1 => ?_)
    · rw [wp_pure]
      refine .of rfl ⟨rfl, [], [], c, .nil, ?_, hsk.reads, hsk.get, by simp, fun _ => hsk.stay⟩
      have := amount.toNat_lt
      simp
      omega
    have : c = c%'@' := by simpa using h1
    subst this
    refine wp_if (fun h2 => ?_) (fun h2 => ?_)
    · rw [wp_bind, wp_err, wp_pure]
      exact clean_err rfl
    have ham : (amount + 1).toNat = amount.toNat + 1 := by
      have h3 : amount ≠ 255 := by simpa using h2
      have h4 : amount.toNat ≠ 255 := fun h => h3 (UInt8.toNat_inj.mp h)
      have := amount.toNat_lt
      rw [UInt8.toNat_add]
      simp
      omega
    unfold instructionNewDirective
    rw [wp_bind, wp_incPos, wp_bind, wp_emit, wp_bind, wp_resLen]
    refine wp_name ?_ ?_ ?_
    · intro k s' l e h
      dsimp only
      rw [if_pos rfl, wp_pure]
      exact clean_err h
    · dsimp only
      rw [if_neg (by simp), if_pos (by simp), wp_bind, wp_currentC]
      dsimp only
      cases cfg.query[p + 1]? with
      | none => trivial
      | some c => dsimp only; rw [wp_bind, wp_errC, wp_pure]; exact clean_err rfl
    intro k n hk hn
    dsimp only at hn ⊢
    have hhead := hsk.reads.pre (hn.sigil hsk.get (.inr rfl))
    rw [if_neg (by simp), if_neg (by simpa using hk)]
    refine wp_skip ?_ ?_
    · intro p
      dsimp only
      rw [wp_bind, wp_unexpectedEOF, wp_pure]
      exact clean_err rfl
    intro p2 c2 hsk2
    dsimp only at hsk2 ⊢
    refine wp_if (fun h3 => ?_) (fun h3 => ?_)
    · have h3' : c2 ≠ c%'(' := by simpa using h3
      refine wp_mono (parseDirectives_text fuel (amount + 1) _) ?_
      intro r s' h
      refine h.mono rfl ?_
      rintro ⟨h4, ds, toks, c3, h5, h6, h7, h8, h9, h10⟩
      refine ⟨h4, ⟨n, none⟩ :: ds, _, c3, .cons hn.isName .none h5, ?_, ?_, h8, ?_, by simp⟩
      · simp; omega
      · have := (hhead.skip hsk2.reads).trans h7
        simpa using this
      · intro d hd hda
        cases ds with
        | nil =>
          have := h10 rfl c2 hsk2.get hsk2.tok
          dsimp only at this
          rw [this, hsk2.get] at h8
          injection h8 with h8
          exact h8 ▸ h3'
        | cons d' ds =>
          rw [List.getLast?_cons_cons] at hd
          exact h9 d hd hda
    · have : c2 = c%'(' := by simpa using h3
      subst this
      refine setRes_any (fun r => ?_)
      rw [wp_bind, wp_incPos, wp_bind]
      refine wp_mono (parseAssignmentSet_text fuel c%')' (by decide) _) ?_
      intro crit s1 h1
      refine wp_if (fun hc => ?_) (fun hc => ?_)
      · rw [wp_pure]; exact clean_crit h1 hc
      refine wp_mono (parseDirectives_text fuel (amount + 1) _) ?_
      intro r s' h
      refine (h1.mono (s := s) rfl (fun x => x)).bind h ?_
      rintro ⟨_, fs, tf, h11, h12⟩ ⟨h4, ds, toks, c3, h5, h6, h7, h8, h9, h10⟩
      refine ⟨h4, ⟨n, some fs⟩ :: ds, _, c3, .cons hn.isName (.some h11) h5, ?_, ?_, h8, ?_, by simp⟩
      · simp; omega
      · have := ((hhead.skip hsk2.reads).trans (Reads.punct hsk2.get (by decide))).trans (h12.trans h7)
        simpa using this
      · intro d hd hda
        cases ds with
        | nil =>
          injection hd with hd
          subst hd
          cases hda
        | cons d' ds =>
          rw [List.getLast?_cons_cons] at hd
          exact h9 d hd hda

def TyRead (q : Bytes) (n n' : Nat) : Prop := ∃ ty toks, TyT ty toks ∧ Reads q n n' toks

theorem parseGraphqlTypeName_text {cfg} : ∀ (fuel : Nat) (c : Byte) (s : PS), cfg.query[s.charNr]? = some c →
    wp True (parseGraphqlTypeName fuel c) cfg s (fun crit s' => Clean s s' (crit = false ∧ TyRead cfg.query s.charNr s'.charNr))
  | 0, _, _, _ => by unfold parseGraphqlTypeName; trivial
  | fuel + 1, c, s, hq => by
    unfold parseGraphqlTypeName
    rw [wp_bind, wp_resLen]
    refine wp_if (fun h1 => ?_) (fun h1 => ?_)
    · have : c = c%'[' := by simpa using h1
      subst this
      have hopen := Reads.punct hq (by decide)
      rw [wp_bind, wp_emit, wp_bind, wp_incPos]
      refine wp_skip (fun p => eof_clean) ?_
      intro p c hsk
      dsimp only at hsk ⊢
      rw [wp_bind]
      refine wp_mono (parseGraphqlTypeName_text fuel c _ hsk.get) ?_
      intro crit s1 h1
      refine wp_if (fun hc => ?_) (fun hc => ?_)
      · rw [wp_pure]; exact clean_crit h1 hc
      refine wp_skip (fun p => eof_clean) ?_
      intro p2 c2 hsk2
      dsimp only at h1 ⊢
      refine wp_if (fun h2 => errC_clean) (fun h2 => ?_)
      have : c2 = c%']' := by simpa using h2
      subst this
      rw [wp_bind, wp_incPos, wp_bind, wp_getPos, wp_bind, wp_checkC]
      dsimp only
      cases hq3 : cfg.query[p2 + 1]? with
      | none => exact eof_clean
      | some c3 =>
        dsimp only
        refine wp_if (fun h3 => ?_) (fun h3 => ?_)
        · have : c3 = c%'!' := by simpa using h3
          subst this
          refine setRes_any (fun r => ?_)
          rw [wp_bind, wp_incPos, wp_pure]
          refine (h1.mono (s := s) rfl (fun x => x)).bind (Clean.of rfl trivial) ?_
          rintro ⟨_, ty, toks, h4, h5⟩ _
          refine ⟨rfl, _, _, .listNN h4, ?_⟩
          have h6 : Reads cfg.query p2 (p2 + 1 + 1) [.listEndBang] :=
            .tok trivial .listEndBang (by rw [drop_eq_cons hsk2.get, drop_eq_cons hq3]; rfl) trivial
          exact (hopen.skip hsk.reads).trans (h5.trans (hsk2.reads.pre h6))
        · rw [wp_pure]
          refine (h1.mono (s := s) rfl (fun x => x)).bind (Clean.of rfl trivial) ?_
          rintro ⟨_, ty, toks, h4, h5⟩ _
          refine ⟨rfl, _, _, .list h4, ?_⟩
          have h6 : Reads cfg.query p2 (p2 + 1) [.listEnd] :=
            .tok trivial .listEnd (drop_eq_cons hsk2.get) (by
              intro d r hr
              have := get_of_drop hr
              rw [hq3] at this
              injection this with this
              subst this
              simpa using h3)
          exact (hopen.skip hsk.reads).trans (h5.trans (hsk2.reads.pre h6))
    · rw [wp_bind, wp_emit]
      refine wp_name ?_ ?_ ?_
      · intro k s' l e h
        dsimp only
        rw [if_pos rfl, wp_pure]
        exact clean_err h
      · dsimp only
        rw [if_neg (by simp), if_pos (by simp)]
        exact errHere
      intro k n hk hn
      dsimp only at hn ⊢
      rw [if_neg (by simp), if_neg (by simpa using hk)]
      refine wp_skip (fun p => eof_clean) ?_
      intro p c hsk
      dsimp only at hsk ⊢
      refine wp_if (fun h3 => ?_) (fun h3 => ?_)
      · have : c = c%'!' := by simpa using h3
        subst this
        refine setRes_any (fun r => ?_)
        rw [wp_bind, wp_incPos, wp_pure]
        exact .of rfl ⟨rfl, _, _, .namedNN hn.isName, hn.reads.trans (hsk.reads.pre (Reads.punct hsk.get (by decide)))⟩
      · rw [wp_pure]
        exact .of rfl ⟨rfl, _, _, .named hn.isName, hn.reads.skip hsk.reads⟩

theorem parseOperatorArgument_text {cfg fuel} {s : PS} {p0 : Nat} (hp : s.charNr = p0 + 1) (hq : cfg.query[p0]? = some c%'$') :
    wp True (parseOperatorArgument fuel) cfg s (fun crit s' => Clean s s' (crit = false ∧ (s'.charNr < cfg.query.length →
      ∃ v toks, VarT v toks ∧ Reads cfg.query p0 s'.charNr toks))) := by
  unfold parseOperatorArgument instructionNewOperationArg
  rw [wp_bind, wp_resLen, wp_bind, wp_bind, wp_emit, wp_bind, wp_resLen, wp_pure]
  refine wp_name ?_ ?_ ?_
  · intro k s' l e h
    dsimp only
    rw [if_pos rfl, wp_pure]
    exact clean_err h
  · dsimp only
    rw [if_neg (by simp), if_pos (by simp)]
    exact errHere
  intro k n hk hn
  dsimp only at hn ⊢
  rw [hp] at hn
  have hhead := hn.sigil hq (.inl rfl)
  rw [if_neg (by simp), if_neg (by simpa using hk), hp]
  refine wp_skip (fun p => eof_clean) ?_
  intro p1 c1 hsk1
  dsimp only at hsk1 ⊢
  refine wp_if (fun h => errHere) (fun h1 => ?_)
  have : c1 = c%':' := by simpa using h1
  subst this
  rw [wp_bind, wp_incPos, wp_bind, wp_emit]
  refine wp_skip (fun p => eof_clean) ?_
  intro p2 c2 hsk2
  dsimp only at hsk2 ⊢
  have hhead2 := (hhead.trans (hsk1.reads.pre (Reads.punct hsk1.get (by decide)))).skip hsk2.reads
  rw [wp_bind]
  refine wp_mono (parseGraphqlTypeName_text fuel c2 _ hsk2.get) ?_
  intro crit s1 h1
  refine wp_if (fun hc => ?_) (fun hc => ?_)
  · rw [wp_pure]; exact clean_crit h1 hc
  rw [wp_bind, wp_emit]
  dsimp only at h1
  refine wp_skip (fun p => eof_clean) ?_
  intro p3 c3 hsk3
  dsimp only at hsk3 ⊢
  refine wp_if (fun h2 => ?_) (fun h2 => ?_)
  · have : c3 = c%'=' := by simpa using h2
    subst this
    rw [wp_bind, wp_emit, wp_bind, wp_incPos]
    refine wp_skip (fun p => eof_clean) ?_
    intro p4 c4 hsk4
    dsimp only at hsk4 ⊢
    rw [wp_bind]
    refine wp_mono (parseInputValue_text fuel _) ?_
    intro crit s2 h3
    refine wp_if (fun hc => ?_) (fun hc => ?_)
    · rw [wp_pure]; exact clean_crit h3 hc
    rw [wp_bind, wp_resLen]
    refine writeUint32_any (fun r => ?_)
    rw [wp_pure]
    refine (h1.mono (s := s) rfl (fun x => x)).bind (h3.mono (s := s1) rfl (fun x => x)) ?_
    rintro ⟨_, ty, tt, h4, h5⟩ ⟨_, h6⟩
    refine ⟨rfl, fun hl => ?_⟩
    obtain ⟨v, tv, h7, h8⟩ := h6 hl
    refine ⟨_, _, .default hn.isName h4 h7, ?_⟩
    have := (hhead2.trans (h5.skip hsk3.reads)).trans ((Reads.punct hsk3.get (by decide)).trans (hsk4.reads.pre h8))
    simpa using this
  · rw [wp_bind, wp_emit, wp_bind, wp_resLen]
    refine writeUint32_any (fun r => ?_)
    rw [wp_pure]
    refine (h1.mono (s := s) rfl (fun x => x)).bind (Clean.of rfl trivial) ?_
    rintro ⟨_, ty, tt, h4, h5⟩ _
    refine ⟨rfl, fun hl => ⟨_, _, .plain hn.isName h4, ?_⟩⟩
    have := hhead2.trans (h5.skip hsk3.reads)
    simpa using this

def VarsRead (q : Bytes) (n n' : Nat) : Prop := ∃ cm vs toks, OptComma cm ∧ VarsT vs toks ∧
  Reads q n n' (cm ++ (toks ++ [.punct c%')']))

theorem operatorArgsLoop_text {cfg} : ∀ (fuel : Nat) (s : PS), wp True (operatorArgsLoop fuel) cfg s (fun crit s' =>
    Clean s s' (crit = false ∧ (s.charNr < cfg.query.length ∧ VarsRead cfg.query s.charNr s'.charNr)))
  | 0, _ => by unfold operatorArgsLoop; trivial
  | fuel + 1, s => by
    unfold operatorArgsLoop
    refine wp_skip (fun p => eof_clean) ?_
    intro p c hsk
    dsimp only
    have rest : ∀ (s1 : PS) (c : Byte) (cm : List Tok), s1.errs = s.errs → cfg.query[s1.charNr]? = some c → OptComma cm →
        Reads cfg.query s.charNr s1.charNr cm → wp True (do
        if c == c%')' then
          incPos
          instructionEnd
          return false
        else if c != c%'$' then errC b%"expected \"$\" but got \"" c
        else
        incPos
        if ← parseOperatorArgument fuel then return true
        operatorArgsLoop fuel) cfg s1 (fun crit s' =>
          Clean s s' (crit = false ∧ (s.charNr < cfg.query.length ∧ VarsRead cfg.query s.charNr s'.charNr))) := by
      intro s1 c cm he hq hcm hr
      refine wp_if (fun h1 => ?_) (fun h1 => ?_)
      · have : c = c%')' := by simpa using h1
        subst this
        unfold instructionEnd
        rw [wp_bind, wp_incPos, wp_bind, wp_emit, wp_pure]
        exact .of he ⟨rfl, hsk.lt, cm, [], [], hcm, .nil, hr.trans (Reads.punct hq (by decide))⟩
      refine wp_if (fun h2 => errC_clean) (fun h2 => ?_)
      have : c = c%'$' := by simpa using h2
      subst this
      rw [wp_bind, wp_incPos, wp_bind]
      refine wp_mono (parseOperatorArgument_text (p0 := s1.charNr) rfl hq) ?_
      intro crit s2 h3
      refine wp_if (fun hc => ?_) (fun hc => ?_)
      · rw [wp_pure]; exact clean_crit h3 hc
      refine wp_mono (operatorArgsLoop_text fuel s2) ?_
      intro crit s' h4
      refine (h3.mono (s := s) he (fun x => x)).bind h4 ?_
      rintro ⟨_, h5⟩ ⟨h6, hlt, cm2, vs, toks, h7, h8, h9⟩
      obtain ⟨v, tv, h10, h11⟩ := h5 hlt
      refine ⟨h6, hsk.lt, cm, v :: vs, tv ++ (cm2 ++ toks), hcm, .cons h10 h7 h8, ?_⟩
      have := hr.trans (h11.trans h9)
      simpa using this
    refine wp_if (fun h5 => ?_) (fun h5 => ?_)
    · have : c = c%',' := by simpa using h5
      subst this
      rw [wp_bind, wp_incPos]
      refine wp_skip (fun p => eof_clean) ?_
      intro p2 c2 hsk2
      exact rest { s with charNr := p2 } c2 _ rfl hsk2.get .comma ((hsk.reads.pre (Reads.punct hsk.get (by decide))).skip hsk2.reads)
    · exact rest { s with charNr := p } c _ rfl hsk.get .none hsk.reads

end Parser
end Yarql
