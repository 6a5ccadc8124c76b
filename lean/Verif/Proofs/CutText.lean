import Verif.Spec.Cut
import Verif.Spec.Grammar

/-! # Texts of cut documents

A document that has a text still has one after its selection sets behind list arguments were dropped. -/

namespace Yarql
namespace Doc
open Grammar

/-! ## Tokens -/

/-- every token can be spelled -/
def Spelled (ts : List Tok) : Prop := ∀ t ∈ ts, ∃ sp, Spell t sp

mutual
theorem spelled_at {ts : List Tok} {text : Bytes} : LexAt ts text → Spelled ts
  | .nil => fun _ h => by simp at h
  | .cons h1 _ h3 => fun t ht => by
    rcases List.mem_cons.1 ht with rfl | ht
    · exact ⟨_, h1⟩
    · exact spelled_lex h3 t ht
theorem spelled_lex {ts : List Tok} {text : Bytes} : Lex ts text → Spelled ts
  | .trailing _ => fun _ h => by simp at h
  | .mk _ h => spelled_at h
end

/-- any spelling of a token may be followed by a line end -/
theorem separated_nl (t : Tok) (sp rest : Bytes) : Separated t sp (c%'\n' :: rest) := by
  have hn : ¬ NameChar c%'\n' := by unfold NameChar NameStart; decide
  cases t with
  | name n => intro c r h; injection h with h _; subst h; exact hn
  | sigil c n => intro c r h; injection h with h _; subst h; exact hn
  | num n => intro c r h; injection h with h _; subst h; exact .inl (.inr (.inr (.inl rfl)))
  | word n => trivial
  | str v => intro _ c r h; injection h with h _; subst h; decide
  | punct c => trivial
  | listEnd => intro d r h; injection h with h _; subst h; decide
  | dots => trivial
  | listEndBang => trivial

/-- tokens that can be spelled have a text: one per line -/
theorem lex_of_spelled : ∀ {ts : List Tok}, Spelled ts → ∃ text, Lex ts (c%'\n' :: text)
  | [], _ => ⟨[], .trailing (.plain (.blank (.inr (.inr (.inl rfl))) .nil))⟩
  | t :: ts, h => by
    obtain ⟨text, ih⟩ := lex_of_spelled (ts := ts) (fun x hx => h x (List.mem_cons_of_mem _ hx))
    obtain ⟨sp, hsp⟩ := h t List.mem_cons_self
    exact ⟨sp ++ c%'\n' :: text, Lex.mk (ign := [c%'\n']) (.blank (.inr (.inr (.inl rfl))) .nil)
      (.cons hsp (separated_nl t sp text) ih)⟩

/-! ## Cutting -/

theorem body_none {ts us : List Tok} (h : ∀ t ∈ ts, t ∈ us) : ∀ t ∈ ts ++ [], t ∈ us := by simpa using h

mutual
theorem selT_cut {s : Sel} {ts : List Tok} : SelT s ts → ∃ ts', SelT s.cut ts' ∧ ∀ t ∈ ts', t ∈ ts
  | .field (k := k) (dirs := dirs) (args := args) (td := td) (ta := ta) h1 h2 h3 h4 h5 h6 => by
    obtain ⟨b, hb, hs⟩ := bodyT_cut h6
    rw [Sel.cut]
    by_cases hc : endsInList args = true
    · rw [if_pos hc]
      exact ⟨_, .field h1 h2 h3 h4 h5 .none, fun t ht => by simp at ht ⊢; grind⟩
    · rw [if_neg hc]
      exact ⟨_, .field h1 h2 h3 h4 h5 hb, fun t ht => by simp at ht ⊢; grind⟩
  | .aliased (args := args) h1 h1' h2 h3 h4 h5 h6 => by
    obtain ⟨b, hb, hs⟩ := bodyT_cut h6
    rw [Sel.cut]
    by_cases hc : endsInList args = true
    · rw [if_pos hc]
      exact ⟨_, .aliased h1 h1' h2 h3 h4 h5 .none, fun t ht => by simp at ht ⊢; grind⟩
    · rw [if_neg hc]
      exact ⟨_, .aliased h1 h1' h2 h3 h4 h5 hb, fun t ht => by simp at ht ⊢; grind⟩
  | .spread h1 h2 h3 h4 => ⟨_, .spread h1 h2 h3 h4, fun _ h => h⟩
  | .inline h1 h2 h3 h4 => by
    obtain ⟨b, hb, hs⟩ := selsT_cut h4
    rw [Sel.cut]
    exact ⟨_, .inline h1 h2 h3 hb, fun t ht => by simp at ht ⊢; grind⟩
theorem bodyT_cut {ss : List Sel} {ts : List Tok} : BodyT ss ts → ∃ ts', BodyT (selsCut ss) ts' ∧ ∀ t ∈ ts', t ∈ ts
  | .none => ⟨_, .none, fun _ h => h⟩
  | .some h => by
    obtain ⟨b, hb, hs⟩ := selsT_cut h
    exact ⟨_, .some hb, fun t ht => by simp at ht ⊢; grind⟩
theorem selsT_cut {ss : List Sel} {ts : List Tok} : SelsT ss ts → ∃ ts', SelsT (selsCut ss) ts' ∧ ∀ t ∈ ts', t ∈ ts
  | .nil => ⟨_, .nil, fun _ h => h⟩
  | .cons h1 h2 h3 => by
    obtain ⟨a, ha, hs⟩ := selT_cut h1
    obtain ⟨b, hb, hs'⟩ := selsT_cut h3
    rw [selsCut]
    exact ⟨_, .cons ha h2 hb, fun t ht => by simp at ht ⊢; grind⟩
end

theorem defT_cut {x : Def} {ts : List Tok} (h : DefT x ts) : ∃ ts', DefT x.cut ts' ∧ ∀ t ∈ ts', t ∈ ts := by
  cases h with
  | short h =>
    obtain ⟨b, hb, hs⟩ := selsT_cut h
    exact ⟨_, .short hb, fun t ht => by simp at ht ⊢; grind⟩
  | op h1 h2 h3 h4 h =>
    obtain ⟨b, hb, hs⟩ := selsT_cut h
    exact ⟨_, .op h1 h2 h3 h4 hb, fun t ht => by simp at ht ⊢; grind⟩
  | frag h1 h2 h =>
    obtain ⟨b, hb, hs⟩ := selsT_cut h
    exact ⟨_, .frag h1 h2 hb, fun t ht => by simp at ht ⊢; grind⟩

theorem docT_cut {d : List Def} {ts : List Tok} (h : DocT d ts) : ∃ ts', DocT (docCut d) ts' ∧ ∀ t ∈ ts', t ∈ ts := by
  induction h with
  | nil => exact ⟨_, .nil, fun _ h => h⟩
  | cons h1 _ ih =>
    obtain ⟨a, ha, hs⟩ := defT_cut h1
    obtain ⟨b, hb, hs'⟩ := ih
    exact ⟨_, .cons ha hb, fun t ht => by simp at ht ⊢; grind⟩

/-- a document that has a text has one after cutting -/
theorem text_cut {d : List Def} {text : Bytes} (h : Text d text) : ∃ text', Text (docCut d) text' := by
  obtain ⟨ts, h1, h2⟩ := h
  obtain ⟨ts', h3, h4⟩ := docT_cut h1
  obtain ⟨t, ht⟩ := lex_of_spelled (ts := ts') (fun x hx => spelled_lex h2 x (h4 x hx))
  exact ⟨_, ts', h3, ht⟩

/-! ## Well-formedness and size -/

mutual
theorem Sel.WF.cut : ∀ {s : Sel}, s.WF → s.cut.WF
  | .field _ _ _ args _, h => by
    simp only [Sel.cut]
    refine ⟨h.1, h.2.1, h.2.2.1, h.2.2.2.1, ?_⟩
    by_cases hc : endsInList args = true
    · rw [if_pos hc]; trivial
    · rw [if_neg hc]; exact selsWF.cut h.2.2.2.2
  | .spread _ _, h => h
  | .inline _ _ _, h => ⟨h.1, h.2.1, selsWF.cut h.2.2⟩
theorem selsWF.cut : ∀ {ss : List Sel}, selsWF ss → selsWF (selsCut ss)
  | [], _ => trivial
  | _ :: _, h => ⟨Sel.WF.cut h.1, selsWF.cut h.2⟩
end

theorem docWF.cut {d : List Def} (h : docWF d) : docWF (docCut d) := by
  intro x hx
  obtain ⟨y, hy, rfl⟩ := List.mem_map.1 hx
  have := h y hy
  cases y with
  | op o => exact ⟨this.1, this.2.1, this.2.2.1, this.2.2.2.cut⟩
  | frag f => exact ⟨this.1, this.2.1, this.2.2.cut⟩

mutual
theorem encSel_cut_le : ∀ s : Sel, (encSel s.cut).length ≤ (encSel s).length
  | .field k n dirs args sels => by
    have ih := encSels_cut_le sels
    simp only [Sel.cut]
    by_cases hc : endsInList args = true
    · rw [if_pos hc]
      simp only [encSel, List.length_append, List.length_cons, List.length_nil, encSels, len32, le32]
      omega
    · rw [if_neg hc]
      simp only [encSel, List.length_append, List.length_cons, List.length_nil, len32, le32]
      omega
  | .spread _ _ => Nat.le_refl _
  | .inline _ _ sels => by
    have ih := encSels_cut_le sels
    simp only [Sel.cut, encSel, List.length_append, List.length_cons, List.length_nil, len32, le32]
    omega
theorem encSels_cut_le : ∀ ss : List Sel, (encSels (selsCut ss)).length ≤ (encSels ss).length
  | [] => Nat.le_refl _
  | s :: ss => by
    have h1 := encSel_cut_le s
    have h2 := encSels_cut_le ss
    simp only [selsCut, encSels, List.length_append]
    omega
end

theorem encDoc_cut_le (d : List Def) : (encDoc (docCut d)).length ≤ (encDoc d).length := by
  induction d with
  | nil => exact Nat.le_refl _
  | cons x ds ih =>
    have hx : (encDef x.cut).length ≤ (encDef x).length := by
      cases x with
      | op o =>
        have := encSels_cut_le o.sels
        simp only [Def.cut, encDef, encOperation, Operation.cut, List.length_append]
        omega
      | frag f =>
        have := encSels_cut_le f.sels
        simp only [Def.cut, encDef, encFragment, Fragment.cut, List.length_append]
        omega
    have : docCut (x :: ds) = x.cut :: docCut ds := rfl
    rw [this]
    simp only [encDoc, List.length_append]
    omega

end Doc
end Yarql
