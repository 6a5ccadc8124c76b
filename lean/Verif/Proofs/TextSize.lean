import Verif.Spec.Grammar

/-! # Documents of a text: well formed, and not much longer than the text when compiled -/

namespace Yarql
namespace Grammar
open Doc

/-- a lower bound for the length of a spelling of the token -/
def tokSize : Tok → Nat
  | .punct _ => 1
  | .sigil _ n => 1 + n.length
  | .dots => 3
  | .listEnd => 1
  | .listEndBang => 2
  | .name n => n.length
  | .word n => n.length
  | .num n => max 1 n.text.length
  | .str v => v.length + 2

def toksSize : List Tok → Nat
  | [] => 0
  | t :: ts => tokSize t + toksSize ts

theorem toksSize_append (a b : List Tok) : toksSize (a ++ b) = toksSize a + toksSize b := by
  induction a with
  | nil => simp [toksSize]
  | cons x xs ih => simp [toksSize, ih]; omega

theorem DigitRun.le {t ds : Bytes} (h : DigitRun t ds) : ds.length ≤ t.length := by
  induction h with
  | nil => exact Nat.le_refl _
  | digit _ _ ih => simpa using ih
  | sep _ ih => simp only [List.length_cons]; omega

theorem DigitRun.digits {t ds : Bytes} (h : DigitRun t ds) : Digits ds := by
  induction h with
  | nil => intro d hd; cases hd
  | digit h _ ih =>
    intro x hx
    rcases List.mem_cons.1 hx with rfl | hx
    · exact h
    · exact ih x hx
  | sep _ ih => exact ih

theorem SignSpell.le {b : Bool} {t : Bytes} (h : SignSpell b t) : (if b then [c%'-'] else ([] : Bytes)).length ≤ t.length := by
  cases h <;> simp

theorem NumSpell.le {n : Num} {t : Bytes} (h : NumSpell n t) : max 1 n.text.length ≤ t.length := by
  cases h with
  | @mk sgn i f e h1 h2 h3 h4 h5 =>
    have a := h1.le
    have b := h2.le
    obtain ⟨neg, int, frac, exp⟩ := n
    obtain ⟨x, r, hx, -⟩ := h5
    have hx := congrArg List.length hx
    unfold Num.text
    dsimp only at *
    have c : ∀ k, (frac = none ∧ f = [] ∨ ∃ ds t, frac = some ds ∧ f = c%'.' :: t ∧ DigitRun t ds) →
        (k = (match frac with | none => [] | some f => c%'.' :: f : Bytes).length) → k ≤ f.length := by
      rintro k (⟨rfl, rfl⟩ | ⟨ds, t, rfl, rfl, hd⟩) rfl
      · exact Nat.le_refl _
      · simpa using hd.le
    have d : ∀ k, k = (match exp with | none => [] | some (neg, e) => c%'E' :: ((if neg then [c%'-'] else []) ++ e) : Bytes).length →
        k ≤ e.length := by
      rintro k rfl
      rcases h4 with ⟨rfl, rfl⟩ | ⟨neg, ds, l, s, t, rfl, hl, hs, hd, rfl⟩
      · exact Nat.le_refl _
      · have := hs.le
        have := hd.le
        simp only [List.length_cons, List.length_append]
        omega
    have c := c _ h3 rfl
    have d := d _ rfl
    simp only [List.length_append, List.length_cons] at a b hx ⊢
    refine Nat.max_le.2 ⟨by omega, ?_⟩
    exact Nat.add_le_add (Nat.add_le_add (Nat.add_le_add a b) c) d

theorem utf8of_le (u : Nat) : (utf8of u).length ≤ 3 := by
  unfold utf8of
  extract_lets v
  by_cases h : v < 0x80
  · rw [if_pos h]; simp
  · rw [if_neg h]
    by_cases h : v < 0x800
    · rw [if_pos h]; simp
    · rw [if_neg h]; simp

theorem Escape.le {e d : Bytes} (h : Escape e d) : d.length ≤ e.length := by
  cases h <;> try (simp; done)
  exact Nat.le_trans (utf8of_le _) (by simp)

theorem StrChars.le {t v : Bytes} (h : StrChars t v) : v.length ≤ t.length := by
  induction h with
  | nil => exact Nat.le_refl _
  | nul _ ih => simp only [List.length_cons]; omega
  | plain _ _ _ _ _ ih => simpa using ih
  | esc h _ ih =>
    have := h.le
    simp only [List.length_cons, List.length_append]
    omega

theorem BlockTail.le {t v : Bytes} (h : BlockTail t v) : v.length ≤ t.length := by
  induction h with
  | close => simp
  | nul _ ih => simp only [List.length_cons]; omega
  | plain _ _ _ _ _ ih => simpa using ih
  | quote _ _ ih => simpa using ih
  | esc h _ ih =>
    have := h.le
    simp only [List.length_cons, List.length_append]
    omega
  | line _ _ _ _ ih => simp only [List.length_append]; omega

theorem trimEnd_le (v : Bytes) : (trimEnd v).length ≤ v.length := by
  unfold trimEnd
  rw [List.length_reverse]
  have := (List.dropWhile_sublist (l := v.reverse) (fun c => c == c%' ' || c == c%'\n' || c == c%'\r')).length_le
  simpa using this

theorem Spell.le {t : Tok} {sp : Bytes} (h : Spell t sp) : tokSize t ≤ sp.length := by
  cases h with
  | num h => exact h.le
  | str h =>
    have := h.le
    simp only [tokSize, List.length_cons, List.length_append, List.length_nil]
    omega
  | block _ _ h =>
    rename_i pad t v h1 h2
    have := h.le
    have := trimEnd_le v
    simp only [tokSize, List.length_cons, List.length_append, List.length_nil]
    omega
  | _ => simp [tokSize] <;> omega

/-- every number among the tokens consists of digits -/
def NumsOK : List Tok → Prop
  | [] => True
  | .num n :: ts => (∃ t, NumSpell n t) ∧ NumsOK ts
  | _ :: ts => NumsOK ts

theorem NumsOK_append {a b : List Tok} : NumsOK (a ++ b) ↔ NumsOK a ∧ NumsOK b := by
  induction a with
  | nil => simp [NumsOK]
  | cons x xs ih => cases x <;> simp [NumsOK, ih, and_assoc]

theorem NumsOK_cons {a : Tok} {b : List Tok} (h : NumsOK (a :: b)) : NumsOK b := by
  cases a <;> first | exact h | exact h.2

mutual
theorem LexAt.le : ∀ {ts : List Tok} {text : Bytes}, LexAt ts text → toksSize ts ≤ text.length ∧ NumsOK ts
  | _, _, .nil => ⟨Nat.zero_le _, trivial⟩
  | _, _, .cons (t := t) h1 _ h3 => by
    have a := h1.le
    have b := Lex.le h3
    refine ⟨by simp only [toksSize, List.length_append]; omega, ?_⟩
    cases t <;> try exact b.2
    case num n =>
      cases h1 with
      | num h => exact ⟨⟨_, h⟩, b.2⟩
theorem Lex.le : ∀ {ts : List Tok} {text : Bytes}, Lex ts text → toksSize ts ≤ text.length ∧ NumsOK ts
  | _, _, .trailing _ => ⟨Nat.zero_le _, trivial⟩
  | _, _, .mk _ h => by
    have := LexAt.le h
    exact ⟨by simp only [List.length_append]; omega, this.2⟩
end

/-! ## Well-formed -/

theorem SignSpell.sign {b : Bool} {t : Bytes} (_ : SignSpell b t) : (if b then [c%'-'] else ([] : Bytes)) = [] ∨
    (if b then [c%'-'] else ([] : Bytes)) = [c%'-'] := by
  cases b <;> simp

theorem NumSpell.int {n : Num} {t : Bytes} (h : NumSpell n t) (hi : n.isInt = true) : IsInt n.text := by
  cases h with
  | @mk sgn i f e h1 h2 h3 h4 h5 =>
    obtain ⟨neg, int, frac, exp⟩ := n
    simp only [Num.isInt, Bool.and_eq_true, Option.isNone_iff_eq_none] at hi
    obtain ⟨rfl, rfl⟩ := hi
    exact ⟨_, int, by simp [Num.text], h1.sign, h2.digits⟩

theorem NumSpell.float {n : Num} {t : Bytes} (h : NumSpell n t) (hi : n.isInt = false) : IsFloat n.text := by
  cases h with
  | @mk sgn i f e h1 h2 h3 h4 h5 =>
    obtain ⟨neg, int, frac, exp⟩ := n
    dsimp only at *
    have hint : IsInt ((if neg then [c%'-'] else []) ++ int) := ⟨_, int, rfl, h1.sign, h2.digits⟩
    rcases h3 with ⟨rfl, rfl⟩ | ⟨ds, t, rfl, rfl, hd⟩ <;> rcases h4 with ⟨rfl, rfl⟩ | ⟨neg', ds', l, s, t', rfl, hl, hs, hd', rfl⟩
    · simp [Num.isInt] at hi
    · exact ⟨_, [], _, rfl, hint, Or.inl rfl, Or.inr ⟨_, rfl, _, ds', rfl, hs.sign, hd'.digits⟩, Or.inr (by simp)⟩
    · exact ⟨_, _, [], rfl, hint, Or.inr ⟨ds, rfl, hd.digits⟩, Or.inl rfl, Or.inl (by simp)⟩
    · exact ⟨_, _, _, rfl, hint, Or.inr ⟨ds, rfl, hd.digits⟩, Or.inr ⟨_, rfl, _, ds', rfl, hs.sign, hd'.digits⟩, Or.inl (by simp)⟩

mutual
theorem ValT.wf : ∀ {v : Value} {ts : List Tok}, ValT v ts → NumsOK ts → v.WF
  | _, _, .var h, _ => h
  | _, _, .int h, hn => hn.1.elim fun _ hs => hs.int h
  | _, _, .float h, hn => hn.1.elim fun _ hs => hs.float h
  | _, _, .str, _ => trivial
  | _, _, .true, _ => trivial
  | _, _, .false, _ => trivial
  | _, _, .null, _ => trivial
  | _, _, .enum h _ _ _, _ => h
  | _, _, .list h, hn => ValsT.wf h (NumsOK_append.1 (NumsOK_cons hn)).1
  | _, _, .obj h, hn => FieldsT.wf h (NumsOK_append.1 (NumsOK_cons hn)).1
theorem ValsT.wf : ∀ {vs : List Value} {ts : List Tok}, ValsT vs ts → NumsOK ts → valuesWF vs
  | _, _, .nil, _ => trivial
  | _, _, .cons h _ hs, hn => ⟨ValT.wf h (NumsOK_append.1 hn).1, ValsT.wf hs (NumsOK_append.1 (NumsOK_append.1 hn).2).2⟩
theorem FieldsT.wf : ∀ {fs : List (Bytes × Value)} {ts : List Tok}, FieldsT fs ts → NumsOK ts → fieldsWF fs
  | _, _, .nil, _ => trivial
  | _, _, .cons hk h _ hs, hn =>
    have hn := NumsOK_append.1 (NumsOK_cons (NumsOK_cons hn))
    ⟨hk, ValT.wf h hn.1, FieldsT.wf hs (NumsOK_append.1 hn.2).2⟩
end

theorem ArgsT.wf {a ts} (h : ArgsT a ts) (hn : NumsOK ts) : argsWF a := by
  cases h with
  | none => trivial
  | some h => exact h.wf (NumsOK_append.1 (NumsOK_cons hn)).1

theorem DirsT.wf {ds : List Directive} {ts} (h : DirsT ds ts) (hn : NumsOK ts) : ∀ d ∈ ds, d.WF := by
  induction h with
  | nil => intro d hd; cases hd
  | cons h1 h2 _ ih =>
    have hn := NumsOK_append.1 (NumsOK_cons hn)
    intro d hd
    rcases List.mem_cons.1 hd with rfl | hd
    · exact ⟨h1, h2.wf hn.1⟩
    · exact ih hn.2 d hd

mutual
theorem SelT.wf : ∀ {s : Sel} {ts : List Tok}, SelT s ts → NumsOK ts → s.WF
  | _, _, .field h1 h2 h3 h4 _ h6, hn =>
    have a := NumsOK_append.1 (NumsOK_cons hn)
    have b := NumsOK_append.1 a.2
    ⟨h1, (fun _ e => nomatch e), ⟨h3, h2.wf a.1⟩, h4.wf b.1, BodyT.wf h6 b.2⟩
  | _, _, .aliased h1 h1' h2 h3 h4 _ h6, hn =>
    have a := NumsOK_append.1 (NumsOK_cons (NumsOK_cons (NumsOK_cons hn)))
    have b := NumsOK_append.1 a.2
    ⟨h1, (fun _ e => by cases e; exact h1'), ⟨h3, h2.wf a.1⟩, h4.wf b.1, BodyT.wf h6 b.2⟩
  | _, _, .spread h1 _ h2 h3, hn => ⟨h1, h3, h2.wf (NumsOK_cons (NumsOK_cons hn))⟩
  | _, _, .inline h1 h2 h3 h4, hn =>
    have a := NumsOK_append.1 (NumsOK_cons (NumsOK_cons (NumsOK_cons hn)))
    ⟨h1, ⟨h3, h2.wf a.1⟩, SelsT.wf h4 (NumsOK_append.1 (NumsOK_cons a.2)).1⟩
theorem BodyT.wf : ∀ {ss : List Sel} {ts : List Tok}, BodyT ss ts → NumsOK ts → selsWF ss
  | _, _, .none, _ => trivial
  | _, _, .some h, hn => SelsT.wf h (NumsOK_append.1 (NumsOK_cons hn)).1
theorem SelsT.wf : ∀ {ss : List Sel} {ts : List Tok}, SelsT ss ts → NumsOK ts → selsWF ss
  | _, _, .nil, _ => trivial
  | _, _, .cons h _ hs, hn => ⟨SelT.wf h (NumsOK_append.1 hn).1, SelsT.wf hs (NumsOK_append.1 (NumsOK_append.1 hn).2).2⟩
end

theorem TyT.wf {ty : Ty} {ts} (h : TyT ty ts) : ty.WF := by
  induction h with
  | named h => exact h
  | namedNN h => exact h
  | list _ ih => exact ih
  | listNN _ ih => exact ih

theorem VarT.wf {v : VarDef} {ts} (h : VarT v ts) (hn : NumsOK ts) : v.WF := by
  cases h with
  | plain h1 h2 => exact ⟨h1, h2.wf, (fun _ e => nomatch e)⟩
  | default h1 h2 h3 =>
    exact ⟨h1, h2.wf, fun _ e => by cases e; exact h3.wf (NumsOK_cons (NumsOK_append.1 (NumsOK_cons (NumsOK_cons hn))).2)⟩

theorem VarsT.wf {vs : List VarDef} {ts} (h : VarsT vs ts) (hn : NumsOK ts) : ∀ v ∈ vs, v.WF := by
  induction h with
  | nil => intro d hd; cases hd
  | cons h1 _ _ ih =>
    have hn := NumsOK_append.1 hn
    intro d hd
    rcases List.mem_cons.1 hd with rfl | hd
    · exact h1.wf hn.1
    · exact ih (NumsOK_append.1 hn.2).2 d hd

theorem DefT.wf {d : Def} {ts} (h : DefT d ts) (hn : NumsOK ts) : d.WF := by
  cases h with
  | short h =>
    exact ⟨Or.inl rfl, (fun _ e => nomatch e), ⟨by simp, fun _ e => nomatch e⟩, h.wf (NumsOK_append.1 (NumsOK_cons hn)).1⟩
  | op h1 h2 h3 h4 h5 =>
    have a := NumsOK_append.1 (NumsOK_cons hn)
    have b := NumsOK_append.1 a.2
    have c := NumsOK_append.1 b.2
    refine ⟨?_, ?_, ⟨h4, h3.wf c.1⟩, h5.wf (NumsOK_append.1 (NumsOK_cons c.2)).1⟩
    · cases h1 with
      | none => exact Or.inl rfl
      | some h => exact Or.inr h
    · intro vs hvs
      dsimp only at hvs
      subst hvs
      cases h2 with
      | some _ h => exact h.wf (NumsOK_append.1 (NumsOK_append.1 (NumsOK_cons b.1)).2).1
  | frag h1 h2 h3 =>
    exact ⟨h1, h2, h3.wf (NumsOK_append.1 (NumsOK_cons (NumsOK_cons (NumsOK_cons (NumsOK_cons (NumsOK_cons hn)))))).1⟩

theorem DocT.wf {d : List Def} {ts} (h : DocT d ts) (hn : NumsOK ts) : docWF d := by
  induction h with
  | nil => intro x hx; cases hx
  | cons h1 _ ih =>
    have hn := NumsOK_append.1 hn
    intro x hx
    rcases List.mem_cons.1 hx with rfl | hx
    · exact h1.wf hn.1
    · exact ih hn.2 x hx

/-- a document that has a text is well formed -/
theorem Text.wf {d : List Def} {text : Bytes} (h : Text d text) : docWF d := by
  obtain ⟨ts, h1, h2⟩ := h
  exact h1.wf (Lex.le h2).2

/-! ## Sizes -/

theorem name_pos {n : Bytes} (h : IsName n) : 1 ≤ n.length := by
  obtain ⟨-, c, cs, rfl, -⟩ := h
  simp

theorem len32_length (n : Nat) : (len32 n).length = 4 := rfl

theorem encHead_length (k : Byte) (b : Bytes) : (encHead k b).length = b.length + 7 := by
  unfold encHead
  simp only [List.length_append, len32_length, List.length_cons, List.length_nil]
  omega

mutual
theorem ValT.size : ∀ {v : Value} {ts : List Tok}, ValT v ts → (encValue v).length ≤ 16 * toksSize ts
  | _, _, .var (n := n) _ => by simp only [encValue, encHead_length, toksSize, tokSize]; omega
  | _, _, .int (n := n) _ => by simp only [encValue, encHead_length, toksSize, tokSize]; omega
  | _, _, .float (n := n) _ => by simp only [encValue, encHead_length, toksSize, tokSize]; omega
  | _, _, .str => by simp only [encValue, encHead_length, toksSize, tokSize]; omega
  | _, _, .true => by decide
  | _, _, .false => by decide
  | _, _, .null => by decide
  | _, _, .enum h _ _ _ => by
    have := name_pos h
    simp only [encValue, encHead_length, toksSize, tokSize]; omega
  | _, _, .list h => by
    have := ValsT.size h
    simp only [encValue, encHead_length, toksSize, tokSize, toksSize_append, List.length_append, endI, List.length_cons, List.length_nil]; omega
  | _, _, .obj h => by
    have := FieldsT.size h
    simp only [encValue, encHead_length, toksSize, tokSize, toksSize_append, List.length_append, endI, List.length_cons, List.length_nil]; omega
theorem ValsT.size : ∀ {vs : List Value} {ts : List Tok}, ValsT vs ts → (encValues vs).length ≤ 16 * toksSize ts
  | _, _, .nil => by simp [encValues]
  | _, _, .cons h _ hs => by
    have := ValT.size h
    have := ValsT.size hs
    simp only [encValues, List.length_append, toksSize_append]; omega
theorem FieldsT.size : ∀ {fs : List (Bytes × Value)} {ts : List Tok}, FieldsT fs ts → (encFields fs).length ≤ 16 * toksSize ts
  | _, _, .nil => by simp [encFields]
  | _, _, .cons hk h _ hs => by
    have := name_pos hk
    have := ValT.size h
    have := FieldsT.size hs
    simp only [encFields, List.length_append, toksSize, tokSize, toksSize_append, List.length_cons, List.length_nil]; omega
end

theorem ArgsT.size {a ts} (h : ArgsT a ts) : (encArgs a).length ≤ 16 * toksSize ts := by
  cases h with
  | none => simp [encArgs]
  | some h =>
    have := (ValT.obj h).size
    simpa [encArgs, toksSize, tokSize, toksSize_append] using this

theorem DirsT.size {ds : List Directive} {ts} (h : DirsT ds ts) : (encDirectives ds).length ≤ 16 * toksSize ts := by
  induction h with
  | nil => simp [encDirectives]
  | cons h1 h2 _ ih =>
    have := h2.size
    simp only [encDirectives, encDirective, List.length_append, toksSize, tokSize, toksSize_append, List.length_cons, List.length_nil]; omega

theorem le32_length' (n : UInt32) : (le32 n).length = 4 := rfl

mutual
theorem SelT.size : ∀ {s : Sel} {ts : List Tok}, SelT s ts → (encSel s).length ≤ 16 * toksSize ts
  | _, _, .field h1 h2 _ h4 _ h6 => by
    have := name_pos h1
    have := h2.size
    have := h4.size
    have := BodyT.size h6
    simp only [encSel, encFieldHead, endI, Option.getD_none, len32_length, le32_length', List.length_append, toksSize, tokSize, toksSize_append,
      List.length_cons, List.length_nil]; omega
  | _, _, .aliased h1 h1' h2 _ h4 _ h6 => by
    have := name_pos h1
    have := name_pos h1'
    have := h2.size
    have := h4.size
    have := BodyT.size h6
    simp only [encSel, encFieldHead, endI, Option.getD_some, len32_length, le32_length', List.length_append, toksSize, tokSize, toksSize_append,
      List.length_cons, List.length_nil]; omega
  | _, _, .spread h1 _ h2 _ => by
    have := h2.size
    simp only [encSel, len32_length, List.length_append, toksSize, tokSize, toksSize_append, List.length_cons, List.length_nil]; omega
  | _, _, .inline h1 h2 _ h4 => by
    have := h2.size
    have := SelsT.size h4
    simp only [encSel, endI, len32_length, List.length_append, toksSize, tokSize, toksSize_append, List.length_cons, List.length_nil]; omega
theorem BodyT.size : ∀ {ss : List Sel} {ts : List Tok}, BodyT ss ts → (encSels ss).length ≤ 16 * toksSize ts
  | _, _, .none => by simp [encSels]
  | _, _, .some h => by
    have := SelsT.size h
    simp only [toksSize, tokSize, toksSize_append]; omega
theorem SelsT.size : ∀ {ss : List Sel} {ts : List Tok}, SelsT ss ts → (encSels ss).length ≤ 16 * toksSize ts
  | _, _, .nil => by simp [encSels]
  | _, _, .cons h _ hs => by
    have := SelT.size h
    have := SelsT.size hs
    simp only [encSels, List.length_append, toksSize_append]; omega
end

theorem TyT.size {ty : Ty} {ts} (h : TyT ty ts) : (encTy ty).length ≤ 2 * toksSize ts := by
  induction h with
  | named h => have := name_pos h; simp only [encTy, List.length_cons, toksSize, tokSize]; omega
  | namedNN h => have := name_pos h; simp only [encTy, List.length_cons, toksSize, tokSize]; omega
  | list _ ih => simp only [encTy, List.length_cons, toksSize, tokSize, toksSize_append]; omega
  | listNN _ ih => simp only [encTy, List.length_cons, toksSize, tokSize, toksSize_append]; omega

theorem VarT.size {v : VarDef} {ts} (h : VarT v ts) : (encVarDef v).length ≤ 16 * toksSize ts := by
  cases h with
  | plain h1 h2 =>
    have := h2.size
    simp only [encVarDef, encVarBody, len32_length, List.length_append, toksSize, tokSize, toksSize_append, List.length_cons, List.length_nil]; omega
  | default h1 h2 h3 =>
    have := h2.size
    have := h3.size
    simp only [encVarDef, encVarBody, len32_length, List.length_append, toksSize, tokSize, toksSize_append, List.length_cons, List.length_nil]; omega

theorem VarsT.size {vs : List VarDef} {ts} (h : VarsT vs ts) : (encVarDefs vs).length ≤ 16 * toksSize ts := by
  induction h with
  | nil => simp [encVarDefs]
  | cons h1 _ _ ih =>
    have := h1.size
    simp only [encVarDefs, List.length_append, toksSize_append]; omega

theorem DefT.size {d : Def} {ts} (h : DefT d ts) : (encDef d).length ≤ 16 * toksSize ts := by
  cases h with
  | short h =>
    have := h.size
    simp only [encDef, encOperation, encVars, encDirectives, endI, List.length_append, toksSize, tokSize, toksSize_append, List.length_cons,
      List.length_nil]; omega
  | @op k n vs dirs sels tn tv td ts h1 h2 h3 h4 h5 =>
    have := h3.size
    have := h5.size
    have hk : 5 ≤ (keyword k).length := by cases k <;> decide
    have hn : n.length ≤ toksSize tn := by
      cases h1 with
      | none => simp
      | some h => simp [toksSize, tokSize]
    have hv : (encVars vs).length ≤ 16 * toksSize tv := by
      cases h2 with
      | none => simp [encVars]
      | some _ h =>
        have := h.size
        simp only [encVars, endI, len32_length, List.length_append, toksSize, tokSize, toksSize_append, List.length_cons, List.length_nil]; omega
    simp only [encDef, encOperation, endI, List.length_append, toksSize, tokSize, toksSize_append, List.length_cons, List.length_nil]; omega
  | frag h1 h2 h3 =>
    have := h3.size
    simp only [encDef, encFragment, endI, List.length_append, toksSize, tokSize, toksSize_append, List.length_cons, List.length_nil]; omega

theorem DocT.size {d : List Def} {ts} (h : DocT d ts) : (encDoc d).length ≤ 16 * toksSize ts := by
  induction h with
  | nil => simp [encDoc]
  | cons h1 _ ih =>
    have := h1.size
    simp only [encDoc, List.length_append, toksSize_append]; omega

/-- compiled queries are at most 16 times as long as their text -/
theorem Text.size {d : List Def} {text : Bytes} (h : Text d text) : (encDoc d).length ≤ 16 * text.length := by
  obtain ⟨ts, h1, h2⟩ := h
  have := h1.size
  have := (Lex.le h2).1
  omega

end Grammar
end Yarql
