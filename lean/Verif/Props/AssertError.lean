import Verif.Props.Assert
import Verif.Spec.AssertError
import Verif.Proofs.Decimal

/-!
# The assertions about errors and panics (C99), and the place of a report (C97)
-/

namespace Yarql
namespace Assert

theorem isLoop_iff (t : Link) : ∀ (err : Err), isLoop t err = true ↔ ∃ l ∈ err, (t.comparable = true ∧ l.id = t.id) ∨ l.is t.id = true
  | [] => by simp [isLoop]
  | l :: ls => by
    unfold isLoop
    by_cases h1 : (t.comparable && l.id == t.id) = true
    · rw [if_pos h1]
      rw [Bool.and_eq_true, beq_iff_eq] at h1
      exact ⟨fun _ => ⟨l, by simp, Or.inl h1⟩, fun _ => rfl⟩
    · rw [if_neg h1]
      rw [Bool.and_eq_true, beq_iff_eq] at h1
      by_cases h2 : l.is t.id = true
      · rw [if_pos h2]
        exact ⟨fun _ => ⟨l, by simp, Or.inr h2⟩, fun _ => rfl⟩
      · rw [if_neg h2, isLoop_iff t ls]
        constructor
        · rintro ⟨x, hx, h⟩
          exact ⟨x, by simp [hx], h⟩
        · rintro ⟨x, hx, h⟩
          rcases List.mem_cons.1 hx with rfl | hx
          · exact absurd h (by simp [h1, h2])
          · exact ⟨x, hx, h⟩

theorem errorsIs_iff (err target : Err) : errorsIs err target = true ↔ Matches err target := by
  cases target with
  | nil =>
    show err.isEmpty = true ↔ _
    rw [List.isEmpty_iff]
    constructor
    · rintro rfl
      exact .nil
    · intro h
      cases h
      rfl
  | cons t rest =>
    show isLoop t err = true ↔ _
    rw [isLoop_iff]
    constructor
    · rintro ⟨l, hl, h⟩
      obtain ⟨before, after, rfl⟩ := List.append_of_mem hl
      rcases h with ⟨h1, h2⟩ | h
      · exact .equal h1 h2
      · exact .claims h
    · intro h
      cases h with
      | @equal before l after _ _ h1 h2 => exact ⟨l, by simp, Or.inl ⟨h1, h2⟩⟩
      | @claims before l after _ _ h => exact ⟨l, by simp, Or.inr h⟩

/-- **C99.** `NoError` passes exactly for nil, `Error` for everything else, `EqualError` for errors with the text given; otherwise they report
once, with the message given. -/
theorem C99_errors (plus : Err → Bytes) (quote : Bytes → Bytes) (err : Err) (text : Bytes) (m : List Arg) :
    (if err = [] then Silent (NoError plus err m) else Reports (NoError plus err m) (b%"Received unexpected error:\n" ++ plus err) m) ∧
    (if err = [] then Reports (Error err m) b%"An error is expected but got nil." m else Silent (Error err m)) ∧
    (∀ first rest, err = first :: rest → first.text = text → Silent (EqualError quote err text m)) ∧
    (∀ first rest, err = first :: rest → first.text ≠ text → Reports (EqualError quote err text m)
      (b%"Error message not equal:\nexpected: " ++ quote text ++ b%"\nactual  : " ++ quote first.text) m) ∧
    (err = [] → Reports (EqualError quote err text m) b%"An error is expected but got nil." m) := by
  refine ⟨?_, ?_, ?_, ?_, ?_⟩
  · by_cases h : err = []
    · subst h
      exact ⟨rfl, rfl⟩
    · unfold NoError
      rw [if_neg h, if_pos h]
      exact ⟨rfl, rfl⟩
  · by_cases h : err = []
    · subst h
      exact ⟨rfl, rfl⟩
    · unfold Error
      rw [if_neg h, if_neg h]
      exact ⟨rfl, rfl⟩
  · rintro first rest rfl h
    unfold EqualError Error errorText
    simp [h, fine, Silent]
  · rintro first rest rfl h
    unfold EqualError Error errorText
    have h' : text ≠ first.text := fun e => h e.symm
    simp [h', fine, failWith, Reports]
  · rintro rfl
    exact ⟨rfl, rfl⟩

/-- the texts of a chain -/
theorem chain_below (quote : Bytes → Bytes) : ∀ (err : Err), Stacked (err.map fun l => quote l.text) (buildErrorChainString quote err)
  | [] => .none
  | [l] => by
    have : buildErrorChainString quote [l] = quote l.text := List.append_nil _
    rw [this]
    exact .one
  | l :: l' :: ls => by
    have h := chain_below quote (l' :: ls)
    have : buildErrorChainString quote (l :: l' :: ls) = quote l.text ++ b%"\n\t" ++ buildErrorChainString quote (l' :: ls) := by
      show quote l.text ++ (b%"\n\t" ++ quote l'.text ++ chainRest quote ls) = quote l.text ++ b%"\n\t" ++ (quote l'.text ++ chainRest quote ls)
      simp only [List.append_assoc]
    rw [this]
    exact .more h

/-- **C99** (chains). `ErrorIs` passes exactly if the error matches the target, `NotErrorIs` exactly if not. A failure lists the texts of all errors
in the chain, in order. -/
theorem C99_chain (quote : Bytes → Bytes) (err target : Err) (m : List Arg) : ∃ chain, Stacked (err.map fun l => quote l.text) chain ∧
    (Matches err target → Silent (ErrorIs quote err target m) ∧
      Reports (NotErrorIs quote err target m) (b%"Target error should not be in err chain:\nfound: " ++ quote (errorText target) ++ b%"\nin chain: " ++ chain) m) ∧
    (¬ Matches err target → Silent (NotErrorIs quote err target m) ∧
      Reports (ErrorIs quote err target m) (b%"Target error should be in err chain:\nexpected: " ++ quote (errorText target) ++ b%"\nin chain: " ++ chain) m) := by
  refine ⟨_, chain_below quote err, fun h => ?_, fun h => ?_⟩
  · have e := (errorsIs_iff err target).2 h
    unfold ErrorIs NotErrorIs
    rw [if_pos e, if_neg (by rw [e]; decide)]
    exact ⟨⟨rfl, rfl⟩, rfl, rfl⟩
  · have e : errorsIs err target = false := by
      cases e : errorsIs err target with
      | false => rfl
      | true => exact absurd ((errorsIs_iff err target).1 e) h
    have e' : ¬ errorsIs err target = true := by rw [e]; decide
    unfold ErrorIs NotErrorIs
    rw [if_neg e', if_pos e]
    exact ⟨⟨rfl, rfl⟩, rfl, rfl⟩

/-- **C99** (`ErrorAs`). It passes exactly if an error in the chain fits, and sets the target to the first of these. -/
theorem C99_as (quote : Bytes → Bytes) (target : Bytes) (fits : Link → Bool) (err : Err) (m : List Arg) :
    (∀ before l after, err = before ++ l :: after → (∀ x ∈ before, fits x = false) → fits l = true →
      Silent (ErrorAs quote target fits err m).1 ∧ (ErrorAs quote target fits err m).2 = some l) ∧
    ((∀ l ∈ err, fits l = false) → (ErrorAs quote target fits err m).1.passed = false ∧ (ErrorAs quote target fits err m).1.reports.length = 1 ∧
      (ErrorAs quote target fits err m).2 = none) := by
  have found : ∀ (before : List Link) (l : Link) (after : List Link), (∀ x ∈ before, fits x = false) → fits l = true → errorsAs fits (before ++ l :: after) = some l := by
    intro before l after hb hl
    induction before with
    | nil => exact if_pos hl
    | cons x xs ih =>
      show (if fits x = true then some x else errorsAs fits (xs ++ l :: after)) = some l
      rw [if_neg (by rw [hb x (by simp)]; exact fun h => nomatch h)]
      exact ih (fun y hy => hb y (by simp [hy]))
  have missing : ∀ (err : Err), (∀ l ∈ err, fits l = false) → errorsAs fits err = none := by
    intro err h
    induction err with
    | nil => rfl
    | cons x xs ih =>
      show (if fits x = true then some x else errorsAs fits xs) = none
      rw [if_neg (by rw [h x (by simp)]; exact fun h => nomatch h)]
      exact ih (fun y hy => h y (by simp [hy]))
  constructor
  · rintro before l after rfl hb hl
    unfold ErrorAs
    rw [found before l after hb hl]
    exact ⟨⟨rfl, rfl⟩, rfl⟩
  · intro h
    unfold ErrorAs
    rw [missing err h]
    exact ⟨rfl, rfl, rfl⟩

/-- **C99** (`Panics`). It passes for a function that panics with a value other than nil, and fails with one report for one that returns; -/
theorem C99_panics_partial (sharp : Option Nat → Bytes) (m : List Arg) :
    (∀ v, ∃ r, Panics sharp (.panics (some v)) m = some r ∧ Silent r) ∧
    ∃ r, Panics sharp .returns m = some r ∧ Reports r (b%"func f should panic\n\tPanic value:\t" ++ sharp none) m :=
  ⟨fun _ => ⟨_, rfl, rfl, rfl⟩, _, rfl, rfl, rfl⟩

/-- one that panics with nil is taken for one that returns (refutation: nothing tells the two apart), and if the function ends its goroutine, the
assertion says nothing at all. -/
theorem C99_refuted_panic_nil (sharp : Option Nat → Bytes) (m : List Arg) :
    Panics sharp (.panics none) m = Panics sharp .returns m ∧ Panics sharp .exits m = none := ⟨rfl, rfl⟩

/-! ## The place of a report -/

theorem split_none {c : Byte} : ∀ {s : Bytes}, c ∉ s → split c s = [s]
  | [], _ => rfl
  | x :: xs, h => by
    unfold split
    rw [if_neg (fun e => h (by simp [e])), split_none (fun k => h (by simp [k]))]

theorem split_ne {c : Byte} : ∀ {s : Bytes}, split c s ≠ []
  | [] => fun h => nomatch h
  | x :: xs => by
    unfold split
    split
    · exact fun h => nomatch h
    · split <;> exact fun h => nomatch h

theorem split_append {c : Byte} : ∀ (s t : Bytes), split c (s ++ c :: t) = split c s ++ split c t
  | [], t => by
    show split c (c :: t) = _
    show (if c = c then [] :: split c t else _) = _
    rw [if_pos rfl]
    rfl
  | x :: xs, t => by
    show split c (x :: (xs ++ c :: t)) = _
    rw [split, split, split_append xs t]
    by_cases h : x = c
    · rw [if_pos h, if_pos h]
      rfl
    · rw [if_neg h, if_neg h]
      cases hs : split c xs with
      | nil => exact absurd hs split_ne
      | cons l ls => rfl

theorem named_last {base name : Bytes} (h : Named base name) : lastPart (split c%'.' name) = base := by
  obtain ⟨h1, rfl | ⟨package, rfl⟩⟩ := h
  · rw [split_none h1]; rfl
  · rw [split_append, split_none h1]
    unfold lastPart
    rw [List.getLast?_concat]
    rfl

theorem lies_shown {dir file : Bytes} {f : Frame} (h : Lies dir file f.file) :
    shown f = if dir ∉ libraries ∨ file = b%"mock_test.go" then [file ++ c%':' :: natDigits f.line] else [] := by
  obtain ⟨h1, h2, h3⟩ := h
  obtain ⟨parts, hp⟩ : ∃ parts, split c%'/' f.file = parts ++ [dir, file] := by
    rcases h3 with e | ⟨above, e⟩
    · exact ⟨[], by rw [e, split_append, split_none h1, split_none h2]; rfl⟩
    · exact ⟨split c%'/' above, by rw [e, split_append, split_append, split_none h1, split_none h2]; rfl⟩
  have e1 : lastPart (parts ++ [dir, file]) = file := by
    unfold lastPart
    rw [show parts ++ [dir, file] = (parts ++ [dir]) ++ [file] by simp, List.getLast?_concat]
    rfl
  have e2 : lastPart (parts ++ [dir, file]).dropLast = dir := by
    unfold lastPart
    rw [show parts ++ [dir, file] = (parts ++ [dir]) ++ [file] by simp, List.dropLast_concat, List.getLast?_concat]
    rfl
  unfold shown
  rw [hp]
  dsimp only
  rw [e1, e2, if_pos (by simp)]
  have : (dir ≠ b%"assert" ∧ dir ≠ b%"mock" ∧ dir ≠ b%"require") ↔ dir ∉ libraries := by
    unfold libraries
    simp
  simp only [this]

theorem isTest_iff (lower : Bytes → Bool) (name : Bytes) :
    (isTest lower name b%"Test" || isTest lower name b%"Benchmark" || isTest lower name b%"Example") = true ↔ TestName lower name := by
  have one : ∀ pre, isTest lower name pre = true ↔ name = pre ∨ ∃ rest, name = pre ++ rest ∧ rest ≠ [] ∧ lower rest = false := by
    intro pre
    unfold isTest
    by_cases h : pre <+: name
    · rw [if_neg (by simpa using h)]
      obtain ⟨rest, rfl⟩ := h
      by_cases hl : (pre ++ rest).length = pre.length
      · have : rest = [] := by
          rw [List.length_append] at hl
          exact List.length_eq_zero_iff.1 (by omega)
        subst this
        simp
      · rw [if_neg hl, List.drop_left]
        have hr : rest ≠ [] := by
          rintro rfl
          simp at hl
        constructor
        · intro h
          exact Or.inr ⟨rest, rfl, hr, by simpa using h⟩
        · rintro (h | ⟨rest', h, -, h'⟩)
          · exact absurd (List.append_right_eq_self.1 h) hr
          · rw [List.append_cancel_left h, h']
            rfl
    · rw [if_pos (by simpa using h)]
      constructor
      · exact fun h => nomatch h
      · rintro (rfl | ⟨rest, rfl, -⟩)
        · exact absurd (List.prefix_refl _) h
        · exact absurd (List.prefix_append _ _) h
  rw [Bool.or_eq_true, Bool.or_eq_true, one, one, one]
  constructor
  · rintro (((rfl | ⟨rest, rfl, h1, h2⟩) | (rfl | ⟨rest, rfl, h1, h2⟩)) | (rfl | ⟨rest, rfl, h1, h2⟩))
    · exact .alone (by simp)
    · exact .more (by simp) h1 h2
    · exact .alone (by simp)
    · exact .more (by simp) h1 h2
    · exact .alone (by simp)
    · exact .more (by simp) h1 h2
  · intro h
    cases h with
    | alone h =>
      rcases List.mem_cons.1 h with rfl | h
      · exact Or.inl (Or.inl (Or.inl rfl))
      rcases List.mem_cons.1 h with rfl | h
      · exact Or.inl (Or.inr (Or.inl rfl))
      rcases List.mem_cons.1 h with rfl | h
      · exact Or.inr (Or.inl rfl)
      cases h
    | @more _ rest h h1 h2 =>
      rcases List.mem_cons.1 h with rfl | h
      · exact Or.inl (Or.inl (Or.inr ⟨rest, rfl, h1, h2⟩))
      rcases List.mem_cons.1 h with rfl | h
      · exact Or.inl (Or.inr (Or.inr ⟨rest, rfl, h1, h2⟩))
      rcases List.mem_cons.1 h with rfl | h
      · exact Or.inr (Or.inr ⟨rest, rfl, h1, h2⟩)
      cases h

theorem caller_test {lower : Bytes → Bool} {f : Frame} {fs : List Frame} {name base : Bytes} (h0 : f.file ≠ b%"<autogenerated>") (h1 : f.name = some name)
    (h2 : Named base name) (h3 : name ≠ b%"testing.tRunner") (h4 : TestName lower base) : callerInfo lower (f :: fs) = shown f := by
  unfold callerInfo
  rw [if_neg h0, h1]
  dsimp only
  rw [if_neg h3, named_last h2, if_pos ((isTest_iff lower base).2 h4)]

theorem caller_other {lower : Bytes → Bool} {f : Frame} {fs : List Frame} {name base : Bytes} (h0 : f.file ≠ b%"<autogenerated>") (h1 : f.name = some name)
    (h2 : Named base name) (h3 : name ≠ b%"testing.tRunner") (h4 : ¬ TestName lower base) : callerInfo lower (f :: fs) = shown f ++ callerInfo lower fs := by
  rw [callerInfo]
  rw [if_neg h0, h1]
  dsimp only
  rw [if_neg h3, named_last h2, if_neg (fun h => h4 ((isTest_iff lower base).1 h))]

/-- **C97** (the place). A report names the places of all calls between the assertion and the test, from the inside out, the test included, without
those in libraries. -/
theorem C97_places (lower : Bytes → Bool) (fs : List Frame) (ps : List Bytes) (h : Trace lower fs ps) : callerInfo lower fs = ps := by
  induction h with
  | @library f fs ps h _ ih =>
    obtain ⟨⟨dir, file, k1, k2, k3⟩, k4, name, base, k5, k6, k7, k8⟩ := h
    rw [caller_other k4 k5 k6 k7 k8, lies_shown k1, if_neg (by rintro (h | h); exact h k2; exact k3 h), ih]
    rfl
  | @helper f fs p ps h _ ih =>
    obtain ⟨⟨dir, file, k1, k2, k3⟩, k4, name, base, k5, k6, k7, k8⟩ := h
    rw [caller_other k4 k5 k6 k7 k8, lies_shown k1, if_pos (Or.inl k2), ih, k3]
    rfl
  | @test f fs p h =>
    obtain ⟨⟨dir, file, k1, k2, k3⟩, k4, name, base, k5, k6, k7, k8⟩ := h
    rw [caller_test k4 k5 k6 k7 k8, lies_shown k1, if_pos (Or.inl k2), k3]
  | @runner f fs h =>
    unfold callerInfo
    by_cases hf : f.file = b%"<autogenerated>"
    · rw [if_pos hf]
    · rw [if_neg hf, h]
      dsimp only
      rw [if_pos rfl]

/-- A test whose file lies in a directory `assert`, `mock` or `require` is taken for a library: a report of an assertion in it names no place
(refutation). -/
theorem C97_refuted_place (lower : Bytes → Bool) (assertion test : Frame) (fs : List Frame) (dir file name base : Bytes) (ha : InLibrary lower assertion)
    (h1 : Lies dir file test.file) (h2 : dir ∈ libraries) (h3 : file ≠ b%"mock_test.go") (h4 : test.file ≠ b%"<autogenerated>")
    (h5 : test.name = some name) (h6 : Named base name) (h7 : name ≠ b%"testing.tRunner") (h8 : TestName lower base) (failure message : Bytes) (t : Option Bytes) :
    callerInfo lower (assertion :: test :: fs) = [] ∧
    (reportContent (callerInfo lower (assertion :: test :: fs)) failure t message).head? = some (b%"Error Trace", []) := by
  have e : callerInfo lower (assertion :: test :: fs) = [] := by
    obtain ⟨⟨dir', file', k1, k2, k3⟩, k4, name', base', k5, k6, k7, k8⟩ := ha
    rw [caller_other k4 k5 k6 k7 k8, lies_shown k1, if_neg (by rintro (h | h); exact h k2; exact k3 h), caller_test h4 h5 h6 h7 h8, lies_shown h1,
      if_neg (by rintro (h | h); exact h h2; exact h3 h)]
    rfl
  rw [e]
  exact ⟨rfl, rfl⟩

theorem trace_place {lower : Bytes → Bool} {fs : List Frame} {ps : List Bytes} (h : Trace lower fs ps) : ∀ p ∈ ps, ∃ file n, p = file ++ c%':' :: natDigits n := by
  induction h with
  | library _ _ ih => exact ih
  | helper h _ ih =>
    obtain ⟨⟨_, file, -, -, k⟩, -⟩ := h
    intro p hp
    rcases List.mem_cons.1 hp with rfl | hp
    · exact ⟨file, _, k⟩
    · exact ih p hp
  | test h =>
    obtain ⟨⟨_, file, -, -, k⟩, -⟩ := h
    intro p hp
    rcases List.mem_cons.1 hp with rfl | hp
    · exact ⟨file, _, k⟩
    · cases hp
  | runner => intro p hp; cases hp

theorem place_last (file : Bytes) (n : Nat) : (file ++ c%':' :: natDigits n).getLast? ≠ some 13 ∧ file ++ c%':' :: natDigits n ≠ [] := by
  refine ⟨fun h => ?_, by simp⟩
  rcases List.eq_nil_or_concat (natDigits n) with e | ⟨xs, x, e⟩
  · exact natDigits_ne_nil n e
  · rw [List.concat_eq_append] at e
    rw [e, show file ++ c%':' :: (xs ++ [x]) = (file ++ c%':' :: xs) ++ [x] by simp, List.getLast?_concat] at h
    have := natDigits_digits n x (by rw [e]; simp)
    injection h with h
    rw [h] at this
    revert this
    decide

/-- the text that names places has these lines -/
theorem trace_lines : ∀ (ps : List Bytes) (pre : Bytes), 10 ∉ pre → (∀ p ∈ ps, 10 ∉ p ∧ p.getLast? ≠ some 13 ∧ p ≠ []) →
    ∀ p, 10 ∉ p → p.getLast? ≠ some 13 → p ≠ [] → Lines (pre ++ errorTrace (p :: ps)) ((pre ++ p) :: ps.map fun p => [9, 9, 9] ++ p) := by
  have last : ∀ {pre p : Bytes}, p.getLast? ≠ some 13 → p ≠ [] → (pre ++ p).getLast? ≠ some 13 := by
    intro pre p h hp
    rw [List.getLast?_append_of_ne_nil _ hp]
    exact h
  intro ps
  induction ps with
  | nil =>
    intro pre hpre _ p h1 h2 h3
    show Lines (pre ++ p) [pre ++ p]
    exact .last (by simp [hpre, h1]) (by simp [h3]) (last h2 h3)
  | cons q qs ih =>
    intro pre hpre hps p h1 h2 h3
    obtain ⟨q1, q2, q3⟩ := hps q (by simp)
    have := ih [9, 9, 9] (by decide) (fun x hx => hps x (by simp [hx])) q q1 q2 q3
    have e : pre ++ errorTrace (p :: q :: qs) = (pre ++ p) ++ 10 :: ([9, 9, 9] ++ errorTrace (q :: qs)) := by
      show pre ++ (p ++ b%"\n\t\t\t" ++ errorTrace (q :: qs)) = _
      rw [show b%"\n\t\t\t" = [10, 9, 9, 9] from rfl]
      simp
    rw [e]
    exact .line (by simp [hpre, h1]) (last h2 h3) this

/-- a section with a text -/
def sectionOf (label : Bytes) : Option Bytes → List (Bytes × Bytes)
  | some n => [(label, n)]
  | none => []

/-- **C97** (the whole report). A report has the places of the calls (below the label `Error Trace`), the failure, the name of the test if it is known
and the message if there is one, in this order, each in full. -/
theorem C97_whole_partial (lower : Bytes → Bool) (fs : List Frame) (ps : List Bytes) (h : Trace lower fs ps) (hp : ∀ p ∈ ps, 10 ∉ p ∧ p.length < 65532)
    (failure message : Bytes) (test : Option Bytes) (failures tests messages : List (Bytes × List Bytes)) (hf : Section b%"Error" (some failure) failures)
    (ht : Section b%"Test" test tests) (hm : Section b%"Messages" (if message = [] then none else some message) messages) :
    labeledOutput (reportContent (callerInfo lower fs) failure test message) =
      layout 11 ([(b%"Error Trace", placeLines ps)] ++ failures ++ tests ++ messages) := by
  rw [C97_places lower fs ps h]
  have hlines : Lines (errorTrace ps) (placeLines ps) ∧ ∀ l ∈ placeLines ps, l.length < 65535 := by
    cases ps with
    | nil => exact ⟨.none, fun l hl => by cases hl⟩
    | cons p ps =>
      have good : ∀ x ∈ p :: ps, 10 ∉ x ∧ x.getLast? ≠ some 13 ∧ x ≠ [] := by
        intro x hx
        obtain ⟨file, n, e⟩ := trace_place h x hx
        refine ⟨(hp x hx).1, ?_⟩
        rw [e]
        exact place_last file n
      obtain ⟨g1, g2, g3⟩ := good p (by simp)
      refine ⟨trace_lines ps [] (by simp) (fun x hx => good x (by simp [hx])) p g1 g2 g3, fun l hl => ?_⟩
      rcases List.mem_cons.1 hl with rfl | hl
      · have := (hp l (by simp)).2
        omega
      · obtain ⟨x, hx, rfl⟩ := List.mem_map.1 hl
        have := (hp x (by simp [hx])).2
        simp only [List.length_append, List.length_cons, List.length_nil]
        omega
  have part : ∀ {label : Bytes} {t : Option Bytes} {ls : List (Bytes × List Bytes)}, Section label t ls →
      List.Forall₂ (fun (c : Bytes × Bytes) (s : Bytes × List Bytes) => c.1 = s.1 ∧ Lines c.2 s.2 ∧ ∀ l ∈ s.2, l.length < 65535)
        (sectionOf label t) ls := by
    intro label t ls h
    cases h with
    | left => exact .nil
    | some h1 h2 => exact .cons ⟨rfl, h1, h2⟩ .nil
  have hcontent : reportContent ps failure test message = [(b%"Error Trace", errorTrace ps)] ++ [(b%"Error", failure)] ++
      sectionOf b%"Test" test ++ sectionOf b%"Messages" (if message = [] then none else some message) := by
    unfold reportContent
    by_cases hm : message = []
    · subst hm
      cases test <;> rfl
    · rw [if_neg hm, if_pos (List.length_pos_iff.2 hm)]
      cases test <;> rfl
  have hall : List.Forall₂ (fun (c : Bytes × Bytes) (s : Bytes × List Bytes) => c.1 = s.1 ∧ Lines c.2 s.2 ∧ ∀ l ∈ s.2, l.length < 65535)
      (reportContent ps failure test message) ([(b%"Error Trace", placeLines ps)] ++ failures ++ tests ++ messages) := by
    rw [hcontent]
    have h0 : List.Forall₂ (fun (c : Bytes × Bytes) (s : Bytes × List Bytes) => c.1 = s.1 ∧ Lines c.2 s.2 ∧ ∀ l ∈ s.2, l.length < 65535)
        [(b%"Error Trace", errorTrace ps)] [(b%"Error Trace", placeLines ps)] := .cons ⟨rfl, hlines.1, hlines.2⟩ .nil
    exact List.rel_append (List.rel_append (List.rel_append h0 (part hf)) (part ht)) (part hm)
  obtain ⟨width, w1, w2, w3⟩ := C97_report_partial _ _ hall
  have hle : ∀ c ∈ reportContent ps failure test message, c.1.length ≤ 11 := by
    intro c hc
    unfold reportContent at hc
    rcases List.mem_append.1 hc with hc | hc
    · rcases List.mem_append.1 hc with hc | hc
      · simp only [List.mem_cons, List.not_mem_nil, or_false] at hc
        rcases hc with rfl | rfl
        · exact Nat.le_refl 11
        · exact Nat.le_of_ble_eq_true rfl
      · cases test with
        | none => cases hc
        | some n =>
          simp only [List.mem_cons, List.not_mem_nil, or_false] at hc
          subst hc
          exact Nat.le_of_ble_eq_true rfl
    · by_cases hm : message.length > 0
      · rw [if_pos hm] at hc
        simp only [List.mem_cons, List.not_mem_nil, or_false] at hc
        subst hc
        exact Nat.le_of_ble_eq_true rfl
      · rw [if_neg hm] at hc
        cases hc
  have hw : width = 11 := by
    have g1 : 11 ≤ width := w1 (b%"Error Trace", errorTrace ps) (by unfold reportContent; simp)
    rcases w2 with w2 | ⟨c, hc, w2⟩
    · rw [hcontent] at w2
      simp at w2
    · have := hle c hc
      omega
  rw [w3, hw]

/-! ## Examples -/

/-- What the user gave becomes the message they want, and nothing else does. -/
theorem C97_message (sprintf : Bytes → List Arg → Bytes) (plusV : Arg → Bytes) (given : List Arg) (message : Bytes) :
    messageFromMsgAndArgs sprintf plusV given = some message ↔ Wanted sprintf plusV given message := by
  constructor
  · intro h
    match given, h with
    | [], h => cases h; exact .nothing
    | [.str s], h => cases h; exact .text
    | [.list l], h => cases h; exact .value (fun s h => by cases h)
    | [.other n], h => cases h; exact .value (fun s h => by cases h)
    | .str f :: v :: vs, h => cases h; exact .format
    | .list l :: v :: vs, h => cases h
    | .other n :: v :: vs, h => cases h
  · intro h
    cases h with
    | nothing => rfl
    | text => rfl
    | @value v hv =>
      cases v with
      | str s => exact absurd rfl (hv s)
      | list l => rfl
      | other n => rfl
    | format => rfl

/-- A failure fails and shows, on a line of its own, the places, the failure, the name of the test and what the user wants, each if there is any. -/
theorem C97_fail_partial (lower : Bytes → Bool) (sprintf : Bytes → List Arg → Bytes) (plusV : Arg → Bytes) (fs : List Frame) (ps : List Bytes)
    (h : Trace lower fs ps) (hp : ∀ p ∈ ps, 10 ∉ p ∧ p.length < 65532) (failure message : Bytes) (test : Option Bytes) (given : List Arg)
    (hw : Wanted sprintf plusV given message) (failures tests messages : List (Bytes × List Bytes)) (hf : Section b%"Error" (some failure) failures)
    (ht : Section b%"Test" test tests) (hm : Section b%"Messages" (if message = [] then none else some message) messages) :
    Fail lower sprintf plusV fs test failure given =
      some (false, 10 :: layout 11 ([(b%"Error Trace", placeLines ps)] ++ failures ++ tests ++ messages)) := by
  unfold Fail
  rw [(C97_message sprintf plusV given message).2 hw]
  dsimp only
  rw [C97_whole_partial lower fs ps h hp failure message test failures tests messages hf ht hm]
  rfl

/-- The failure of an assertion that got several values of which the first is no text is lost: it panics instead of reporting it. -/
theorem C97_refuted_message (lower : Bytes → Bool) (sprintf : Bytes → List Arg → Bytes) (plusV : Arg → Bytes) (fs : List Frame) (test : Option Bytes)
    (failure : Bytes) (given : List Arg) :
    Fail lower sprintf plusV fs test failure given = none ↔ ∃ v w ws, given = v :: w :: ws ∧ ∀ s, v ≠ .str s := by
  constructor
  · intro h
    match given, h with
    | [], h => cases h
    | [.str s], h => cases h
    | [.list l], h => cases h
    | [.other n], h => cases h
    | .str f :: v :: vs, h => cases h
    | .list l :: v :: vs, _ => exact ⟨_, _, _, rfl, fun s h => by cases h⟩
    | .other n :: v :: vs, _ => exact ⟨_, _, _, rfl, fun s h => by cases h⟩
  · rintro ⟨v, w, ws, rfl, hv⟩
    cases v with
    | str s => exact absurd rfl (hv s)
    | list l => rfl
    | other n => rfl

namespace AssertErrorDemo

def lower (s : Bytes) : Bool := match s with | c :: _ => decide (97 ≤ c ∧ c ≤ 122) | [] => false

/-- an error that wraps `EOF`, and one that claims to be error 7 -/
def eof : Link := ⟨1, true, b%"EOF", fun _ => false⟩
def wrapped : Err := [⟨2, true, b%"read: EOF", fun _ => false⟩, eof]
def claims : Err := [⟨3, false, b%"odd", fun n => n == 7⟩]

example : Matches wrapped [eof] := .equal (before := [⟨2, true, b%"read: EOF", fun _ => false⟩]) (l := eof) (after := []) rfl rfl
example : Matches claims [⟨7, false, [], fun _ => false⟩] := .claims (before := []) (l := ⟨3, false, b%"odd", fun n => n == 7⟩) (after := []) rfl
example : ¬ Matches [eof] wrapped := fun h => by
  rw [← errorsIs_iff] at h
  revert h
  decide +kernel
/-- an error that cannot be compared does not even match itself -/
example : ¬ Matches [⟨7, false, [], fun _ => false⟩] [⟨7, false, [], fun _ => false⟩] := fun h => by
  rw [← errorsIs_iff] at h
  revert h
  decide +kernel
/-- what a failure of `ErrorIs(t, wrapped, claims)` says, if quoting does nothing -/
example : (ErrorIs id wrapped claims []).reports.map (·.1) = [b%"Target error should be in err chain:\nexpected: odd\nin chain: read: EOF\n\tEOF"] := by decide +kernel

/-- the calls of an assertion by a helper of a test -/
def assertion : Frame := ⟨b%"/repo/assert/assert.go", 84, some b%"github.com/mjarkk/yarql/assert.callerInfo"⟩
def helper : Frame := ⟨b%"/repo/tester/tester.go", 12, some b%"github.com/mjarkk/yarql/tester.HasType"⟩
def test : Frame := ⟨b%"/repo/resolver_test.go", 30, some b%"github.com/mjarkk/yarql.TestA"⟩
def runner : Frame := ⟨b%"/go/src/testing/testing.go", 1690, some b%"testing.tRunner"⟩

theorem plain {base name package : Bytes} {b : Bytes} (h : name = package ++ c%'.' :: base) (hn : c%'.' ∉ base)
    (ht : (isTest lower base b%"Test" || isTest lower base b%"Benchmark" || isTest lower base b%"Example") = false) (_ : b = base) :
    Named base name ∧ ¬ TestName lower base := by
  refine ⟨⟨hn, Or.inr ⟨_, h⟩⟩, fun k => ?_⟩
  rw [(isTest_iff lower base).2 k] at ht
  cases ht

theorem in_library : InLibrary lower assertion :=
  have h := plain (b := b%"callerInfo") (base := b%"callerInfo") (name := b%"github.com/mjarkk/yarql/assert.callerInfo") (package := b%"github.com/mjarkk/yarql/assert")
    (by decide +kernel) (by decide +kernel) (by decide +kernel) rfl
  ⟨⟨b%"assert", b%"assert.go", ⟨by decide +kernel, by decide +kernel, Or.inr ⟨b%"/repo", by decide +kernel⟩⟩, by decide +kernel, by decide +kernel⟩,
    by decide +kernel, _, _, rfl, h.1, by decide +kernel, h.2⟩

theorem trace : Trace lower [assertion, helper, test, runner] [b%"tester.go:12", b%"resolver_test.go:30"] := by
  refine .library in_library (.helper ⟨⟨b%"tester", b%"tester.go", ⟨by decide +kernel, by decide +kernel, Or.inr ⟨b%"/repo", by decide +kernel⟩⟩, by decide +kernel,
    by decide +kernel⟩, by decide +kernel, ?_⟩ (.test ⟨⟨b%"repo", b%"resolver_test.go", ⟨by decide +kernel, by decide +kernel, Or.inr ⟨[], by decide +kernel⟩⟩,
    by decide +kernel, by decide +kernel⟩, by decide +kernel, ?_⟩))
  · have h := plain (b := b%"HasType") (base := b%"HasType") (name := b%"github.com/mjarkk/yarql/tester.HasType") (package := b%"github.com/mjarkk/yarql/tester")
      (by decide +kernel) (by decide +kernel) (by decide +kernel) rfl
    exact ⟨_, _, rfl, h.1, by decide +kernel, h.2⟩
  · exact ⟨_, b%"TestA", rfl, ⟨by decide +kernel, Or.inr ⟨b%"github.com/mjarkk/yarql", by decide +kernel⟩⟩, by decide +kernel,
      .more (pre := b%"Test") (rest := b%"A") (by decide +kernel) (by decide +kernel) (by decide +kernel)⟩

example : callerInfo lower [assertion, helper, test, runner] = [b%"tester.go:12", b%"resolver_test.go:30"] := C97_places _ _ _ trace

/-- a whole report -/
example : labeledOutput (reportContent (callerInfo lower [assertion, helper, test, runner]) b%"no" (some b%"TestA") []) =
    layout 11 [(b%"Error Trace", [b%"tester.go:12", b%"\t\t\tresolver_test.go:30"]), (b%"Error", [b%"no"]), (b%"Test", [b%"TestA"])] :=
  C97_whole_partial lower _ _ trace (by decide +kernel) b%"no" [] (some b%"TestA") [(b%"Error", [b%"no"])] [(b%"Test", [b%"TestA"])] []
    (.some (.last (by decide +kernel) (by decide +kernel) (by decide +kernel)) (by decide +kernel))
    (.some (.last (by decide +kernel) (by decide +kernel) (by decide +kernel)) (by decide +kernel)) .left

/-- a failure with a message; the percent sign is shown as it is -/
example : Fail lower (fun f _ => f) (fun _ => b%"?") [assertion, helper, test, runner] none b%"no" [.str b%"50%d"] =
    some (false, 10 :: layout 11 [(b%"Error Trace", [b%"tester.go:12", b%"\t\t\tresolver_test.go:30"]), (b%"Error", [b%"no"]), (b%"Messages", [b%"50%d"])]) :=
  C97_fail_partial lower _ _ _ _ trace (by decide +kernel) b%"no" b%"50%d" none _ .text [(b%"Error", [b%"no"])] [] [(b%"Messages", [b%"50%d"])]
    (.some (.last (by decide +kernel) (by decide +kernel) (by decide +kernel)) (by decide +kernel)) .left
    (.some (.last (by decide +kernel) (by decide +kernel) (by decide +kernel)) (by decide +kernel))

/-- a test of a package `mock`: the report of its assertion names no place -/
def mocked : Frame := ⟨b%"/repo/mock/a_test.go", 30, some b%"repo/mock.TestA"⟩

example : callerInfo lower [assertion, mocked, runner] = [] :=
  (C97_refuted_place lower assertion mocked [runner] b%"mock" b%"a_test.go" b%"repo/mock.TestA" b%"TestA" in_library
    ⟨by decide +kernel, by decide +kernel, Or.inr ⟨b%"/repo", by decide +kernel⟩⟩ (by decide +kernel) (by decide +kernel) (by decide +kernel) rfl
    ⟨by decide +kernel, Or.inr ⟨b%"repo/mock", by decide +kernel⟩⟩ (by decide +kernel)
    (.more (pre := b%"Test") (rest := b%"A") (by decide +kernel) (by decide +kernel) (by decide +kernel)) [] [] none).1

end AssertErrorDemo

end Assert
end Yarql
