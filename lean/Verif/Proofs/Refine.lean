import Verif.Proofs.CallSim
import Verif.Spec.Cut

/-! # The interpreter refines the evaluator -/

namespace Yarql
namespace Eval
open Doc Resolver Yarql.Bind

section
variable {F V W : Type}

/-- `s'` extends the output of `s` by `txt`, the stack is back at the same height and its first `n` entries are unchanged -/
structure Ext (n : Nat) (s s' : RS V W) (txt : Bytes) : Prop where
  out : s'.out = s.out ++ txt
  idx : s'.idx = s.idx
  vals : ∀ i : UInt8, i.toNat < n → s'.vals i = s.vals i

theorem Keep.ext {s s' : RS V W} (h : Keep s s') (n : Nat) : Ext n s s' [] :=
  ⟨by rw [h.out, List.append_nil], h.idx, fun i _ => by rw [h.vals]⟩

theorem Ext.trans {n n' : Nat} {s s1 s2 : RS V W} {a b : Bytes} (h : Ext n s s1 a) (h' : Ext n' s1 s2 b) (hn : n ≤ n') :
    Ext n s s2 (a ++ b) :=
  ⟨by rw [h'.out, h.out, List.append_assoc], h'.idx.trans h.idx, fun i hi => (h'.vals i (by omega)).trans (h.vals i hi)⟩

theorem Ext.mono {n n' : Nat} {s s1 : RS V W} {a : Bytes} (h : Ext n' s s1 a) (hn : n ≤ n') : Ext n s s1 a :=
  ⟨h.out, h.idx, fun i hi => h.vals i (by omega)⟩

/-- the selections the interpreter sees -/
def seen (args : Option (List (Bytes × Value))) (sels : List Sel) : List Sel := if endsInList args then [] else selsCut sels

theorem selsCut_isEmpty (sels : List Sel) : (selsCut sels).isEmpty = sels.isEmpty := by cases sels <;> rfl

theorem seen_flag (args : Option (List (Bytes × Value))) (sels : List Sel) :
    (args.isSome || !(seen args sels).isEmpty) = (args.isSome || !sels.isEmpty) := by
  cases args with
  | some fs => rfl
  | none => show (false || !(selsCut sels).isEmpty) = _; rw [selsCut_isEmpty]; rfl

/-- the fragment table points at the encodings of the request's fragments -/
inductive FragsAt (res : Bytes) : List Nat → List Fragment → Prop where
  | nil : FragsAt res [] []
  | cons {loc : Nat} {f : Fragment} {locs : List Nat} {fs : List Fragment} {post : Bytes} :
    0 :: res.drop loc = encFragment f ++ post → FragsAt res locs fs → FragsAt res (loc :: locs) (f :: fs)

/-- everything a request's bytecode satisfies; `src` are the fragments as written, the request has them cut -/
structure Good (r : Req F V W) (src : List Fragment) (res : Bytes) (frags : List Nat) : Prop where
  decls : DeclsOK r res
  at_ : FragsAt res frags src
  eq : r.frags = src.map Fragment.cut
  wf : ∀ f ∈ src, f.WF
  reg : ∀ f ∈ src, selsTracked (r.frags.map (·.name)) f.sels

variable (r : Req F V W) (res : Bytes) (frags : List Nat)

def names : List Bytes := r.frags.map (·.name)

variable [DecidableEq F]

def SelsOK (fuel : Nat) : Prop :=
  ∀ (t : RType F V) (v : V) (dept : UInt8) (path : List Seg) (room : Nat) (sels : List Sel) (es es' : ES W)
    (ms : List (Bytes × Out)) (crit : Bool) (s : RS V W) (first : Bool) (post : Bytes),
    selsWF sels → selsTracked (names r) sels → 0 :: res.drop s.charNr = encSels sels ++ (endI ++ post) →
    Sim res r es path s → s.idx.toNat + room = 255 → s.vals s.idx = v →
    evalSels r fuel t v dept path room (selsCut sels) es = some ((ms, crit), es') →
    wp (resolveSelectionSet fuel t dept first) (cfgOf r res frags) s
      (fun x s' => x.1 = crit ∧ Ext (s.idx.toNat + 1) s s' (printMembers first ms) ∧ Sim res r es' path s' ∧
        (crit = false → x.2 = (first && ms.isEmpty) ∧ res.drop s'.charNr = post))

def SpreadOK (fuel : Nat) : Prop :=
  ∀ (t : RType F V) (v : V) (dept : UInt8) (path : List Seg) (room : Nat) (name : Bytes) (dirs : List Directive)
    (es es' : ES W) (ms : List (Bytes × Out)) (crit : Bool) (s : RS V W) (first : Bool) (post : Bytes),
    (Sel.spread name dirs).WF → (Sel.spread name dirs).Tracked (names r) → (∃ q, post = 0 :: q) →
    0 :: c%'s' :: res.drop s.charNr = encSel (.spread name dirs) ++ post →
    Sim res r es path s → s.idx.toNat + room = 255 → s.vals s.idx = v →
    evalSpread r fuel t v dept path room name dirs es = some ((ms, crit), es') →
    wp (resolveSpread fuel t dept first) (cfgOf r res frags) s
      (fun x s' => x.1 = crit ∧ Ext (s.idx.toNat + 1) s s' (printMembers first ms) ∧ Sim res r es' path s' ∧
        (crit = false → x.2 = (first && ms.isEmpty) ∧ 0 :: res.drop s'.charNr = post))

def InlineOK (fuel : Nat) : Prop :=
  ∀ (t : RType F V) (v : V) (dept : UInt8) (path : List Seg) (room : Nat) (ty : Bytes) (dirs : List Directive)
    (sels : List Sel) (es es' : ES W) (ms : List (Bytes × Out)) (crit : Bool) (s : RS V W) (first : Bool) (post : Bytes),
    (Sel.inline ty dirs sels).WF → (Sel.inline ty dirs sels).Tracked (names r) → (∃ q, post = 0 :: q) →
    0 :: c%'s' :: res.drop s.charNr = encSel (.inline ty dirs sels) ++ post →
    Sim res r es path s → s.idx.toNat + room = 255 → s.vals s.idx = v →
    evalInline r fuel t v dept path room ty dirs (selsCut sels) es = some ((ms, crit), es') →
    wp (resolveSpread fuel t dept first) (cfgOf r res frags) s
      (fun x s' => x.1 = crit ∧ Ext (s.idx.toNat + 1) s s' (printMembers first ms) ∧ Sim res r es' path s' ∧
        (crit = false → x.2 = (first && ms.isEmpty) ∧ 0 :: res.drop s'.charNr = post))

def FieldOK (fuel : Nat) : Prop :=
  ∀ (t : RType F V) (v : V) (dept : UInt8) (path : List Seg) (room : Nat) (key : Bytes) (name : Option Bytes)
    (dirs : List Directive) (args : Option (List (Bytes × Value))) (sels : List Sel) (es es' : ES W)
    (m : Option (Bytes × Out)) (crit : Bool) (s : RS V W) (comma : Bool) (post : Bytes),
    (Sel.field key name dirs args sels).WF → (Sel.field key name dirs args sels).Tracked (names r) →
    (∃ q, post = 0 :: q) →
    0 :: c%'f' :: res.drop s.charNr = encSel (.field key name dirs args sels) ++ post →
    Sim res r es path s → s.idx.toNat + room = 255 → s.vals s.idx = v →
    evalField r fuel t v dept path room key (name.getD key) dirs args (seen args sels) es = some ((m, crit), es') →
    wp (resolveField fuel t dept comma) (cfgOf r res frags) s
      (fun x s' => x = (m.isNone, crit) ∧ Ext (s.idx.toNat + 1) s s' (printMembers (!comma) m.toList) ∧
        Sim res r es' path s' ∧ 0 :: res.drop s'.charNr = post)

def DataOK (fuel : Nat) : Prop :=
  ∀ (o : Obj F) (v : V) (dept : UInt8) (path : List Seg) (room : Nat) (args : Option (List (Bytes × Value)))
    (sels : List Sel) (es es' : ES W) (out : Out) (crit : Bool) (s : RS V W) (post : Bytes),
    argsWF args → (∀ fs, args = some fs → membersRegular fs) →
    selsWF sels → selsTracked (names r) sels →
    0 :: res.drop s.charNr = encArgs args ++ (encSels sels ++ (endI ++ post)) →
    Sim res r es path s → s.idx.toNat + room = 255 → s.vals s.idx = v →
    evalData r fuel o v dept path room args (seen args sels) es = some ((out, crit), es') →
    wp (resolveFieldDataValue fuel o dept (args.isSome || !sels.isEmpty)) (cfgOf r res frags) s
      (fun x s' => x = crit ∧ Ext s.idx.toNat s s' (print out) ∧ Sim res r es' path s')

variable {r res frags} {src : List Fragment}

theorem encSels_z (sels : List Sel) (post : Bytes) : ∃ q, encSels sels ++ (endI ++ post) = 0 :: q := by
  cases sels with
  | nil => exact ⟨_, rfl⟩
  | cons x xs => cases x <;> exact ⟨_, by simp only [encSels, encSel]; rfl⟩

theorem printMembers_append (first : Bool) (a b : List (Bytes × Out)) :
    printMembers first (a ++ b) = printMembers first a ++ printMembers (first && a.isEmpty) b := by
  induction a generalizing first with
  | nil => simp [printMembers]
  | cons x xs ih =>
    obtain ⟨k, o⟩ := x
    simp only [List.cons_append, printMembers, List.append_assoc, ih]
    simp

theorem selsOK_zero : SelsOK r res frags 0 := by
  intro t v dept path room sels es es' ms crit s first post _ _ _ _ _ _ h
  simp only [evalSels] at h
  cases h

theorem selsOK_succ {n : Nat} (hS : SelsOK r res frags n) (hF : FieldOK r res frags n) (hSp : SpreadOK r res frags n)
    (hI : InlineOK r res frags n) : SelsOK r res frags (n + 1) := by
  intro t v dept path room sels es es' ms crit s first post hwf hreg hp hs hroom hv h
  cases sels with
  | nil =>
    simp only [selsCut, Sel.cut, evalSels] at h
    have e := E_pure.1 h
    cases e
    have hp1 : res.drop s.charNr = c%'e' :: post := by simpa [encSels, endI] using hp
    unfold resolveSelectionSet
    rw [wp_bind]
    refine wp_readInst hp1 ?_
    rw [if_pos (by rfl), wp_pure]
    exact ⟨rfl, (Keep.pos s _).ext _, hs.pos _, fun _ => ⟨by simp, drop_one hp1⟩⟩
  | cons sel rest =>
    simp only [selsWF] at hwf
    simp only [selsTracked] at hreg
    obtain ⟨q, hq⟩ := encSels_z rest post
    have hp0 : 0 :: res.drop s.charNr = encSel sel ++ (encSels rest ++ (endI ++ post)) := by
      rw [hp, encSels, List.append_assoc]
    have fin : ∀ (ms1 : List (Bytes × Out)) (es1 : ES W) (s1 : RS V W),
        Ext (s.idx.toNat + 1) s s1 (printMembers first ms1) → Sim res r es1 path s1 →
        0 :: res.drop s1.charNr = encSels rest ++ (endI ++ post) →
        (evalSels r n t v dept path room (selsCut rest) >>= fun x => pure (ms1 ++ x.1, x.2)) es1 = some ((ms, crit), es') →
        wp (resolveSelectionSet n t dept (first && ms1.isEmpty)) (cfgOf r res frags) s1
          (fun x s' => x.1 = crit ∧ Ext (s.idx.toNat + 1) s s' (printMembers first ms) ∧ Sim res r es' path s' ∧
            (crit = false → x.2 = (first && ms.isEmpty) ∧ res.drop s'.charNr = post)) := by
      intro ms1 es1 s1 k1 k2 k3 h
      obtain ⟨⟨ms2, crit2⟩, es2, h1, h2⟩ := E_bind.1 h
      have e := E_pure.1 h2
      cases e
      have hv1 : s1.vals s1.idx = v := by rw [k1.idx, k1.vals s.idx (by omega), hv]
      refine wp_mono (hS t v dept path room rest es1 es' ms2 crit2 s1 (first && ms1.isEmpty) post hwf.2 hreg.2 k3 k2
        (by rw [k1.idx]; exact hroom) hv1 h1) ?_
      rintro x s2 ⟨m1, m2, m3, m4⟩
      refine ⟨m1, ?_, m3, fun hc => ?_⟩
      · rw [printMembers_append]
        exact k1.trans m2 (by rw [k1.idx]; exact Nat.le_refl _)
      · refine ⟨?_, (m4 hc).2⟩
        rw [(m4 hc).1]
        cases ms1 <;> cases ms2 <;> cases first <;> rfl
    cases sel with
    | field key name dirs args sels =>
      simp only [selsCut, Sel.cut, evalSels] at h
      obtain ⟨⟨m, crit1⟩, es1, h1, h2⟩ := E_bind.1 h
      dsimp only at h2
      have hp1 : res.drop s.charNr = c%'f' :: res.drop (s.charNr + 1) := by
        have := hp0
        simp only [encSel, List.cons_append, List.nil_append, List.append_assoc, List.cons.injEq, true_and] at this
        rw [drop_one this, this]
      unfold resolveSelectionSet
      rw [wp_bind]
      refine wp_readInst hp1 ?_
      rw [if_neg (by decide), if_pos (by rfl), wp_bind]
      refine wp_mono (hF t v dept path room key name dirs args sels es es1 m crit1 { s with charNr := s.charNr + 1 } (!first)
        (encSels rest ++ (endI ++ post)) hwf.1 hreg.1 ⟨q, hq⟩ (by rw [← hp0]; show _ = 0 :: res.drop s.charNr; rw [hp1])
        (hs.pos _) hroom hv h1) ?_
      rintro x1 s1 ⟨rfl, k1, k2, k3⟩
      dsimp only
      rw [Bool.not_not] at k1
      have k1' : Ext (s.idx.toNat + 1) s s1 (printMembers first m.toList) := ⟨k1.out, k1.idx, k1.vals⟩
      cases crit1 with
      | true =>
        have e := E_pure.1 h2
        cases e
        exact ⟨rfl, k1', k2, fun h => by cases h⟩
      | false =>
        have := fin m.toList es1 s1 k1' k2 k3 h2
        have e : (first && m.toList.isEmpty) = (first && m.isNone) := by cases m <;> rfl
        rw [e] at this
        exact this
    | spread name dirs =>
      simp only [selsCut, Sel.cut, evalSels] at h
      obtain ⟨⟨ms1, crit1⟩, es1, h1, h2⟩ := E_bind.1 h
      dsimp only at h2
      have hp1 : res.drop s.charNr = c%'s' :: res.drop (s.charNr + 1) := by
        have := hp0
        simp only [encSel, List.cons_append, List.nil_append, List.append_assoc, List.cons.injEq, true_and] at this
        rw [drop_one this, this]
      unfold resolveSelectionSet
      rw [wp_bind]
      refine wp_readInst hp1 ?_
      rw [if_neg (by decide), if_neg (by decide), if_pos (by rfl), wp_bind]
      refine wp_mono (hSp t v dept path room name dirs es es1 ms1 crit1 { s with charNr := s.charNr + 1 } first
        (encSels rest ++ (endI ++ post)) hwf.1 hreg.1 ⟨q, hq⟩ (by rw [← hp0]; show _ = 0 :: res.drop s.charNr; rw [hp1])
        (hs.pos _) hroom hv h1) ?_
      rintro ⟨c1, f1⟩ s1 ⟨rfl, k1, k2, k3⟩
      dsimp only at k3 h2 ⊢
      have k1' : Ext (s.idx.toNat + 1) s s1 (printMembers first ms1) := ⟨k1.out, k1.idx, k1.vals⟩
      cases c1 with
      | true =>
        have e := E_pure.1 h2
        cases e
        exact ⟨rfl, k1', k2, fun h => by cases h⟩
      | false =>
        obtain ⟨rfl, k4⟩ := k3 rfl
        exact fin ms1 es1 s1 k1' k2 k4 h2
    | inline ty dirs sels =>
      simp only [selsCut, Sel.cut, evalSels] at h
      obtain ⟨⟨ms1, crit1⟩, es1, h1, h2⟩ := E_bind.1 h
      dsimp only at h2
      have hp1 : res.drop s.charNr = c%'s' :: res.drop (s.charNr + 1) := by
        have := hp0
        simp only [encSel, List.cons_append, List.nil_append, List.append_assoc, List.cons.injEq, true_and] at this
        rw [drop_one this, this]
      unfold resolveSelectionSet
      rw [wp_bind]
      refine wp_readInst hp1 ?_
      rw [if_neg (by decide), if_neg (by decide), if_pos (by rfl), wp_bind]
      refine wp_mono (hI t v dept path room ty dirs sels es es1 ms1 crit1 { s with charNr := s.charNr + 1 } first
        (encSels rest ++ (endI ++ post)) hwf.1 hreg.1 ⟨q, hq⟩ (by rw [← hp0]; show _ = 0 :: res.drop s.charNr; rw [hp1])
        (hs.pos _) hroom hv h1) ?_
      rintro ⟨c1, f1⟩ s1 ⟨rfl, k1, k2, k3⟩
      dsimp only at k3 h2 ⊢
      have k1' : Ext (s.idx.toNat + 1) s s1 (printMembers first ms1) := ⟨k1.out, k1.idx, k1.vals⟩
      cases c1 with
      | true =>
        have e := E_pure.1 h2
        cases e
        exact ⟨rfl, k1', k2, fun h => by cases h⟩
      | false =>
        obtain ⟨rfl, k4⟩ := k3 rfl
        exact fin ms1 es1 s1 k1' k2 k4 h2

/-! ## Spreads -/

theorem body_lt {body post : Bytes} {p : Nat} (hlen : res.length < 2 ^ 32) (h : res.drop p = body ++ post) :
    body.length < 2 ^ 32 := by
  have := congrArg List.length h
  simp at this
  omega

theorem count_toNat {α : Type} {l : List α} (h : l.length ≤ 255) : (UInt8.ofNat l.length).toNat = l.length := by
  rw [UInt8.toNat_ofNat']
  exact Nat.mod_eq_of_lt (by omega)

omit [DecidableEq F] in
/-- the common start of spreads and inline fragments: positions -/
theorem spreadHead {fl : Byte} {dirs : List Directive} {name tail post : Bytes} {p : Nat} (hg : Good r src res frags)
    (hz : ∃ q, encDirectives dirs ++ (tail ++ post) = 0 :: q)
    (hp : res.drop p = fl :: UInt8.ofNat dirs.length ::
      (len32 (name ++ encDirectives dirs ++ tail).length ++ ((name ++ encDirectives dirs ++ tail) ++ post)))
    (hpost : ∃ q, post = 0 :: q) :
    ∃ L q, L < 2 ^ 32 ∧ res.drop (p + 1) = UInt8.ofNat dirs.length :: res.drop (p + 1 + 1) ∧
      res.drop (p + 1 + 1) = len32 L ++ res.drop (p + 1 + 1 + 4) ∧ res.drop (p + 1 + 1 + 4) = name ++ 0 :: q ∧
      0 :: res.drop (p + 1 + 1 + 4 + name.length + 1) = encDirectives dirs ++ (tail ++ post) ∧
      0 :: res.drop (p + 1 + 1 + 4 + L + 1) = post := by
  have hp2 := drop_one (drop_one hp)
  have hp3 : res.drop (p + 1 + 1 + 4) = (name ++ encDirectives dirs ++ tail) ++ post := drop_add hp2 rfl
  obtain ⟨q1, hq1⟩ := hz
  have hp4 : res.drop (p + 1 + 1 + 4) = name ++ 0 :: q1 := by
    rw [hp3, ← hq1]
    simp
  refine ⟨_, q1, body_lt hg.decls.len hp3, ?_, ?_, hp4, ?_, ?_⟩
  · rw [hp2, drop_one hp]
  · rw [hp3, hp2]
  · rw [hq1, Nat.add_assoc _ name.length 1, drop_add (a := name ++ [0]) (rest := q1) (by rw [hp4]; simp) (by simp)]
  · obtain ⟨q2, hq2⟩ := hpost
    have := drop_add hp3 rfl
    rw [hq2] at this ⊢
    rw [drop_one this]

theorem inlineOK_zero : InlineOK r res frags 0 := by
  intro t v dept path room ty dirs sels es es' ms crit s first post _ _ _ _ _ _ _ h
  simp only [evalInline] at h
  cases h

theorem inlineOK_succ {n : Nat} (hg : Good r src res frags) (hS : SelsOK r res frags n) : InlineOK r res frags (n + 1) := by
  intro t v dept path room ty dirs sels es es' ms crit s first post hwf hreg hz hp hs hroom hv h
  simp only [Sel.WF] at hwf
  simp only [Sel.Tracked] at hreg
  simp only [evalInline] at h
  obtain ⟨a1, es1, h1, h2⟩ := E_bind.1 h
  obtain ⟨qs, hqs⟩ := encSels_z sels post
  have hsels : ∃ q, encSels sels ++ endI ++ post = 0 :: q := ⟨qs, by rw [List.append_assoc, hqs]⟩
  have hp1 : res.drop s.charNr = c%'t' :: UInt8.ofNat dirs.length ::
      (len32 (ty ++ encDirectives dirs ++ (encSels sels ++ endI)).length ++
        ((ty ++ encDirectives dirs ++ (encSels sels ++ endI)) ++ post)) := by
    simp only [encSel, List.cons_append, List.nil_append, List.append_assoc, List.cons.injEq, true_and] at hp ⊢
    rw [hp]
  unfold resolveSpread
  obtain ⟨L, q0, hL, hp2, hp3, hp4, hpp, hpe⟩ := spreadHead hg (encDirectives_z _ _ hsels) hp1 hz
  rw [wp_bind]
  refine wp_readInst hp1 ?_
  dsimp only
  rw [wp_bind]
  refine wp_readInst (s := { s with charNr := s.charNr + 1 }) hp2 ?_
  rw [wp_bind]
  refine wp_readUint32M (s := { s with charNr := s.charNr + 1 + 1 }) hp3 ?_
  rw [wp_bind, wp_skipInst, wp_bind, wp_getPos, wp_bind]
  refine wp_readToNul (s := { s with charNr := s.charNr + 1 + 1 + 4 }) hp4 (name_no_nul hwf.1) ?_
  rw [count_toNat hwf.2.1.1, len32_toNat hL]
  dsimp only
  generalize s.charNr + 1 + 1 + 4 + ty.length + 1 = p at hpp
  generalize s.charNr + 1 + 1 + 4 + L + 1 = e at hpe
  rw [if_pos (by rfl), wp_bind]
  refine wp_mono (resolveDirectives_sim hg.decls 2 dirs hwf.2.1.2 hreg.1 es es1 a1 { s with charNr := p }
    (encSels sels ++ endI ++ post) hsels hpp (hs.pos _) h1) ?_
  rintro x1 s1 ⟨rfl, k1, k2, k3⟩
  have k1' : Keep s s1 := (Keep.pos _ _).trans k1
  rcases x1 with _ | _ | _
  · have e := E_pure.1 h2
    cases e
    dsimp only
    rw [wp_bind, wp_setPos, wp_pure]
    exact ⟨rfl, (k1'.trans (Keep.pos _ _)).ext _, k2.pos _, fun h => by cases h⟩
  · dsimp only at h2 ⊢
    rw [if_pos (by rfl)]
    by_cases ht : t.typeName = ty
    · rw [if_pos ht] at h2
      rw [if_neg (by simpa using ht), wp_bind]
      refine wp_mono (hS t v dept path room sels es1 es' ms crit s1 first post hwf.2.2 hreg.2
        (by rw [k3 rfl, List.append_assoc]) k2 (by rw [k1'.idx]; exact hroom) (by rw [k1'.idx, k1'.vals]; exact hv) h2) ?_
      rintro x s2 ⟨m1, m2, m3, m4⟩
      rw [wp_bind, wp_skipInst, wp_pure]
      refine ⟨m1, ?_, m3.pos _, fun hc => ⟨(m4 hc).1, ?_⟩⟩
      · have := ((k1'.ext (s.idx.toNat + 1)).trans m2 (by rw [k1'.idx]; exact Nat.le_refl _))
        rw [List.nil_append] at this
        exact ⟨this.out, this.idx, this.vals⟩
      · obtain ⟨q, rfl⟩ := hz
        show 0 :: res.drop (s2.charNr + 1) = _
        rw [drop_one (m4 hc).2]
    · rw [if_neg ht] at h2
      rw [if_pos (by simpa using ht), wp_bind, wp_setPos, wp_pure]
      have e := E_pure.1 h2
      cases e
      refine ⟨rfl, (k1'.trans (Keep.pos _ _)).ext _, k2.pos _, fun _ => ⟨by simp, ?_⟩⟩
      exact hpe
  · have e := E_pure.1 h2
    cases e
    dsimp only
    rw [wp_bind, wp_setPos, wp_pure]
    refine ⟨rfl, (k1'.trans (Keep.pos _ _)).ext _, k2.pos _, fun _ => ⟨by simp, ?_⟩⟩
    exact hpe

omit [DecidableEq F] in
theorem fragAt {f : Fragment} {loc : Nat} {post : Bytes} (h : 0 :: res.drop loc = encFragment f ++ post) :
    res.drop (loc + 1) = f.name ++ 0 :: (f.typeName ++ (encSels f.sels ++ (endI ++ post))) := by
  have : res.drop loc = c%'F' :: (f.name ++ 0 :: (f.typeName ++ (encSels f.sels ++ (endI ++ post)))) := by
    simpa [encFragment] using h
  exact drop_one this

omit [DecidableEq F] in
theorem slice_eq_iff {start : Nat} {name : Bytes} :
    (res.take (start + name.length)).drop start = name ↔ name <+: res.drop start := by
  rw [List.drop_take, Nat.add_sub_cancel_left]
  constructor
  · intro h
    rw [← h]
    exact List.take_prefix _ _
  · intro h
    obtain ⟨x, hx⟩ := h
    rw [← hx, List.take_left]

omit [DecidableEq F] in
theorem prefix_name {name fname : Bytes} {x : Bytes} (h0 : (0 : Byte) ∉ name) (h : name <+: fname ++ 0 :: x) : name <+: fname := by
  obtain ⟨t, ht⟩ := h
  rcases List.append_eq_append_iff.1 ht with ⟨u, h1, _⟩ | ⟨u, h1, h2⟩
  · exact ⟨u, h1.symm⟩
  · cases u with
    | nil => rw [h1, List.append_nil]; exact List.prefix_refl _
    | cons y u =>
      simp only [List.cons_append, List.cons.injEq] at h2
      exact absurd (by rw [h1, ← h2.1]; simp) h0

omit [DecidableEq F] in
theorem findFragment_sim {name : Bytes} (h0 : (0 : Byte) ∉ name) : ∀ {locs : List Nat} {fs : List Fragment}, FragsAt res locs fs →
    firstNamed name (fs.map (fun f => f.name)) →
    match fs.find? (fun f => f.name = name) with
    | none => findFragment res name locs = none
    | some f => ∃ stop post, findFragment res name locs = some stop ∧
        res.drop (stop + 1) = f.typeName ++ (encSels f.sels ++ (endI ++ post)) := by
  intro locs fs h
  induction h with
  | nil => intro _; rfl
  | @cons loc f locs fs post h1 _ ih =>
    intro hreg
    have hat := fragAt h1
    by_cases hn : f.name = name
    · rw [List.find?_cons_of_pos (by simpa using hn)]
      have hlen : loc + 1 + name.length < res.length := by
        have := congrArg List.length hat
        rw [hn] at this
        simp at this
        omega
      refine ⟨loc + 1 + name.length, post, ?_, ?_⟩
      · unfold findFragment
        rw [if_neg (by omega), if_pos (slice_eq_iff.2 ?_)]
        rw [hat, hn]
        exact List.prefix_append _ _
      · rw [Nat.add_assoc _ name.length 1]
        exact drop_add (a := name ++ [0]) (by rw [hat, hn]; simp) (by simp)
    · rw [List.find?_cons_of_neg (by simpa using hn)]
      have e : findFragment res name (loc :: locs) = findFragment res name locs := by
        rw [findFragment]
        by_cases hge : loc + 1 + name.length ≥ res.length
        · rw [if_pos hge]
        · rw [if_neg hge, if_neg]
          intro hc
          have := slice_eq_iff.1 hc
          rw [hat] at this
          rcases hreg with hreg | hreg
          · exact hn hreg
          · exact hreg.1 (prefix_name h0 this)
      rw [e]
      rcases hreg with hreg | hreg
      · exact absurd hreg hn
      · exact ih hreg.2

theorem spreadOK_zero : SpreadOK r res frags 0 := by
  intro t v dept path room name dirs es es' ms crit s first post _ _ _ _ _ _ _ h
  simp only [evalSpread] at h
  cases h

theorem spreadOK_succ {n : Nat} (hg : Good r src res frags) (hS : SelsOK r res frags n) : SpreadOK r res frags (n + 1) := by
  intro t v dept path room name dirs es es' ms crit s first post hwf hreg hz hp hs hroom hv h
  simp only [Sel.WF] at hwf
  simp only [Sel.Tracked] at hreg
  simp only [evalSpread] at h
  obtain ⟨a1, es1, h1, h2⟩ := E_bind.1 h
  have hp1 : res.drop s.charNr = c%'f' :: UInt8.ofNat dirs.length ::
      (len32 (name ++ encDirectives dirs ++ []).length ++ ((name ++ encDirectives dirs ++ []) ++ post)) := by
    simp only [encSel, List.cons_append, List.nil_append, List.append_nil, List.append_assoc, List.cons.injEq, true_and] at hp ⊢
    rw [hp]
  have hzd := encDirectives_z dirs post hz
  obtain ⟨L, q0, hL, hp2, hp3, hp4, hpp, hpe⟩ := spreadHead (tail := []) hg hzd hp1 hz
  rw [List.nil_append] at hpp
  unfold resolveSpread
  rw [wp_bind]
  refine wp_readInst hp1 ?_
  dsimp only
  rw [wp_bind]
  refine wp_readInst (s := { s with charNr := s.charNr + 1 }) hp2 ?_
  rw [wp_bind]
  refine wp_readUint32M (s := { s with charNr := s.charNr + 1 + 1 }) hp3 ?_
  rw [wp_bind, wp_skipInst, wp_bind, wp_getPos, wp_bind]
  refine wp_readToNul (s := { s with charNr := s.charNr + 1 + 1 + 4 }) hp4 (name_no_nul hwf.1) ?_
  rw [count_toNat hwf.2.1, len32_toNat hL]
  dsimp only
  generalize s.charNr + 1 + 1 + 4 + name.length + 1 = p at hpp
  generalize s.charNr + 1 + 1 + 4 + L + 1 = e at hpe
  rw [if_neg (by decide), wp_bind]
  refine wp_mono (resolveDirectives_sim hg.decls 1 dirs hwf.2.2 hreg.1 es es1 a1 { s with charNr := p }
    post hz hpp (hs.pos _) h1) ?_
  rintro x1 s1 ⟨rfl, k1, k2, k3⟩
  have k1' : Keep s s1 := (Keep.pos _ _).trans k1
  rcases x1 with _ | _ | _
  · have e := E_pure.1 h2
    cases e
    dsimp only
    rw [wp_bind, wp_setPos, wp_pure]
    exact ⟨rfl, (k1'.trans (Keep.pos _ _)).ext _, k2.pos _, fun h => by cases h⟩
  · dsimp only at h2 ⊢
    rw [if_neg (by decide), wp_bind, wp_getCfg]
    have hfind := findFragment_sim (name_no_nul hwf.1) hg.at_ (by
      have hr := hreg.2
      unfold names at hr
      rw [hg.eq, List.map_map] at hr
      exact hr)
    have hcut : r.frags.find? (fun f => f.name = name) = (src.find? (fun f => f.name = name)).map Fragment.cut := by
      rw [hg.eq, List.find?_map]
      rfl
    rw [hcut] at h2
    show wp (match findFragment res name frags with
      | none => _
      | some stop => _) _ _ _
    cases hf : src.find? (fun f => f.name = name) with
    | none =>
      rw [hf] at hfind h2
      dsimp only at hfind h2
      rw [hfind]
      dsimp only
      obtain ⟨u, es2, h3, h4⟩ := E_bind.1 h2
      have e3 : some ((), ({ es1 with errs := es1.errs ++ [(b%"fragment " ++ name ++ b%" not defined", path)] } : ES W)) = some (u, es2) := h3
      cases e3
      have e := E_pure.1 h4
      cases e
      rw [wp_bind]
      refine wp_report k2 (fun s2 m1 _ m3 => ?_)
      exact ⟨rfl, (k1'.trans m1).ext _, m3, fun h => by cases h⟩
    | some f =>
      rw [hf] at hfind h2
      rw [Option.map_some] at h2
      dsimp only at hfind h2
      have hfm : f ∈ src := List.mem_of_find?_eq_some hf
      obtain ⟨stop, post1, hstop, hty⟩ := hfind
      rw [hstop]
      dsimp only
      rw [wp_bind, wp_getPos, wp_bind, wp_setPos, wp_bind]
      obtain ⟨qs, hqs⟩ := encSels_z f.sels post1
      have hty' : res.drop (stop + 1) = f.typeName ++ 0 :: qs := by rw [hty, hqs]
      refine wp_readToNul (s := { s1 with charNr := stop + 1 }) hty' (name_no_nul (hg.wf f hfm).2.1) ?_
      dsimp only
      by_cases ht : t.typeName = f.typeName
      · rw [if_pos (show t.typeName = f.cut.typeName from ht)] at h2
        rw [if_neg (by simpa using ht), wp_bind]
        have hsels : 0 :: res.drop (stop + 1 + f.typeName.length + 1) = encSels f.sels ++ (endI ++ post1) := by
          rw [hqs, Nat.add_assoc _ f.typeName.length 1, drop_add (a := f.typeName ++ [0]) (rest := qs) (by rw [hty']; simp) (by simp)]
        refine wp_mono (hS t v dept path room f.sels es1 es' ms crit { s1 with charNr := stop + 1 + f.typeName.length + 1 } first post1
          (hg.wf f hfm).2.2 (hg.reg f hfm)
          hsels (k2.pos _) (by show s1.idx.toNat + room = 255; rw [k1'.idx]; exact hroom)
          (by show s1.vals s1.idx = v; rw [k1'.idx, k1'.vals]; exact hv) h2) ?_
        rintro x s2 ⟨m1, m2, m3, m4⟩
        rw [wp_bind, wp_setPos, wp_pure]
        refine ⟨m1, ?_, m3.pos _, fun hc => ⟨(m4 hc).1, k3 rfl⟩⟩
        have m2' : Ext (s1.idx.toNat + 1) s1 s2 (printMembers first ms) := ⟨m2.out, m2.idx, m2.vals⟩
        have := ((k1'.ext (s.idx.toNat + 1)).trans m2' (by rw [k1'.idx]; exact Nat.le_refl _))
        rw [List.nil_append] at this
        exact ⟨this.out, this.idx, this.vals⟩
      · rw [if_neg (show ¬ t.typeName = f.cut.typeName from ht)] at h2
        rw [if_pos (by simpa using ht), wp_bind, wp_setPos, wp_pure]
        have e := E_pure.1 h2
        cases e
        refine ⟨rfl, ((k1'.trans (Keep.pos _ _)).trans (Keep.pos _ _)).ext _, (k2.pos _).pos _, fun _ => ⟨by simp, ?_⟩⟩
        exact hpe
  · have e := E_pure.1 h2
    cases e
    dsimp only
    rw [wp_bind, wp_setPos, wp_pure]
    refine ⟨rfl, (k1'.trans (Keep.pos _ _)).ext _, k2.pos _, fun _ => ⟨by simp, ?_⟩⟩
    exact hpe

/-! ## Fields -/

omit [DecidableEq F] in
theorem find_key (fs : List (RField F V)) (k : UInt32) :
    fs.find? (fun f => f.key.toNat = k.toNat) = fs.find? (fun f => f.key = k) := by
  congr 1
  funext f
  simp only [UInt32.toNat_inj]

omit [DecidableEq F] in
/-- what follows the arguments: the first byte tells whether there are arguments or selections -/
theorem peek (args : Option (List (Bytes × Value))) (sels : List Sel) (post : Bytes) {p : Nat}
    (hp : 0 :: res.drop p = encArgs args ++ (encSels sels ++ (endI ++ post))) :
    ∃ b q, res.drop p = b :: q ∧ (b == c%'v') = args.isSome ∧ (b != c%'e') = (args.isSome || !sels.isEmpty) := by
  cases args with
  | some fs =>
    obtain ⟨q, hq⟩ := encValue_z (.obj fs)
    rw [encArgs, hq] at hp
    simp only [List.cons_append, List.cons.injEq, true_and] at hp
    exact ⟨_, _, hp, rfl, rfl⟩
  | none =>
    cases sels with
    | nil =>
      simp only [encArgs, encSels, endI, List.cons_append, List.nil_append, List.cons.injEq, true_and] at hp
      exact ⟨_, _, hp, rfl, rfl⟩
    | cons x xs =>
      cases x <;> (
        simp only [encArgs, encSels, encSel, endI, List.cons_append, List.nil_append, List.cons.injEq, true_and] at hp
        exact ⟨_, _, hp, rfl, rfl⟩)

theorem pathText_append (a b : List Seg) : pathText (a ++ b) = pathText a ++ pathText b := by
  induction a with
  | nil => rfl
  | cons x xs ih => simp only [List.cons_append, pathText, ih, List.append_assoc]

omit [DecidableEq F] in
theorem fieldOf_sim {path : List Seg} {es es' : ES W} {s : RS V W} {v x : V} {i : Nat} (hs : Sim res r es path s)
    (h : structField r v i es = some (x, es')) {Q : V → RS V W → Prop} (q : es' = es → Q x s) :
    wp (fieldOf v i) (cfgOf r res frags) s Q := by
  unfold structField at h
  obtain ⟨w0, es1, h1, h2⟩ := E_bind.1 h
  have e1 : some (es.world, es) = some (w0, es1) := h1
  cases e1
  unfold fieldOf
  rw [wp_bind, wp_viewOf]
  show wp (match r.env.view s.world v with
    | .struct fs => _
    | _ => _) _ _ _
  rw [hs.world]
  cases hview : r.env.view es.world v with
  | struct fs =>
    rw [hview] at h2
    dsimp only at h2 ⊢
    cases hf : fs[i]? with
    | none => rw [hf] at h2; cases h2
    | some y =>
      rw [hf] at h2
      have e := E_pure.1 h2
      cases e
      exact q rfl
  | _ => rw [hview] at h2; cases h2

omit [DecidableEq F] in
theorem fieldValue_sim {path : List Seg} {es es' : ES W} {s : RS V W} {v x : V} {f : RField F V} (hs : Sim res r es path s)
    (h : valueOfField r v f es = some (x, es')) {Q : V → RS V W → Prop} (q : es' = es → Q x s) :
    wp (fieldValue v f) (cfgOf r res frags) s Q := by
  unfold valueOfField at h
  unfold fieldValue
  rw [wp_bind, wp_getCfg]
  cases hc : f.customObjValue with
  | some y =>
    rw [hc] at h
    have e := E_pure.1 h
    cases e
    exact q rfl
  | none =>
    rw [hc] at h
    dsimp only at h ⊢
    cases ho : f.obj with
    | method m o =>
      rw [ho] at h
      dsimp only at h ⊢
      by_cases hm : m.isTypeMethod = true
      · rw [if_pos hm] at h ⊢
        have e := E_pure.1 h
        cases e
        exact q rfl
      · rw [if_neg hm] at h ⊢
        exact fieldOf_sim hs h q
    | _ =>
      rw [ho] at h
      exact fieldOf_sim hs h q

theorem fieldOK_zero : FieldOK r res frags 0 := by
  intro t v dept path room key name dirs args sels es es' m crit s comma post _ _ _ _ _ _ _ h
  simp only [evalField] at h
  cases h

theorem fieldOK_succ {n : Nat} (hg : Good r src res frags) (hD : DataOK r res frags n) : FieldOK r res frags (n + 1) := by
  intro t v dept path room key name dirs args sels es es' m crit s comma post hwf hreg hz hp hs hroom hv h
  simp only [Sel.WF] at hwf
  obtain ⟨hkey, hname, hdirs, hargs, hsels⟩ := hwf
  simp only [Sel.Tracked] at hreg
  obtain ⟨hdreg, hareg, hsreg⟩ := hreg
  simp only [evalField] at h
  obtain ⟨a1, es1, h1, h2⟩ := E_bind.1 h
  -- the layout of the instruction
  have hp0 : res.drop s.charNr = UInt8.ofNat dirs.length ::
      (len32 (encFieldHead key name dirs args ++ encSels sels ++ endI).length ++ (le32 (fnv1 (name.getD key)) ++
        ((encFieldHead key name dirs args ++ encSels sels ++ endI) ++ post))) := by
    simp only [encSel, List.cons_append, List.nil_append, List.append_assoc, List.cons.injEq, true_and] at hp ⊢
    exact hp
  have hp1 := drop_one hp0
  have hp2 : res.drop (s.charNr + 1 + 4) = _ := drop_add hp1 rfl
  have hp3 : res.drop (s.charNr + 1 + 4 + 4) = (encFieldHead key name dirs args ++ encSels sels ++ endI) ++ post := drop_add hp2 rfl
  have hL := body_lt hg.decls.len hp3
  have hend : 0 :: res.drop (s.charNr + 1 + 4 + 4 + (encFieldHead key name dirs args ++ encSels sels ++ endI).length + 1) = post := by
    obtain ⟨q2, hq2⟩ := hz
    have := drop_add hp3 rfl
    rw [hq2] at this ⊢
    rw [drop_one this]
  obtain ⟨qs, hqs⟩ := encSels_z sels post
  obtain ⟨qa, hqa⟩ := encArgs_z args (encSels sels ++ (endI ++ post)) ⟨qs, hqs⟩
  obtain ⟨qd, hqd⟩ := encDirectives_z dirs (encArgs args ++ (encSels sels ++ (endI ++ post))) ⟨qa, hqa⟩
  have hp4 : res.drop (s.charNr + 1 + 4 + 4) = UInt8.ofNat key.length :: (key ++ (UInt8.ofNat (name.getD []).length ::
      (name.getD [] ++ 0 :: qd))) := by
    rw [hp3, ← hqd]
    simp [encFieldHead]
  generalize (encFieldHead key name dirs args ++ encSels sels ++ endI).length = L at hp0 hp1 hp2 hL hend
  have hkl : (UInt8.ofNat key.length).toNat = key.length := count_toNat (by have := hkey.1; omega)
  have hnl : (UInt8.ofNat (name.getD []).length).toNat = (name.getD []).length := by
    refine count_toNat ?_
    cases name with
    | none => simp
    | some n => have := (hname n rfl).1; simp; omega
  unfold resolveField
  rw [wp_bind]
  refine wp_readInst hp0 ?_
  rw [wp_bind]
  refine wp_readUint32M (s := { s with charNr := s.charNr + 1 }) hp1 ?_
  rw [wp_bind, wp_skipInst, wp_bind]
  refine wp_readUint32M (s := { s with charNr := s.charNr + 1 + 4 }) hp2 ?_
  rw [wp_bind, wp_skipInst, wp_bind, wp_getPos]
  dsimp only
  generalize hP : s.charNr + 1 + 4 + 4 = P at hp4 hend
  rw [wp_bind]
  refine wp_readInst (s := { s with charNr := P }) hp4 ?_
  rw [hkl, len32_toNat hL, count_toNat hdirs.1]
  have hp5 := drop_one hp4
  have hPlen : P + 1 + key.length + 1 + (name.getD []).length + 1 ≤ res.length := by
    have := congrArg List.length hp4
    simp at this
    omega
  dsimp only
  rw [wp_bind, wp_getPos, wp_bind]
  refine wp_sliceRes (c := cfgOf r res frags) hp5 rfl (by show P + 1 ≤ res.length; omega) ?_
  rw [wp_bind, wp_skipInst, wp_bind, wp_getState]
  dsimp only
  rw [wp_bind, wp_setPath, wp_bind]
  have hp6 : res.drop (P + 1 + key.length) = _ := drop_add hp5 rfl
  have hp7 := drop_one hp6
  refine wp_readInst (s := { s with charNr := P + 1 + key.length, path := _ }) hp6 ?_
  dsimp only
  rw [wp_bind, wp_getPos]
  dsimp only
  rw [wp_bind, wp_skipInst, wp_bind, wp_skipInst, hnl]
  dsimp only
  have hp8 : 0 :: res.drop (P + 1 + key.length + 1 + (name.getD []).length + 1) =
      encDirectives dirs ++ (encArgs args ++ (encSels sels ++ (endI ++ post))) := by
    rw [hqd, drop_one (drop_add hp7 rfl)]
  -- the name
  have hslice : ∀ (s' : RS V W) (Q : Bytes → RS V W → Prop), Q (name.getD key) s' →
      wp (sliceRes (if UInt8.ofNat (name.getD []).length = 0 then P + 1 else P + 1 + key.length + 1)
        (if UInt8.ofNat (name.getD []).length = 0 then P + 1 + key.length else P + 1 + key.length + 1 + (name.getD []).length))
        (cfgOf r res frags) s' Q := by
    intro s' Q hQ
    cases name with
    | none =>
      rw [if_pos (by rfl), if_pos (by rfl)]
      exact wp_sliceRes (c := cfgOf r res frags) hp5 rfl (by show P + 1 ≤ res.length; omega) hQ
    | some nm =>
      have hne : UInt8.ofNat ((some nm).getD []).length ≠ 0 := by
        intro hc
        rw [hc] at hnl
        obtain ⟨_, c, cs, rfl, _⟩ := hname nm rfl
        simp at hnl
      rw [if_neg hne, if_neg hne]
      exact wp_sliceRes (c := cfgOf r res frags) hp7 rfl (by show P + 1 + key.length + 1 ≤ res.length; omega) hQ
  generalize (if UInt8.ofNat (name.getD []).length = 0 then P + 1 else P + 1 + key.length + 1) = sn at hslice
  generalize (if UInt8.ofNat (name.getD []).length = 0 then P + 1 + key.length else P + 1 + key.length + 1 + (name.getD []).length) = en at hslice
  generalize P + 1 + key.length + 1 + (name.getD []).length + 1 = pd at hp8
  have hsim : Sim res r es (path ++ [Seg.key key]) { s with charNr := pd, path := s.path ++ b%",\"" ++ key ++ [c%'"'] } := by
    refine ⟨hs.errs, hs.world, hs.vars, ?_, hs.args⟩
    rw [pathText_append]
    simp only [hs.path, pathText, segText]
    simp
  rw [wp_bind]
  refine wp_mono (resolveDirectives_sim hg.decls 0 dirs hdirs.2 hdreg es es1 a1 _ _ ⟨qa, hqa⟩ hp8 hsim h1) ?_
  rintro x1 s1 ⟨rfl, k1, k2, k3⟩
  have ku : ∀ (p : Nat), Keep s { s1 with charNr := p, path := s.path } := fun p => ⟨k1.out, k1.vals, k1.idx⟩
  rcases x1 with _ | _ | _
  · have e := E_pure.1 h2
    cases e
    dsimp only
    rw [wp_bind, wp_setPath, wp_bind, wp_setPos, wp_pure]
    exact ⟨rfl, (ku _).ext _, ⟨k2.errs, k2.world, k2.vars, hs.path, k2.args⟩, hend⟩
  · dsimp only at h2 ⊢
    -- comma, key, colon
    obtain ⟨s2, hs2, hk2⟩ : ∃ s2 : RS V W, s2 = { s1 with out := s.out ++ ((if comma then [c%','] else []) ++
        ([c%'"'] ++ key ++ [c%'"', c%':'])) } ∧ ∀ Q (K : Unit → M F V W (Bool × Bool)), wp (K ()) (cfgOf r res frags) s2 Q →
        wp (if comma = true then write [c%','] >>= fun _ => writeQuoted key >>= fun _ => write [c%':'] >>= K
          else writeQuoted key >>= fun _ => write [c%':'] >>= K) (cfgOf r res frags) s1 Q := by
      refine ⟨_, rfl, fun Q K hK => ?_⟩
      have ho := k1.out
      cases comma with
      | true =>
        rw [if_pos rfl, wp_bind, wp_write, wp_bind, wp_writeQuoted, wp_bind, wp_write]
        simpa [ho] using hK
      | false =>
        rw [if_neg (by decide), wp_bind, wp_writeQuoted, wp_bind, wp_write]
        simpa [ho] using hK
    refine hk2 _ _ ?_
    clear hk2
    · have hs2c : s2.charNr = s1.charNr := by rw [hs2]
      have hs2i : s2.idx = s.idx := by rw [hs2]; exact k1.idx
      have hs2v : s2.vals = s.vals := by rw [hs2]; exact k1.vals
      have hs2o : s2.out = s.out ++ ((if comma then [c%','] else []) ++ ([c%'"'] ++ key ++ [c%'"', c%':'])) := by rw [hs2]
      have hsim2 : Sim res r es1 (path ++ [Seg.key key]) s2 := by
        rw [hs2]
        exact ⟨k2.errs, k2.world, k2.vars, k2.path, k2.args⟩
      have hpos2 : 0 :: res.drop s2.charNr = encArgs args ++ (encSels sels ++ (endI ++ post)) := by rw [hs2c]; exact k3 rfl
      clear hs2
      -- the end of the field
      have fin : ∀ (o : Out) (c : Bool) (s3 : RS V W), Ext (s.idx.toNat + 1) s2 s3 (print o) →
          Sim res r es' (path ++ [Seg.key key]) s3 → m = some (key, o) → crit = c →
          wp (setPath s.path >>= fun _ => setPos (P + L + 1) >>= fun _ => pure (false, c)) (cfgOf r res frags) s3
            (fun x s' => x = (m.isNone, crit) ∧ Ext (s.idx.toNat + 1) s s' (printMembers (!comma) m.toList) ∧
              Sim res r es' path s' ∧ 0 :: res.drop s'.charNr = post) := by
        rintro o c s3 x1 x2 rfl rfl
        rw [wp_bind, wp_setPath, wp_bind, wp_setPos, wp_pure]
        refine ⟨rfl, ⟨?_, ?_, ?_⟩, ⟨x2.errs, x2.world, x2.vars, hs.path, x2.args⟩, hend⟩
        · show s3.out = _
          rw [x1.out, hs2o]
          cases comma <;> simp [printMembers]
        · show s3.idx = _
          rw [x1.idx, hs2i]
        · intro i hi
          show s3.vals i = _
          rw [x1.vals i hi, hs2v]
      obtain ⟨b, q, hb1, hb2, hb3⟩ := peek args sels post hpos2
      rw [wp_bind]
      refine wp_seekInst (c := cfgOf r res frags) hb1 ?_
      rw [hb3, find_key]
      cases hf : t.fields.find? (fun f => f.key = fnv1 (name.getD key)) with
      | none =>
        rw [hf] at h2
        dsimp only at h2 ⊢
        rw [wp_bind]
        apply hslice
        by_cases hn : name.getD key = b%"__typename"
        · rw [if_pos hn] at h2 ⊢
          rw [seen_flag] at h2
          by_cases hsel : (args.isSome || !sels.isEmpty) = true
          · rw [if_pos hsel] at h2 ⊢
            obtain ⟨u, es2, h3, h4⟩ := E_bind.1 h2
            have e3 : some ((), ({ es1 with errs := es1.errs ++ [(b%"cannot have a selection set on this field", path ++ [Seg.key key])] } : ES W)) = some (u, es2) := h3
            cases e3
            have e := E_pure.1 h4
            cases e
            rw [wp_bind]
            refine wp_report hsim2 (fun s3 m1 _ m3 => ?_)
            rw [wp_bind, wp_pure]
            exact fin .missing true s3 (m1.ext _) m3 rfl rfl
          · rw [if_neg hsel] at h2 ⊢
            have e := E_pure.1 h2
            cases e
            rw [wp_bind, wp_writeQuoted, wp_bind, wp_pure]
            refine fin (.leaf ([c%'"'] ++ t.typeName ++ [c%'"'])) false _ ⟨?_, rfl, fun _ _ => rfl⟩
              ⟨hsim2.errs, hsim2.world, hsim2.vars, hsim2.path, hsim2.args⟩ rfl rfl
            simp [print]
        · rw [if_neg hn] at h2 ⊢
          obtain ⟨u, es2, h3, h4⟩ := E_bind.1 h2
          have e3 : some ((), ({ es1 with errs := es1.errs ++ [(name.getD key ++ b%" does not exists on " ++ t.typeName, path ++ [Seg.key key])] } : ES W)) = some (u, es2) := h3
          cases e3
          have e := E_pure.1 h4
          cases e
          rw [wp_bind, wp_writeNull, wp_bind]
          refine wp_report (s := { s2 with out := s2.out ++ b%"null" }) ⟨hsim2.errs, hsim2.world, hsim2.vars, hsim2.path, hsim2.args⟩ (fun s3 m1 _ m3 => ?_)
          rw [wp_bind, wp_pure]
          exact fin .null true s3 ⟨by rw [m1.out]; simp [print], m1.idx, fun i _ => by rw [m1.vals]⟩ m3 rfl rfl
      | some f =>
        rw [hf] at h2
        dsimp only at h2 ⊢
        cases room with
        | zero => cases h2
        | succ room =>
          dsimp only at h2
          obtain ⟨x, es2, h3, h4⟩ := E_bind.1 h2
          obtain ⟨⟨o, c⟩, es3, h5, h6⟩ := E_bind.1 h4
          have e := E_pure.1 h6
          cases e
          rw [wp_bind, wp_getGoValue, wp_bind]
          rw [hs2v, hs2i, hv]
          refine fieldValue_sim hsim2 h3 ?_
          rintro rfl
          rw [wp_bind, wp_setNextGoValue, wp_bind]
          have hi1 : (s2.idx + 1).toNat = s.idx.toNat + 1 := by
            rw [hs2i, UInt8.toNat_add]
            show (s.idx.toNat + 1) % 256 = _
            omega
          refine wp_mono (hD f.obj x dept (path ++ [Seg.key key]) room args sels es2 es' o c
            { s2 with idx := s2.idx + 1, vals := fun i => if i = s2.idx + 1 then x else s2.vals i } post hargs
            (fun fs hfs => by rw [hfs] at hareg; exact hareg) hsels hsreg hpos2
            ⟨hsim2.errs, hsim2.world, hsim2.vars, hsim2.path, hsim2.args⟩ (by show (s2.idx + 1).toNat + room = 255; omega)
            (by simp) h5) ?_
          rintro c3 s3 ⟨rfl, m1, m2⟩
          rw [wp_bind, wp_decIdx, wp_bind, wp_pure]
          refine fin o _ { s3 with idx := s3.idx - 1 } ⟨m1.out, ?_, ?_⟩ ⟨m2.errs, m2.world, m2.vars, m2.path, m2.args⟩ rfl rfl
          · show s3.idx - 1 = s2.idx
            rw [m1.idx]
            show s2.idx + 1 - 1 = s2.idx
            exact UInt8.add_sub_cancel _ _
          · intro i hi
            show s3.vals i = _
            have := m1.vals i (by show i.toNat < (s2.idx + 1).toNat; omega)
            rw [this]
            show (if i = s2.idx + 1 then x else s2.vals i) = _
            rw [if_neg]
            rintro rfl
            omega
  · have e := E_pure.1 h2
    cases e
    dsimp only
    rw [wp_bind, wp_setPath, wp_bind, wp_setPos, wp_pure]
    exact ⟨rfl, (ku _).ext _, ⟨k2.errs, k2.world, k2.vars, hs.path, k2.args⟩, hend⟩

/-! ## Values -/

omit [DecidableEq F] in
theorem takesArgs_eq (o : Obj F) : methodBehindPtr o = takesArgs o := by
  induction o with
  | ptr i ih => simpa only [methodBehindPtr, takesArgs] using ih
  | _ => rfl

theorem intDigits_nat (i : Nat) : intDigits (i : Int) = natDigits i := by
  unfold intDigits
  rw [if_neg (by omega)]
  rfl

omit [DecidableEq F] in
/-- the elements of a list; `P` is the value's stack slot -/
theorem elemsLoop_sim {path : List Seg} (body : M F V W Bool) (elem : Nat → V → E W (Out × Bool)) (start : Nat)
    (hbody : ∀ (i : Nat) (v : V) (es es' : ES W) (o : Out) (c : Bool) (s : RS V W), s.charNr = start →
      Sim res r es (path ++ [Seg.idx i]) s → s.vals s.idx = v → elem i v es = some ((o, c), es') → s.idx = idx →
      wp body (cfgOf r res frags) s (fun _ s' => Ext s.idx.toNat s s' (print o) ∧ Sim res r es' (path ++ [Seg.idx i]) s')) :
    ∀ (vs : List V) (i : Nat) (es es' : ES W) (os : List Out) (s : RS V W), Sim res r es path s → s.idx = idx →
      evalElems elem i vs es = some (os, es') →
      wp (elemsLoop body start i vs) (cfgOf r res frags) s
        (fun _ s' => Ext s.idx.toNat s s' (printItems true os) ∧ Sim res r es' path s') := by
  intro vs
  induction vs with
  | nil =>
    intro i es es' os s hs _ h
    have e := E_pure.1 h
    cases e
    exact ⟨(Keep.refl s).ext _, hs⟩
  | cons v vs ih =>
    intro i es es' os s hs hidx h
    simp only [evalElems] at h
    obtain ⟨⟨o, c⟩, es1, h1, h2⟩ := E_bind.1 h
    obtain ⟨os', es2, h3, h4⟩ := E_bind.1 h2
    have e := E_pure.1 h4
    cases e
    unfold elemsLoop
    rw [wp_bind, wp_setPos, wp_bind, wp_getState]
    dsimp only
    rw [wp_bind, wp_setPath, wp_bind, wp_setGoValue, wp_bind]
    have hsim1 : Sim res r es (path ++ [Seg.idx i]) { s with charNr := start, path := s.path ++ c%',' :: intDigits i, vals := fun j => if j = s.idx then v else s.vals j } := by
      refine ⟨hs.errs, hs.world, hs.vars, ?_, hs.args⟩
      rw [pathText_append, intDigits_nat]
      simp [hs.path, pathText, segText]
    refine wp_mono (hbody i v es es1 o c _ rfl hsim1 (by simp) h1 hidx) ?_
    rintro b s1 ⟨k1, k2⟩
    have k1o : s1.out = s.out ++ print o := k1.out
    have k1i : s1.idx = s.idx := k1.idx
    have k1v : ∀ j : UInt8, j.toNat < s.idx.toNat → s1.vals j = s.vals j := by
      intro j hj
      rw [k1.vals j hj]
      show (if j = s.idx then v else s.vals j) = _
      rw [if_neg]
      rintro rfl
      omega
    -- the rest of the list
    have fin : ∀ (s2 : RS V W) (first : Bool), s2.out = s.out ++ print o ++ (if first then [] else [c%',']) →
        s2.idx = s.idx → (∀ j : UInt8, j.toNat < s.idx.toNat → s2.vals j = s.vals j) →
        s2.errs = s1.errs → s2.world = s1.world → s2.varsParsed = s1.varsParsed → s2.hasArgs = s1.hasArgs →
        s2.argsStart = s1.argsStart → s2.path = s.path → (first = true → os' = []) →
        (first = false → vs ≠ []) →
        wp (elemsLoop body start (i + 1) vs) (cfgOf r res frags) s2
        (fun _ s' => Ext s.idx.toNat s s' (printItems true (o :: os')) ∧ Sim res r es' path s') := by
      intro s2 first x1 x2 x3 x4 x5 x6 x7 x8 x9 x10 x11
      have hsim2 : Sim res r es1 path s2 := ⟨by rw [x4]; exact k2.errs, by rw [x5]; exact k2.world, by rw [x6]; exact k2.vars,
        by rw [x9]; exact hs.path, by rw [x7, x8]; exact k2.args⟩
      refine wp_mono (ih (i + 1) es1 es' os' s2 hsim2 (by rw [x2]; exact hidx) h3) ?_
      rintro _ s3 ⟨m1, m2⟩
      refine ⟨⟨?_, by rw [m1.idx, x2], fun j hj => ?_⟩, m2⟩
      · rw [m1.out, x1]
        cases first with
        | true => rw [x10 rfl]; simp [printItems]
        | false =>
          have : os' ≠ [] := by
            intro hc
            subst hc
            cases vs with
            | nil => exact x11 rfl rfl
            | cons y ys =>
              simp only [evalElems] at h3
              obtain ⟨⟨o, c⟩, es1, _, h2⟩ := E_bind.1 h3
              obtain ⟨os', es2, _, h4⟩ := E_bind.1 h2
              have e := E_pure.1 h4
              cases e
          cases os' with
          | nil => exact (this rfl).elim
          | cons y ys => simp [printItems]
      · rw [m1.vals j (by rw [x2]; exact hj), x3 j hj]
    cases vs with
    | nil =>
      have : os' = [] := by
        have e := E_pure.1 h3
        cases e
        rfl
      rw [if_neg (by simp)]
      rw [wp_bind, wp_setPath]
      exact fin { s1 with path := s.path } true (by simp [k1o]) k1i k1v rfl rfl rfl rfl rfl rfl (fun _ => this) (fun h => by cases h)
    | cons y ys =>
      rw [if_pos (by rfl), wp_bind, wp_write, wp_bind, wp_setPath]
      exact fin { s1 with path := s.path, out := s1.out ++ [c%','] } false (by simp [k1o]) k1i k1v rfl rfl rfl rfl rfl rfl (fun h => by cases h) (fun _ => by simp)

theorem dataOK_zero : DataOK r res frags 0 := by
  intro o v dept path room args sels es es' out crit s post _ _ _ _ _ _ _ _ h
  simp only [evalData] at h
  cases h

omit [DecidableEq F] in
/-- a reported error after `null` -/
theorem nullErr_sim {path : List Seg} {es es' : ES W} {s : RS V W} {msg : Bytes} {out : Out} {crit : Bool}
    (hs : Sim res r es path s)
    (h : (report path msg >>= fun _ => pure (Out.null, true) : E W (Out × Bool)) es = some ((out, crit), es')) :
    wp (writeNull >>= fun _ => err msg >>= fun _ => pure true) (cfgOf r res frags) s
      (fun x s' => x = crit ∧ Ext s.idx.toNat s s' (print out) ∧ Sim res r es' path s') := by
  obtain ⟨u, es2, h3, h4⟩ := E_bind.1 h
  have e3 : some ((), ({ es with errs := es.errs ++ [(msg, path)] } : ES W)) = some (u, es2) := h3
  cases e3
  have e := E_pure.1 h4
  cases e
  rw [wp_bind, wp_writeNull, wp_bind]
  refine wp_report (s := { s with out := s.out ++ b%"null" }) ⟨hs.errs, hs.world, hs.vars, hs.path, hs.args⟩ (fun s' k1 _ k3 => ?_)
  exact ⟨rfl, ⟨by rw [k1.out]; simp [print], k1.idx, fun i _ => by rw [k1.vals]⟩, k3⟩

omit [DecidableEq F] in
/-- writing a value and returning -/
theorem write_sim {path : List Seg} {es es' : ES W} {s : RS V W} {t : Bytes} {o out : Out} {crit : Bool}
    (hs : Sim res r es path s) (ht : print o = t)
    (h : (pure (o, false) : E W (Out × Bool)) es = some ((out, crit), es')) :
    wp (write t >>= fun _ => pure false) (cfgOf r res frags) s
      (fun x s' => x = crit ∧ Ext s.idx.toNat s s' (print out) ∧ Sim res r es' path s') := by
  have e := E_pure.1 h
  cases e
  rw [wp_bind, wp_write, wp_pure]
  exact ⟨rfl, ⟨by rw [ht], rfl, fun i _ => rfl⟩, ⟨hs.errs, hs.world, hs.vars, hs.path, hs.args⟩⟩

omit [DecidableEq F] in
theorem afterCall_sim {path : List Seg} {es es' : ES W} {s : RS V W} {m : Method F} {outs : List V} {out : Out} {crit : Bool}
    {next : V → M F V W Bool} {nextE : V → E W (Out × Bool)} (hs : Sim res r es path s)
    (h : evalResult r path m outs nextE es = some ((out, crit), es'))
    (hn : ∀ x, nextE x es = some ((out, crit), es') → wp (next x) (cfgOf r res frags) s
      (fun x s' => x = crit ∧ Ext s.idx.toNat s s' (print out) ∧ Sim res r es' path s')) :
    wp (afterCall m outs next) (cfgOf r res frags) s
      (fun x s' => x = crit ∧ Ext s.idx.toNat s s' (print out) ∧ Sim res r es' path s') := by
  unfold evalResult at h
  obtain ⟨w0, es1, h1, h2⟩ := E_bind.1 h
  have e1 : some (es.world, es) = some (w0, es1) := h1
  cases e1
  unfold afterCall
  rw [wp_bind, wp_getCfg, wp_bind, wp_getState]
  show wp (match r.env.ctxErr s.world with
    | some msg => _
    | none => _) _ _ _
  rw [hs.world]
  cases hc : r.env.ctxErr es.world with
  | some msg =>
    rw [hc] at h2
    dsimp only at h2 ⊢
    obtain ⟨u, es2, h3, h4⟩ := E_bind.1 h2
    have e3 : some ((), ({ es with errs := es.errs ++ [(msg, path)] } : ES W)) = some (u, es2) := h3
    cases e3
    have e := E_pure.1 h4
    cases e
    rw [wp_bind]
    refine wp_report hs (fun s' k1 _ k3 => ?_)
    rw [wp_bind, wp_writeNull, wp_pure]
    exact ⟨rfl, ⟨by show s'.out ++ _ = _; rw [k1.out]; simp [print], k1.idx, fun i _ => by show s'.vals i = _; rw [k1.vals]⟩,
      ⟨k3.errs, k3.world, k3.vars, k3.path, k3.args⟩⟩
  | none =>
    rw [hc] at h2
    dsimp only at h2 ⊢
    cases ho : outs[m.outNr]? with
    | none => rw [ho] at h2; cases h2
    | some x =>
      rw [ho] at h2
      exact hn x h2

theorem call_sim {n : Nat} (hg : Good r src res frags) (hD : DataOK r res frags n) {path : List Seg} {es es' : ES W} {s : RS V W}
    {m : Method F} {o : Obj F} {v : V} {dept : UInt8} {room : Nat} {args : Option (List (Bytes × Value))} {sels : List Sel}
    {out : Out} {crit : Bool} {post : Bytes} (hawf : argsWF args)
    (hareg : ∀ fs, args = some fs → membersRegular fs)
    (hswf : selsWF sels) (hsreg : selsTracked (names r) sels)
    (hp : 0 :: res.drop s.charNr = encArgs args ++ (encSels sels ++ (endI ++ post)))
    (hs : Sim res r es path s) (hroom : s.idx.toNat + room = 255)
    (h : evalCall r path m v (args.getD []) (fun x => evalData r n o x dept path room none (seen args sels)) es = some ((out, crit), es')) :
    wp (callAndResolve m v (fun x has => do
        setGoValue x
        resolveFieldDataValue n o dept has)) (cfgOf r res frags) s
      (fun x s' => x = crit ∧ Ext s.idx.toNat s s' (print out) ∧ Sim res r es' path s') := by
  obtain ⟨b, q, hb1, hb2, _⟩ := peek args sels post hp
  unfold evalCall at h
  obtain ⟨a1, es1, h1, h2⟩ := E_bind.1 h
  unfold callAndResolve
  rw [wp_bind]
  refine wp_seekInst (c := cfgOf r res frags) hb1 ?_
  rw [hb2, wp_bind]
  refine wp_mono (callQlMethod_sim hg.decls m v args hawf hareg a1 (encSels sels ++ (endI ++ post))
    (encSels_z _ _) hp hs h1) ?_
  rintro x1 s1 ⟨rfl, k1, k2, k3⟩
  cases x1 with
  | none =>
    have e := E_pure.1 h2
    cases e
    exact ⟨rfl, k1.ext _, k2⟩
  | some outs =>
    dsimp only at h2 ⊢
    -- the position is on the selections, or on an end instruction if there are none
    have hpos : ∃ sels1 post1, selsWF sels1 ∧ selsTracked (names r) sels1 ∧ selsCut sels1 = seen args sels ∧
        0 :: res.drop s1.charNr = encArgs none ++ (encSels sels1 ++ (endI ++ post1)) := by
      have hk := k3 (by simp)
      cases args with
      | none => exact ⟨sels, post, hswf, hsreg, rfl, by rw [hk]; simp [shiftMembers, ends, encArgs]⟩
      | some fs =>
        cases h0 : shiftMembers fs with
        | zero =>
          refine ⟨sels, post, hswf, hsreg, by simp [seen, endsInList, h0], ?_⟩
          rw [hk]
          simp [h0, ends, encArgs]
        | succ k =>
          refine ⟨[], ends k ++ (encSels sels ++ (endI ++ post)), trivial, trivial, by simp [seen, endsInList, h0, selsCut], ?_⟩
          rw [hk]
          simp only [Option.getD_some, encSels, encArgs, List.nil_append, h0, ends, List.append_assoc]
    obtain ⟨sels1, post1, hswf1, hsreg1, hcut, hpos⟩ := hpos
    rw [← hcut] at h2
    obtain ⟨b', q', hc1, _, hc3⟩ := peek none sels1 post1 hpos
    rw [wp_bind]
    refine wp_seekInst (c := cfgOf r res frags) hc1 ?_
    rw [wp_bind, hc3]
    -- what happens after the error of the method was handled
    have fin : ∀ (es2 : ES W) (s2 : RS V W), Keep s1 s2 → s2.charNr = s1.charNr → Sim res r es2 path s2 →
        evalResult r path m outs (fun x => evalData r n o x dept path room none (selsCut sels1)) es2 = some ((out, crit), es') →
        wp (afterCall m outs (fun v => do
          setGoValue v
          resolveFieldDataValue n o dept ((none : Option (List (Bytes × Value))).isSome || !sels1.isEmpty))) (cfgOf r res frags) s2
        (fun x s' => x = crit ∧ Ext s.idx.toNat s s' (print out) ∧ Sim res r es' path s') := by
      intro es2 s2 m1 m2 m3 h
      have k12 : Keep s s2 := k1.trans m1
      refine wp_mono (afterCall_sim m3 h (fun x hx => ?_)) ?_
      · rw [wp_bind, wp_setGoValue]
        refine wp_mono (hD o x dept path room none sels1 es2 es' out crit _ post1 trivial (fun fs h => by cases h) hswf1 hsreg1
          (by show 0 :: res.drop s2.charNr = _; rw [m2]; exact hpos) ⟨m3.errs, m3.world, m3.vars, m3.path, m3.args⟩
          (by show s2.idx.toNat + room = 255; rw [k12.idx]; exact hroom) (by simp) hx) ?_
        rintro c1 s3 ⟨rfl, n1, n2⟩
        refine ⟨rfl, ⟨n1.out, n1.idx, fun i hi => ?_⟩, n2⟩
        rw [n1.vals i hi]
        show (if i = s2.idx then x else s2.vals i) = _
        rw [if_neg]
        rintro rfl
        omega
      · rintro c1 s3 ⟨rfl, n1, n2⟩
        have := (k12.ext s.idx.toNat).trans n1 (by rw [k12.idx]; exact Nat.le_refl _)
        rw [List.nil_append] at this
        exact ⟨rfl, this, n2⟩
    unfold reportMethodErr
    rw [wp_bind, wp_getCfg]
    cases hm : m.errorOutNr with
    | none =>
      rw [hm] at h2
      dsimp only at h2 ⊢
      rw [wp_pure]
      exact fin es1 s1 (Keep.refl _) rfl k2 h2
    | some nr =>
      rw [hm] at h2
      dsimp only at h2 ⊢
      cases ho : outs[nr]? with
      | none => rw [ho] at h2; cases h2
      | some e =>
        rw [ho] at h2
        dsimp only at h2 ⊢
        obtain ⟨w0, es2, h3, h4⟩ := E_bind.1 h2
        have e1 : some (es1.world, es1) = some (w0, es2) := h3
        cases e1
        rw [wp_bind, wp_getState]
        show wp (match r.env.errOf s1.world e with
          | none => _
          | some msg => _) _ _ _
        rw [k2.world]
        cases he : r.env.errOf es1.world e with
        | none =>
          rw [he] at h4
          exact fin es1 s1 (Keep.refl _) rfl k2 h4
        | some msg =>
          rw [he] at h4
          dsimp only at h4 ⊢
          obtain ⟨u, es2, h5, h6⟩ := E_bind.1 h4
          have e3 : some ((), ({ es1 with errs := es1.errs ++ [(msg, path)] } : ES W)) = some (u, es2) := h5
          cases e3
          refine wp_report k2 (fun s2 m1 m2 m3 => ?_)
          exact fin _ s2 m1 m2 m3 h6

theorem dataOK_succ {n : Nat} (hg : Good r src res frags) (hS : SelsOK r res frags n) (hD : DataOK r res frags n) :
    DataOK r res frags (n + 1) := by
  intro o v dept path room args sels es es' out crit s post hawf hareg hswf hsreg hp hs hroom hv h
  obtain ⟨b, q, hb1, hb2, hb3⟩ := peek args sels post hp
  have hview : (cfgOf r res frags).env.view s.world (s.vals s.idx) = r.env.view es.world v := by rw [hs.world, hv]; rfl
  unfold resolveFieldDataValue
  rw [wp_bind, wp_getCfg, wp_bind, wp_getGoValue, wp_bind]
  refine wp_seekInst (c := cfgOf r res frags) hb1 ?_
  rw [hb2, takesArgs_eq]
  unfold evalData at h
  simp only [seen_flag] at h
  by_cases hta : (args.isSome && !takesArgs o) = true
  · rw [if_pos hta] at h ⊢
    exact nullErr_sim hs h
  rw [if_neg hta] at h ⊢
  cases o with
  | undefined => exact write_sim hs (o := .null) rfl h
  | array inner =>
    dsimp only at h ⊢
    obtain ⟨w0, es1, h1, h2⟩ := E_bind.1 h
    have e1 : some (es.world, es) = some (w0, es1) := h1
    cases e1
    rw [wp_bind, wp_viewOf, hview]
    cases hw : r.env.view es.world v with
    | seq vs =>
      rw [hw] at h2
      cases vs with
      | none => exact write_sim hs (o := .null) rfl h2
      | some vs =>
        dsimp only at h2 ⊢
        cases room with
        | zero => cases h2
        | succ room =>
          dsimp only at h2
          obtain ⟨os, es2, h3, h4⟩ := E_bind.1 h2
          have e := E_pure.1 h4
          cases e
          rw [wp_bind, wp_write, wp_bind, wp_incIdx, wp_bind, wp_getPos, wp_bind]
          have hi1 : (s.idx + 1).toNat = s.idx.toNat + 1 := by
            rw [UInt8.toNat_add]
            show (s.idx.toNat + 1) % 256 = _
            omega
          refine wp_mono (elemsLoop_sim (path := path) (idx := s.idx + 1) _ _ s.charNr (fun i x es es' o c s1 y1 y2 y3 y4 y5 => ?_)
            vs 0 es es' os { s with out := s.out ++ [c%'['], idx := s.idx + 1 }
            ⟨hs.errs, hs.world, hs.vars, hs.path, hs.args⟩ rfl h3) ?_
          · refine wp_mono (hD inner x dept (path ++ [Seg.idx i]) room args sels es es' o c s1 post hawf hareg hswf hsreg
              (by rw [y1]; exact hp) y2 (by rw [y5, hi1]; omega) y3 y4) ?_
            rintro _ s2 ⟨_, m1, m2⟩
            exact ⟨m1, m2⟩
          · rintro _ s2 ⟨m1, m2⟩
            rw [wp_bind, wp_decIdx, wp_bind, wp_write, wp_pure]
            refine ⟨rfl, ⟨?_, ?_, fun i hi => ?_⟩, ⟨m2.errs, m2.world, m2.vars, m2.path, m2.args⟩⟩
            · show s2.out ++ [c%']'] = _
              rw [m1.out]
              simp [print]
            · show s2.idx - 1 = s.idx
              rw [m1.idx]
              exact UInt8.add_sub_cancel _ _
            · exact m1.vals i (by show i.toNat < (s.idx + 1).toNat; omega)
    | _ => rw [hw] at h2; cases h2
  | objRef typeName =>
    dsimp only at h ⊢
    by_cases hsel : (args.isSome || !sels.isEmpty) = true
    · rw [hsel] at h ⊢
      rw [if_neg (by decide)] at h ⊢
      show wp (match lookup r.schema.types typeName with
        | none => _
        | some t => _) _ _ _
      cases hl : lookup r.schema.types typeName with
      | none =>
        rw [hl] at h
        exact write_sim hs (o := .null) rfl h
      | some t =>
        rw [hl] at h
        dsimp only at h ⊢
        by_cases hdep : dept + 1 = r.schema.maxDepth
        · rw [if_pos hdep] at h
          rw [if_pos (show dept + 1 = (cfgOf r res frags).schema.maxDepth from hdep)]
          exact nullErr_sim hs h
        · rw [if_neg hdep] at h
          rw [if_neg (show ¬ dept + 1 = (cfgOf r res frags).schema.maxDepth from hdep)]
          obtain ⟨⟨ms, c⟩, es1, h1, h2⟩ := E_bind.1 h
          have e := E_pure.1 h2
          cases e
          cases args with
          | some fs => exact absurd (by rfl) hta
          | none =>
            rw [wp_bind, wp_write, wp_bind]
            refine wp_mono (hS t v (dept + 1) path room sels es es' ms c { s with out := s.out ++ [c%'{'] } true post hswf hsreg
              hp ⟨hs.errs, hs.world, hs.vars, hs.path, hs.args⟩ hroom hv h1) ?_
            rintro ⟨c1, f1⟩ s1 ⟨rfl, m1, m2, _⟩
            dsimp only
            rw [wp_bind, wp_write, wp_pure]
            refine ⟨rfl, ⟨?_, m1.idx, fun i hi => m1.vals i (by show i.toNat < s.idx.toNat + 1; omega)⟩,
              ⟨m2.errs, m2.world, m2.vars, m2.path, m2.args⟩⟩
            show s1.out ++ [c%'}'] = _
            rw [m1.out]
            simp [print]
    · rw [if_pos (by simpa using hsel)] at h ⊢
      exact nullErr_sim hs h
  | data isID kind =>
    dsimp only at h ⊢
    by_cases hsel : (args.isSome || !sels.isEmpty) = true
    · rw [if_pos hsel] at h ⊢
      exact nullErr_sim hs h
    · rw [if_neg hsel] at h ⊢
      obtain ⟨w0, es1, h1, h2⟩ := E_bind.1 h
      have e1 : some (es.world, es) = some (w0, es1) := h1
      cases e1
      rw [wp_bind, wp_viewOf, hview]
      cases hw : r.env.view es.world v with
      | scalar x =>
        rw [hw] at h2
        dsimp only at h2 ⊢
        show wp (match dataText r.env isID kind x with
          | some t => _
          | none => _) _ _ _
        cases hdt : dataText r.env isID kind x with
        | none => rw [hdt] at h2; cases h2
        | some t =>
          rw [hdt] at h2
          exact write_sim hs (o := .leaf t) (by simp [print]) h2
      | _ => rw [hw] at h2; cases h2
  | ptr inner =>
    dsimp only at h ⊢
    obtain ⟨w0, es1, h1, h2⟩ := E_bind.1 h
    have e1 : some (es.world, es) = some (w0, es1) := h1
    cases e1
    rw [wp_bind, wp_viewOf, hview]
    cases hw : r.env.view es.world v with
    | ptr x =>
      rw [hw] at h2
      cases x with
      | none => exact write_sim hs (o := .null) rfl h2
      | some x =>
        dsimp only at h2 ⊢
        rw [wp_bind, wp_setGoValue]
        refine wp_mono (hD inner x dept path room args sels es es' out crit _ post hawf hareg hswf hsreg
          hp ⟨hs.errs, hs.world, hs.vars, hs.path, hs.args⟩ hroom (by simp) h2) ?_
        rintro c1 s1 ⟨rfl, m1, m2⟩
        refine ⟨rfl, ⟨m1.out, m1.idx, fun i hi => ?_⟩, m2⟩
        rw [m1.vals i hi]
        show (if i = s.idx then x else s.vals i) = _
        rw [if_neg]
        rintro rfl
        omega
    | _ => rw [hw] at h2; cases h2
  | enum idx =>
    dsimp only at h ⊢
    show wp (match r.schema.enums[idx]? with
      | none => _
      | some e => _) _ _ _
    cases hen : r.schema.enums[idx]? with
    | none => rw [hen] at h; cases h
    | some en =>
      rw [hen] at h
      dsimp only at h ⊢
      obtain ⟨w0, es1, h1, h2⟩ := E_bind.1 h
      have e1 : some (es.world, es) = some (w0, es1) := h1
      cases e1
      rw [wp_bind, wp_viewOf, hview]
      cases hw : r.env.view es.world v with
      | scalar x =>
        rw [hw] at h2
        dsimp only at h2 ⊢
        cases hk : enumKey en x with
        | none => rw [hk] at h2; cases h2
        | some k =>
          rw [hk] at h2
          cases k with
          | none => exact write_sim hs (o := .null) rfl h2
          | some k => exact write_sim hs (o := .leaf ([c%'"'] ++ k ++ [c%'"'])) (by simp [print]) h2
      | _ => rw [hw] at h2; cases h2
  | time =>
    dsimp only at h ⊢
    obtain ⟨w0, es1, h1, h2⟩ := E_bind.1 h
    have e1 : some (es.world, es) = some (w0, es1) := h1
    cases e1
    rw [wp_bind, wp_viewOf, hview]
    cases hw : r.env.view es.world v with
    | time t =>
      rw [hw] at h2
      exact write_sim hs (o := .leaf ([c%'"'] ++ Time.timeToIso8601String [] t ++ [c%'"'])) (by simp [print]) h2
    | _ =>
      rw [hw] at h2
      exact write_sim hs (o := .null) rfl h2
  | interfaceRef typeName =>
    dsimp only at h ⊢
    by_cases hsel : (args.isSome || !sels.isEmpty) = true
    · rw [hsel] at h ⊢
      rw [if_neg (by decide)] at h ⊢
      show wp (match lookup r.schema.interfaces typeName with
        | none => _
        | some t => _) _ _ _
      cases hl : lookup r.schema.interfaces typeName with
      | none =>
        rw [hl] at h
        exact write_sim hs (o := .null) rfl h
      | some impls =>
        rw [hl] at h
        dsimp only at h ⊢
        obtain ⟨w0, es1, h1, h2⟩ := E_bind.1 h
        have e1 : some (es.world, es) = some (w0, es1) := h1
        cases e1
        rw [wp_bind, wp_viewOf, hview]
        cases hw : r.env.view es.world v with
        | iface x =>
          rw [hw] at h2
          rcases x with _ | ⟨goName, goPkg, x⟩
          · exact write_sim hs (o := .null) rfl h2
          · dsimp only at h2 ⊢
            cases room with
            | zero => cases h2
            | succ room =>
              dsimp only at h2
              have hi1 : (s.idx + 1).toNat = s.idx.toNat + 1 := by
                rw [UInt8.toNat_add]
                show (s.idx.toNat + 1) % 256 = _
                omega
              have hback : s.idx + 1 - 1 = s.idx := UInt8.add_sub_cancel _ _
              have hkeep : ∀ i : UInt8, i.toNat < s.idx.toNat → (if i = s.idx + 1 then x else s.vals i) = s.vals i := by
                intro i hi
                rw [if_neg]
                rintro rfl
                omega
              rw [wp_bind, wp_setNextGoValue]
              cases hf : impls.find? (fun i => i.goTypeName = goName ∧ i.goPkgPath = goPkg) with
              | none =>
                rw [hf] at h2
                dsimp only at h2 ⊢
                have e := E_pure.1 h2
                cases e
                rw [wp_bind, wp_decIdx, wp_bind, wp_writeNull, wp_pure]
                exact ⟨rfl, ⟨by simp [print], hback, hkeep⟩, ⟨hs.errs, hs.world, hs.vars, hs.path, hs.args⟩⟩
              | some i =>
                rw [hf] at h2
                dsimp only at h2 ⊢
                rw [wp_bind]
                have hD' := hD (.objRef i.typeName) x (dept + 1) path room args sels es es' out crit
                  { s with idx := s.idx + 1, vals := fun i => if i = s.idx + 1 then x else s.vals i } post hawf hareg hswf hsreg
                  hp ⟨hs.errs, hs.world, hs.vars, hs.path, hs.args⟩ (by show (s.idx + 1).toNat + room = 255; omega) (by simp) h2
                rw [hsel] at hD'
                refine wp_mono hD' ?_
                rintro c1 s1 ⟨rfl, m1, m2⟩
                rw [wp_bind, wp_decIdx, wp_pure]
                refine ⟨rfl, ⟨m1.out, ?_, fun i hi => ?_⟩, ⟨m2.errs, m2.world, m2.vars, m2.path, m2.args⟩⟩
                · show s1.idx - 1 = _
                  rw [m1.idx]
                  exact hback
                · show s1.vals i = _
                  rw [m1.vals i (by show i.toNat < (s.idx + 1).toNat; omega)]
                  exact hkeep i hi
        | _ => rw [hw] at h2; cases h2
    · rw [if_pos (by simpa using hsel)] at h ⊢
      exact nullErr_sim hs h
  | method m o =>
    dsimp only at h ⊢
    unfold isNilFunc
    rw [hv]
    cases hm : m.isTypeMethod with
    | true =>
      rw [hm] at h
      rw [if_neg (by decide)] at h
      rw [if_pos rfl, wp_bind, wp_pure, if_neg (by decide)]
      exact call_sim hg hD hawf hareg hswf hsreg hp hs hroom h
    | false =>
      rw [hm] at h
      rw [if_pos (by rfl)] at h
      rw [if_neg (by decide), wp_bind, wp_bind, wp_viewOf]
      rw [hv] at hview
      rw [hview]
      obtain ⟨w0, es1, h1, h2⟩ := E_bind.1 h
      have e1 : some (es.world, es) = some (w0, es1) := h1
      cases e1
      cases hw : r.env.view es.world v with
      | func b =>
        rw [hw] at h2
        cases b with
        | true => exact write_sim (frags := frags) hs (o := .null) rfl h2
        | false =>
          dsimp only at h2 ⊢
          rw [wp_pure, if_neg (by decide)]
          exact call_sim hg hD hawf hareg hswf hsreg hp hs hroom h2
      | _ => rw [hw] at h2; cases h2

/-- The interpreter refines the evaluator, at every level. -/
theorem refines (hg : Good r src res frags) : ∀ n : Nat, SelsOK r res frags n ∧ SpreadOK r res frags n ∧ InlineOK r res frags n ∧
    FieldOK r res frags n ∧ DataOK r res frags n := by
  intro n
  induction n with
  | zero => exact ⟨selsOK_zero, spreadOK_zero, inlineOK_zero, fieldOK_zero, dataOK_zero⟩
  | succ n ih =>
    obtain ⟨h1, h2, h3, h4, h5⟩ := ih
    exact ⟨selsOK_succ h1 h4 h2 h3, spreadOK_succ hg h1, inlineOK_succ hg h1, fieldOK_succ hg h5, dataOK_succ hg h1 h5⟩

end
end Eval
end Yarql
