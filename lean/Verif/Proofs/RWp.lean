import Verif.Model.Resolver
import Verif.Proofs.Bytes
import Verif.Spec.Document

/-! # Total-correctness weakest preconditions for resolver functions -/

namespace Yarql
namespace Resolver

section
variable {F V W α β : Type} {c : Cfg F V W} {s : RS V W}

/-- `m` returns normally, with a result and state satisfying `Q` -/
def wp (m : M F V W α) (c : Cfg F V W) (s : RS V W) (Q : α → RS V W → Prop) : Prop :=
  match m c s with
  | .ok a s' => Q a s'
  | .panic => False
  | .oof => False

theorem wp_intro {m : M F V W α} {a : α} {s' : RS V W} {Q : α → RS V W → Prop} (h : m c s = .ok a s') (q : Q a s') :
    wp m c s Q := by
  unfold wp
  rw [h]
  exact q

theorem wp_elim {m : M F V W α} {Q : α → RS V W → Prop} (h : wp m c s Q) : ∃ a s', m c s = .ok a s' ∧ Q a s' := by
  unfold wp at h
  cases e : m c s with
  | ok a s' => rw [e] at h; exact ⟨a, s', rfl, h⟩
  | panic => rw [e] at h; exact h.elim
  | oof => rw [e] at h; exact h.elim

theorem wp_mono {m : M F V W α} {Q Q' : α → RS V W → Prop} (h : wp m c s Q') (hq : ∀ a s', Q' a s' → Q a s') :
    wp m c s Q := by
  obtain ⟨a, s', e, q⟩ := wp_elim h
  exact wp_intro e (hq a s' q)

theorem wp_pure {a : α} {Q : α → RS V W → Prop} : wp (pure a) c s Q ↔ Q a s := Iff.rfl

theorem wp_bind {m : M F V W α} {f : α → M F V W β} {Q : β → RS V W → Prop} :
    wp (m >>= f) c s Q ↔ wp m c s (fun a s' => wp (f a) c s' Q) := by
  unfold wp
  show (match (match m c s with | .ok a s' => f a c s' | .panic => R.panic | .oof => R.oof) with
    | .ok a s' => Q a s' | .panic => False | .oof => False) ↔ _
  cases m c s <;> rfl

theorem wp_ite {p : Prop} [Decidable p] {m n : M F V W α} {Q : α → RS V W → Prop} :
    wp (if p then m else n) c s Q ↔ if p then wp m c s Q else wp n c s Q := by
  split <;> rfl

theorem wp_write {b : Bytes} {Q} : wp (F := F) (write b) c s Q ↔ Q () { s with out := s.out ++ b } := Iff.rfl
theorem wp_writeNull {Q} : wp (F := F) writeNull c s Q ↔ Q () { s with out := s.out ++ b%"null" } := Iff.rfl
theorem wp_writeQuoted {b : Bytes} {Q} :
    wp (F := F) (writeQuoted b) c s Q ↔ Q () { s with out := s.out ++ (c%'"' :: b ++ [c%'"']) } := Iff.rfl
theorem wp_skipInst {n : Nat} {Q} : wp (F := F) (skipInst n) c s Q ↔ Q () { s with charNr := s.charNr + n } := Iff.rfl
theorem wp_getPos {Q} : wp (F := F) getPos c s Q ↔ Q s.charNr s := Iff.rfl
theorem wp_setPos {n : Nat} {Q} : wp (F := F) (setPos n) c s Q ↔ Q () { s with charNr := n } := Iff.rfl
theorem wp_getCfg {Q} : wp getCfg c s Q ↔ Q c s := Iff.rfl
theorem wp_getState {Q} : wp getState c s Q ↔ Q s s := Iff.rfl
theorem wp_setWorld {w : W} {Q} : wp (F := F) (setWorld w) c s Q ↔ Q () { s with world := w } := Iff.rfl
theorem wp_setPath {p : Bytes} {Q} : wp (F := F) (setPath p) c s Q ↔ Q () { s with path := p } := Iff.rfl
theorem wp_setVarsParsed {Q} : wp (F := F) setVarsParsed c s Q ↔ Q () { s with varsParsed := true } := Iff.rfl
theorem wp_setArgs {h : Bool} {a : Nat} {Q} :
    wp (F := F) (setArgs h a) c s Q ↔ Q () { s with hasArgs := h, argsStart := a } := Iff.rfl
theorem wp_getGoValue {Q} : wp (F := F) getGoValue c s Q ↔ Q (s.vals s.idx) s := Iff.rfl
theorem wp_setGoValue {v : V} {Q} : wp (F := F) (setGoValue v) c s Q ↔
    Q () { s with vals := fun i => if i = s.idx then v else s.vals i } := Iff.rfl
theorem wp_incIdx {Q} : wp (F := F) incIdx c s Q ↔ Q () { s with idx := s.idx + 1 } := Iff.rfl
theorem wp_decIdx {Q} : wp (F := F) decIdx c s Q ↔ Q () { s with idx := s.idx - 1 } := Iff.rfl
theorem wp_viewOf {v : V} {Q} : wp (viewOf v) c s Q ↔ Q (c.env.view s.world v) s := Iff.rfl

theorem wp_setNextGoValue {v : V} {Q} : wp (F := F) (setNextGoValue v) c s Q ↔
    Q () { s with idx := s.idx + 1, vals := fun i => if i = s.idx + 1 then v else s.vals i } := Iff.rfl

/-- what `err` appends -/
def mkErr (path msg : Bytes) : RErr :=
  match path with
  | [] => ⟨msg, none⟩
  | _ :: p => ⟨msg, some p⟩

theorem wp_err {msg : Bytes} {Q} : wp (F := F) (err msg) c s Q ↔ Q () { s with errs := s.errs ++ [mkErr s.path msg] } :=
  Iff.rfl

/-! ## Reading at a known position -/

theorem drop_add {l a rest : Bytes} {p n : Nat} (h : l.drop p = a ++ rest) (hn : n = a.length) : l.drop (p + n) = rest := by
  rw [← List.drop_drop, h, hn, List.drop_left]

theorem drop_one {l rest : Bytes} {p : Nat} {x : Byte} (h : l.drop p = x :: rest) : l.drop (p + 1) = rest :=
  drop_add (a := [x]) h rfl

theorem get_of_drop {l rest : Bytes} {p : Nat} {x : Byte} (h : l.drop p = x :: rest) : l[p]? = some x := by
  have e : (l.drop p)[0]? = l[p]? := by rw [List.getElem?_drop, Nat.add_zero]
  rw [← e, h]
  rfl

theorem wp_readInst {b : Byte} {rest : Bytes} {Q} (h : c.res.drop s.charNr = b :: rest)
    (q : Q b { s with charNr := s.charNr + 1 }) : wp readInst c s Q := by
  unfold wp readInst
  rw [get_of_drop h]
  exact q

theorem wp_seekInst {b : Byte} {rest : Bytes} {Q} (h : c.res.drop s.charNr = b :: rest) (q : Q b s) :
    wp seekInst c s Q := by
  unfold wp seekInst
  rw [get_of_drop h]
  exact q

theorem wp_getRes {i : Nat} {b : Byte} {rest : Bytes} {Q} (h : c.res.drop i = b :: rest) (q : Q b s) :
    wp (getRes i) c s Q := by
  unfold wp getRes
  rw [get_of_drop h]
  exact q

theorem wp_sliceRes {i j : Nat} {a rest : Bytes} {Q} (h : c.res.drop i = a ++ rest) (hj : j = i + a.length)
    (hi : i ≤ c.res.length) (q : Q a s) : wp (sliceRes i j) c s Q := by
  have hl : a.length + rest.length = c.res.length - i := by
    have := congrArg List.length h
    simp at this
    omega
  unfold wp sliceRes
  rw [if_pos ⟨by omega, by omega⟩]
  have e : (c.res.take j).drop i = a := by
    rw [List.drop_take, h, hj, Nat.add_sub_cancel_left, List.take_left]
  rw [e]
  exact q

theorem wp_readUint32M {v : UInt32} {rest : Bytes} {Q} (h : c.res.drop s.charNr = le32 v ++ rest)
    (q : Q v.toNat s) : wp readUint32M c s Q := by
  have e : readUint32 c.res s.charNr = some v := by
    unfold readUint32
    rw [List.drop_take, h, Nat.add_sub_cancel_left, show (4 : Nat) = (le32 v).length from rfl, List.take_left, le32_eq]
    simp only
    rw [rd32_le32]
  unfold wp readUint32M
  rw [e]
  exact q

theorem takeWhile_nul {name rest : Bytes} (h0 : (0 : Byte) ∉ name) :
    (name ++ 0 :: rest).takeWhile (fun b => b != 0) = name := by
  induction name with
  | nil => simp
  | cons x xs ih =>
    simp only [List.mem_cons, not_or] at h0
    rw [List.cons_append, List.takeWhile_cons]
    rw [if_pos (by simp; exact fun h => h0.1 h.symm), ih h0.2]

theorem wp_readToNul {name rest : Bytes} {Q} (h : c.res.drop s.charNr = name ++ 0 :: rest) (h0 : (0 : Byte) ∉ name)
    (q : Q name { s with charNr := s.charNr + name.length + 1 }) : wp readToNul c s Q := by
  unfold wp readToNul
  simp only [h, takeWhile_nul h0]
  rw [if_pos (by simp)]
  exact q

end

/-- names contain no NUL -/
theorem name_no_nul {n : Bytes} (h : Doc.IsName n) : (0 : Byte) ∉ n := by
  obtain ⟨_, x, xs, rfl, hx, hxs⟩ := h
  have h1 : ∀ y : Byte, Doc.NameStart y → y ≠ 0 := by
    intro y hy e
    subst e
    rcases hy with h | h | h
    · exact absurd h.1 (by decide)
    · exact absurd h.1 (by decide)
    · exact absurd h (by decide)
  have h2 : ∀ y : Byte, Doc.NameChar y → y ≠ 0 := by
    intro y hy e
    rcases hy with h | h
    · exact h1 y h e
    · subst e
      exact absurd h.1 (by decide)
  simp only [List.mem_cons, not_or]
  exact ⟨fun e => h1 x hx e.symm, fun hm => h2 0 (hxs 0 hm) rfl⟩

end Resolver
end Yarql
