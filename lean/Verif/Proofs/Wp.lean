import Verif.Model.Parser
import Verif.Proofs.Location
import Verif.Proofs.Bytes

/-!
# Weakest preconditions for parser functions

`wp b m cfg s Q`: a normal return of `m` from `s` satisfies `Q`; a panic or out-of-fuel is allowed iff `b`.
-/

namespace Yarql
namespace Parser

def wp {α} (b : Prop) (m : P α) (cfg : PCfg) (s : PS) (Q : α → PS → Prop) : Prop :=
  match m cfg s with
  | .ok a s' => Q a s'
  | .panic => b
  | .oof => b

section
variable {α β : Type} {b : Prop} {cfg : PCfg} {s : PS}

theorem wp_mono {m : P α} {Q Q' : α → PS → Prop} (h : wp b m cfg s Q') (hq : ∀ a s', Q' a s' → Q a s') :
    wp b m cfg s Q := by
  unfold wp at *
  split <;> simp_all

theorem wp_pure {a : α} {Q : α → PS → Prop} : wp b (pure a) cfg s Q ↔ Q a s := Iff.rfl

theorem wp_bind {m : P α} {f : α → P β} {Q : β → PS → Prop} :
    wp b (m >>= f) cfg s Q ↔ wp b m cfg s (fun a s' => wp b (f a) cfg s' Q) := by
  unfold wp
  show (match (match m cfg s with | .ok a s' => f a cfg s' | .panic => R.panic | .oof => R.oof) with
    | .ok a s' => Q a s' | .panic => b | .oof => b) ↔ _
  cases m cfg s <;> rfl

theorem wp_map {m : P α} {f : α → β} {Q : β → PS → Prop} :
    wp b (f <$> m) cfg s Q ↔ wp b m cfg s (fun a s' => Q (f a) s') := by
  unfold wp
  show (match (match m cfg s with | .ok a s' => R.ok (f a) s' | .panic => R.panic | .oof => R.oof) with
    | .ok a s' => Q a s' | .panic => b | .oof => b) ↔ _
  cases m cfg s <;> rfl

theorem wp_ite {c : Prop} [Decidable c] {m n : P α} {Q : α → PS → Prop} :
    wp b (if c then m else n) cfg s Q ↔ if c then wp b m cfg s Q else wp b n cfg s Q := by
  split <;> rfl

theorem wp_panic {Q : α → PS → Prop} : wp b panicP cfg s Q ↔ b := Iff.rfl
theorem wp_oof {Q : α → PS → Prop} : wp b oofP cfg s Q ↔ b := Iff.rfl
theorem wp_getPos {Q} : wp b getPos cfg s Q ↔ Q s.charNr s := Iff.rfl
theorem wp_setPos {n} {Q} : wp b (setPos n) cfg s Q ↔ Q () { s with charNr := n } := Iff.rfl
theorem wp_incPos {Q} : wp b incPos cfg s Q ↔ Q () { s with charNr := s.charNr + 1 } := Iff.rfl
theorem wp_decCharNr {Q} : wp b decCharNr cfg s Q ↔
    if s.charNr = 0 then b else Q () { s with charNr := s.charNr - 1 } := by
  unfold wp decCharNr
  cases h : s.charNr <;> simp
theorem wp_resLen {Q} : wp b resLen cfg s Q ↔ Q s.res.length s := Iff.rfl
theorem wp_emit {bs} {Q} : wp b (emit bs) cfg s Q ↔ Q () { s with res := s.res ++ bs } := Iff.rfl
theorem wp_setRes {i x} {Q} : wp b (setRes i x) cfg s Q ↔
    if i < s.res.length then Q () { s with res := s.res.set i x } else b := by
  unfold wp setRes
  by_cases h : i < s.res.length <;> simp [h]
theorem wp_truncRes {n} {Q} : wp b (truncRes n) cfg s Q ↔
    if n ≤ s.res.length then Q () { s with res := s.res.take n } else b := by
  unfold wp truncRes
  by_cases h : n ≤ s.res.length <;> simp [h]
theorem wp_getRes {i} {Q} : wp b (getRes i) cfg s Q ↔
    match s.res[i]? with | some x => Q x s | none => b := by
  unfold wp getRes
  cases h : s.res[i]? <;> rfl
theorem wp_sliceRes {i j} {Q} : wp b (sliceRes i j) cfg s Q ↔
    if i ≤ j ∧ j ≤ s.res.length then Q ((s.res.take j).drop i) s else b := by
  unfold wp sliceRes
  by_cases h : i ≤ j ∧ j ≤ s.res.length <;> simp [h]
theorem wp_sliceResFrom {i} {Q} : wp b (sliceResFrom i) cfg s Q ↔
    if i ≤ s.res.length then Q (s.res.drop i) s else b := by
  unfold wp sliceResFrom
  by_cases h : i ≤ s.res.length <;> simp [h]
theorem wp_writeUint32 {v i} {Q} : wp b (writeUint32 v i) cfg s Q ↔
    if i + 3 < s.res.length then Q () { s with res := patch s.res i (le32 v) } else b := by
  unfold wp writeUint32
  by_cases h : i + 3 < s.res.length <;> simp [h]
theorem wp_loopFuel {Q} : wp b loopFuel cfg s Q ↔ Q (cfg.query.length + 2) s := Iff.rfl
theorem wp_checkC {i} {Q} : wp b (checkC i) cfg s Q ↔ Q cfg.query[i]? s := Iff.rfl
theorem wp_currentC {Q} : wp b currentC cfg s Q ↔
    match cfg.query[s.charNr]? with | some c => Q c s | none => b := by
  unfold wp currentC
  cases h : cfg.query[s.charNr]? <;> rfl

/-- The error `err msg` records at position `pos`. -/
def mkErr (cfg : PCfg) (pos : Nat) (msg : Bytes) : PErr :=
  ⟨msg, 1 + Location.lineBreaks (cfg.query.take pos), Location.column (cfg.query.take pos)⟩

theorem wp_err {msg} {Q} : wp b (err msg) cfg s Q ↔ Q true { s with errs := s.errs ++ [mkErr cfg s.charNr msg] } := by
  unfold wp
  rw [Location.err_location]
  rfl
theorem wp_unexpectedEOF {Q} : wp b unexpectedEOF cfg s Q ↔
    Q true { s with errs := s.errs ++ [mkErr cfg s.charNr b%"unexpected EOF"] } := wp_err
theorem wp_errC {pre c} {Q} : wp b (errC pre c) cfg s Q ↔
    Q true { s with errs := s.errs ++ [mkErr cfg s.charNr (pre ++ strOfByte c ++ [c%'"'])] } := wp_err

theorem wp_setTargetIfNone {n} {Q} : wp b (setTargetIfNone n) cfg s Q ↔
    Q () (if hasTarget cfg then s else { s with targetIdx := some n }) := by
  unfold wp setTargetIfNone
  cases hasTarget cfg <;> rfl
theorem wp_addFrag {n} {Q} : wp b (addFrag n) cfg s Q ↔ Q () { s with frags := s.frags ++ [n] } := Iff.rfl
theorem wp_setTargetIfName {nm n} {Q} : wp b (setTargetIfName nm n) cfg s Q ↔
    Q () (if decide (nm.length > 0) && hasTarget cfg && cfg.target == some nm
      then { s with targetIdx := some n } else s) := by
  unfold wp setTargetIfName
  cases decide (nm.length > 0) && hasTarget cfg && cfg.target == some nm <;> rfl

end

/-- Push `wp` through the primitives. -/
macro "wps" loc:(Lean.Parser.Tactic.location)? : tactic => `(tactic| simp only [wp_bind, wp_pure, wp_map, wp_ite, wp_panic, wp_oof, wp_getPos, wp_setPos,
  wp_incPos, wp_decCharNr, wp_resLen, wp_emit, wp_setRes, wp_truncRes, wp_getRes, wp_sliceRes, wp_sliceResFrom,
  wp_writeUint32, wp_loopFuel, wp_checkC, wp_currentC, wp_err, wp_unexpectedEOF, wp_errC, wp_setTargetIfNone, wp_addFrag,
  wp_setTargetIfName] $(loc)?)

end Parser
end Yarql
