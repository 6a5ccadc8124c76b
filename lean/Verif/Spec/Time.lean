import Verif.Model.Time

/-!
# Instants

The instant of a civil time with a zone offset, in nanoseconds since 0000-01-01T00:00:00Z (proleptic
Gregorian calendar), and what a valid civil time is.
-/

namespace Yarql
namespace Time

/-- the leap years of the Gregorian calendar -/
def LeapYear (y : Int) : Prop := y % 400 = 0 ∨ (y % 4 = 0 ∧ y % 100 ≠ 0)

instance (y : Int) : Decidable (LeapYear y) := inferInstanceAs (Decidable (_ ∨ _))

/-- the length of a month, January being 1 -/
def monthLength (y : Int) (m : Nat) : Nat :=
  if m = 2 ∧ LeapYear y then 29 else [31, 28, 31, 30, 31, 30, 31, 31, 30, 31, 30, 31].getD (m - 1) 0

/-- days before the first of the month after month `m` -/
def monthDays (y : Int) : Nat → Nat
  | 0 => 0
  | m + 1 => monthDays y m + monthLength y (m + 1)

/-- days before the first of January of year `y` -/
def yearDays (y : Int) : Int := 365 * y + (y + 3) / 4 - (y + 99) / 100 + (y + 399) / 400

def days (t : T) : Int := yearDays t.year + monthDays t.year (t.month - 1) + (t.day - 1)

/-- the instant denoted by a time value, in nanoseconds -/
def instant (t : T) : Int :=
  ((((days t * 24 + t.hour) * 60 + t.min) * 60 + t.sec) - t.offset) * 1000000000 + t.nsec

/-- the same instant cut to millisecond precision (towards the past) -/
def instantMs (t : T) : Int := instant t / 1000000

/-- what Go guarantees of the fields of every `time.Time` -/
structure Valid (t : T) : Prop where
  month : 1 ≤ t.month ∧ t.month ≤ 12
  day : 1 ≤ t.day ∧ t.day ≤ monthLength t.year t.month
  hour : t.hour < 24
  min : t.min < 60
  sec : t.sec < 60
  nsec : t.nsec < 1000000000

/-- `k` decimal digits -/
def Digits (k : Nat) (s : Bytes) : Prop := s.length = k ∧ ∀ b ∈ s, 48 ≤ b.toNat ∧ b.toNat ≤ 57

/-- the number written by decimal digits -/
def decVal (s : Bytes) : Nat := s.foldl (fun n b => n * 10 + (b.toNat - 48)) 0

/-- the milliseconds: three digits, or a plus sign and two digits, or `-00` -/
inductive Millis : Bytes → Nat → Prop where
  | digits (s : Bytes) : Digits 3 s → Millis s (decVal s)
  | plus (s : Bytes) : Digits 2 s → Millis (c%'+' :: s) (decVal s)
  | minus : Millis b%"-00" 0

/-- the text of a time: `yyyy-mm-ddThh:mm:ss.mmmZ` with digits in every place, where the hour may have one digit, the
milliseconds may follow a comma, and all fields are in range -/
inductive Reads : Bytes → T → Prop where
  | mk (y mo d h mi se ms : Bytes) (sep : Byte) (n : Nat) : Digits 4 y → Digits 2 mo → Digits 2 d →
      (Digits 1 h ∨ Digits 2 h) → Digits 2 mi → Digits 2 se → (sep = c%'.' ∨ sep = c%',') → Millis ms n →
      Valid ⟨decVal y, decVal mo, decVal d, decVal h, decVal mi, decVal se, n * 1000000, 0⟩ →
      Reads (y ++ c%'-' :: (mo ++ c%'-' :: (d ++ c%'T' :: (h ++ c%':' :: (mi ++ c%':' :: (se ++ sep :: (ms ++ [c%'Z'])))))))
        ⟨decVal y, decVal mo, decVal d, decVal h, decVal mi, decVal se, n * 1000000, 0⟩

end Time
end Yarql
