import Verif.Spec.Time
import Verif.Proofs.Decimal

/-!
# C31 (time values round trip)
-/

namespace Yarql
namespace Time

theorem isDigit_digit (n : Nat) : isDigit (digit n) = true := by
  unfold isDigit
  simp only [Bool.and_eq_true, decide_eq_true_eq, UInt8.le_iff_toNat_le, digit_toNat, UInt8.reduceToNat]
  omega

theorem digitVal_digit (n : Nat) : digitVal (digit n) = n % 10 := by
  unfold digitVal; rw [digit_toNat]; omega

theorem digit_ne {n : Nat} {b : Byte} (hb : b.toNat < 48 ∨ 57 < b.toNat) : digit n ≠ b := by
  intro h
  rw [← UInt8.toNat_inj, digit_toNat] at h
  omega

theorem pad2 {n : Nat} (h : n < 100) : pad 2 n = [digit (n / 10), digit n] := by
  unfold pad
  by_cases h1 : n < 10
  · rw [natDigits_small h1]
    have : digit (n / 10) = 48 := by rw [← UInt8.toNat_inj, digit_toNat, Nat.div_eq_of_lt h1]; rfl
    rw [this]; rfl
  · rw [natDigits_step (by omega), natDigits_small (by omega)]
    rfl

theorem pad3 {n : Nat} (h : n < 1000) : pad 3 n = [digit (n / 100), digit (n / 10), digit n] := by
  unfold pad
  by_cases h1 : n < 10
  · rw [natDigits_small h1]
    have e1 : digit (n / 10) = 48 := by rw [← UInt8.toNat_inj, digit_toNat, Nat.div_eq_of_lt h1]; rfl
    have e2 : digit (n / 100) = 48 := by rw [← UInt8.toNat_inj, digit_toNat, Nat.div_eq_of_lt (by omega)]; rfl
    rw [e1, e2]; rfl
  · by_cases h2 : n < 100
    · rw [natDigits_step (by omega), natDigits_small (by omega)]
      have e2 : digit (n / 100) = 48 := by rw [← UInt8.toNat_inj, digit_toNat, Nat.div_eq_of_lt (by omega)]; rfl
      rw [e2]; rfl
    · rw [natDigits_step (by omega), natDigits_step (by omega), natDigits_small (by omega), Nat.div_div_eq_div_mul]
      rfl

theorem pad4 {n : Nat} (h : n < 10000) :
    pad 4 n = [digit (n / 1000), digit (n / 100), digit (n / 10), digit n] := by
  unfold pad
  by_cases h1 : n < 10
  · rw [natDigits_small h1]
    have e1 : digit (n / 10) = 48 := by rw [← UInt8.toNat_inj, digit_toNat, Nat.div_eq_of_lt h1]; rfl
    have e2 : digit (n / 100) = 48 := by rw [← UInt8.toNat_inj, digit_toNat, Nat.div_eq_of_lt (by omega)]; rfl
    have e3 : digit (n / 1000) = 48 := by rw [← UInt8.toNat_inj, digit_toNat, Nat.div_eq_of_lt (by omega)]; rfl
    rw [e1, e2, e3]; rfl
  · by_cases h2 : n < 100
    · rw [natDigits_step (by omega), natDigits_small (by omega)]
      have e2 : digit (n / 100) = 48 := by rw [← UInt8.toNat_inj, digit_toNat, Nat.div_eq_of_lt (by omega)]; rfl
      have e3 : digit (n / 1000) = 48 := by rw [← UInt8.toNat_inj, digit_toNat, Nat.div_eq_of_lt (by omega)]; rfl
      rw [e2, e3]; rfl
    · by_cases h3 : n < 1000
      · rw [natDigits_step (by omega), natDigits_step (by omega), natDigits_small (by omega), Nat.div_div_eq_div_mul]
        have e3 : digit (n / 1000) = 48 := by rw [← UInt8.toNat_inj, digit_toNat, Nat.div_eq_of_lt (by omega)]; rfl
        rw [e3]; rfl
      · rw [natDigits_step (by omega), natDigits_step (by omega), natDigits_step (by omega), natDigits_small (by omega),
          Nat.div_div_eq_div_mul, Nat.div_div_eq_div_mul, Nat.div_div_eq_div_mul]
        rfl

theorem getnum_pad {n : Nat} (h : n < 100) (fixed : Bool) (r : Bytes) :
    getnum fixed (pad 2 n ++ r) = some (n, r) := by
  rw [pad2 h]
  simp only [List.cons_append, List.nil_append, getnum, isDigit_digit, digitVal_digit, Bool.true_eq_false, if_false]
  congr 2
  omega

theorem getYear_pad {n : Nat} (h : n < 10000) (r : Bytes) : getYear (pad 4 n ++ r) = some (n, r) := by
  rw [pad4 h]
  simp only [List.cons_append, List.nil_append, getYear, isDigit_digit, if_true, atoiDigits, digitVal_digit,
    Option.map_some]
  congr 2
  omega

theorem getMillis_pad {n : Nat} (h : n < 1000) (r : Bytes) : getMillis (c%'.' :: pad 3 n ++ r) = some (n, r) := by
  rw [pad3 h]
  simp only [List.cons_append, List.nil_append, getMillis, true_or, if_true, atoiNonneg]
  rw [if_neg (digit_ne (by decide)), if_neg (digit_ne (by decide))]
  simp only [isDigit_digit, if_true, atoiDigits, digitVal_digit, Option.map_some]
  congr 2
  omega

/-- the month lengths the parser checks against are those of the Gregorian calendar -/
theorem daysIn_eq (y : Int) (m : Nat) (h : 1 ≤ m ∧ m ≤ 12) : daysIn m y = monthLength y m := by
  obtain ⟨h1, h2⟩ := h
  have hl : isLeap y = decide (LeapYear y) := by
    rw [Bool.eq_iff_iff, decide_eq_true_iff]
    unfold isLeap LeapYear
    simp only [Bool.and_eq_true, Bool.or_eq_true, beq_iff_eq, bne_iff_ne]
    omega
  unfold daysIn monthLength
  rw [hl]
  have hm : m = 1 ∨ m = 2 ∨ m = 3 ∨ m = 4 ∨ m = 5 ∨ m = 6 ∨ m = 7 ∨ m = 8 ∨ m = 9 ∨ m = 10 ∨ m = 11 ∨ m = 12 := by omega
  rcases hm with rfl | rfl | rfl | rfl | rfl | rfl | rfl | rfl | rfl | rfl | rfl | rfl <;> by_cases hy : LeapYear y <;> simp [hy]

/-- the calendar the instants are counted in: every year ends where the next one begins -/
theorem C31_calendar (y : Int) : yearDays (y + 1) = yearDays y + monthDays y 12 := by
  unfold yearDays
  by_cases h : LeapYear y
  · have : monthDays y 12 = 366 := by simp [monthDays, monthLength, h]
    rw [this]
    unfold LeapYear at h
    omega
  · have : monthDays y 12 = 365 := by simp [monthDays, monthLength, h]
    rw [this]
    unfold LeapYear at h
    omega

theorem daysIn_le (m : Nat) (y : Int) : daysIn m y ≤ 31 := by
  unfold daysIn
  split
  · split <;> omega
  · split <;> omega

theorem parse_format (t : T) (hv : Valid t) (h0 : 0 ≤ t.year) (h1 : t.year ≤ 9999) :
    parseIso8601String (timeToIso8601String [] t) =
      some { t with nsec := t.nsec / 1000000 * 1000000, offset := 0 } := by
  obtain ⟨hm, hd, hh, hmin, hs, hn⟩ := hv
  have hd31 := daysIn_le t.month t.year
  have hdm := daysIn_eq t.year t.month ⟨by omega, by omega⟩
  have hy : (t.year.natAbs : Int) = t.year := Int.natAbs_of_nonneg h0
  have hpy : padYear t.year = pad 4 t.year.natAbs := by unfold padYear; rw [if_neg (by omega)]
  unfold parseIso8601String timeToIso8601String
  rw [hpy]
  simp only [List.nil_append, List.append_assoc, List.cons_append]
  rw [getYear_pad (by omega)]
  simp only [Option.bind_eq_bind, Option.bind_some, lit, if_true]
  rw [getnum_pad (by omega)]
  simp only [Option.bind_some, lit, if_true]
  rw [if_neg (by omega), getnum_pad (by omega)]
  simp only [Option.bind_some, lit, if_true]
  rw [getnum_pad (by omega)]
  simp only [Option.bind_some, lit, if_true]
  rw [if_neg (by omega), getnum_pad (by omega)]
  simp only [Option.bind_some, lit, if_true]
  rw [if_neg (by omega), getnum_pad (by omega)]
  simp only [Option.bind_some, lit, if_true]
  rw [if_neg (by omega)]
  have := getMillis_pad (n := t.nsec / 1000000) (by omega) [c%'Z']
  simp only [List.cons_append] at this
  rw [this]
  simp only [Option.bind_some, if_true, ne_eq, not_true_eq_false, if_false, hy]
  rw [if_neg (by omega)]

/-- **C31** For every time value of the years 0 to 9999, in every time zone, the text yarql writes parses back, and
the parsed instant is the written one, at millisecond precision, *plus the zone's offset*. -/
theorem C31_time_shift (t : T) (hv : Valid t) (h0 : 0 ≤ t.year) (h1 : t.year ≤ 9999) :
    ∃ u, parseIso8601String (timeToIso8601String [] t) = some u ∧ u.offset = 0 ∧
      instant u = (instantMs t + t.offset * 1000) * 1000000 := by
  refine ⟨_, parse_format t hv h0 h1, rfl, ?_⟩
  unfold instantMs instant days
  simp only
  have hn := hv.nsec
  omega

/-- **C31_partial** (the claim, for UTC) A time value in UTC is received back as the same instant at millisecond
precision. Missing from the full claim: other zones, where it is false (`C31_other_zones_wrong`). -/
theorem C31_utc_round_trip_partial (t : T) (hv : Valid t) (h0 : 0 ≤ t.year) (h1 : t.year ≤ 9999) (hz : t.offset = 0) :
    ∃ u, parseIso8601String (timeToIso8601String [] t) = some u ∧ instantMs u = instantMs t ∧
      instant u = instantMs t * 1000000 := by
  obtain ⟨u, hu, _, hi⟩ := C31_time_shift t hv h0 h1
  refine ⟨u, hu, ?_, by rw [hi, hz]; omega⟩
  show instant u / 1000000 = _
  rw [hi, hz]
  omega

/-- **C31** is false in every zone other than UTC: the instant is off by exactly the offset. -/
theorem C31_other_zones_wrong (t : T) (hv : Valid t) (h0 : 0 ≤ t.year) (h1 : t.year ≤ 9999) (hz : t.offset ≠ 0) :
    ∃ u, parseIso8601String (timeToIso8601String [] t) = some u ∧ instantMs u ≠ instantMs t := by
  obtain ⟨u, hu, _, hi⟩ := C31_time_shift t hv h0 h1
  refine ⟨u, hu, ?_⟩
  show instant u / 1000000 ≠ _
  rw [hi]
  omega

/-- Whatever is parsed successfully is a valid UTC time: nothing out of range reaches a resolver. -/
theorem C31_parsed_valid (s : Bytes) (t : T) (h : parseIso8601String s = some t) : Valid t ∧ t.offset = 0 := by
  unfold parseIso8601String at h
  simp only [Option.bind_eq_bind] at h
  obtain ⟨⟨y, v⟩, hy, h⟩ := Option.bind_eq_some_iff.1 h
  obtain ⟨v1, -, h⟩ := Option.bind_eq_some_iff.1 h
  obtain ⟨⟨mo, v2⟩, hmo, h⟩ := Option.bind_eq_some_iff.1 h
  dsimp only at h
  by_cases hm : mo = 0 ∨ 12 < mo
  · rw [if_pos hm] at h; cases h
  rw [if_neg hm] at h
  obtain ⟨v3, -, h⟩ := Option.bind_eq_some_iff.1 h
  obtain ⟨⟨d, v4⟩, hd, h⟩ := Option.bind_eq_some_iff.1 h
  obtain ⟨v5, -, h⟩ := Option.bind_eq_some_iff.1 h
  obtain ⟨⟨hh, v6⟩, hhh, h⟩ := Option.bind_eq_some_iff.1 h
  dsimp only at h
  by_cases hhour : 24 ≤ hh
  · rw [if_pos hhour] at h; cases h
  rw [if_neg hhour] at h
  obtain ⟨v7, -, h⟩ := Option.bind_eq_some_iff.1 h
  obtain ⟨⟨mi, v8⟩, hmi, h⟩ := Option.bind_eq_some_iff.1 h
  dsimp only at h
  by_cases hmin : 60 ≤ mi
  · rw [if_pos hmin] at h; cases h
  rw [if_neg hmin] at h
  obtain ⟨v9, -, h⟩ := Option.bind_eq_some_iff.1 h
  obtain ⟨⟨s1, v10⟩, hs, h⟩ := Option.bind_eq_some_iff.1 h
  dsimp only at h
  by_cases hsec : 60 ≤ s1
  · rw [if_pos hsec] at h; cases h
  rw [if_neg hsec] at h
  obtain ⟨⟨ms, v11⟩, hms, h⟩ := Option.bind_eq_some_iff.1 h
  obtain ⟨v12, -, h⟩ := Option.bind_eq_some_iff.1 h
  dsimp only at h
  by_cases hv : v12 ≠ []
  · rw [if_pos hv] at h; cases h
  rw [if_neg hv] at h
  by_cases hday : d < 1 ∨ daysIn mo y < d
  · rw [if_pos hday] at h; cases h
  rw [if_neg hday] at h
  injection h with h
  subst h
  have hms2 : ms < 1000 := by
    unfold getMillis at hms
    split at hms
    · rename_i a b c d r
      split at hms
      · have dv : ∀ x : Byte, isDigit x = true → digitVal x ≤ 9 := by
          intro x hx
          unfold isDigit at hx
          simp only [Bool.and_eq_true, decide_eq_true_eq, UInt8.le_iff_toNat_le, UInt8.reduceToNat] at hx
          unfold digitVal
          omega
        have two : ∀ (x y : Byte) (n acc : Nat), acc ≤ 9 → atoiDigits [x, y] acc = some n → n < 1000 := by
          intro x y n acc ha hn
          simp only [atoiDigits] at hn
          split at hn
          · rename_i hx
            split at hn
            · rename_i hy
              injection hn with hn
              have := dv x hx
              have := dv y hy
              omega
            · cases hn
          · cases hn
        cases ha : atoiNonneg [b, c, d] with
        | none => rw [ha] at hms; cases hms
        | some n =>
          rw [ha] at hms
          simp only [Option.map_some, Option.some.injEq, Prod.mk.injEq] at hms
          obtain ⟨rfl, -⟩ := hms
          simp only [atoiNonneg, List.cons_ne_nil, if_false] at ha
          split at ha
          · exact two _ _ _ 0 (by omega) ha
          · split at ha
            · split at ha
              · injection ha with ha; omega
              · cases ha
            · rw [atoiDigits] at ha
              split at ha
              · rename_i hb
                exact two _ _ _ _ (by have := dv b hb; omega) ha
              · cases ha
      · cases hms
    · cases hms
  have hdm := daysIn_eq y mo ⟨by omega, by omega⟩
  refine ⟨⟨?_, ?_, ?_, ?_, ?_, ?_⟩, rfl⟩ <;> dsimp only <;> omega

theorem isDigit_iff (b : Byte) : isDigit b = true ↔ 48 ≤ b.toNat ∧ b.toNat ≤ 57 := by
  unfold isDigit
  simp only [Bool.and_eq_true, decide_eq_true_eq, UInt8.le_iff_toNat_le, UInt8.reduceToNat]

theorem atoiDigits_iff : ∀ (s : Bytes) (acc n : Nat), atoiDigits s acc = some n ↔
    (∀ b ∈ s, 48 ≤ b.toNat ∧ b.toNat ≤ 57) ∧ n = s.foldl (fun n b => n * 10 + (b.toNat - 48)) acc
  | [], acc, n => by simp [atoiDigits, eq_comm]
  | b :: r, acc, n => by
    simp only [atoiDigits, List.mem_cons, forall_eq_or_imp, List.foldl_cons]
    by_cases h : isDigit b = true
    · rw [if_pos h, atoiDigits_iff r]
      exact ⟨fun ⟨a, e⟩ => ⟨⟨(isDigit_iff b).1 h, a⟩, e⟩, fun ⟨a, e⟩ => ⟨a.2, e⟩⟩
    · rw [if_neg h]
      exact ⟨fun e => (nomatch e), fun ⟨a, _⟩ => absurd ((isDigit_iff b).2 a.1) h⟩

theorem lit_iff (c : Byte) (s r : Bytes) : lit c s = some r ↔ s = c :: r := by
  cases s with
  | nil => simp [lit]
  | cons a t =>
    unfold lit
    dsimp only
    by_cases h : a = c
    · rw [if_pos h, h]; simp
    · rw [if_neg h]; simp [h]

theorem getYear_iff (s : Bytes) (n : Nat) (r : Bytes) : getYear s = some (n, r) ↔
    ∃ y, Digits 4 y ∧ s = y ++ r ∧ n = decVal y := by
  constructor
  · intro h
    match s, h with
    | a :: b :: c :: d :: t, h =>
      unfold getYear at h
      dsimp only at h
      split at h
      · cases ha : atoiDigits [a, b, c, d] 0 with
        | none => rw [ha] at h; cases h
        | some m =>
          rw [ha] at h
          simp only [Option.map_some, Option.some.injEq, Prod.mk.injEq] at h
          obtain ⟨rfl, rfl⟩ := h
          obtain ⟨h1, h2⟩ := (atoiDigits_iff _ _ _).1 ha
          exact ⟨[a, b, c, d], ⟨rfl, h1⟩, rfl, h2⟩
      · cases h
    | [], h => cases h
    | [_], h => cases h
    | [_, _], h => cases h
    | [_, _, _], h => cases h
  · rintro ⟨y, ⟨hl, hd⟩, rfl, rfl⟩
    match y, hl, hd with
    | [a, b, c, d], _, hd =>
      have h1 := (isDigit_iff a).2 (hd a (by simp))
      have h2 := (atoiDigits_iff [a, b, c, d] 0 _).2 ⟨hd, rfl⟩
      show getYear (a :: b :: c :: d :: r) = _
      unfold getYear
      dsimp only
      rw [if_pos h1, h2]
      rfl

theorem getnum_two {s : Bytes} (h : Digits 2 s) (fixed : Bool) (r : Bytes) :
    getnum fixed (s ++ r) = some (decVal s, r) := by
  obtain ⟨hl, hd⟩ := h
  match s, hl, hd with
  | [a, b], _, hd =>
    have h1 := (isDigit_iff a).2 (hd a (by simp))
    have h2 := (isDigit_iff b).2 (hd b (by simp))
    show getnum fixed (a :: b :: r) = _
    unfold getnum
    dsimp only
    rw [h1, h2]
    simp [decVal, digitVal]

theorem getnum_inv (fixed : Bool) (s : Bytes) (n : Nat) (r : Bytes) (h : getnum fixed s = some (n, r)) :
    ∃ d, (Digits 2 d ∨ (fixed = false ∧ Digits 1 d)) ∧ s = d ++ r ∧ n = decVal d := by
  match s, h with
  | [], h => cases h
  | [a], h =>
    unfold getnum at h
    dsimp only at h
    by_cases h1 : isDigit a = true
    · rw [if_pos h1] at h
      cases fixed with
      | true => cases h
      | false =>
        simp only [Bool.false_eq_true, if_false, Option.some.injEq, Prod.mk.injEq] at h
        obtain ⟨rfl, rfl⟩ := h
        exact ⟨[a], .inr ⟨rfl, rfl, by simpa using (isDigit_iff a).1 h1⟩, rfl, by simp [decVal, digitVal]⟩
    · rw [if_neg h1] at h; cases h
  | a :: b :: t, h =>
    unfold getnum at h
    dsimp only at h
    by_cases h1 : isDigit a = true
    · rw [if_neg (by rw [h1]; decide)] at h
      by_cases h2 : isDigit b = true
      · rw [if_neg (by rw [h2]; decide)] at h
        simp only [Option.some.injEq, Prod.mk.injEq] at h
        obtain ⟨rfl, rfl⟩ := h
        refine ⟨[a, b], .inl ⟨rfl, ?_⟩, rfl, by simp [decVal, digitVal]⟩
        have := (isDigit_iff a).1 h1
        have := (isDigit_iff b).1 h2
        simpa using ⟨by assumption, by assumption⟩
      · rw [if_pos (by simpa using h2)] at h
        cases fixed with
        | true => cases h
        | false =>
          simp only [Bool.false_eq_true, if_false, Option.some.injEq, Prod.mk.injEq] at h
          obtain ⟨rfl, rfl⟩ := h
          exact ⟨[a], .inr ⟨rfl, rfl, by simpa using (isDigit_iff a).1 h1⟩, rfl, by simp [decVal, digitVal]⟩
    · rw [if_pos (by simpa using h1)] at h; cases h

theorem getnum_one {s : Bytes} (h : Digits 1 s) (c : Byte) (hc : isDigit c = false) (r : Bytes) :
    getnum false (s ++ c :: r) = some (decVal s, c :: r) := by
  obtain ⟨hl, hd⟩ := h
  match s, hl, hd with
  | [a], _, hd =>
    have h1 := (isDigit_iff a).2 (hd a (by simp))
    show getnum false (a :: c :: r) = _
    unfold getnum
    dsimp only
    rw [h1, hc]
    simp [decVal, digitVal]

theorem atoiNonneg_iff (a b c : Byte) (n : Nat) : atoiNonneg [a, b, c] = some n ↔ Millis [a, b, c] n := by
  constructor
  · intro h
    simp only [atoiNonneg, List.cons_ne_nil, if_false] at h
    by_cases hp : a = c%'+'
    · rw [if_pos hp] at h
      obtain ⟨h1, h2⟩ := (atoiDigits_iff _ _ _).1 h
      rw [hp, h2]
      exact .plus [b, c] ⟨rfl, h1⟩
    · rw [if_neg hp] at h
      by_cases hm : a = c%'-'
      · rw [if_pos hm] at h
        cases hd : atoiDigits [b, c] 0 with
        | none => rw [hd] at h; cases h
        | some k =>
          rw [hd] at h
          cases k with
          | succ k => cases h
          | zero =>
            injection h with h
            obtain ⟨h1, h2⟩ := (atoiDigits_iff _ _ _).1 hd
            have hb := h1 b (by simp)
            have hc := h1 c (by simp)
            simp only [List.foldl_cons, List.foldl_nil] at h2
            have eb : b = 48 := by rw [← UInt8.toNat_inj]; simp only [UInt8.reduceToNat]; omega
            have ec : c = 48 := by rw [← UInt8.toNat_inj]; simp only [UInt8.reduceToNat]; omega
            rw [hm, eb, ec, ← h]
            exact .minus
      · rw [if_neg hm] at h
        obtain ⟨h1, h2⟩ := (atoiDigits_iff _ _ _).1 h
        rw [h2]
        exact .digits [a, b, c] ⟨rfl, h1⟩
  · intro h
    generalize hs : [a, b, c] = s at h
    cases h with
    | digits hd hx =>
      subst hs
      have ha := hx.2 a (by simp)
      simp only [atoiNonneg]
      rw [if_neg (by rintro rfl; revert ha; decide), if_neg (by rintro rfl; revert ha; decide)]
      exact (atoiDigits_iff _ _ _).2 ⟨hx.2, rfl⟩
    | plus t hx =>
      injection hs with h1 h2
      subst h1; subst h2
      simp only [atoiNonneg, List.cons_ne_nil, if_false, if_true]
      exact (atoiDigits_iff _ _ _).2 ⟨hx.2, rfl⟩
    | minus =>
      injection hs with h1 h2
      injection h2 with h2 h3
      injection h3 with h3
      subst h1; subst h2; subst h3
      rfl

theorem getMillis_iff (s : Bytes) (n : Nat) (r : Bytes) : getMillis s = some (n, r) ↔
    ∃ sep ms, (sep = c%'.' ∨ sep = c%',') ∧ Millis ms n ∧ s = sep :: (ms ++ r) := by
  constructor
  · intro h
    match s, h with
    | [], h => cases h
    | [_], h => cases h
    | [_, _], h => cases h
    | [_, _, _], h => cases h
    | a :: b :: c :: d :: t, h =>
      unfold getMillis at h
      dsimp only at h
      split at h
      · rename_i ha
        cases hm : atoiNonneg [b, c, d] with
        | none => rw [hm] at h; cases h
        | some k =>
          rw [hm] at h
          simp only [Option.map_some, Option.some.injEq, Prod.mk.injEq] at h
          obtain ⟨rfl, rfl⟩ := h
          exact ⟨a, [b, c, d], ha, (atoiNonneg_iff b c d k).1 hm, rfl⟩
      · cases h
  · rintro ⟨sep, ms, hs, hm, rfl⟩
    have hl : ms.length = 3 := by
      cases hm with
      | digits _ h => exact h.1
      | plus s h => simp [h.1]
      | minus => rfl
    match ms, hl, hm with
    | [a, b, c], _, hm =>
      show getMillis (sep :: a :: b :: c :: r) = _
      unfold getMillis
      dsimp only
      rw [if_pos hs, (atoiNonneg_iff a b c n).2 hm]
      rfl

/-- **C31** (what is accepted) A text is accepted as a time exactly when it has the form `yyyy-mm-ddThh:mm:ss.mmmZ`
(with the leniencies of `Reads`) and its fields are in range, and then it denotes the time it spells, in UTC. -/
theorem C31_accepts_exactly (s : Bytes) (t : T) : parseIso8601String s = some t ↔ Reads s t := by
  constructor
  · intro h
    have hvalid := (C31_parsed_valid s t h).1
    unfold parseIso8601String at h
    simp only [Option.bind_eq_bind] at h
    obtain ⟨⟨y, v⟩, hy, h⟩ := Option.bind_eq_some_iff.1 h
    obtain ⟨v1, h1, h⟩ := Option.bind_eq_some_iff.1 h
    obtain ⟨⟨mo, v2⟩, hmo, h⟩ := Option.bind_eq_some_iff.1 h
    dsimp only at h1 hmo h
    by_cases hm : mo = 0 ∨ 12 < mo
    · rw [if_pos hm] at h; cases h
    rw [if_neg hm] at h
    obtain ⟨v3, h3, h⟩ := Option.bind_eq_some_iff.1 h
    obtain ⟨⟨d, v4⟩, hd, h⟩ := Option.bind_eq_some_iff.1 h
    obtain ⟨v5, h5, h⟩ := Option.bind_eq_some_iff.1 h
    obtain ⟨⟨hh, v6⟩, hhh, h⟩ := Option.bind_eq_some_iff.1 h
    dsimp only at h3 hd h5 hhh h
    by_cases hhour : 24 ≤ hh
    · rw [if_pos hhour] at h; cases h
    rw [if_neg hhour] at h
    obtain ⟨v7, h7, h⟩ := Option.bind_eq_some_iff.1 h
    obtain ⟨⟨mi, v8⟩, hmi, h⟩ := Option.bind_eq_some_iff.1 h
    dsimp only at h7 hmi h
    by_cases hmin : 60 ≤ mi
    · rw [if_pos hmin] at h; cases h
    rw [if_neg hmin] at h
    obtain ⟨v9, h9, h⟩ := Option.bind_eq_some_iff.1 h
    obtain ⟨⟨s1, v10⟩, hs, h⟩ := Option.bind_eq_some_iff.1 h
    dsimp only at h9 hs h
    by_cases hsec : 60 ≤ s1
    · rw [if_pos hsec] at h; cases h
    rw [if_neg hsec] at h
    obtain ⟨⟨ms, v11⟩, hms, h⟩ := Option.bind_eq_some_iff.1 h
    obtain ⟨v12, h12, h⟩ := Option.bind_eq_some_iff.1 h
    dsimp only at hms h12 h
    by_cases hv : v12 ≠ []
    · rw [if_pos hv] at h; cases h
    rw [if_neg hv] at h
    by_cases hday : d < 1 ∨ daysIn mo y < d
    · rw [if_pos hday] at h; cases h
    rw [if_neg hday] at h
    injection h with h
    subst h
    obtain ⟨by_, dy, ey, rfl⟩ := (getYear_iff _ _ _).1 hy
    obtain ⟨bmo, dmo, emo, rfl⟩ := getnum_inv _ _ _ _ hmo
    obtain ⟨bd, dd, ed, rfl⟩ := getnum_inv _ _ _ _ hd
    obtain ⟨bh, dh, eh, rfl⟩ := getnum_inv _ _ _ _ hhh
    obtain ⟨bmi, dmi, emi, rfl⟩ := getnum_inv _ _ _ _ hmi
    obtain ⟨bs, ds, es, rfl⟩ := getnum_inv _ _ _ _ hs
    obtain ⟨sep, bms, hsep, hmil, ems⟩ := (getMillis_iff _ _ _).1 hms
    have hv : v12 = [] := Classical.not_not.1 hv
    subst hv
    rw [(lit_iff _ _ _).1 h12] at ems
    rw [ems] at es
    rw [(lit_iff _ _ _).1 h9, es] at emi
    rw [(lit_iff _ _ _).1 h7, emi] at eh
    rw [(lit_iff _ _ _).1 h5, eh] at ed
    rw [(lit_iff _ _ _).1 h3, ed] at emo
    rw [(lit_iff _ _ _).1 h1, emo] at ey
    subst ey
    have two : ∀ {x : Bytes}, (Digits 2 x ∨ (true = false ∧ Digits 1 x)) → Digits 2 x :=
      fun h => h.elim id fun h => absurd h.1 (by decide)
    exact .mk by_ bmo bd bh bmi bs bms sep ms dy (two dmo) (two dd) (dh.elim .inr fun h => .inl h.2) (two dmi) (two ds) hsep
      hmil hvalid
  · rintro ⟨y, mo, d, h, mi, se, ms, sep, n, hy, hmo, hd, hh, hmi, hse, hsep, hms, hv⟩
    have e1 := fun r => (getYear_iff (y ++ r) _ r).2 ⟨y, hy, rfl, rfl⟩
    have eh : ∀ r, getnum false (h ++ c%':' :: r) = some (decVal h, c%':' :: r) := fun r =>
      hh.elim (fun h1 => getnum_one h1 _ (by decide) _) (fun h2 => getnum_two h2 _ _)
    have em := (getMillis_iff (sep :: (ms ++ [c%'Z'])) n [c%'Z']).2 ⟨sep, ms, hsep, hms, rfl⟩
    have l : ∀ (c : Byte) (r : Bytes), lit c (c :: r) = some r := fun c r => (lit_iff c _ r).2 rfl
    have hv1 := hv.month
    have hv2 := hv.day
    have hv3 := hv.hour
    have hv4 := hv.min
    have hv5 := hv.sec
    dsimp only at hv1 hv2 hv3 hv4 hv5
    have hdm := daysIn_eq (decVal y) (decVal mo) hv1
    unfold parseIso8601String
    simp only [Option.bind_eq_bind]
    rw [e1, Option.bind_some]; dsimp only
    rw [l, Option.bind_some, getnum_two hmo, Option.bind_some]; dsimp only
    rw [if_neg (by omega), l, Option.bind_some, getnum_two hd, Option.bind_some]; dsimp only
    rw [l, Option.bind_some, eh, Option.bind_some]; dsimp only
    rw [if_neg (by omega), l, Option.bind_some, getnum_two hmi, Option.bind_some]; dsimp only
    rw [if_neg (by omega), l, Option.bind_some, getnum_two hse, Option.bind_some]; dsimp only
    rw [if_neg (by omega), em, Option.bind_some]; dsimp only
    rw [l, Option.bind_some]
    simp only [ne_eq, not_true_eq_false, if_false]
    rw [if_neg (by omega)]

/-- Non-vacuity: the leniencies are real, and a one-digit month, a missing fraction and a 13th month are refused. -/
example : Reads b%"2021-09-05T1:30:00,+12Z" ⟨2021, 9, 5, 1, 30, 0, 12000000, 0⟩ ∧
    (∀ t, ¬ Reads b%"2021-9-05T12:30:00.123Z" t) ∧ (∀ t, ¬ Reads b%"2021-09-05T12:30:00Z" t) ∧
    (∀ t, ¬ Reads b%"2021-13-05T12:30:00.123Z" t) := by
  refine ⟨(C31_accepts_exactly _ _).1 (by decide +kernel), ?_, ?_, ?_⟩ <;>
    (intro t h; have := (C31_accepts_exactly _ _).2 h; revert this; rw [show parseIso8601String _ = none from by decide +kernel]; exact fun h => (nomatch h))

/-- Non-vacuity: noon in Amsterdam, two hours east of UTC, comes back two hours late. -/
example : Valid ⟨2021, 9, 5, 12, 30, 0, 123456789, 7200⟩ ∧
    timeToIso8601String [] ⟨2021, 9, 5, 12, 30, 0, 123456789, 7200⟩ = b%"2021-09-05T12:30:00.123Z" ∧
    (parseIso8601String b%"2021-09-05T12:30:00.123Z") = some ⟨2021, 9, 5, 12, 30, 0, 123000000, 0⟩ ∧
    parseIso8601String b%"2021-02-29T12:30:00.123Z" = none := by
  refine ⟨⟨?_, ?_, ?_, ?_, ?_, ?_⟩, ?_, ?_, ?_⟩ <;> decide +kernel

end Time
end Yarql
