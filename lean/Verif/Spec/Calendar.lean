/-
Specification vocabulary for dates: the Gregorian calendar as a table, and how days are written.
-/
import Verif.Model.Time
import Verif.Spec.Numbers

namespace Gledger

/-- A year divisible by 4 has a 29 February, except centuries not divisible by 400. -/
def LeapYear (y : Int) : Prop := 400 ∣ y ∨ (4 ∣ y ∧ ¬ 100 ∣ y)

instance (y : Int) : Decidable (LeapYear y) := by unfold LeapYear; infer_instance

/-- The lengths of the twelve months. -/
def monthLengths (y : Int) : List Nat :=
  [31, if LeapYear y then 29 else 28, 31, 30, 31, 30, 31, 31, 30, 31, 30, 31]

/-- The length of a month, zero if there is no such month. -/
def monthLength (y : Int) (m : Nat) : Nat := if m = 0 then 0 else (monthLengths y).getD (m - 1) 0

/-- The days of the calendar. -/
def Date.Real (d : Date) : Prop := 1 ≤ d.day ∧ d.day ≤ monthLength d.year d.month

instance (d : Date) : Decidable d.Real := by unfold Date.Real; infer_instance

/-- Calendar order. -/
def Date.Earlier (a b : Date) : Prop :=
  a.year < b.year ∨ (a.year = b.year ∧ (a.month < b.month ∨ (a.month = b.month ∧ a.day < b.day)))

instance (a b : Date) : Decidable (a.Earlier b) := by unfold Date.Earlier; infer_instance

/-- The day after. -/
def Date.next (d : Date) : Date :=
  if d.day < monthLength d.year d.month then ⟨d.year, d.month, d.day + 1⟩
  else if d.month < 12 then ⟨d.year, d.month + 1, 1⟩
  else ⟨d.year + 1, 1, 1⟩

/-- `k` decimal digits denoting `n`. -/
def WrittenIn (k : Nat) (s : Str) (n : Nat) : Prop := s.length = k ∧ (∀ c ∈ s, Digit c) ∧ decimalValue s = n

instance (k : Nat) (s : Str) (n : Nat) : Decidable (WrittenIn k s n) := by unfold WrittenIn; infer_instance

/-- `s` is the date `d` written YYYYsMMsDD. -/
def WrittenYMD (sep : Char) (s : Str) (d : Date) : Prop :=
  ∃ (y m dd : Str) (n : Nat), s = y ++ sep :: (m ++ sep :: dd) ∧ d.year = n ∧
    WrittenIn 4 y n ∧ WrittenIn 2 m d.month ∧ WrittenIn 2 dd d.day

/-- `s` is the first of a month written YYYYsMM. -/
def WrittenYM (sep : Char) (s : Str) (d : Date) : Prop :=
  ∃ (y m : Str) (n : Nat), s = y ++ sep :: m ∧ d.year = n ∧ WrittenIn 4 y n ∧ WrittenIn 2 m d.month ∧ d.day = 1

/-- `s` is a day of the given year written MMsDD. -/
def WrittenMD (year : Nat) (sep : Char) (s : Str) (d : Date) : Prop :=
  ∃ (m dd : Str), s = m ++ sep :: dd ∧ d.year = year ∧ WrittenIn 2 m d.month ∧ WrittenIn 2 dd d.day

/-- `s` is the first of a year written YYYY. -/
def WrittenY (s : Str) (d : Date) : Prop := ∃ n : Nat, WrittenIn 4 s n ∧ d = ⟨n, 1, 1⟩

/-- The separators. -/
def Separator (c : Char) : Prop := c = '-' ∨ c = '.' ∨ c = '/'

instance (c : Char) : Decidable (Separator c) := by unfold Separator; infer_instance

end Gledger
