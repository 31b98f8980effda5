/-
How long ago a date was, in words: the specification of C126.
-/
import Verif.Model.Time

namespace Gledger

/-- The units of time, with their lengths in seconds; a month has 30 days and a year has 12 such months. -/
def timeUnits : List (Str × Nat) :=
  [(str "second", 1), (str "minute", 60), (str "hour", 3600), (str "day", 86400), (str "week", 7 * 86400), (str "month", 30 * 86400),
   (str "year", 360 * 86400)]

/-- A number of units in words: "1 week", "3 weeks". -/
def counted (n : Nat) (unit : Str) : Str := natDigits n ++ str " " ++ unit ++ (if n = 1 then [] else str "s")

/-- These words tell how long so many nanoseconds are: how often the longest unit that fits in does so, rounded down. -/
def Tells (ns : Nat) (words : Str) : Prop :=
  ∃ u ∈ timeUnits, u.2 * 1000000000 ≤ ns ∧ (∀ v ∈ timeUnits, v.2 * 1000000000 ≤ ns → v.2 ≤ u.2) ∧ words = counted (ns / (u.2 * 1000000000)) u.1

/-- These words tell when something was, `gap` nanoseconds before now (after now if it is negative). -/
def TellsWhen (gap : Int) (text : Str) : Prop :=
  (gap.natAbs < 1000000000 ∧ text = str "now") ∨
  ∃ words, Tells gap.natAbs words ∧ text = words ++ (if gap < 0 then str " from now" else str " ago")

end Gledger
