/-
Specification of the statistics report.
-/
import Verif.Spec.Statistics

namespace Gledger

/-- The figures of a report. -/
structure Figures where
  /-- files with transactions -/
  files : List Str
  /-- earliest date -/
  first : Date
  /-- latest date -/
  last : Date
  /-- days from the one to the other -/
  days : Nat
  /-- number of transactions -/
  count : Nat
  /-- transactions per day -/
  rate : Str
  /-- number of accounts -/
  accounts : Nat
  /-- number of payees -/
  payees : Nat
  /-- age of money in days -/
  age : Nat

/-- A date and how long ago it is. -/
def ago (humanize : Date → Str) (d : Date) : Str := d.format ++ str " (" ++ humanize d ++ str ")"

/-- The lines of the report. -/
def Figures.lines (humanize : Date → Str) (f : Figures) : List Str :=
  [str "Transactions found in " ++ natDigits f.files.length ++ str " files:"] ++ f.files.map (fun x => str "  " ++ x) ++
  [str "First transaction:\t" ++ ago humanize f.first,
   str "Last transaction:\t" ++ ago humanize f.last,
   str "Time period:\t\t" ++ natDigits f.days ++ str " days",
   str "Transactions:\t\t" ++ natDigits f.count ++ str " (" ++ f.rate ++ str " per day)",
   str "Unique accounts:\t" ++ natDigits f.accounts,
   str "Unique payees:\t\t" ++ natDigits f.payees,
   str "Age of money:\t\t" ++ natDigits f.age ++ str " days"]

/-- Which incomes are spent by which expenses (expense date, income date), if both are laid end to end. -/
def spending (income expense : Date → Int) (incomeDays expenseDays : List Date) : List (Date × Date) :=
  (segments expense 0 expenseDays).flatMap fun E => (segments income 0 incomeDays).filterMap fun s =>
    if Overlap s.2 E.2 then some (E.1, s.1) else none

end Gledger
