/-
Specification: the text of the budget report.
-/
import Verif.Spec.Budget
import Verif.Spec.Reports
import Verif.Model.Display

namespace Gledger

/-- The income of a month. -/
def incomeOf (es : List Filed) : Amount := ⟨firstCommodity ((es.filter fun e => e.type = .income).map Filed.posting), earned es⟩

/-- A line of the summary of a month. -/
def summaryLine (label figure : Str) : Str := rightAligned 30 label ++ str " | " ++ rightAligned 20 figure ++ str "\n"

/-- The summary of a month, in which only the income is a figure, and the headings of the table. -/
def summary (month : Date) (income : Amount) : Str :=
  month.format ++ str " 00:00:00 +0000 UTC\n" ++
  str "\n" ++
  summaryLine (str "Funds") (income.commodity ++ displayQuantity income.quantity) ++
  str "          Overspent in 2020-?? |               £??.??\n" ++
  str "                      Budgeted |               £??.??\n" ++
  str "        Budgeted in the future |               £??.??\n" ++
  str "-----------------------------------------------------\n" ++
  str "                To be budgeted |               £??.??\n" ++
  str "\n" ++
  str "\n" ++
  str "Category                       | Budgeted             | Activity             | Available            |\n" ++
  str "-----------------------------------------------------------------------------------------------------\n"

/-- The figures of a category in the table, from left to right: what has been spent on it (as a negative number), what has been budgeted for it, and
what is left, with its commodity. (The headings have spending and budgeting the other way round.) -/
def figures (k : Str) (es : List Filed) : List Str :=
  [displayQuantity (- spent [k] es), displayQuantity (budgeted [k] es), categoryCommodity [k] es ++ displayQuantity (budgeted [k] es - spent [k] es)]

/-- The line of a category. -/
def categoryLine (k : Str) (es : List Filed) : Str :=
  leftAligned 30 k ++ ((figures k es).flatMap fun f => str " | " ++ rightAligned 20 f) ++ str " |\n"

/-- The budget made of these postings, month by month, category by category. -/
def BudgetReport (es : List Filed) (text : Str) : Prop :=
  ∃ (months : List Date) (names : Date → List Str), months.Nodup ∧ months.Pairwise (fun a b => a.dayNumber ≤ b.dayNumber) ∧
    (∀ m, m ∈ months ↔ m.day = 1 ∧ inMonth m.year m.month es ≠ []) ∧
    (∀ m ∈ months, (names m).Pairwise StrLt ∧ ∀ k, k ∈ names m ↔ ∃ e ∈ inMonth m.year m.month es, ∃ ds, e.category = some (k :: ds)) ∧
    text = months.flatMap fun m => summary m (incomeOf (inMonth m.year m.month es)) ++
      ((names m).flatMap fun k => categoryLine k (inMonth m.year m.month es)) ++ str "\n"

end Gledger
