/-
Specification for C120 and C121: the parts of the balance and budget reports.
-/
import Verif.Spec.BalanceText
import Verif.Spec.BudgetText

namespace Gledger

/-- The lines of a balance report, each with the account it is about: every line is about a shown account, begins with its amount, and the
accounts stand in order; every shown account has its line, or stands above one that has. There may be a line about no account if no account is shown. -/
structure BalanceLines (showZero : Bool) (ps : List Posting) (text : Str) (ls : List (List Str × Str)) : Prop where
  text_eq : text = joinLines (ls.map Prod.snd) ++ footer (tally ps)
  sorted : (ls.map Prod.fst).Pairwise PathLt
  shown : ∀ l ∈ ls, Shown showZero ps l.1
  amount : ∀ l ∈ ls, ∃ label, l.2 = amountColumn (tally (below l.1 ps)) ++ label
  every : ∀ cs, cs ≠ [] → Shown showZero ps cs → ∃ l ∈ ls, cs <+: l.1
  root : ∀ l ∈ ls, l.1 = [] → ∀ c, ¬ Shown showZero ps [c]

/-- The lines about a top-level account and those below it. -/
def linesOf (x : Str) (ls : List (List Str × Str)) : List (List Str × Str) := ls.filter fun l => l.1.head? = some x

/-- A month of a budget report: its first day, the summary, and the lines of the categories. -/
structure MonthText where
  month : Date
  summary : Str
  lines : List (Str × Str)

/-- The text of a month. -/
def MonthText.text (t : MonthText) : Str := t.summary ++ t.lines.flatMap Prod.snd ++ str "\n"

/-- The months of a budget report: in order, those in which something is filed, each with its categories in order. -/
structure BudgetMonths (es : List Filed) (text : Str) (ms : List MonthText) : Prop where
  text_eq : text = ms.flatMap MonthText.text
  sorted : ms.Pairwise fun a b => a.month.dayNumber ≤ b.month.dayNumber
  once : (ms.map MonthText.month).Nodup
  months : ∀ d, (∃ t ∈ ms, t.month = d) ↔ d.day = 1 ∧ inMonth d.year d.month es ≠ []
  categories : ∀ t ∈ ms, (t.lines.map Prod.fst).Pairwise StrLt ∧
    ∀ k, (∃ l, (k, l) ∈ t.lines) ↔ ∃ e ∈ inMonth t.month.year t.month.month es, ∃ ds, e.category = some (k :: ds)

/-- What is filed under a top-level category. -/
def filedUnder (k : Str) (es : List Filed) : List Filed := es.filter fun e => e.Under [k]

/-- The income. -/
def filedIncome (es : List Filed) : List Filed := es.filter fun e => e.type = .income

/-- Every transaction is selected as a whole or not at all. -/
def Env.Wholly (e : Env) (calls : List Call) : Prop :=
  ∀ t f, Call.normal t f ∈ calls → WholeSelected e.filters t ∨ selection e.filters t = []

end Gledger
