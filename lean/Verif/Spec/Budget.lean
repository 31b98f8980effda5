/-
Specification vocabulary for budgets: a budget as the list of postings put into it.
-/
import Verif.Model.Budget
import Verif.Spec.Accounts
import Verif.Spec.Balance

namespace Gledger

/-- A posting put into a budget: its date, and whether it is budgeted, spent or earned. -/
structure Filed where
  date : Date
  posting : Posting
  type : PostingType
  deriving DecidableEq

/-- `Budget.AddPosting` for one posting after the other. -/
def Budget.addEach : List Filed → Budget → Option Budget
  | [], b => some b
  | e :: es, b => (b.addPosting e.date e.posting e.type).bind (Budget.addEach es)

/-- The category a posting is about, as components. Income has none, nor has money put back into the pool of unassigned
funds. Spending is filed without its first component. -/
def Filed.category (e : Filed) : Option (List Str) :=
  match e.type with
  | .envelope => if e.posting.accountPath = budgetRootID then none else some e.posting.components
  | .expense => some (e.posting.components.drop 1)
  | .income => none

/-- The posting is about the category `cs` or one below it. -/
def Filed.Under (cs : List Str) (e : Filed) : Prop := ∃ ds ∈ e.category, cs <+: ds

instance (cs : List Str) (e : Filed) : Decidable (e.Under cs) := by unfold Filed.Under; infer_instance

/-- The sum of the quantities of the postings. -/
def worth (es : List Filed) : I64 := (es.map fun e => e.posting.value).sum

/-- The postings of a month. -/
def inMonth (year : Int) (month : Nat) (es : List Filed) : List Filed :=
  es.filter fun e => e.date.year = year ∧ e.date.month = month

/-- What has been budgeted for a category and those below it. -/
def budgeted (cs : List Str) (es : List Filed) : I64 := worth (es.filter fun e => e.type = .envelope ∧ e.Under cs)

/-- What has been spent on a category and those below it. -/
def spent (cs : List Str) (es : List Filed) : I64 := worth (es.filter fun e => e.type = .expense ∧ e.Under cs)

/-- What has been earned (income postings are negative). -/
def earned (es : List Filed) : I64 := - worth (es.filter fun e => e.type = .income)

/-- The commodity of the last posting to exactly this category, of either kind; empty if there is none. -/
def categoryCommodity (cs : List Str) (es : List Filed) : Str :=
  ((((es.filter fun e => e.category = some cs).getLast?).bind fun e => e.posting.amount).map Amount.commodity).getD []

/-- The postings of one kind to exactly this category. -/
def filedTo (pt : PostingType) (cs : List Str) (es : List Filed) : List Posting :=
  (es.filter fun e => e.type = pt ∧ e.category = some cs).map Filed.posting

/-- A month of a budget holds exactly these postings. -/
structure BudgetMonth.Holds (bm : BudgetMonth) (es : List Filed) : Prop where
  full : bm.envelope.Full ∧ bm.expense.Full
  envelopes : ∀ cs, bm.envelope.Has cs ↔ cs = [] ∨ ∃ e ∈ es, e.Under cs
  expenses : ∀ cs, bm.expense.Has cs ↔ cs = [] ∨ ∃ e ∈ es, e.Under cs
  budgeted : ∀ cs, cs ≠ [] → bm.envelope.amt cs = ⟨categoryCommodity cs es, budgeted cs es⟩
  spent : ∀ cs, cs ≠ [] → bm.expense.amt cs = ⟨categoryCommodity cs es, - spent cs es⟩
  unassigned : (bm.envelope.amt []).quantity = earned es + worth (es.filter fun e => e.type = .envelope)
  allSpent : (bm.expense.amt []).quantity = - worth (es.filter fun e => e.type = .expense)
  income : bm.income.quantity = earned es
  envelopePostings : ∀ cs, bm.envelope.own cs = filedTo .envelope cs es
  expensePostings : ∀ cs, bm.expense.own cs = filedTo .expense cs es
  incomePostings : bm.incomePostings = (es.filter fun e => e.type = .income).map Filed.posting
  incomeCommodity : bm.income.commodity = firstCommodity ((es.filter fun e => e.type = .income).map Filed.posting)

/-- A budget holds exactly these postings: a month is there if it has postings, and holds those dated in it. -/
def Budget.Holds (b : Budget) (es : List Filed) : Prop :=
  ∀ year month,
    match b.get ⟨year, month, 1⟩ with
    | none => inMonth year month es = []
    | some bm => inMonth year month es ≠ [] ∧ bm.Holds (inMonth year month es)

/-- What `Budget.AddPosting` can take: a posting of a transaction, with an amount, and if it is spending then with something
after the first component of the path. -/
def Filed.Fileable (e : Filed) : Prop := e.posting.linked = true ∧ e.posting.amount ≠ none ∧ e.category ≠ some []

instance (e : Filed) : Decidable e.Fileable := by unfold Filed.Fileable; infer_instance

/-- The postings the budget command takes from a delivered transaction: the selected postings to Expenses and to Income of a
normal one, all postings of a periodic one at the start of its period. -/
def Env.filedOf (e : Env) : Call → List Filed
  | .normal t f => (e.selectedOf (.normal t f)).filterMap fun p =>
      if p.components.headD [] = expensesID then some ⟨t.date, p, .expense⟩
      else if p.components.headD [] = incomeID then some ⟨t.date, p, .income⟩
      else none
  | .periodic pt _ => if pt.period.interval = .none then pt.transaction.postings.map fun p => ⟨pt.period.startDate, p, .envelope⟩ else []

/-- The postings the budget command takes from a journal. -/
def Env.filed (e : Env) (calls : List Call) : List Filed := calls.flatMap e.filedOf

end Gledger
