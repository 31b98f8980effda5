/-
journal/budget.go
-/
import Verif.Model.Account

namespace Gledger

/-- journal/budget.go:19-25 (`overspending` and `future` are never used). Envelope and expense accounts
hang off separate roots; `income` is the account "Funds", which never gets children. -/
structure BudgetMonth where
  envelope : Heap
  expense : Heap
  income : Amount
  incomePostings : List Posting

/-- journal/budget.go:27-37 -/
def newBudgetMonth : BudgetMonth :=
  { envelope := newAccount budgetRootID, expense := newAccount (str "Spending"),
    income := Amount.zero, incomePostings := [] }

/-- journal/budget.go:9-11: the map from months to budget months. -/
abbrev Budget := List (Date × BudgetMonth)

/-- journal/budget.go:189-191: `date.AddDate(0, 0, -(date.Day() - 1))`, i.e. `time.Date(y, m, d-(d-1), ...)`. -/
def normaliseToMonth (d : Date) : Date := { d with day := d.day - (d.day - 1) }

/-- `b.Months[key]` -/
def Budget.get (b : Budget) (key : Date) : Option BudgetMonth := (b.find? fun kv => kv.1 = key).map (·.2)

/-- `b.Months[key] = m` -/
def Budget.put (b : Budget) (key : Date) (m : BudgetMonth) : Budget :=
  match b with
  | [] => [(key, m)]
  | (k, m') :: rest => if k = key then (k, m) :: rest else (k, m') :: Budget.put rest key m

/-- journal/budget.go:39-45 -/
inductive PostingType
  | envelope | expense | income
  deriving DecidableEq, Repr

/-- `if a.Amount.Commodity == "" { a.Amount.Commodity = c }` on a root. -/
def Heap.defaultCommodity (h : Heap) (r : Ref) (c : Str) : Heap :=
  h.modify r fun a => if a.amount.commodity = [] then { a with amount := { a.amount with commodity := c } } else a

/-- `a.Amount.Commodity = c` -/
def Heap.setCommodity (h : Heap) (r : Ref) (c : Str) : Heap :=
  h.modify r fun a => { a with amount := { a.amount with commodity := c } }

/-- journal/budget.go:161-187 on the month's entry -/
def BudgetMonth.addIncome (bm : BudgetMonth) (p : Posting) (a : Amount) : BudgetMonth :=
  let income := if bm.income.commodity = [] then { bm.income with commodity := a.commodity } else bm.income
  let env := bm.envelope.defaultCommodity 0 a.commodity
  { bm with
    income := income.subtract a
    incomePostings := bm.incomePostings ++ [p]
    envelope := env.modify 0 fun n => { n with amount := n.amount.subtract a } }

/-- journal/budget.go:67-72: a posting to the budget root itself -/
def BudgetMonth.addToRoot (bm : BudgetMonth) (a : Amount) : BudgetMonth :=
  { bm with envelope := bm.envelope.modify 0 fun n => { n with amount := n.amount.add a } }

/-- journal/budget.go:89-148 for path components `comps`; `none` is a panic (empty components).
Line 90 finds or creates the account in the chosen root and lines 101/105 again in both roots; creating it
twice is modelled as written. -/
def BudgetMonth.addTo (bm : BudgetMonth) (pt : PostingType) (comps : List Str) (p : Posting) (a : Amount) :
    Option BudgetMonth :=
  let pre : Option (Heap × Heap) := match pt with
    | .expense => (bm.expense.findOrCreate 0 comps).map fun r => (bm.envelope, r.2)
    | _ => (bm.envelope.findOrCreate 0 comps).map fun r => (r.2, bm.expense)
  pre.bind fun (env, exp) =>
    let env := env.defaultCommodity 0 a.commodity
    let exp := exp.defaultCommodity 0 a.commodity
    (env.findOrCreate 0 comps).bind fun (er, env) =>
      let env := env.setCommodity er a.commodity
      (exp.findOrCreate 0 comps).bind fun (xr, exp) =>
        let exp := exp.setCommodity xr a.commodity
        match pt with
        | .envelope =>
          let env := env.modify er fun n => { n with postings := n.postings ++ [p] }
          some { bm with envelope := env.walkAncestors er (·.add a), expense := exp }
        | _ =>
          let exp := exp.modify xr fun n => { n with postings := n.postings ++ [p] }
          some { bm with envelope := env, expense := exp.walkAncestors xr (·.subtract a) }

/-- journal/budget.go:47-151 for a posting of a transaction dated `date`, whose `Account` is nil. `none` is a
panic: no transaction (nil `p.Transaction`), no amount, or an expense posting with the bare path "Expenses".
Lines 130-137 are unreachable (accounts always have a path) and not modelled. -/
def Budget.addPosting (b : Budget) (date : Date) (p : Posting) (pt : PostingType) : Option Budget :=
  if p.linked = false then none
  else
    let key := normaliseToMonth date
    let bm := (b.get key).getD newBudgetMonth
    match p.amount with
    | none => none
    | some a =>
      match pt with
      | .income => some (b.put key (bm.addIncome p a))
      | .envelope =>
        if p.accountPath = budgetRootID then some (b.put key (bm.addToRoot a))
        else (bm.addTo .envelope (split ':' p.accountPath) p a).map (b.put key)
      | .expense => (bm.addTo .expense ((split ':' p.accountPath).drop 1) p a).map (b.put key)

end Gledger
