/-
What is printed while a journal is being read: journal/amount.go:39,49 and journal/periodictransaction.go:68.
-/
import Verif.Model.Cmd

namespace Gledger

/-- What journal/account.go:80-88 prints if the action prints `out` of the amount it finds. Ancestors are different accounts, so
what the action does to one does not change what it finds in the next. -/
def Heap.walkOutLoop (h : Heap) (out : Amount → Str) : Nat → Ref → Str
  | 0, _ => []
  | n + 1, r =>
    out (h.node r).amount ++
      match (h.node r).parent with
      | none => []
      | some p => walkOutLoop h out n p

/-- journal/account.go:80-88 -/
def Heap.walkOut (h : Heap) (r : Ref) (out : Amount → Str) : Str := h.walkOutLoop out h.next r

/-- What journal/journal.go:94-101 prints for one account. -/
def wireOut (amt a : Amount) : Str :=
  let a : Amount := if a.commodity = [] then { a with commodity := amt.commodity } else a
  a.addOut amt

/-- What journal/journal.go:77-105 prints. A posting without an amount panics in the first call of `add`, before anything is printed. -/
def wireUpOut (h : Heap) (root : Ref) (p : Posting) : Str :=
  match h.findOrCreate root (split ':' p.accountPath), p.amount with
  | some (acc, h), some amt => h.walkOut acc (wireOut amt)
  | _, _ => []

/-- What cmd/balance.go:71-75 prints, up to a panic. -/
def addPostingsOut (t : Transaction) : List Posting → Journal → Str
  | [], _ => []
  | p :: ps, j =>
    match j.addPosting t p with
    | none => []
    | some j' => wireUpOut j.heap 0 p ++ addPostingsOut t ps j'

/-- What cmd/balance.go:57-78 prints. -/
def Env.balanceOut (e : Env) (j : Journal) (t : Transaction) : Str :=
  match e.checkAgainstFilters t with
  | .error _ => []
  | .ok (_, postings) => addPostingsOut t postings j

/-- What journal/periodictransaction.go:48-70 prints (with zero bounds). -/
def PeriodicTransaction.runOut (pt : PeriodicTransaction) : Str :=
  if pt.period.interval = .none then [] else str "unhandled conversion of non-budget periodic transaction\n"

/-- What journal/budget.go:161-187 prints. -/
def BudgetMonth.addIncomeOut (bm : BudgetMonth) (a : Amount) : Str :=
  let income := if bm.income.commodity = [] then { bm.income with commodity := a.commodity } else bm.income
  let env := bm.envelope.defaultCommodity 0 a.commodity
  income.subtractOut a ++ (env.node 0).amount.subtractOut a

/-- What journal/budget.go:67-72 prints. -/
def BudgetMonth.addToRootOut (bm : BudgetMonth) (a : Amount) : Str := (bm.envelope.node 0).amount.addOut a

/-- What journal/budget.go:89-148 prints. -/
def BudgetMonth.addToOut (bm : BudgetMonth) (pt : PostingType) (comps : List Str) (a : Amount) : Str :=
  let pre : Option (Heap × Heap) := match pt with
    | .expense => (bm.expense.findOrCreate 0 comps).map fun r => (bm.envelope, r.2)
    | _ => (bm.envelope.findOrCreate 0 comps).map fun r => (r.2, bm.expense)
  (pre.bind fun (env, exp) =>
    let env := env.defaultCommodity 0 a.commodity
    let exp := exp.defaultCommodity 0 a.commodity
    (env.findOrCreate 0 comps).bind fun (er, env) =>
      let env := env.setCommodity er a.commodity
      (exp.findOrCreate 0 comps).map fun (xr, exp) =>
        let exp := exp.setCommodity xr a.commodity
        match pt with
        | .envelope => env.walkOut er (·.addOut a)
        | _ => exp.walkOut xr (·.subtractOut a)).getD []

/-- What journal/budget.go:47-151 prints. A panic comes before anything is printed. -/
def Budget.addPostingOut (b : Budget) (date : Date) (p : Posting) (pt : PostingType) : Str :=
  if p.linked = false then []
  else
    let bm := (b.get (normaliseToMonth date)).getD newBudgetMonth
    match p.amount with
    | none => []
    | some a =>
      match pt with
      | .income => bm.addIncomeOut a
      | .envelope => if p.accountPath = budgetRootID then bm.addToRootOut a else bm.addToOut .envelope (split ':' p.accountPath) a
      | .expense => bm.addToOut .expense ((split ':' p.accountPath).drop 1) a

/-- What cmd/budget.go:86-97 prints, up to a panic. -/
def budgetAddPostingsOut (date : Date) : List Posting → Budget → Str
  | [], _ => []
  | p :: ps, b =>
    let head := (split ':' p.accountPath).headD []
    if head = expensesID then
      match b.addPosting date p .expense with
      | none => []
      | some b' => b.addPostingOut date p .expense ++ budgetAddPostingsOut date ps b'
    else if head = incomeID then
      match b.addPosting date p .income with
      | none => []
      | some b' => b.addPostingOut date p .income ++ budgetAddPostingsOut date ps b'
    else budgetAddPostingsOut date ps b

/-- What cmd/budget.go:72-100 prints. -/
def Env.budgetOut (e : Env) (b : Budget) (t : Transaction) : Str :=
  match e.checkAgainstFilters t with
  | .error _ => []
  | .ok (_, postings) => budgetAddPostingsOut t.date postings b

/-- What cmd/budget.go:56-61 prints, up to a panic. -/
def budgetAddEnvelopesOut (date : Date) : List Posting → Budget → Str
  | [], _ => []
  | p :: ps, b =>
    match b.addPosting date p .envelope with
    | none => []
    | some b' => b.addPostingOut date p .envelope ++ budgetAddEnvelopesOut date ps b'

/-- What cmd/budget.go:46-70 prints. -/
def budgetPeriodicOut (b : Budget) (pt : PeriodicTransaction) : Str :=
  pt.runOut ++ (pt.run.head?.elim [] fun t => budgetAddEnvelopesOut t.date t.postings b)

variable {σ : Type}

/-- Handlers that print: the second component is what has been printed. -/
def Handlers.printing (H : Handlers σ) (out : σ → Transaction → Str) (pout : σ → PeriodicTransaction → Str) : Handlers (σ × Str) where
  th := H.th.map fun h s t f => (((h s.1 t f).1, s.2 ++ out s.1 t), (h s.1 t f).2)
  ph := H.ph.map fun h s pt f => (((h s.1 pt f).1, s.2 ++ pout s.1 pt), (h s.1 pt f).2)

/-- The printing handlers of the balance command. -/
def Env.balancePrinting (e : Env) : Handlers (Journal × Str) :=
  e.balanceHandlers.printing e.balanceOut fun _ pt => pt.runOut

/-- The printing handlers of the budget command. -/
def Env.budgetPrinting (e : Env) : Handlers (Budget × Str) := e.budgetHandlers.printing e.budgetOut budgetPeriodicOut

end Gledger
