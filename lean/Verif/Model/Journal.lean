/-
journal/amount.go, posting.go, transaction.go, periodictransaction.go (the value types).
-/
import Verif.Model.Time

namespace Gledger

/-- journal/amount.go:8-11 -/
structure Amount where
  commodity : Str
  quantity : I64
  deriving DecidableEq, Repr

/-- The zero value of `Amount`. -/
def Amount.zero : Amount := ⟨[], 0⟩

/-- journal/amount.go:36-43. What it prints is `Amount.addOut`; the returned error is always nil. -/
def Amount.add (a other : Amount) : Amount := { a with quantity := a.quantity + other.quantity }

/-- journal/amount.go:46-53 -/
def Amount.subtract (a other : Amount) : Amount := { a with quantity := a.quantity - other.quantity }

/-- What `Add` prints (journal/amount.go:37-40). -/
def Amount.addOut (a other : Amount) : Str :=
  if a.commodity ≠ other.commodity then
    str "unhandled addition of unmatched commodities: '" ++ a.commodity ++ str "' and '" ++ other.commodity ++ str "'\n"
  else []

/-- What `Subtract` prints (journal/amount.go:47-50). -/
def Amount.subtractOut (a other : Amount) : Str :=
  if a.commodity ≠ other.commodity then
    str "unhandled subtraction of unmatched commodities: '" ++ a.commodity ++ str "' and '" ++ other.commodity ++ str "'\n"
  else []

/-- journal/posting.go:6-12. `linked` records whether the back pointer `Transaction` is set (it always
points to the transaction the posting is built for). The `Account` pointer is nil until the posting is
wired up; the wiring functions take it as an argument. -/
structure Posting where
  linked : Bool := false
  comments : List Str := []
  accountPath : Str := []
  amount : Option Amount := none
  deriving DecidableEq, Repr

/-- journal/transaction.go:11-18 -/
inductive TransactionState
  | noState | uncleared | cleared
  deriving DecidableEq, Repr

/-- journal/transaction.go:33-41. The pointer `postingWithElidedAmount` is the index of that posting in
`Postings` (it is set when the posting is appended, lines 85-90). -/
structure Transaction where
  date : Date := Date.zero
  state : TransactionState := .noState
  payee : Str := []
  postings : List Posting := []
  elided : Option Nat := none
  headerNote : Str := []
  notes : List Str := []
  deriving DecidableEq, Repr

/-- journal/transaction.go:80-93 -/
def Transaction.addPosting (t : Transaction) (p : Posting) : Transaction × Option Err :=
  if p.amount = none then
    if t.elided ≠ none then (t, some .tooManyElided)
    else ({ t with elided := some t.postings.length, postings := t.postings ++ [p] }, none)
  else ({ t with postings := t.postings ++ [p] }, none)

/-- One iteration of the loop of journal/transaction.go:100-109 on (c, sum). -/
def closeStep (acc : Str × I64) (p : Posting) : Str × I64 :=
  match p.amount with
  | none => acc
  | some a => (if 0 < a.commodity.length then a.commodity else acc.1, acc.2 + a.quantity)

/-- journal/transaction.go:96-121 -/
def Transaction.close (t : Transaction) : Transaction × Option Err :=
  let cs := t.postings.foldl closeStep ([], 0)
  if cs.2 ≠ 0 then
    match t.elided with
    | none => (t, some .unbalanced)
    | some i =>
      let fill := fun (p : Posting) => { p with amount := some ⟨cs.1, -cs.2⟩ }
      ({ t with postings := t.postings.modify i fill }, none)
  else (t, none)

/-- journal/periodictransaction.go:36-39 -/
structure PeriodicTransaction where
  period : Period := {}
  transaction : Transaction := {}
  deriving DecidableEq, Repr

/-- journal/journal.go:10-14 -/
def rootID : Str := str "_root_"
def budgetRootID : Str := str "_budget_root_"
def expensesID : Str := str "Expenses"
def incomeID : Str := str "Income"

end Gledger
