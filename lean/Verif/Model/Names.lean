/-
Texts made for people who read the program's values: the generated files journal/periodtype_string.go, journal/transactionstate_string.go,
parser/itemtype_string.go and parser/transactiontype_string.go, the text of an account (journal/account.go:35-54), and what a periodic transaction
gives within bounds (journal/periodictransaction.go:46-70). The program itself uses none of these but the last, with zero bounds.
-/
import Verif.Model.Warnings

namespace Gledger

/-- `strconv.FormatInt(i, 10)` -/
def formatInt : Int → Str
  | .ofNat n => natDigits n
  | .negSucc n => '-' :: natDigits (n + 1)

/-- `s[i:j]` for ASCII text; `none` is a panic. -/
def sliceText (s : Str) (i j : Nat) : Option Str := if i ≤ j ∧ j ≤ s.length then some ((s.take j).drop i) else none

/-- The `String` methods: journal/periodtype_string.go:26-31, journal/transactionstate_string.go:20-25, parser/itemtype_string.go:29-34,
parser/transactiontype_string.go:19-24. -/
def stringer (type : Str) (name : Str) (index : List Nat) (i : Int) : Option Str :=
  if i < 0 ∨ i ≥ (index.length : Int) - 1 then some (type ++ str "(" ++ formatInt i ++ str ")")
  else
    match index[i.toNat]?, index[i.toNat + 1]? with
    | some a, some b => sliceText name a b
    | _, _ => none

/-- journal/periodtype_string.go:22-31 -/
def periodTypeString : Int → Option Str :=
  stringer (str "PeriodType") (str "PNonePDailyPWeeklyPMonthlyPQuarterlyPYearlyPBiweeklyPFortnightlyPBiMonthly") [0, 5, 11, 18, 26, 36, 43, 52, 64, 74]

/-- journal/transactionstate_string.go:16-25 -/
def transactionStateString : Int → Option Str :=
  stringer (str "TransactionState") (str "NoStateUnclearedStateClearedState") [0, 7, 21, 33]

/-- parser/itemtype_string.go:25-34 -/
def itemTypeString : Int → Option Str :=
  stringer (str "itemType")
    (str "emptyLineItemincludeItemdateItemstateItempayeeItemaccountItemcommodityItemamountItemcommentItemtransactionHeaderCommentItemperiodItemeofItem")
    [0, 13, 24, 32, 41, 50, 61, 74, 84, 95, 123, 133, 140]

/-- parser/transactiontype_string.go:15-24 -/
def transactionTypeString : Int → Option Str :=
  stringer (str "transactionType") (str "normalTransactionperiodicTransaction") [0, 17, 36]

/-- journal/account.go:40-54; the first argument bounds the recursion (by the number of nodes). -/
def Heap.stringLoop (h : Heap) : Nat → Nat → Ref → Str
  | 0, _, _ => []
  | n + 1, level, r =>
    (h.node r).children.foldl (fun s kc => s ++ '\n' :: stringLoop h n (level + 1) kc.2)
      (List.replicate (level * tabWidth) ' ' ++ (h.node r).name)

/-- journal/account.go:35-37 -/
def Heap.string (h : Heap) (r : Ref) : Str := h.stringLoop h.next 0 r

/-- journal/periodictransaction.go:46-70: the transactions, and what is printed. The bounds that lines 60-66 set are not used. -/
def PeriodicTransaction.runBetween (pt : PeriodicTransaction) (start finish : Date) : List Transaction × Str :=
  if pt.period.interval = .none then ([{ pt.transaction with date := pt.period.startDate }], [])
  else if (start ≠ Date.zero ∧ pt.period.endDate.before start) ∨ (finish ≠ Date.zero ∧ finish.before pt.period.startDate) then ([], [])
  else ([], str "unhandled conversion of non-budget periodic transaction\n")

end Gledger
