/-
Specification vocabulary for C131: the lines of a balance report, and accounts under other names.
-/
import Verif.Spec.BalanceText

namespace Gledger

/-- A line of a balance report: the account it is about, its amount, how far it is indented, and the names on it. -/
structure BalanceLine where
  account : List Str
  amount : Amount
  indent : Nat
  names : List Str

/-- How a line looks. -/
def BalanceLine.text (l : BalanceLine) : Str := amountColumn l.amount ++ List.replicate (2 * l.indent) ' ' ++ joinPath l.names

/-- The line under other names. -/
def BalanceLine.rename (f : Str → Str) (l : BalanceLine) : BalanceLine := { l with account := l.account.map f, names := l.names.map f }

/-- The one posting is the other one with the names in its account replaced, whatever else may differ. -/
def Posting.Renamed (f : Str → Str) (p' p : Posting) : Prop := p'.components = p.components.map f ∧ p'.amount = p.amount

end Gledger
