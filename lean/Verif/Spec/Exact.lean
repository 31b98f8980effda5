/-
Sums in exact arithmetic: the specification of C113 to C115.
-/
import Verif.Spec.Balance
import Verif.Spec.Budget
import Verif.Spec.Numbers

namespace Gledger

/-- The amount of a posting in hundredths, as an integer; nothing without an amount. -/
def Posting.hundredths (p : Posting) : Int :=
  match p.amount with
  | none => 0
  | some a => a.quantity.toInt

/-- The exact sum. -/
def exactSum (ps : List Posting) : Int := (ps.map Posting.hundredths).sum

/-- How much is moved altogether: the sum of the magnitudes. -/
def turnover (ps : List Posting) : Nat := (ps.map fun p => p.hundredths.natAbs).sum

/-- The transaction's amounts sum to zero in exact arithmetic. -/
def Transaction.BalancedExactly (t : Transaction) : Prop := exactSum t.postings = 0

instance (t : Transaction) : Decidable t.BalancedExactly := by unfold Transaction.BalancedExactly; infer_instance

end Gledger
