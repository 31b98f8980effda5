/-
Specification vocabulary for the balance command.
-/
import Verif.Spec.Accounts
import Verif.Spec.Filters
import Verif.Spec.Replay

namespace Gledger

/-- `Journal.AddPosting` for one posting after the other, each with its transaction. -/
def Journal.addEach : List (Transaction × Posting) → Journal → Option Journal
  | [], j => some j
  | e :: es, j => (j.addPosting e.1 e.2).bind (Journal.addEach es)

/-- The sum of the quantities of postings. -/
def valueOf (ps : List Posting) : I64 := (ps.map Posting.value).sum

/-- The postings of a delivered transaction that the filters and date flags select. -/
def Env.selectedOf (e : Env) : Call → List Posting
  | .normal t _ => if e.withinDateRange t = .ok true then selection e.filters t else []
  | .periodic _ _ => []

/-- The postings taken from a delivered transaction, in the order in which they are taken: the selected ones, in the order in which they
are written if the whole transaction is selected. -/
def Env.Gives (e : Env) (qs : List Posting) : Call → Prop
  | .normal t f => qs.Perm (e.selectedOf (.normal t f)) ∧ (WholeSelected e.filters t → qs = e.selectedOf (.normal t f))
  | .periodic _ _ => qs = []

/-- The postings of a journal that the filters and date flags select. -/
def Env.selected (e : Env) (calls : List Call) : List Posting := calls.flatMap e.selectedOf

end Gledger
