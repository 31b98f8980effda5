/-
Specification vocabulary for what a journal records (C100).
-/
import Verif.Spec.Balance
import Verif.Spec.Commands

namespace Gledger

/-- The transactions recorded with the account, one for each posting. -/
def Heap.dealings (h : Heap) (cs : List Str) : List Transaction := ((h.at cs).map fun x => (h.node x).transactions).getD []

/-- The postings to the account among these, each with its transaction. -/
def dealt (cs : List Str) (es : List (Transaction × Posting)) : List (Transaction × Posting) := es.filter fun e => e.2.components = cs

/-- The budget entries among these calls. -/
def budgetEntries (calls : List Call) : List PeriodicTransaction :=
  calls.filterMap fun
    | .normal _ _ => none
    | .periodic pt _ => some pt

end Gledger
