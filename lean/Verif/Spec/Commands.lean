/-
Specification vocabulary for the commands that list things: which transactions of a journal they are about.
-/
import Verif.Spec.Balance

namespace Gledger

/-- The ordinary transactions of a journal, with the file each comes from. -/
def normals (calls : List Call) : List (Transaction × Str) :=
  calls.filterMap fun
    | .normal t f => some (t, f)
    | .periodic _ _ => none

/-- The date flags let the transaction through. -/
def Env.InRange (e : Env) (t : Transaction) : Prop := e.withinDateRange t = .ok true

instance inRangeDecidable (e : Env) (t : Transaction) : Decidable (e.InRange t) := by unfold Env.InRange; infer_instance

/-- The filters let the transaction through: there are none, or one of them matches its payee, a note, or one of its postings. -/
def Env.Wanted (e : Env) (t : Transaction) : Prop := WholeSelected e.filters t ∨ ∃ p ∈ t.postings, ∃ f ∈ e.filters, f.Takes p

instance wantedDecidable (e : Env) (t : Transaction) : Decidable (e.Wanted t) := by unfold Env.Wanted; infer_instance

/-- The transactions within the date range, in the order of the journal. -/
def Env.ranged (e : Env) (calls : List Call) : List Transaction := ((normals calls).map Prod.fst).filter fun t => e.InRange t

/-- The transactions that the date flags and filters let through, with their files. -/
def Env.picked (e : Env) (calls : List Call) : List (Transaction × Str) := (normals calls).filter fun tf => e.InRange tf.1 ∧ e.Wanted tf.1

end Gledger
