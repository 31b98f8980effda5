/-
Specification vocabulary for the statistics command.
-/
import Verif.Spec.Commands

namespace Gledger

/-- The selected postings of these transactions on a day whose account is at or below the given top-level account. -/
def dayPostings (fs : List Filter) (top : Str) (ts : List (Transaction × Str)) (d : Date) : List Posting :=
  (ts.filter fun tf => tf.1.date = d).flatMap fun tf => (selection fs tf.1).filter fun p => p.components.head? = some top

/-- Days laid end to end: each with where its sum starts and ends. -/
def segments (amount : Date → Int) : Int → List Date → List (Date × Int × Int)
  | _, [] => []
  | start, d :: ds => (d, start, start + amount d) :: segments amount (start + amount d) ds

/-- The two stretches have a part in common. -/
def Overlap (a b : Int × Int) : Prop := max a.1 b.1 < min a.2 b.2

instance overlapDecidable (a b : Int × Int) : Decidable (Overlap a b) := by unfold Overlap; infer_instance

/-- What is left of a stretch of income when everything before `spent` has been spent. -/
def leftOf (s : Int × Int) (spent : Int) : Int := max 0 (s.2 - max s.1 spent)

end Gledger
