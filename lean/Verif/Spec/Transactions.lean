/-
Specification vocabulary for single transactions.
-/
import Verif.Spec.Delivery

namespace Gledger

/-- Adding postings one after the other, as the builder does. -/
def Transaction.addAll (t : Transaction) (ps : List Posting) : Transaction :=
  ps.foldl (fun t p => (t.addPosting p).1) t

/-- The non-empty commodities written in a list of postings, in order. -/
def writtenCommodities (ps : List Posting) : List Str :=
  (ps.filterMap fun p => p.amount.map Amount.commodity).filter (· ≠ [])

/-- The last commodity written, empty if there is none. -/
def lastCommodity (ps : List Posting) : Str := ((writtenCommodities ps).getLast?).getD []

/-- The postings in a commodity. -/
def inCommodity (c : Str) (ps : List Posting) : List Posting :=
  ps.filter fun p => p.amount.map Amount.commodity = some c

/-- The amounts of each commodity sum to zero. -/
def Transaction.BalancedPerCommodity (t : Transaction) : Prop :=
  ∀ c, ((inCommodity c t.postings).map Posting.value).sum = 0

end Gledger
