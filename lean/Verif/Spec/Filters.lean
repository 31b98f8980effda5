/-
Specification vocabulary for filters: what a filter argument means and what a list of filters selects.
-/
import Verif.Model.Cmd

namespace Gledger

/-- The filter is about the transaction as a whole and matches its payee or one of its notes. -/
def Filter.Wide (f : Filter) (t : Transaction) : Prop :=
  (f.ftype = .payee ∧ f.regex t.payee = true) ∨
  (f.ftype = .note ∧ ∃ n ∈ t.headerNote :: t.notes, f.regex n = true)

/-- The filter picks the posting by its account path or one of its comments. -/
def Filter.Takes (f : Filter) (p : Posting) : Prop :=
  (f.ftype = .accountName ∧ f.regex p.accountPath = true) ∨
  (f.ftype = .note ∧ ∃ n ∈ p.comments, f.regex n = true)

instance decWide (f : Filter) (t : Transaction) : Decidable (f.Wide t) := by unfold Filter.Wide; infer_instance

instance decTakes (f : Filter) (p : Posting) : Decidable (f.Takes p) := by unfold Filter.Takes; infer_instance

/-- The transaction is selected as a whole. -/
def WholeSelected (fs : List Filter) (t : Transaction) : Prop := fs = [] ∨ ∃ f ∈ fs, f.Wide t

instance decWhole (fs : List Filter) (t : Transaction) : Decidable (WholeSelected fs t) := by unfold WholeSelected; infer_instance

/-- The postings selected by a list of filters, in the order of the transaction. -/
def selection (fs : List Filter) (t : Transaction) : List Posting :=
  if WholeSelected fs t then t.postings else t.postings.filter fun p => ∃ f ∈ fs, f.Takes p

/-- The field a filter argument is about. -/
def argField (arg : Str) : FilterType :=
  if arg.head? = some '@' then .payee else if arg.head? = some '=' then .note else .accountName

/-- The pattern of a filter argument: without the leading `@` or `=`. -/
def argPattern (arg : Str) : Str := if arg.head? = some '@' ∨ arg.head? = some '=' then arg.tail else arg

end Gledger
