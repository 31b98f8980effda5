/-
Specification for C124: what of a journal a command looks at.
-/
import Verif.Model.Program
import Verif.Spec.Replay

namespace Gledger

/-- What is looked at besides dates, periods, accounts and amounts. -/
structure Looks where
  payees : Bool
  notes : Bool
  files : Bool

/-- A posting without what is not looked at. -/
def Posting.bare (l : Looks) (p : Posting) : Posting := { p with comments := if l.notes then p.comments else [] }

/-- A transaction without its state (`!` or `*`), and without what is not looked at. -/
def Transaction.bare (l : Looks) (t : Transaction) : Transaction where
  date := t.date
  state := .noState
  payee := if l.payees then t.payee else []
  postings := t.postings.map (Posting.bare l)
  elided := none
  headerNote := if l.notes then t.headerNote else []
  notes := if l.notes then t.notes else []

/-- The same for what is delivered. -/
def Call.bare (l : Looks) : Call → Call
  | .normal t f => .normal (t.bare l) (if l.files then f else [])
  | .periodic pt f => .periodic { pt with transaction := pt.transaction.bare l } (if l.files then f else [])

/-- A command with these filters need look no further: payees are listed and counted, files are named in the statistics; filters by payee and by note are compared with
payees and notes by the commands that select transactions. (The print command shows everything.) -/
def Looks.Suffices (l : Looks) (fs : List Filter) : Command → Prop
  | .accounts => True
  | .payees => l.payees = true
  | .balance | .budget => ∀ f ∈ fs, (f.ftype = .payee → l.payees = true) ∧ (f.ftype = .note → l.notes = true)
  | .statistics => l.payees = true ∧ l.files = true ∧ ∀ f ∈ fs, f.ftype = .note → l.notes = true
  | .print => False
  | .version => True

end Gledger
