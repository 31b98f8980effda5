/-
Specification vocabulary: a journal made of paragraphs.
-/
import Verif.Spec.Replay
import Verif.Spec.File
import Verif.Spec.Commands
import Verif.Spec.Budget
import Verif.Model.Program

namespace Gledger

/-- These pieces of a journal, each followed by an empty line. -/
def passages (ps : List (List UInt8)) : List UInt8 := ps.flatMap fun p => p ++ [10]

/-- The piece of text ends with its last line, and is accepted as a journal. -/
def Passage [Unicode] (fs : FileSystem) (maxOpen : Nat) (path : Str) (p : List UInt8) : Prop :=
  WholeLines p ∧ rejection fs maxOpen p path = none

/-- What a command is asked about. Accounts and payees look at the transactions within the date range, print and statistics at those the
filters let through as well, balance at the selected postings, and budget at those to Income and Expenses and at the monthly budgets. -/
def Command.Heeds (e : Env) : Command → Call → Prop
  | .accounts, .normal t _ => e.InRange t
  | .payees, .normal t _ => e.InRange t
  | .print, .normal t _ => e.InRange t ∧ e.Wanted t
  | .statistics, .normal t _ => e.InRange t ∧ e.Wanted t
  | .balance, c => e.selectedOf c ≠ []
  | .budget, c => e.filedOf c ≠ []
  | _, _ => False

instance (e : Env) (c : Command) (x : Call) : Decidable (c.Heeds e x) := by
  cases c <;> cases x <;> unfold Command.Heeds <;> infer_instance

end Gledger
