/-
Specification vocabulary: how runs of the program go wrong.
-/
import Verif.Model.Program
import Verif.Spec.Replay

namespace Gledger

/-- How a command's handling of the delivered transactions fails, if it does. -/
def Command.stopped (e : Env) (calls : List Call) : Command → Option Failure
  | .accounts => (e.accountsHandlers.replay calls []).2
  | .balance => (e.balanceHandlers.replay calls newJournal).2
  | .budget => (e.budgetHandlers.replay calls []).2
  | .payees => (e.payeesHandlers.replay calls []).2
  | .print => (e.printHandlers.replay calls []).2
  | .statistics => (e.statsHandlers.replay calls {}).2
  | .version => none

/-- The warnings a command prints while the journal is read. -/
def Machine.warnings [Unicode] (m : Machine) (e : Env) (bytes : List UInt8) (path : Str) : Command → Str
  | .balance => printedBy m.fs m.maxOpen bytes path e.balancePrinting newJournal
  | .budget => printedBy m.fs m.maxOpen bytes path e.budgetPrinting []
  | _ => []

/-- What is wrong with `--begin` and `--end`, if anything: nothing if they are overridden by `--current`. -/
def Env.dateError (e : Env) : Option Err :=
  if e.current then none
  else
    let wrong (flag : Str) : Option Err :=
      if flag = [] then none
      else
        match parseSmartDate e.nowYear flag with
        | .ok _ => none
        | .error err => some err
    (wrong e.beginDate).orElse fun _ => wrong e.endDate

/-- The argument is not accepted as a filter. -/
def BadArgument [Unicode] (R : RegexEngine) (arg : Str) : Prop := ∃ e, newFilter R arg = .error (.err e)

end Gledger
