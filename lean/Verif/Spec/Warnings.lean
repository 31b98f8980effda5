/-
Specification vocabulary: the warnings about mixed commodities.
-/
import Verif.Spec.Balance
import Verif.Spec.Budget

namespace Gledger

/-- The line that says that an amount in the commodity `given` is added to, or subtracted from, an amount kept in the
commodity `kept`; nothing if the commodities agree. -/
def mixLine (verb kept given : Str) : Str :=
  if kept = given then []
  else str "unhandled " ++ verb ++ str " of unmatched commodities: '" ++ kept ++ str "' and '" ++ given ++ str "'\n"

/-- An account's path and the paths above it, the deepest first and the root last. -/
def pathsUp (cs : List Str) : List (List Str) := cs.inits.reverse

/-- The warnings about a posting that comes after others: one for each account it counts towards whose first commodity is another. -/
def balanceMix (before : List Posting) (p : Posting) : Str :=
  match p.amount with
  | none => []
  | some a => (pathsUp p.components).flatMap fun cs => mixLine (str "addition") (firstCommodity (below cs (before ++ [p]))) a.commodity

/-- The warnings about postings that come after others. -/
def balanceMixes : List Posting → List Posting → Str
  | _, [] => []
  | before, p :: ps => balanceMix before p ++ balanceMixes (before ++ [p]) ps

/-- The commodity of the pool of unassigned funds: the first one of the month, not counting what is put back into the pool. -/
def poolCommodity (es : List Filed) : Str :=
  firstCommodity ((es.filter fun e => e.type = .income ∨ e.category ≠ none).map Filed.posting)

/-- The commodity of all spending: the first one budgeted or spent in the month. -/
def spendingCommodity (es : List Filed) : Str := firstCommodity ((es.filter fun e => e.category ≠ none).map Filed.posting)

/-- The commodity of the month's income. -/
def incomeCommodity (es : List Filed) : Str := firstCommodity ((es.filter fun e => e.type = .income).map Filed.posting)

/-- The warnings about a posting filed in a month after others. -/
def budgetMix (before : List Filed) (e : Filed) : Str :=
  match e.posting.amount with
  | none => []
  | some a =>
    match e.type, e.category with
    | .income, _ =>
      mixLine (str "subtraction") (incomeCommodity (before ++ [e])) a.commodity ++
        mixLine (str "subtraction") (poolCommodity (before ++ [e])) a.commodity
    | _, none => mixLine (str "addition") (poolCommodity before) a.commodity
    | .envelope, some cs => ((pathsUp cs).drop 1).flatMap fun ds =>
        mixLine (str "addition") (if ds = [] then poolCommodity (before ++ [e]) else categoryCommodity ds before) a.commodity
    | .expense, some cs => ((pathsUp cs).drop 1).flatMap fun ds =>
        mixLine (str "subtraction") (if ds = [] then spendingCommodity (before ++ [e]) else categoryCommodity ds before) a.commodity

/-- The warnings about postings filed after others. -/
def budgetMixes : List Filed → List Filed → Str
  | _, [] => []
  | before, e :: es => budgetMix (inMonth e.date.year e.date.month before) e ++ budgetMixes (before ++ [e]) es

/-- The order in which the postings of a delivered transaction are filed: as written for a periodic one, for a normal one in the
order in which the filters give them, which is the order in which they are written if the whole transaction is selected. -/
def Env.FiledAs (e : Env) (xs : List Filed) : Call → Prop
  | .normal t f => xs.Perm (e.filedOf (.normal t f)) ∧ (WholeSelected e.filters t → xs = e.filedOf (.normal t f))
  | .periodic pt f => xs = e.filedOf (.periodic pt f)

end Gledger
