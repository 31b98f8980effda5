/-
Specification vocabulary for the text of the balance command: which accounts are shown, in terms of postings only.
-/
import Verif.Spec.Balance
import Verif.Spec.Reports
import Verif.Model.Cmd

namespace Gledger

/-- The account with these components is shown: something is posted to it or below it (the root is always there), and, unless zero
accounts are wanted, neither it nor an account above it sums to zero (accounts named `_root_` are never hidden). -/
def Shown (showZero : Bool) (ps : List Posting) (cs : List Str) : Prop :=
  (cs = [] ∨ ∃ p ∈ ps, cs <+: p.components) ∧
    (showZero = true ∨ ∀ es, es <+: cs → es ≠ [] → valueOf (below es ps) ≠ 0 ∨ es.getLast? = some rootID)

/-- Exactly one account is shown directly below. -/
def OneBelow (S : List Str → Prop) (cs : List Str) : Prop := ∃ c, S (cs ++ [c]) ∧ ∀ d, S (cs ++ [d]) → d = c

/-- The levels above an account at which a new line starts. -/
def stopsBy (one : List Str → Bool) (cs : List Str) : List Nat := (List.range cs.length).filter fun i => i = 0 ∨ one (cs.take i) = false

/-- How many lines a line is indented under. -/
def levelBy (one : List Str → Bool) (cs : List Str) : Nat := (stopsBy one cs).length - 1

/-- The names on a line. -/
def chainBy (one : List Str → Bool) (cs : List Str) : List Str := cs.drop ((stopsBy one cs).getLastD 0)

/-- The amount column of a line: the commodity and then the number. -/
def amountColumn (a : Amount) : Str := rightAligned 20 (a.commodity ++ displayQuantity a.quantity) ++ str "  "

/-- What is printed below the lines: a rule and the total, without a commodity. -/
def footer (a : Amount) : Str := str "\n--------------------\n" ++ rightAligned 20 (displayQuantity a.quantity) ++ str "\n"

/-- The balance of these postings, as a list of accounts with no account below them (with their paths, cut after reserved names), as a tree, or as a tree in which an account with a
single account below it stands on one line with it. -/
def BalanceReport (showZero flatten collapse : Bool) (ps : List Posting) (text : Str) : Prop :=
  if flatten = true then
    ∃ L : List (List Str), L.Pairwise PathLt ∧ (∀ cs, cs ∈ L ↔ Shown showZero ps cs ∧ ∀ c, ¬ Shown showZero ps (cs ++ [c])) ∧
      text = joinLines (L.map fun cs => amountColumn (tally (below cs ps)) ++ joinPath (spelledNames cs)) ++ footer (tally ps)
  else if collapse = true then
    ∃ (L : List (List Str)) (one : List Str → Bool), L.Pairwise PathLt ∧
      (∀ cs, Shown showZero ps cs → (one cs = true ↔ OneBelow (Shown showZero ps) cs)) ∧
      (∀ cs, cs ∈ L ↔ Shown showZero ps cs ∧ cs ≠ [] ∧ one cs = false) ∧
      text = joinLines (L.map fun cs => amountColumn (tally (below cs ps)) ++ List.replicate (2 * levelBy one cs) ' ' ++ joinPath (chainBy one cs)) ++
        footer (tally ps)
  else
    ∃ L : List (List Str), L.Pairwise PathLt ∧ (∀ cs, cs ∈ L ↔ Shown showZero ps cs ∧ cs ≠ []) ∧
      text = joinLines (L.map fun cs => amountColumn (tally (below cs ps)) ++ List.replicate (2 * (cs.length - 1)) ' ' ++ cs.getLastD []) ++
        footer (tally ps)

end Gledger
