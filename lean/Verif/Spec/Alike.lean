/-
Specification vocabulary for reading a balance report.
-/
import Verif.Spec.BalanceText

namespace Gledger

/-- A commodity that can be told from the number after it: on one line, without digits and minus signs, with blanks at most at the end. -/
def LegibleCommodity (c : Str) : Prop := '\n' ∉ c ∧ ' ' ∉ c.dropLast ∧ c ≠ [' '] ∧ ∀ x ∈ c, isDigit x = false ∧ x ≠ '-'

/-- A posting whose account can be told from the amount before it: on one line, without two blanks in a row. -/
def Posting.Legible (p : Posting) : Prop :=
  '\n' ∉ p.accountPath ∧ ¬ [' ', ' '] <:+: p.accountPath ∧ ∀ a ∈ p.amount, LegibleCommodity a.commodity

/-- The amounts look alike: the same commodity and the same number written. -/
def Amount.LooksLike (a b : Amount) : Prop := a.commodity = b.commodity ∧ displayQuantity a.quantity = displayQuantity b.quantity

/-- The accounts that have a line of their own: those with nothing below them; or all, except, in a collapsed tree, those that stand on one line
with the only account below them. -/
def OwnLine (flatten collapse : Bool) (S : List Str → Prop) (cs : List Str) : Prop :=
  if flatten = true then ∀ c, ¬ S (cs ++ [c]) else cs ≠ [] ∧ (collapse = true → ¬ OneBelow S cs)

end Gledger
