/-
Specification vocabulary for the texts written on a line: what a field or an account name may contain.
-/
import Verif.Model.Utf8

namespace Gledger

/-- No two consecutive blanks, no tab, no blank at the end. -/
def OneBlank (s : Str) : Prop := '\t' ∉ s ∧ ¬ [' ', ' '] <:+: s ∧ s.getLast? ≠ some ' '

instance (s : Str) : Decidable (OneBlank s) := by unfold OneBlank; infer_instance

/-- The text of a field: no comment characters, single blanks only, not ending with a blank. -/
def FieldText (s : Str) : Prop := ';' ∉ s ∧ '#' ∉ s ∧ OneBlank s

instance (s : Str) : Decidable (FieldText s) := by unfold FieldText; infer_instance

/-- The text does not begin with white space. -/
def StartsInk (s : Str) : Prop := ∀ c, s.head? = some c → isSpace c = false

instance (s : Str) : Decidable (StartsInk s) := by
  unfold StartsInk
  cases s with
  | nil => exact isTrue (by simp)
  | cons c cs => exact decidable_of_iff (isSpace c = false) (by simp)

end Gledger
