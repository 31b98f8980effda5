/-
Specification: lines that cannot be read.
-/
import Verif.Spec.Written
import Verif.Spec.Numbers
import Verif.Spec.Calendar

namespace Gledger

/-- The texts the program takes for a number: a sign, possibly a second one, digits, and possibly a point, a sign and digits, the
two numbers being numbers an int64 can hold. -/
def ReadableNumber (s : Str) : Prop :=
  ∃ (g g' : Sign) (w : Str), (g = .absent → g' = .absent) ∧ Digits w ∧ Int64Range (g'.apply (decimalValue w)) ∧
    (s = g.text ++ (g'.text ++ w) ∨
      ∃ (g'' : Sign) (f : Str), Digits f ∧ Int64Range (g''.apply (decimalValue f)) ∧ s = g.text ++ (g'.text ++ w ++ '.' :: (g''.text ++ f)))

/-- A day of the calendar written with one of the three separators. -/
def ReadableDate (s : Str) : Prop := ∃ sep d, Separator sep ∧ WrittenYMD sep s d ∧ d.Real

/-- Lines of no known kind, and the reason given for them. -/
inductive UnknownLine [U : Unicode] : Str → Err → Prop
  /-- not a comment, a directive, a header or an indented line -/
  | other {c cs} : c ≠ ';' → c ≠ '#' → c ≠ 'i' → c ≠ '~' → U.isNumber c = false → c ≠ '\t' → ¬ (c = ' ' ∧ cs.head? = some ' ') →
      UnknownLine (c :: cs) .unexpectedLine
  /-- a line whose first word begins with `i` but is not "include" -/
  | directive {word rest} : word.head? = some 'i' → ' ' ∉ word → word ≠ str "include" → (rest = [] ∨ rest.head? = some ' ') →
      UnknownLine (word ++ rest) (.unexpectedDirective word)
  /-- "include" without a file name -/
  | noFile {ws t} : White ws → (ws.head? = some ' ' ∨ ws = [] ∧ t = []) → (∀ c ∈ t.head?, c = ';' ∨ c = '#') →
      UnknownLine (str "include" ++ (ws ++ t)) .badInclude
  /-- a tilde that neither a blank nor a tab follows (other white space does not count) -/
  | tilde {ws cs} : White ws → blankWidth ws = 0 → StartsInk cs → UnknownLine ('~' :: (ws ++ cs)) .tildeSpaces

/-- Lines that are never accepted: those of no known kind, headers without a readable date, postings without a readable number. -/
inductive Unreadable [U : Unicode] : Str → Prop
  | unknown {l e} : UnknownLine l e → Unreadable l
  | date {d rest} : (∃ c ∈ d.head?, U.isNumber c = true) → ' ' ∉ d → (rest = [] ∨ rest.head? = some ' ') → ¬ ReadableDate d → Unreadable (d ++ rest)
  | amount {ws account} {a : WrittenAmount} : Indent ws → AccountText account → a.Shape → ¬ ReadableNumber a.number →
      Unreadable (ws ++ (account ++ a.written))

end Gledger
