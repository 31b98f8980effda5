/-
Specification: the kinds of lines. What every line of a journal is, whatever is written in it, in terms of its characters alone.
-/
import Verif.Spec.Malformed

namespace Gledger

/-- What is made of a line. -/
inductive Line
  /-- nothing: the line is passed over -/
  | passed
  /-- a blank line -/
  | blank
  /-- the header of an entry -/
  | header (date : Str) (state : TransactionState) (payee note : Str)
  /-- the header of a budget entry -/
  | budget (period : Str)
  /-- a comment below a header or a posting -/
  | note (text : Str)
  /-- a posting, with the commodity and the number written (if any) -/
  | posting (account : Str) (amount : Option (Str × Str))
  /-- an include directive -/
  | inclusion (name : Str)
  /-- a line of no known kind -/
  | unknown (reason : Err)
  deriving DecidableEq, Repr

/-- The text of a comment: blanks before it do not belong to it, unless there is nothing else. -/
def CommentText (written text : Str) : Prop :=
  (∃ n, written = List.replicate n ' ' ++ text ∧ text ≠ [] ∧ text.head? ≠ some ' ') ∨ (text = written ∧ ∀ c ∈ written, c = ' ')

/-- What ends the payee, `n` blanks following: a comment character or a tab, possibly after a blank, or a blank if more follow. -/
def PayeeStop (e : Str) (n : Nat) : Prop :=
  (∃ c, (c = ';' ∨ c = '#' ∨ c = '\t') ∧ (e = [c] ∨ e = [' ', c])) ∨ (e = [' '] ∧ 1 ≤ n)

/-- What follows the payee of a header, and the note it is taken for. The first character after the blanks is dropped whatever it is. -/
inductive HeaderRest : Str → Str → Prop
  | none : HeaderRest [] []
  | blank : HeaderRest [' '] []
  | ended {e} : PayeeStop e 0 → HeaderRest e []
  | blanks {e n} : PayeeStop e (n + 1) → HeaderRest (e ++ List.replicate (n + 1) ' ') (List.replicate n ' ')
  | note {e n c written text} : PayeeStop e n → c ≠ ' ' → CommentText written text → HeaderRest (e ++ (List.replicate n ' ' ++ c :: written)) text

/-- The gap after an account name with an amount: white space that begins with a tab, two blanks, or a blank and a tab. -/
def AmountGap (s : Str) : Prop := White s ∧ (s.head? = some '\t' ∨ s.take 2 = [' ', ' '] ∨ s.take 2 = [' ', '\t'])

/-- What a line is. -/
inductive LineIs [U : Unicode] : Str → Line → Prop
  | blank : LineIs [] .blank
  /-- a comment at the margin -/
  | comment {c cs} : c = ';' ∨ c = '#' → LineIs (c :: cs) .passed
  /-- an indented line that begins with neither a letter nor a comment character -/
  | passed {ws rest} : Indent ws → StartsInk rest → (∀ c ∈ rest.head?, U.isLetter c = false ∧ c ≠ ';' ∧ c ≠ '#') → LineIs (ws ++ rest) .passed
  | note {ws c written text} : Indent ws → c = ';' ∨ c = '#' → CommentText written text → LineIs (ws ++ c :: written) (.note text)
  /-- a posting without an amount -/
  | posting {ws account t} : Indent ws → AccountText account → t = [] ∨ t = [' '] → LineIs (ws ++ (account ++ t)) (.posting account none)
  /-- a posting with an amount: commodity, white space and number; what follows the number is dropped -/
  | amount {ws account gap commodity ws2 number t} : Indent ws → AccountText account → AmountGap gap →
      (∀ c ∈ commodity, isCommodityChar c = true) → White ws2 → (ws2 ≠ [] → ws2.head? = some ' ' ∨ ws2.head? = some '\t') →
      (ws2 = [] → ∀ c ∈ (number ++ t).head?, U.isNumber c = true ∨ c = '-' ∨ c = '+') → FieldText number → Trailer t → StartsInk (number ++ t) →
      StartsInk (commodity ++ (ws2 ++ (number ++ t))) →
      LineIs (ws ++ (account ++ (gap ++ (commodity ++ (ws2 ++ (number ++ t))))))
        (.posting account (some (if ws2 = [] then commodity else commodity ++ [' '], number)))
  | header {date gap state gap2 payee r note} : (∃ c ∈ date.head?, U.isNumber c = true) → ' ' ∉ date → White gap →
      (gap.head? = some ' ' ∨ gap = [] ∧ state = .noState ∧ payee = [] ∧ r = []) → White gap2 →
      (state = .noState → gap2 = [] ∧ payee.head? ≠ some '!' ∧ payee.head? ≠ some '*') → FieldText payee → StartsInk (payee ++ r) → HeaderRest r note →
      LineIs (date ++ (gap ++ (state.mark ++ (gap2 ++ (payee ++ r))))) (.header date state payee note)
  | budget {gap period t} : White gap → 0 < blankWidth gap → FieldText period → Trailer t → StartsInk (period ++ t) →
      LineIs ('~' :: (gap ++ (period ++ t))) (.budget period)
  | inclusion {ws name t} : White ws → ws.head? = some ' ' → name ≠ [] → FieldText name → StartsInk name → Trailer t →
      LineIs (str "include" ++ (ws ++ (name ++ t))) (.inclusion name)
  | unknown {l e} : UnknownLine l e → LineIs l (.unknown e)

end Gledger
