/-
Specification vocabulary: what every delivered transaction looks like.
-/
import Verif.Spec.Printed

namespace Gledger

/-- Without leading blanks, unless there is nothing else. -/
def Trimmed (s : Str) : Prop := s.head? ≠ some ' ' ∨ ∀ c ∈ s, c = ' '

instance (s : Str) : Decidable (Trimmed s) := by unfold Trimmed; infer_instance

/-- A posting as the parser makes it: an account name (empty only if the transaction has no posting lines), a commodity as
it can be written, trimmed comments. -/
def Posting.Sound [Unicode] (p : Posting) : Prop :=
  p.linked = true ∧ (p.accountPath = [] ∨ AccountText p.accountPath) ∧ (∀ a ∈ p.amount, CommodityText a.commodity) ∧
    ∀ c ∈ p.comments, Trimmed c

instance postingSoundDecidable [Unicode] (p : Posting) : Decidable p.Sound := by unfold Posting.Sound; infer_instance

/-- A transaction as the parser makes it. -/
def Transaction.Sound [Unicode] (t : Transaction) : Prop :=
  t.date.Real ∧ 0 ≤ t.date.year ∧ t.date.year ≤ 9999 ∧
  FieldText t.payee ∧ StartsInk t.payee ∧ (t.state = .noState → t.payee.head? ≠ some '!' ∧ t.payee.head? ≠ some '*') ∧
  Trimmed t.headerNote ∧ (∀ n ∈ t.notes, Trimmed n) ∧ ∀ p ∈ t.postings, p.Sound

instance transactionSoundDecidable [Unicode] (t : Transaction) : Decidable t.Sound := by unfold Transaction.Sound; infer_instance

/-- A period as the parser makes it: the first day of a month, no interval. -/
def Period.Sound (p : Period) : Prop :=
  p.startDate.Real ∧ p.startDate.day = 1 ∧ 0 ≤ p.startDate.year ∧ p.startDate.year ≤ 9999 ∧ p.endDate = p.startDate ∧ p.interval = .none

instance periodSoundDecidable (p : Period) : Decidable p.Sound := by unfold Period.Sound; infer_instance

/-- What print can write so that it reads the same: every posting has an account and an amount of less than a hundred times
2^46, no note is empty or blank, and a note on the header line follows a payee. -/
def Transaction.Printable (t : Transaction) : Prop :=
  (∀ p ∈ t.postings, p.accountPath ≠ [] ∧ (∃ a ∈ p.amount, a.quantity.toInt.natAbs < 100 * 2 ^ 46) ∧ ∀ c ∈ p.comments, ∃ x ∈ c, x ≠ ' ') ∧
  (∀ n ∈ t.notes, ∃ x ∈ n, x ≠ ' ') ∧ (t.headerNote ≠ [] → t.payee ≠ [] ∧ ∃ x ∈ t.headerNote, x ≠ ' ')

instance transactionPrintableDecidable (t : Transaction) : Decidable t.Printable := by unfold Transaction.Printable; infer_instance

end Gledger
