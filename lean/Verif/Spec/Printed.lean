/-
Specification: transactions that can be written down, and how print writes them.
-/
import Verif.Spec.Written
import Verif.Spec.Calendar
import Verif.Model.Display

namespace Gledger

/-- A commodity that can stand before a number: no number characters, signs, blanks or tabs, but for one blank at the end. -/
def CommodityText [Unicode] (s : Str) : Prop :=
  StartsInk s ∧ (∀ c ∈ s.dropLast, isCommodityChar c = true) ∧ ∀ c ∈ s.getLast?, isCommodityChar c = true ∨ c = ' '

instance commodityTextDecidable [Unicode] (s : Str) : Decidable (CommodityText s) := by unfold CommodityText; infer_instance

/-- A note that can be written: not empty, not beginning with a blank. -/
def NoteText (s : Str) : Prop := s ≠ [] ∧ s.head? ≠ some ' '

instance noteTextDecidable (s : Str) : Decidable (NoteText s) := by unfold NoteText; infer_instance

/-- A posting that can be written: it has an amount of less than a hundred times 2^46, and clean texts. -/
def Posting.Tidy [Unicode] (p : Posting) : Prop :=
  p.linked = true ∧ AccountText p.accountPath ∧ (∀ c ∈ p.comments, NoteText c) ∧
    ∃ a ∈ p.amount, CommodityText a.commodity ∧ a.quantity.toInt.natAbs < 100 * 2 ^ 46

instance postingTidyDecidable [Unicode] (p : Posting) : Decidable p.Tidy := by unfold Posting.Tidy; infer_instance

/-- A transaction that can be written: real date, clean texts, tidy postings that sum to zero. -/
def Transaction.Tidy [Unicode] (t : Transaction) : Prop :=
  t.date.Real ∧ 0 ≤ t.date.year ∧ t.date.year ≤ 9999 ∧
  FieldText t.payee ∧ StartsInk t.payee ∧ (t.state = .noState → t.payee.head? ≠ some '!' ∧ t.payee.head? ≠ some '*') ∧
  (t.headerNote ≠ [] → t.payee ≠ [] ∧ NoteText t.headerNote) ∧ (∀ n ∈ t.notes, NoteText n) ∧
  t.postings ≠ [] ∧ (∀ p ∈ t.postings, p.Tidy) ∧ t.Balanced

instance transactionTidyDecidable [Unicode] (t : Transaction) : Decidable t.Tidy := by unfold Transaction.Tidy; infer_instance

/-- How an amount is printed. -/
def Amount.written (a : Amount) : WrittenAmount where
  gap := str "    "
  commodity := if a.commodity.getLast? = some ' ' then a.commodity.dropLast else a.commodity
  blanks := if a.commodity.getLast? = some ' ' then [' '] else []
  number := displayQuantity a.quantity
  quantity := a.quantity

/-- How a posting is printed. -/
def Posting.written (p : Posting) : WrittenPosting where
  indent := str "    "
  account := p.accountPath
  amount := p.amount.map Amount.written
  notes := p.comments.map fun c => { indent := str "      ", comment := { text := c } }

/-- How a transaction is printed. -/
def Transaction.written (t : Transaction) : Entry where
  header :=
    { date := t.date.format, day := t.date, gap := if t.state = .noState then str "   " else str " ", state := t.state,
      gap2 := if t.state = .noState then [] else str " ", payee := t.payee,
      note := if t.headerNote = [] then none else some (str "    ", { text := t.headerNote }) }
  notes := t.notes.map fun c => { indent := str "    ", comment := { text := c } }
  postings := t.postings.map Posting.written

/-- Without the record of which amount was missing in the source. -/
def Transaction.plain (t : Transaction) : Transaction := { t with elided := none }

end Gledger
