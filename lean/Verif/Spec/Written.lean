/-
Specification: transactions as they are written. A small abstract syntax of well-formed entries, the lines they
are written as, and what they mean.
-/
import Verif.Spec.Text
import Verif.Spec.Runes
import Verif.Spec.Transactions
import Verif.Spec.File

namespace Gledger

/-- All white space. -/
def White (s : Str) : Prop := ∀ c ∈ s, isSpace c = true

instance (s : Str) : Decidable (White s) := by unfold White; infer_instance

/-- Indentation: white space that begins with a tab or with two blanks. -/
def Indent (s : Str) : Prop := White s ∧ (s.head? = some '\t' ∨ s.take 2 = [' ', ' '])

instance (s : Str) : Decidable (Indent s) := by unfold Indent; infer_instance

/-- A comment: the comment character, blanks, the text. -/
structure Comment where
  mark : Char := ';'
  blanks : Nat := 1
  text : Str
  deriving DecidableEq, Repr

/-- The text does not begin with a blank (blanks belong to the margin). -/
def Comment.Ok (c : Comment) : Prop :=
  (c.mark = ';' ∨ c.mark = '#') ∧ c.text.head? ≠ some ' ' ∧ (c.text = [] → c.blanks = 0)

instance (c : Comment) : Decidable c.Ok := by unfold Comment.Ok; infer_instance

def Comment.written (c : Comment) : Str := c.mark :: (List.replicate c.blanks ' ' ++ c.text)

/-- A comment on a line of its own below a header or a posting. -/
structure Note where
  indent : Str := [' ', ' ']
  comment : Comment
  deriving DecidableEq, Repr

def Note.Ok (n : Note) : Prop := Indent n.indent ∧ n.comment.Ok

instance (n : Note) : Decidable n.Ok := by unfold Note.Ok; infer_instance

def Note.line (n : Note) : Str := n.indent ++ n.comment.written

/-- What may follow an amount on its line (and is dropped by the program): nothing, a blank, or something
separated by two blanks, a tab or a comment character. -/
def Trailer (s : Str) : Prop :=
  s = [] ∨ s = [' '] ∨ s.take 2 = [' ', ' '] ∨
    (∃ c ∈ s.head?, c = ';' ∨ c = '#' ∨ c = '\t') ∨ (s.head? = some ' ' ∧ ∃ c ∈ s.tail.head?, c = ';' ∨ c = '#' ∨ c = '\t')

instance (s : Str) : Decidable (Trailer s) := by unfold Trailer; infer_instance

/-- An amount: the gap after the account name, the commodity, blanks, the number, whatever follows. -/
structure WrittenAmount where
  gap : Str := [' ', ' ']
  commodity : Str := []
  blanks : Str := []
  number : Str
  /-- the number in minor units -/
  quantity : I64
  trailer : Str := []
  deriving DecidableEq, Repr

/-- An amount of this shape, whatever the number is. -/
def WrittenAmount.Shape [U : Unicode] (a : WrittenAmount) : Prop :=
  Indent a.gap ∧
  StartsInk a.commodity ∧ (∀ c ∈ a.commodity, isCommodityChar c = true) ∧
  (∀ c ∈ a.blanks, c = ' ' ∨ c = '\t') ∧ (a.commodity = [] → a.blanks = []) ∧
  (∃ c ∈ a.number.head?, U.isNumber c = true ∨ c = '-' ∨ c = '+') ∧ FieldText a.number ∧ Trailer a.trailer

instance [Unicode] (a : WrittenAmount) : Decidable a.Shape := by unfold WrittenAmount.Shape; infer_instance

def WrittenAmount.Ok [U : Unicode] (a : WrittenAmount) : Prop :=
  Indent a.gap ∧
  StartsInk a.commodity ∧ (∀ c ∈ a.commodity, isCommodityChar c = true) ∧
  (∀ c ∈ a.blanks, c = ' ' ∨ c = '\t') ∧ (a.commodity = [] → a.blanks = []) ∧
  (∃ c ∈ a.number.head?, U.isNumber c = true ∨ c = '-' ∨ c = '+') ∧ FieldText a.number ∧
  parseAmount a.number = .ok a.quantity ∧ Trailer a.trailer

instance [Unicode] (a : WrittenAmount) : Decidable a.Ok := by unfold WrittenAmount.Ok; infer_instance

def WrittenAmount.written (a : WrittenAmount) : Str := a.gap ++ (a.commodity ++ (a.blanks ++ (a.number ++ a.trailer)))

/-- The amount meant; blanks between commodity and number are kept as one. -/
def WrittenAmount.meaning (a : WrittenAmount) : Amount :=
  ⟨if a.blanks = [] then a.commodity else a.commodity ++ [' '], a.quantity⟩

/-- A posting line and the notes below it. -/
structure WrittenPosting where
  indent : Str := [' ', ' ']
  account : Str
  amount : Option WrittenAmount := none
  notes : List Note := []
  deriving DecidableEq, Repr

/-- An account name begins with a letter and contains single blanks only. -/
def AccountText [U : Unicode] (s : Str) : Prop := (∃ c ∈ s.head?, U.isLetter c = true) ∧ OneBlank s

instance [Unicode] (s : Str) : Decidable (AccountText s) := by unfold AccountText; infer_instance

def WrittenPosting.Ok [Unicode] (p : WrittenPosting) : Prop :=
  Indent p.indent ∧ AccountText p.account ∧ (∀ a ∈ p.amount, a.Ok) ∧ ∀ n ∈ p.notes, n.Ok

instance [Unicode] (p : WrittenPosting) : Decidable p.Ok := by unfold WrittenPosting.Ok; infer_instance

def WrittenPosting.line (p : WrittenPosting) : Str :=
  p.indent ++ (p.account ++ (p.amount.map WrittenAmount.written).getD [])

def WrittenPosting.lines (p : WrittenPosting) : List Str := p.line :: p.notes.map Note.line

/-- The posting meant. -/
def WrittenPosting.meaning (p : WrittenPosting) : Posting where
  linked := true
  comments := p.notes.map (·.comment.text)
  accountPath := p.account
  amount := p.amount.map WrittenAmount.meaning

/-- A header line: date, state, payee, note. -/
structure Header where
  date : Str
  /-- the day it names -/
  day : Date
  gap : Str := [' ']
  state : TransactionState := .noState
  gap2 : Str := []
  payee : Str := []
  /-- the gap before the note, and the note -/
  note : Option (Str × Comment) := none
  deriving DecidableEq, Repr

def TransactionState.mark : TransactionState → Str
  | .noState => []
  | .uncleared => ['!']
  | .cleared => ['*']

def Header.Ok [U : Unicode] (h : Header) : Prop :=
  (∃ c ∈ h.date.head?, U.isNumber c = true) ∧ ' ' ∉ h.date ∧ parseDate h.date = .ok h.day ∧
  White h.gap ∧ (h.gap.head? = some ' ' ∨ h.gap = [] ∧ h.state = .noState ∧ h.payee = []) ∧
  White h.gap2 ∧ (h.state = .noState → h.gap2 = [] ∧ h.payee.head? ≠ some '!' ∧ h.payee.head? ≠ some '*') ∧
  FieldText h.payee ∧ StartsInk h.payee ∧
  (∀ n ∈ h.note, h.payee ≠ [] ∧ n.2.Ok ∧ (n.1.head? = some '\t' ∨ n.1.take 2 = [' ', ' ']) ∧ ∀ c ∈ n.1.tail, c = ' ')

instance [Unicode] (h : Header) : Decidable h.Ok := by unfold Header.Ok; infer_instance

def Header.line (h : Header) : Str :=
  h.date ++ (h.gap ++ (h.state.mark ++ (h.gap2 ++ (h.payee ++ (h.note.map fun n => n.1 ++ n.2.written).getD []))))

/-- The transaction a header line begins. -/
def Header.meaning (h : Header) : Transaction where
  date := h.day
  state := h.state
  payee := h.payee
  headerNote := (h.note.map (·.2.text)).getD []

/-- An entry: a header, notes, postings. -/
structure Entry where
  header : Header
  notes : List Note := []
  postings : List WrittenPosting
  deriving DecidableEq, Repr

def Entry.Ok [Unicode] (e : Entry) : Prop := e.header.Ok ∧ (∀ n ∈ e.notes, n.Ok) ∧ ∀ p ∈ e.postings, p.Ok

instance [Unicode] (e : Entry) : Decidable e.Ok := by unfold Entry.Ok; infer_instance

def Entry.lines (e : Entry) : List Str :=
  e.header.line :: (e.notes.map Note.line ++ e.postings.flatMap WrittenPosting.lines)

/-- The transaction meant, without its postings. -/
def Entry.heading (e : Entry) : Transaction := { e.header.meaning with notes := e.notes.map (·.comment.text) }

/-- The postings meant, amounts as written. -/
def Entry.body (e : Entry) : List Posting := e.postings.map WrittenPosting.meaning

/-- The postings with the missing amount filled in: minus the sum of the others, in the last commodity written.
(If the others sum to zero nothing is filled in.) -/
def inferred (ps : List Posting) : List Posting :=
  if (ps.map Posting.value).sum = 0 then ps
  else ps.map fun p =>
    if p.amount = none then { p with amount := some ⟨lastCommodity ps, -(ps.map Posting.value).sum⟩ } else p

/-- The transaction with these postings, as delivered. -/
def Transaction.complete (t : Transaction) (ps : List Posting) : Transaction :=
  { t with postings := inferred ps, elided := ps.findIdx? fun p => p.amount = none }

/-- At most one amount is missing, and if none is the amounts sum to zero. -/
def Closes (ps : List Posting) : Prop :=
  ps ≠ [] ∧ (ps.filter fun p => p.amount = none).length ≤ 1 ∧
    ((∀ p ∈ ps, p.amount ≠ none) → (ps.map Posting.value).sum = 0)

instance (ps : List Posting) : Decidable (Closes ps) := by unfold Closes; infer_instance

/-- The postings without the surplus ones: of those that lack an amount only the first. -/
def kept : List Posting → List Posting
  | [] => []
  | p :: ps => if p.amount = none then p :: ps.filter (fun q => q.amount ≠ none) else p :: kept ps

/-- A budget entry: a tilde, a gap, a period, postings. -/
structure BudgetEntry where
  gap : Str := [' ']
  period : Str
  postings : List WrittenPosting
  deriving DecidableEq, Repr

/-- Every posting of a budget entry has an amount; the source posting is not written. -/
def BudgetEntry.Ok [Unicode] (b : BudgetEntry) : Prop :=
  White b.gap ∧ 0 < blankWidth b.gap ∧ FieldText b.period ∧ StartsInk b.period ∧ b.postings ≠ [] ∧ (∀ p ∈ b.postings, p.Ok) ∧
  ∀ p ∈ b.postings, p.amount ≠ none ∧ p.account ≠ budgetRootID

instance [Unicode] (b : BudgetEntry) : Decidable b.Ok := by unfold BudgetEntry.Ok; infer_instance

def BudgetEntry.lines (b : BudgetEntry) : List Str :=
  ('~' :: (b.gap ++ b.period)) :: b.postings.flatMap WrittenPosting.lines

/-- The postings meant: those written and one from the funds to be budgeted. -/
def BudgetEntry.body (b : BudgetEntry) : List Posting :=
  b.postings.map WrittenPosting.meaning ++ [{ linked := true, accountPath := budgetRootID }]

/-- What stands in a journal. -/
inductive Paragraph
  | entry (e : Entry)
  | budget (b : BudgetEntry)
  deriving DecidableEq, Repr

def Paragraph.Ok [Unicode] : Paragraph → Prop
  | .entry e => e.Ok ∧ Closes e.body
  | .budget b => b.Ok

instance [Unicode] (p : Paragraph) : Decidable p.Ok := by
  cases p <;> unfold Paragraph.Ok <;> infer_instance

def Paragraph.lines : Paragraph → List Str
  | .entry e => e.lines
  | .budget b => b.lines

/-- The handler call a paragraph of a file stands for. -/
def Paragraph.call (file : Str) : Paragraph → Call
  | .entry e => .normal (e.heading.complete e.body) file
  | .budget b => .periodic ⟨parsePeriod b.period, Transaction.complete {} b.body⟩ file

/-- The lines of a journal: paragraphs, each followed by blank lines (one more than the number given). -/
def journalLines (ps : List (Paragraph × Nat)) : List Str :=
  ps.flatMap fun p => p.1.lines ++ List.replicate (p.2 + 1) []

/-- A journal file. -/
def journalText (ps : List (Paragraph × Nat)) : List UInt8 := textOf [10] ((journalLines ps).map encode)

end Gledger
