/-
Specification: what a journal means and what the program has to answer, from the bytes of the file to the text printed. Numbers, dates and
flags are described by how they are written; no function of the parser occurs.
-/
import Verif.Spec.Journals
import Verif.Props.Arguments
import Verif.Props.StatsText
import Verif.Props.Stops
import Verif.Props.Flags
import Verif.Props.BalanceText
import Verif.Props.Sources

namespace Gledger

/-- An amount written as a decimal numeral, without a fraction or with two places, and its value in hundredths. -/
def WrittenAmount.Spelled [Unicode] (a : WrittenAmount) : Prop :=
  a.Shape ∧ ∃ n : Numeral, a.number = n.text ∧ n.Ok ∧ n.Money ∧ Int64Range n.hundredths ∧ a.quantity.toInt = n.hundredths

def WrittenPosting.Spelled [Unicode] (p : WrittenPosting) : Prop :=
  Indent p.indent ∧ AccountText p.account ∧ (∀ a ∈ p.amount, a.Spelled) ∧ ∀ n ∈ p.notes, n.Ok

/-- A header that begins with a day, written YYYY-MM-DD, YYYY.MM.DD or YYYY/MM/DD. -/
def Header.Spelled [Unicode] (h : Header) : Prop :=
  (∃ sep, Separator sep ∧ WrittenYMD sep h.date h.day) ∧ h.day.Real ∧
  White h.gap ∧ (h.gap.head? = some ' ' ∨ h.gap = [] ∧ h.state = .noState ∧ h.payee = []) ∧
  White h.gap2 ∧ (h.state = .noState → h.gap2 = [] ∧ h.payee.head? ≠ some '!' ∧ h.payee.head? ≠ some '*') ∧
  FieldText h.payee ∧ StartsInk h.payee ∧
  (∀ n ∈ h.note, h.payee ≠ [] ∧ n.2.Ok ∧ (n.1.head? = some '\t' ∨ n.1.take 2 = [' ', ' ']) ∧ ∀ c ∈ n.1.tail, c = ' ')

/-- The paragraph is well-formed and this is its meaning. -/
def Paragraph.Means [Unicode] : Paragraph → Meant → Prop
  | .entry e, .transaction t =>
    e.header.Spelled ∧ (∀ n ∈ e.notes, n.Ok) ∧ (∀ p ∈ e.postings, p.Spelled) ∧ Closes e.body ∧ t = e.heading.complete e.body
  | .budget b, .budget month ps =>
    White b.gap ∧ 0 < blankWidth b.gap ∧ WrittenYM '-' b.period month ∧ month.Real ∧ b.postings ≠ [] ∧ (∀ p ∈ b.postings, p.Spelled) ∧
    (∀ p ∈ b.postings, p.amount ≠ none ∧ p.account ≠ budgetRootID) ∧ ps = inferred b.body
  | _, _ => False

/-- How the lines `a` of the file at `path` are read: these are the paragraphs in them and in the files they include, in order, with their meanings
and the files they are attributed to. Each paragraph is followed by a blank line; comment lines and further blank lines may come between
paragraphs. `open` more files can be opened. Paragraphs are attributed to `label` at first and to `label'` at the end: to the file
they are in, but after an include directive to the root. -/
inductive Reads [Unicode] (fs : FileSystem) (root : Str) : (opens : Nat) → (path label : Str) → (a : List UInt8) → List (Meant × Str) → (label' : Str) → Prop
  | done {n path label} : Reads fs root n path label [] [] label
  | blank {n path label nl a ms label'} : BlankLine nl → Reads fs root n path label a ms label' → Reads fs root n path label (nl ++ a) ms label'
  | comment {n path label c a ms label'} : (c.head? = some 59 ∨ c.head? = some 35) → (10 : UInt8) ∉ c → c.length < 4096 →
      Reads fs root n path label a ms label' → Reads fs root n path label (c ++ 10 :: a) ms label'
  | paragraph {n path label p x nl nl' a ms label'} : Paragraph.Means p x → Fits p.lines → BlankLine nl → BlankLine nl' →
      Reads fs root n path label a ms label' → Reads fs root n path label (textOf nl (p.lines.map encode) ++ (nl' ++ a)) ((x, label) :: ms) label'
  | includes {n path label l name b ms₁ last a ms₂ label'} : IncludeLine l name → fs (splitDir path ++ name) = some b →
      Reads fs root n (splitDir path ++ name) (splitDir path ++ name) b ms₁ last → Reads fs root (n + 1) path root a ms₂ label' →
      Reads fs root (n + 1) path label (l ++ 10 :: a) (ms₁ ++ ms₂) label'

/-- What the paragraphs of a journal mean, without the files. -/
def meanings (js : List (Meant × Str)) : List Meant := js.map Prod.fst

/-- The transactions of a journal with the files they are attributed to. -/
def attributed (js : List (Meant × Str)) : List (Transaction × Str) :=
  js.filterMap fun
    | (.transaction t, f) => some (t, f)
    | (.budget _ _, _) => none

/-- The transactions among the meanings. -/
def transactionsOf (ms : List Meant) : List Transaction :=
  ms.filterMap fun
    | .transaction t => some t
    | .budget _ _ => none

/-- The transactions on days that are asked for. -/
def asked (admits : Date → Bool) (ms : List Meant) : List Transaction := (transactionsOf ms).filter fun t => admits t.date

/-- The transactions some filter lets through (all if there is none). -/
def WantedBy (filters : List Filter) (t : Transaction) : Prop := WholeSelected filters t ∨ ∃ p ∈ t.postings, ∃ f ∈ filters, f.Takes p

instance (filters : List Filter) (t : Transaction) : Decidable (WantedBy filters t) := by unfold WantedBy; infer_instance

/-- The transactions asked for that some filter lets through, with the files they are attributed to. -/
def wantedIn (filters : List Filter) (admits : Date → Bool) (js : List (Meant × Str)) : List (Transaction × Str) :=
  (attributed js).filter fun tf => admits tf.1.date ∧ WantedBy filters tf.1

/-- The postings asked for. -/
def askedPostings (filters : List Filter) (admits : Date → Bool) (ms : List Meant) : List Posting :=
  (asked admits ms).flatMap (selection filters)

/-- The postings of a paragraph that belong in the budget. -/
def Meant.filed (filters : List Filter) (admits : Date → Bool) : Meant → List Filed
  | .transaction t => (if admits t.date = true then selection filters t else []).filterMap fun p =>
      if p.components.headD [] = expensesID then some ⟨t.date, p, .expense⟩
      else if p.components.headD [] = incomeID then some ⟨t.date, p, .income⟩
      else none
  | .budget month ps => ps.map fun p => ⟨month, p, .envelope⟩

/-- The postings taken from a transaction in the order in which they are taken: the order in which they are written if the whole
transaction is selected, some order otherwise. -/
def Taken (filters : List Filter) (qs : List Posting) (t : Transaction) : Prop :=
  qs.Perm (selection filters t) ∧ (WholeSelected filters t → qs = t.postings)

/-- The same for what belongs in the budget. -/
def Meant.FiledAs (filters : List Filter) (admits : Date → Bool) (xs : List Filed) : Meant → Prop
  | .transaction t => xs.Perm ((Meant.transaction t).filed filters admits) ∧ (WholeSelected filters t → xs = (Meant.transaction t).filed filters admits)
  | .budget month ps => xs = (Meant.budget month ps).filed filters admits

/-- A date flag is not given, or spells this day: as a smart date, or as a year of three digits with a sign. -/
def FlagSpells (year : Nat) (flag : Str) (d : Option Date) : Prop :=
  (flag = [] ∧ d = none) ∨ ((1000 ≤ year ∧ year ≤ 9999) ∧ ∃ x, d = some x ∧ (SmartDate year flag x ∨ SignedYear flag x))

/-- The days the date flags ask for: from the begin day to the day before the end day. Where these begin west of Greenwich: the days after the
begin day, and up to the end day. Without a begin day: from the year 1. The end day 0001-01-01 (in Greenwich) is ignored.
With `--current`: from the year 1 up to the day (in Greenwich) on which the local clock shows the same time of day again (up to the day before, if it is the
very beginning of that day). -/
def DaysAsked (m : Machine) (o : Options) (admits : Date → Bool) : Prop :=
  (o.current = false ∧ (∀ d, -nsPerDay < m.offset d ∧ m.offset d < nsPerDay) ∧
    ∃ b n, FlagSpells m.nowYear o.beginDate b ∧ FlagSpells m.nowYear o.endDate n ∧ ∀ d, admits d = true ↔
      (b = none → 1 ≤ d.year) ∧ (∀ x ∈ b, if 0 ≤ m.offset x then ¬ d.Earlier x else x.Earlier d) ∧
      ∀ x ∈ n, (x = ⟨1, 1, 1⟩ ∧ m.offset x = 0) ∨ if 0 ≤ m.offset x then d.Earlier x else ¬ x.Earlier d) ∨
  (o.current = true ∧ m.tomorrow ≠ 0 ∧ ∃ day : Date, day.Real ∧ 1 ≤ day.year ∧ day.instant ≤ m.tomorrow ∧ m.tomorrow < day.instant + nsPerDay ∧
    ∀ d, admits d = true ↔ 1 ≤ d.year ∧ if m.tomorrow = day.instant then d.Earlier day else ¬ day.Earlier d)

/-- Maps are iterated in some order, and sorting sorts. -/
structure Machine.Fair (m : Machine) : Prop where
  postings : ∀ l, (m.postingOrder l).Perm l
  strings : ∀ l, (m.stringOrder l).Perm l
  byDate : SortsByDate m.sortTransactions
  dates : SortsDates m.sortDates

/-- The circumstances of a run: the journal found is this file; the arguments are these filters; and the flags ask for these days. -/
structure Setting [Unicode] (m : Machine) (o : Options) (args : List Str) (bytes : List UInt8) (filters : List Filter) (admits : Date → Bool) (path : Str) :
    Prop where
  fair : m.Fair
  file : (o.file = path ∧ path ≠ []) ∨ (o.file = [] ∧ m.ledgerFile = some path)
  text : m.fs path = some bytes
  filters : List.Forall₂ (IsFilterOf m.engine) args filters
  days : DaysAsked m o admits

/-- What is given: the journal is made of these paragraphs, with these meanings, up to the layout of its files. -/
structure Given [Unicode] (m : Machine) (o : Options) (args : List Str) (bytes : List UInt8) (js : List (Meant × Str)) (filters : List Filter)
    (admits : Date → Bool) (path : Str) : Prop extends Setting m o args bytes filters admits path where
  means : ∃ fs bytes' last, SameLayouts m.fs fs ∧ fs path = some bytes' ∧ Reads fs path m.maxOpen path path bytes' js last

/-- An amount is missing that the command needs. -/
def Command.Short (filters : List Filter) (admits : Date → Bool) (ms : List Meant) : Command → Prop
  | .balance => ∃ p ∈ askedPostings filters admits ms, p.amount = none
  | .statistics => ∃ p ∈ askedPostings filters admits ms, p.amount = none ∧ (p.components.headD [] = incomeID ∨ p.components.headD [] = expensesID)
  | .budget => ∃ x ∈ ms.flatMap (Meant.filed filters admits), ¬ x.Fileable
  | _ => False

/-- The text is the sorted list of the strings with the property, one to a line. -/
def Lists (P : Str → Prop) (text : Str) : Prop :=
  ∃ L : List Str, L.Pairwise StrLt ∧ (∀ a, a ∈ L ↔ P a) ∧ text = (L.map (· ++ str "\n")).flatten

/-- The pattern an argument stands for if it is taken whole: case does not matter unless it contains an upper case letter. -/
def wholePattern [Unicode] (a : Str) : Str := if ∃ c ∈ a, Unicode.isUpper c = true then a else str "(?i)" ++ a

/-- The answers of the commands about a journal that means `js`, unless an amount is missing that they need. -/
def Command.Answers [Unicode] (m : Machine) (o : Options) (args : List Str) (js : List (Meant × Str)) (filters : List Filter) (admits : Date → Bool)
    (run : Run) : Command → Prop
  -- the accounts of the transactions on the days asked for that some argument matches, sorted
  | .accounts => ∃ text, run = ⟨text, .exit 0⟩ ∧
      Lists (fun a => (∃ t ∈ asked admits (meanings js), ∃ p ∈ t.postings, p.accountPath = a) ∧ (filters = [] ∨ ∃ f ∈ filters, f.regex a = true)) text
  -- the payees of the transactions on the days asked for that some argument matches, sorted; the arguments are taken whole, and the first
  -- of these that is not a pattern is reported
  | .payees => ((∀ a ∈ args, ∃ r, m.engine.compile (wholePattern a) = some r) → ∃ text, run = ⟨text, .exit 0⟩ ∧
        Lists (fun a => (∃ t ∈ asked admits (meanings js), t.payee = a) ∧ (args = [] ∨ PayeeMatch m.engine args a)) text) ∧
      ∀ good bad rest, args = good ++ bad :: rest → (∀ a ∈ good, ∃ r, m.engine.compile (wholePattern a) = some r) →
        m.engine.compile (wholePattern bad) = none → run = ⟨m.lib (.regexp (wholePattern bad)) ++ str "\n", .exit 0⟩
  -- the transactions on the days asked for that some filter lets through, sorted by date
  | .print => ∃ ts : List Transaction, ts.Perm ((asked admits (meanings js)).filter fun t => WantedBy filters t) ∧
      ts.Pairwise (fun a b => a.date.dayNumber ≤ b.date.dayNumber) ∧ run = ⟨(ts.map fun t => t.format ++ str "\n").flatten, .exit 0⟩
  -- first the warnings about mixed commodities, then the report on the postings asked for, in the form asked for
  | .balance => ∃ (qss : List (List Posting)) (text : Str), List.Forall₂ (Taken filters) qss (asked admits (meanings js)) ∧
        BalanceReport o.showZero o.flatten o.collapse qss.flatten text ∧ run = ⟨balanceMixes [] qss.flatten ++ text, .exit 0⟩
  -- first the warnings about mixed commodities, then the report, month by month
  | .budget => ∃ (xss : List (List Filed)) (text : Str), List.Forall₂ (Meant.FiledAs filters admits) xss (meanings js) ∧ BudgetReport xss.flatten text ∧
      run = ⟨budgetMixes [] xss.flatten ++ text, .exit 0⟩
  -- the figures of the transactions on the days asked for that some filter lets through
  | .statistics =>
      let ts := wantedIn filters admits js
      ∃ text, run = ⟨text, .exit 0⟩ ∧
        if ts = [] then text = str "No transactions matched arguments.\n"
        else ∃ f, FiguresOf filters ts f ∧ text = (f.lines m.humanize).flatMap (· ++ str "\n")
  -- (not about a journal)
  | .version => True

end Gledger
