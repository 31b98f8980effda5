/-
Specification: the meaning of a journal, whatever bytes it is made of. Line by line: what is open, what each line does to it, which paragraphs
are complete, and how reading ends.
-/
import Verif.Spec.Lines

namespace Gledger

/-- What a paragraph of a journal means: a transaction, or amounts assigned to categories for a month (the first of which is given). -/
inductive Meant
  | transaction (t : Transaction)
  | budget (month : Date) (ps : List Posting)

/-- How the program ends at a mistake. -/
inductive Report
  /-- it names the include directives that lead to the file with the mistake, the place there (if any), and gives a reason -/
  | message (via : List (Str × Nat)) (place : Option (Str × Nat)) (reason : Str → Prop)
  /-- it crashes -/
  | crashes (p : Panic)
  /-- it exits with status 1 -/
  | quits

/-- The same mistake, in a file that is included in that line of another file. -/
def Report.within (path : Str) (n : Nat) : Report → Report
  | .message via place reason => .message ((path, n) :: via) place reason
  | r => r

/-- The reasons given for lines of no known kind. -/
def unknownReason : Err → Str
  | .unexpectedDirective d => str "unexpected directive: " ++ d
  | .badInclude => str "could not lex include directive"
  | .tildeSpaces => str "not enough spaces following ~"
  | _ => str "unexpected line type during lexing"

/-- The texts taken for a number, and the number of hundredths: the whole part in hundredths plus the number after the point, however many
digits it has, modulo 2^64. -/
def NumberMeans (s : Str) (q : I64) : Prop :=
  ∃ (g g' : Sign) (w : Str), (g = .absent → g' = .absent) ∧ Digits w ∧ Int64Range (g'.apply (decimalValue w)) ∧
    ((s = g.text ++ (g'.text ++ w) ∧ q = BitVec.ofInt 64 (g.apply (g'.apply (decimalValue w) * 100))) ∨
      ∃ (g'' : Sign) (f : Str), Digits f ∧ Int64Range (g''.apply (decimalValue f)) ∧ s = g.text ++ (g'.text ++ w ++ '.' :: (g''.text ++ f)) ∧
        q = BitVec.ofInt 64 (g.apply (g'.apply (decimalValue w) * 100 + g''.apply (decimalValue f))))

/-- What is open between two lines. -/
inductive Page
  /-- nothing; and whether there has been an entry before -/
  | closed (begun : Bool)
  /-- an entry, with its postings so far -/
  | entry (heading : Transaction) (ps : List Posting)
  /-- a budget entry for the month that begins on this day -/
  | budget (month : Date) (ps : List Posting)

/-- The postings of an entry. One without postings counts as having one, without account and amount. -/
def Page.postings : Page → List Posting
  | .closed _ => []
  | .entry _ ps => if ps = [] then [{ linked := true }] else ps
  | .budget _ ps => if ps = [] then [{}] else ps

/-- The postings that are kept: of those without an amount only the first. A budget entry is given one more posting, to the root of the
budget, unless one of these is. -/
def Page.kept : Page → List Posting
  | .closed _ => []
  | .entry h ps => Gledger.kept (Page.entry h ps).postings
  | .budget m ps =>
    if ∃ p ∈ Gledger.kept (Page.budget m ps).postings, p.accountPath = budgetRootID then Gledger.kept (Page.budget m ps).postings
    else Gledger.kept ((Page.budget m ps).postings ++ [{ linked := true, accountPath := budgetRootID }])

/-- What is complete when the page ends. -/
def Page.meaning : Page → List Meant
  | .closed _ => []
  | .entry h ps => [.transaction (h.complete (Page.entry h ps).kept)]
  | .budget m ps => [.budget m (inferred (Page.budget m ps).kept)]

/-- The last amount is missing, and another one. -/
def TwoMissing (ps : List Posting) : Prop := ∃ qs q, ps = qs ++ [q] ∧ q.amount = none ∧ ∃ p ∈ qs, p.amount = none

/-- No amount is missing, and the amounts do not sum to zero. -/
def Unbalanced (ps : List Posting) : Prop := (∀ p ∈ ps, p.amount ≠ none) ∧ (ps.map Posting.value).sum ≠ 0

/-- The end of what is open: it is complete, or there is something wrong with it. -/
inductive Page.Ends : Page → Except Str (List Meant) → Prop
  | complete {pg} : ¬ TwoMissing pg.postings → ¬ Unbalanced pg.kept → Ends pg (.ok pg.meaning)
  | missing {pg} : TwoMissing pg.postings → Ends pg (.error (str "cannot have more than one posting with an elided amount"))
  | unbalanced {pg} : ¬ TwoMissing pg.postings → Unbalanced pg.kept → Ends pg (.error (str "transaction does not balance"))

/-- What is open afterwards. -/
def Page.shut : Page → Page
  | .closed begun => .closed begun
  | _ => .closed true

/-- One more posting in the open entry. -/
def Page.add (p : Posting) : Page → Page
  | .closed b => .closed b
  | .entry h ps => .entry h (ps ++ [p])
  | .budget m ps => .budget m (ps ++ [p])

/-- Nothing is open. -/
def Page.Closed (pg : Page) : Prop := ∃ b, pg = .closed b

/-- What goes wrong at a line: an error for this reason, or a crash. -/
inductive Fault
  | error (reason : Str → Prop)
  | crash (p : Panic)

/-- Lines at which the open entry ends. -/
def Line.Ending : Line → Prop
  | .blank => True
  | .header _ _ _ _ => True
  | .budget _ => True
  | _ => False

/-- What a line (other than an include directive) does: the paragraphs that are complete, and what is open then or what goes wrong. -/
inductive Effect : Page → Line → List Meant → Except Fault Page → Prop
  | passed {pg} : Effect pg .passed [] (.ok pg)
  | unknown {pg e} : Effect pg (.unknown e) [] (.error (.error (· = unknownReason e)))
  /-- the entry cannot end here -/
  | wrong {pg L r} : L.Ending → pg.Ends (.error r) → Effect pg L [] (.error (.error (· = r)))
  | blank {pg ms} : pg.Ends (.ok ms) → Effect pg .blank ms (.ok pg.shut)
  | header {pg ms date state payee note sep day} : pg.Ends (.ok ms) → Separator sep → WrittenYMD sep date day → day.Real →
      Effect pg (.header date state payee note) ms (.ok (.entry { date := day, state := state, payee := payee, headerNote := note } []))
  | badDate {pg ms date state payee note} : pg.Ends (.ok ms) → ¬ ReadableDate date → 5 ≤ date.length →
      Effect pg (.header date state payee note) ms (.error (.error (str "error parsing date\n" <+: ·)))
  | shortDate {pg ms date state payee note} : pg.Ends (.ok ms) → date.length < 5 →
      Effect pg (.header date state payee note) ms (.error (.crash .indexOutOfRange))
  | budget {pg ms period month} : pg.Ends (.ok ms) → WrittenYM '-' period month → month.Real → Effect pg (.budget period) ms (.ok (.budget month []))
  /-- a period that cannot be read is taken for the first month there is -/
  | badPeriod {pg ms period} : pg.Ends (.ok ms) → (∀ month : Date, month.Real → ¬ WrittenYM '-' period month) →
      Effect pg (.budget period) ms (.ok (.budget ⟨1, 1, 1⟩ []))
  | entryNote {h text} : Effect (.entry h []) (.note text) [] (.ok (.entry { h with notes := h.notes ++ [text] } []))
  | postingNote {h ps p text} : Effect (.entry h (ps ++ [p])) (.note text) [] (.ok (.entry h (ps ++ [{ p with comments := p.comments ++ [text] }])))
  | budgetNote {m ps p text} : Effect (.budget m (ps ++ [p])) (.note text) [] (.ok (.budget m (ps ++ [{ p with comments := p.comments ++ [text] }])))
  /-- a note that belongs to nothing -/
  | strayNote {pg text} : pg.Closed ∨ (∃ m, pg = .budget m []) → Effect pg (.note text) [] (.error (.crash .nilDereference))
  | posting {pg account} : ¬ pg.Closed → Effect pg (.posting account none) [] (.ok (pg.add { linked := true, accountPath := account }))
  | amount {pg account commodity number q} : ¬ pg.Closed → NumberMeans number q →
      Effect pg (.posting account (some (commodity, number))) [] (.ok (pg.add { linked := true, accountPath := account, amount := some ⟨commodity, q⟩ }))
  | badAmount {pg account commodity number} : ¬ pg.Closed → number ≠ [] → (∀ q, ¬ NumberMeans number q) →
      Effect pg (.posting account (some (commodity, number))) [] (.error (.error (str "error parsing amount: " <+: ·)))
  | noAmount {pg account commodity} : ¬ pg.Closed → Effect pg (.posting account (some (commodity, []))) [] (.error (.crash .indexOutOfRange))
  /-- a posting before all entries -/
  | firstPosting {account amount} : Effect (.closed false) (.posting account amount) [] (.error (.error (· = str "expected account but got accountItem")))
  /-- a posting that belongs to nothing, later -/
  | strayPosting {account amount} : Effect (.closed true) (.posting account amount) [] (.error (.crash .nilDereference))

/-- The first line of a file, as characters (nothing if it does not fit the buffer), and the rest. A carriage return before the newline does
not belong to it. -/
inductive FirstLine : List UInt8 → Option Str → List UInt8 → Prop
  | lf {l r} : (10 : UInt8) ∉ l → l.length < 4096 → l.getLast? ≠ some 13 → FirstLine (l ++ 10 :: r) (some (runes l)) r
  | crlf {l r} : (10 : UInt8) ∉ l → l.length < 4095 → FirstLine (l ++ 13 :: 10 :: r) (some (runes l)) r
  /-- the last line, not ended by a newline -/
  | last {l} : l ≠ [] → (10 : UInt8) ∉ l → l.length < 4096 → FirstLine l (some (runes l)) []
  | long {l r} : (10 : UInt8) ∉ l → 4096 ≤ l.length → r = [] ∨ r.head? = some 10 → FirstLine (l ++ r) none r

/-- What is reported about a fault in that line of that file. -/
def Fault.report (path : Str) (n : Nat) : Fault → Report
  | .error reason => .message [] (some (path, n)) reason
  | .crash p => .crashes p

/-- Paragraphs attributed to a file. -/
def labelled (label : Str) (ms : List Meant) : List (Meant × Str) := ms.map fun x => (x, label)

/-- The course of reading the file at `path` from its line `n` on, `pg` being open: the paragraphs that are complete, in order, with the files
they are attributed to, and what is open at the end, or what is reported. `opens` more files can be opened. Paragraphs are attributed
to `label`: to the file they end in, but after an include directive to the root. What is open when a file is included stays open. -/
inductive Course [Unicode] (fs : FileSystem) (lib : Err → Str) (root : Str) : (opens : Nat) → (path label : Str) → (n : Nat) → Page → List UInt8 →
    List (Meant × Str) → Except Report Page → Prop
  | done {k path label n pg ms} : pg.Ends (.ok ms) → Course fs lib root k path label n pg [] (labelled label ms) (.ok pg.shut)
  /-- an error at the end of the file: no line is named -/
  | wrong {k path label n pg r} : pg.Ends (.error r) → Course fs lib root k path label n pg [] [] (.error (.message [] none (· = r)))
  | long {k path label n pg bytes rest} : FirstLine bytes none rest → Course fs lib root k path label n pg bytes [] (.error .quits)
  | line {k path label n pg bytes l rest L ms pg' js out} : FirstLine bytes (some l) rest → LineIs l L → Effect pg L ms (.ok pg') →
      Course fs lib root k path label (n + 1) pg' rest js out → Course fs lib root k path label n pg bytes (labelled label ms ++ js) out
  | fault {k path label n pg bytes l rest L ms f} : FirstLine bytes (some l) rest → LineIs l L → Effect pg L ms (.error f) →
      Course fs lib root k path label n pg bytes (labelled label ms) (.error (f.report path n))
  /-- a file that does not exist, or too many open files -/
  | missing {k path label n pg bytes l rest name} : FirstLine bytes (some l) rest → LineIs l (.inclusion name) →
      fs (splitDir path ++ name) = none ∨ k = 0 →
      Course fs lib root k path label n pg bytes [] (.error (.message [] (some (path, n)) (· = lib (.openFile (splitDir path ++ name)))))
  | includes {k path label n pg bytes l rest name b js pg' js' out} : FirstLine bytes (some l) rest → LineIs l (.inclusion name) →
      fs (splitDir path ++ name) = some b →
      Course fs lib root k (splitDir path ++ name) (splitDir path ++ name) 1 pg b js (.ok pg') →
      Course fs lib root (k + 1) path root (n + 1) pg' rest js' out → Course fs lib root (k + 1) path label n pg bytes (js ++ js') out
  | within {k path label n pg bytes l rest name b js rep} : FirstLine bytes (some l) rest → LineIs l (.inclusion name) →
      fs (splitDir path ++ name) = some b →
      Course fs lib root k (splitDir path ++ name) (splitDir path ++ name) 1 pg b js (.error rep) →
      Course fs lib root (k + 1) path label n pg bytes js (.error (rep.within path n))

/-- Reading a journal from the beginning. -/
def Reading [Unicode] (fs : FileSystem) (lib : Err → Str) (opens : Nat) (path : Str) (bytes : List UInt8) (js : List (Meant × Str))
    (out : Except Report Page) : Prop :=
  Course fs lib path opens path path 1 (.closed false) bytes js out

end Gledger
