/-
Specification: mistakes in a journal, and what the program has to say about them.
-/
import Verif.Props.Whole
import Verif.Props.Malformed
import Verif.Props.Rejects

namespace Gledger

/-- A file and a line. -/
def placeText (p : Str × Nat) : Str := p.1 ++ str ":" ++ natDigits p.2 ++ str "\n"

/-- What is printed, after the warnings `w`, and how the program exits: also with status 0 when it reports an error. -/
def Report.Shown (w : Str) (run : Run) : Report → Prop
  | .message via place reason => ∃ msg, reason msg ∧
      run = ⟨w ++ (via.flatMap (fun p => str "error at " ++ placeText p) ++ (str "error at " ++ ((place.map placeText).getD [] ++ msg))) ++ str "\n", .exit 0⟩
  | .crashes p => run = ⟨w, .panic p⟩
  | .quits => run = ⟨w, .exit 1⟩

/-- A header and lines below it that can be read. -/
def Entry.Spelled [Unicode] (e : Entry) : Prop := e.header.Spelled ∧ (∀ n ∈ e.notes, n.Ok) ∧ ∀ p ∈ e.postings, p.Spelled

/-- What may come after the last line of an entry: the end of the file (then no line is named), a blank line, or another header. -/
inductive EntryEnd [Unicode] : List UInt8 → Option Nat → Nat → Prop
  | file {n} : EntryEnd [] none n
  | blank {nl r n} : BlankLine nl → EntryEnd (nl ++ r) (some n) n
  | header {l r n} : PlainLine l → HeaderLine l → EntryEnd (l ++ 10 :: r) (some n) n

/-- What follows `n` lines of complete paragraphs begins with a mistake. `opens` more files can be opened; `before` are the paragraphs read
so far, also in other files. -/
inductive Mistake [U : Unicode] (fs : FileSystem) (lib : Err → Str) (opens : Nat) (path : Str) (before : List (Meant × Str)) (n : Nat) :
    List UInt8 → Report → Prop
  /-- a line of no known kind -/
  | unknown {l e r} : UnknownLine l e → PlainLine (encode l) → Mistake fs lib opens path before n (encode l ++ 10 :: r) (.message [] (some (path, n + 1)) (· = unknownReason e))
  /-- a date that is not one -/
  | date {d t r} : (∃ c ∈ d.head?, U.isNumber c = true) → ' ' ∉ d → (t = [] ∨ t.head? = some ' ') → ¬ ReadableDate d → 5 ≤ d.length →
      PlainLine (encode (d ++ t)) → Mistake fs lib opens path before n (encode (d ++ t) ++ 10 :: r) (.message [] (some (path, n + 1)) (str "error parsing date\n" <+: ·))
  /-- a date of fewer than five characters -/
  | shortDate {d t r} : (∃ c ∈ d.head?, U.isNumber c = true) → ' ' ∉ d → (t = [] ∨ t.head? = some ' ') → d.length < 5 →
      PlainLine (encode (d ++ t)) → Mistake fs lib opens path before n (encode (d ++ t) ++ 10 :: r) (.crashes .indexOutOfRange)
  /-- a posting with an amount that is not a number, after any postings -/
  | amount {e : Entry} {ws account r} {a : WrittenAmount} : e.Spelled → Fits e.lines → Indent ws → AccountText account → a.Shape → ¬ ReadableNumber a.number →
      PlainLine (encode (ws ++ (account ++ a.written))) →
      Mistake fs lib opens path before n (textOf [10] (e.lines.map encode) ++ (encode (ws ++ (account ++ a.written)) ++ 10 :: r))
        (.message [] (some (path, n + e.lines.length + 1)) (str "error parsing amount: " <+: ·))
  /-- an entry that does not balance -/
  | unbalanced {e : Entry} {r line} : e.Spelled → Fits e.lines → EntryEnd r line (n + e.lines.length + 1) → (∀ p ∈ e.postings, p.amount ≠ none) →
      (e.body.map Posting.value).sum ≠ 0 → Mistake fs lib opens path before n (textOf [10] (e.lines.map encode) ++ r) (.message [] (line.map (path, ·)) (· = str "transaction does not balance"))
  /-- an entry with two amounts missing, one of them the last -/
  | elided {e : Entry} {r line ps last p} : e.Spelled → Fits e.lines → EntryEnd r line (n + e.lines.length + 1) → e.postings = ps ++ [last] → last.amount = none →
      p ∈ ps → p.amount = none →
      Mistake fs lib opens path before n (textOf [10] (e.lines.map encode) ++ r) (.message [] (line.map (path, ·)) (· = str "cannot have more than one posting with an elided amount"))
  /-- a file that does not exist, or too many open files -/
  | missing {l r name} : IncludeLine l name → fs (splitDir path ++ name) = none ∨ opens = 0 →
      Mistake fs lib opens path before n (l ++ 10 :: r) (.message [] (some (path, n + 1)) (· = lib (.openFile (splitDir path ++ name))))
  /-- a comment that is indented but belongs to nothing -/
  | note {c r} : Note.Ok c → PlainLine (encode c.line) → Mistake fs lib opens path before n (encode c.line ++ 10 :: r) (.crashes .nilDereference)
  /-- a posting before all entries -/
  | firstPosting {p r} : before = [] → WrittenPosting.Spelled p → PlainLine (encode p.line) →
      Mistake fs lib opens path before n (encode p.line ++ 10 :: r) (.message [] (some (path, n + 1)) (· = str "expected account but got accountItem"))
  /-- a posting that belongs to nothing, later -/
  | posting {p r} : before ≠ [] → WrittenPosting.Spelled p → PlainLine (encode p.line) → Mistake fs lib opens path before n (encode p.line ++ 10 :: r) (.crashes .nilDereference)
  /-- a line that is too long -/
  | long {l r} : (10 : UInt8) ∉ l → 4096 ≤ l.length → Mistake fs lib opens path before n (l ++ 10 :: r) .quits

/-- The file at `path` is read up to a mistake in it, or in a file it includes; these are the paragraphs before the mistake. -/
inductive Broken [Unicode] (fs : FileSystem) (lib : Err → Str) (root : Str) : (opens : Nat) → (path : Str) → (before : List (Meant × Str)) → List UInt8 →
    List (Meant × Str) → Report → Prop
  | here {n path before a js label' rest rep} : Reads fs root n path path a js label' → Mistake fs lib n path (before ++ js) (a.count 10) rest rep →
      Broken fs lib root n path before (a ++ rest) js rep
  | inside {n path before a js label' l name b js' rep r} : Reads fs root (n + 1) path path a js label' → IncludeLine l name →
      fs (splitDir path ++ name) = some b → Broken fs lib root n (splitDir path ++ name) (before ++ js) b js' rep →
      Broken fs lib root (n + 1) path before (a ++ (l ++ 10 :: r)) (js ++ js') (rep.within path (a.count 10 + 1))

/-- What is given: as in `Given`, but there is a mistake. -/
structure Begun [Unicode] (m : Machine) (o : Options) (args : List Str) (bytes : List UInt8) (js : List (Meant × Str)) (filters : List Filter)
    (admits : Date → Bool) (path : Str) (rep : Report) : Prop extends Setting m o args bytes filters admits path where
  means : Broken m.fs m.lib path m.maxOpen path [] bytes js rep

/-- What is printed before the mistake is met: the warnings about mixed commodities of `balance` and `budget`. -/
def Command.Warned (filters : List Filter) (admits : Date → Bool) (ms : List Meant) (w : Str) : Command → Prop
  | .balance => ∃ qss : List (List Posting), List.Forall₂ (Taken filters) qss (asked admits ms) ∧ w = balanceMixes [] qss.flatten
  | .budget => ∃ xss : List (List Filed), List.Forall₂ (Meant.FiledAs filters admits) xss ms ∧ w = budgetMixes [] xss.flatten
  | _ => w = []

end Gledger
