/-
Basic vocabulary of the model: strings, int64, failures.
-/
import Mathlib.Data.BitVec

namespace Gledger

/-- A Go `string` or `[]rune` handled by the program, as its runes.
Go strings are UTF-8 bytes; every string the program stores comes from `string([]rune)`
(parser/transactionbuilder.go:69-119, parser/parser.go:65), whose runes are Unicode scalar values,
so the list of runes determines the bytes and vice versa. -/
abbrev Str := List Char

/-- Go `int64`, with wrap-around arithmetic (journal/amount.go:10). -/
abbrev I64 := BitVec 64

/-- A string literal as runes. -/
abbrev str (s : String) : Str := s.toList

/-- The run-time panics the code can raise. -/
inductive Panic
  /-- index out of range, e.g. `content[4]` (parser/parser.go:126), `content[0]` (parser/parser.go:146) -/
  | indexOutOfRange
  /-- nil pointer dereference, e.g. `tb.currentPosting.AccountPath` (parser/transactionbuilder.go:72) -/
  | nilDereference
  /-- explicit `panic(...)` (journal/budget.go:64) -/
  | explicit
  /-- a command's handler is given a posting it cannot use: the amount is nil (nil pointer dereference, e.g. journal/journal.go:95,
  cmd/stats.go:104) or an expense has no category (index out of range, journal/account.go:129, from journal/budget.go:90). Which of them comes
  first can depend on the order of a map, and shows on standard error only. -/
  | unusablePosting
  deriving DecidableEq, Repr

/-- parser/lexer.go:21-34 -/
inductive ItemType
  | emptyLineItem | includeItem | dateItem | stateItem | payeeItem | accountItem
  | commodityItem | amountItem | commentItem | transactionHeaderCommentItem | periodItem | eofItem
  deriving DecidableEq, Repr

/-- The error values the code returns; one constructor per `errors.New`/`fmt.Errorf`. -/
inductive Err
  /-- "cannot have more than one posting with an elided amount" (journal/transaction.go:83) -/
  | tooManyElided
  /-- "transaction does not balance" (journal/transaction.go:113) -/
  | unbalanced
  /-- "unexpected line type during lexing" (parser/lexer.go:158) -/
  | unexpectedLine
  /-- "unexpected directive: ..." (parser/lexer.go:163) -/
  | unexpectedDirective (d : Str)
  /-- "could not lex include directive" (parser/lexer.go:167,173) -/
  | badInclude
  /-- "not enough spaces following ~" (parser/lexer.go:187) -/
  | tildeSpaces
  /-- "not enough spaces following account" (parser/lexer.go:255) -/
  | accountSpaces
  /-- "date is malformed: ..." (parser/parser.go:134) -/
  | dateMalformed (s : Str)
  /-- error returned by `time.Parse` (parser/parser.go:138) -/
  | timeParse (s : Str)
  /-- error returned by `strconv.ParseInt`/`Atoi` (parser/parser.go:176) -/
  | number (s : Str)
  /-- "could not parse year" (parser/dates.go:52) -/
  | badYear (s : Str)
  /-- "unhandled number of smart date components" (parser/dates.go:46) -/
  | smartDateComponents
  /-- "expected ... but got ..." (parser/transactionbuilder.go:85,98,109,122,132) -/
  | expected (item : ItemType)
  /-- error of `os.Open` (parser/parser.go:72) -/
  | openFile (path : Str)
  /-- error of reading an open file, other than "EOF" (parser/lexer.go:92) -/
  | readFile (text : Str)
  /-- error of `regexp.Compile` (reporting/filter.go:50) -/
  | regexp (pattern : Str)
  /-- an error produced by a caller's handler -/
  | handler (n : Nat)
  /-- "error parsing date\n%w" (parser/parser.go:97) -/
  | parsingDate (e : Err)
  /-- "error parsing period\n%w" (parser/parser.go:108) -/
  | parsingPeriod (e : Err)
  /-- "error parsing amount: %w" (parser/transactionbuilder.go:141) -/
  | parsingAmount (e : Err)
  /-- "%s:%d\n%w" (parser/lexer.go:106) -/
  | atLine (file : Str) (line : Nat) (e : Err)
  /-- "error at %w" (parser/parser.go:47,81) -/
  | errorAt (e : Err)
  deriving DecidableEq, Repr

/-- How a computation can fail to complete: with an error value, with a panic, or by
`log.Fatalln` (parser/lexer.go:95). -/
inductive Failure
  | err (e : Err)
  | panic (p : Panic)
  | fatal
  deriving DecidableEq, Repr

/-- Wrap an error value (`fmt.Errorf("...%w", err)`); panics and fatal exits propagate untouched. -/
def Failure.wrap (f : Err → Err) : Failure → Failure
  | .err e => .err (f e)
  | .panic p => .panic p
  | .fatal => .fatal

/-- The result of a Go method that mutates its receiver and returns an error:
the new state together with the failure, if any. -/
abbrev Step (S : Type) := S × Option Failure

/-- `if err := a(); err != nil { return err }; b()` -/
def Step.andThen {S : Type} (a : Step S) (b : S → Step S) : Step S :=
  match a with
  | (s, none) => b s
  | (s, some f) => (s, some f)

/-- Rewrap a failure, keeping the state. -/
def Step.wrap {S : Type} (f : Err → Err) (a : Step S) : Step S :=
  (a.1, a.2.map (Failure.wrap f))

/-- `strings.Split(s, sep)` for a one-character separator (journal/journal.go:79, journal/budget.go:83,
parser/dates.go:23). Never returns the empty list. -/
def split (sep : Char) : Str → List Str
  | [] => [[]]
  | c :: cs =>
    if c = sep then [] :: split sep cs
    else match split sep cs with
      | [] => [[c]]
      | w :: ws => (c :: w) :: ws

/-- Decimal digit test, `'0' <= c && c <= '9'`, as used by `time.Parse` and `strconv`. -/
def isDigit (c : Char) : Bool := 48 ≤ c.toNat && c.toNat ≤ 57

/-- Value of a decimal digit. -/
def digitVal (c : Char) : Nat := c.toNat - 48

end Gledger
