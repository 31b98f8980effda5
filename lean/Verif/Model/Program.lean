/-
The program as a whole: cmd/root.go, cmd/common.go:15-35, the `Run` function of each command, and the texts of errors.
-/
import Verif.Model.Warnings
import Verif.Model.Main

namespace Gledger

/-- parser/itemtype_string.go -/
def ItemType.name : ItemType → Str
  | .emptyLineItem => str "emptyLineItem"
  | .includeItem => str "includeItem"
  | .dateItem => str "dateItem"
  | .stateItem => str "stateItem"
  | .payeeItem => str "payeeItem"
  | .accountItem => str "accountItem"
  | .commodityItem => str "commodityItem"
  | .amountItem => str "amountItem"
  | .commentItem => str "commentItem"
  | .transactionHeaderCommentItem => str "transactionHeaderCommentItem"
  | .periodItem => str "periodItem"
  | .eofItem => str "eofItem"

/-- The word after "expected" (parser/transactionbuilder.go:85,98,109,122,132). -/
def ItemType.expectedWord : ItemType → Str
  | .stateItem => str "state"
  | .payeeItem => str "payee"
  | .accountItem => str "account"
  | .commodityItem => str "currency"
  | _ => str "amount"

/-- `err.Error()`, with the texts of the standard library's errors given by `lib`. -/
def Err.text (lib : Err → Str) : Err → Str
  | .tooManyElided => str "cannot have more than one posting with an elided amount"
  | .unbalanced => str "transaction does not balance"
  | .unexpectedLine => str "unexpected line type during lexing"
  | .unexpectedDirective d => str "unexpected directive: " ++ d
  | .badInclude => str "could not lex include directive"
  | .tildeSpaces => str "not enough spaces following ~"
  | .accountSpaces => str "not enough spaces following account"
  | .dateMalformed s => str "date is malformed: " ++ s
  | .badYear s => str "could not parse year: '" ++ s ++ str "'"
  | .smartDateComponents => str "unhandled number of smart date components"
  | .readFile text => text
  | .expected item => str "expected " ++ item.expectedWord ++ str " but got " ++ item.name
  | .parsingDate e => str "error parsing date\n" ++ e.text lib
  | .parsingPeriod e => str "error parsing period\n" ++ e.text lib
  | .parsingAmount e => str "error parsing amount: " ++ e.text lib
  | .atLine file line e => file ++ str ":" ++ natDigits line ++ str "\n" ++ e.text lib
  | .errorAt e => str "error at " ++ e.text lib
  | e => lib e

/-- The commands (cmd/*.go). -/
inductive Command
  | accounts | balance | budget | payees | print | statistics | version
  deriving DecidableEq, Repr

/-- `Use` and `Aliases` of each command. -/
def Command.words : Command → List Str
  | .accounts => [str "accounts", str "acc", str "a"]
  | .balance => [str "balance", str "bal", str "b"]
  | .budget => [str "budget", str "bud", str "B"]
  | .payees => [str "payees", str "pay", str "p"]
  | .print => [str "print", str "p"]
  | .statistics => [str "statistics", str "stats", str "s"]
  | .version => [str "version"]

/-- The commands in the order in which they are added to the root command: the `init` functions run in the order of the file names. -/
def allCommands : List Command := [.accounts, .balance, .budget, .payees, .print, .statistics, .version]

/-- The command a word on the command line selects: cobra takes the first whose name or alias it is. -/
def commandOf (word : Str) : Option Command := allCommands.find? fun c => word ∈ c.words

/-- The flags (cmd/root.go:43-46, cmd/balance.go:41-43). -/
structure Options where
  file : Str := []
  beginDate : Str := []
  endDate : Str := []
  current : Bool := false
  flatten : Bool := false
  showZero : Bool := false
  collapse : Bool := false

/-- What the program finds on the machine. -/
structure Machine where
  /-- the environment variable `LEDGER_FILE` -/
  ledgerFile : Option Str
  /-- the files -/
  fs : FileSystem
  /-- how many files can be open besides the root journal -/
  maxOpen : Nat
  /-- `regexp.Compile` -/
  engine : RegexEngine
  /-- texts of the standard library's errors -/
  lib : Err → Str
  /-- `time.Now().AddDate(0, 0, 1)`: a day from now by the local clock -/
  tomorrow : Int
  /-- the year of `time.Now()` in the local zone -/
  nowYear : Nat
  /-- the local zone -/
  offset : Date → Int
  /-- iteration orders of maps and the effects of `sort.Slice` -/
  postingOrder : List Posting → List Posting
  stringOrder : List Str → List Str
  sortTransactions : List Transaction → List Transaction
  sortDates : List Date → List Date
  /-- `humanize.Time` -/
  humanize : Date → Str

/-- How the program ends. -/
inductive Ending
  /-- exit with a status -/
  | exit (status : Nat)
  /-- a panic (exit status 2) -/
  | panic (p : Panic)
  deriving DecidableEq, Repr

/-- What is seen of a run: standard output and the ending. -/
structure Run where
  stdout : Str
  ending : Ending
  deriving DecidableEq, Repr

/-- The filters, cmd/root.go:26-36. -/
def makeFilters [Unicode] (R : RegexEngine) : List Str → Except Failure (List Filter)
  | [] => .ok []
  | a :: as =>
    match newFilter R a with
    | .error f => .error f
    | .ok f => (makeFilters R as).map (f :: ·)

/-- The flags and the machine as the commands see them. -/
def Machine.env (m : Machine) (o : Options) (filters : List Filter) : Env where
  beginDate := o.beginDate
  endDate := o.endDate
  current := o.current
  filters := filters
  tomorrow := m.tomorrow
  nowYear := m.nowYear
  offset := m.offset
  mapOrder := m.postingOrder

/-- The root journal, cmd/common.go:16-22. -/
def Machine.rootPath (m : Machine) (o : Options) : Option Str := if o.file.length = 0 then m.ledgerFile else some o.file

/-- The end of a command's `Run` function: an error is printed, and the function returns; `log.Fatalln` exits with status 1; `printed` is what
has been printed before. -/
def Machine.finish (m : Machine) (printed : Str) : Except Failure Str → Run
  | .ok text => ⟨printed ++ text, .exit 0⟩
  | .error (.err e) => ⟨printed ++ e.text m.lib ++ str "\n", .exit 0⟩
  | .error .fatal => ⟨printed, .exit 1⟩
  | .error (.panic p) => ⟨printed, .panic p⟩

/-- What has been printed by printing handlers when parsing ends. -/
def printedBy [Unicode] {σ : Type} (fs : FileSystem) (maxOpen : Nat) (bytes : List UInt8) (path : Str) (H : Handlers (σ × Str)) (init : σ) : Str :=
  (parse fs H maxOpen bytes path (newParser (init, []))).1.user.2

/-- cmd/version.go -/
def versionRun : Run := ⟨str "gledger v0.1\n", .exit 0⟩

/-- The `Run` functions, for an open root journal. -/
def Machine.runOn [Unicode] (m : Machine) (e : Env) (o : Options) (args : List Str) (bytes : List UInt8) (path : Str) : Command → Run
  | .accounts => m.finish [] (accountsCmd e m.stringOrder m.fs m.maxOpen bytes path)
  | .balance => m.finish (printedBy m.fs m.maxOpen bytes path e.balancePrinting newJournal)
      (balanceCmd e o.showZero o.flatten o.collapse m.fs m.maxOpen bytes path)
  | .budget => m.finish (printedBy m.fs m.maxOpen bytes path e.budgetPrinting [])
      (budgetCmd e m.sortDates m.fs m.maxOpen bytes path)
  | .payees => m.finish [] (payeesCmd e m.engine args m.stringOrder m.fs m.maxOpen bytes path)
  | .print => m.finish [] (printCmd e m.sortTransactions m.fs m.maxOpen bytes path)
  | .statistics => m.finish [] (statsCmd e m.humanize m.stringOrder m.sortDates m.fs m.maxOpen bytes path)
  | .version => versionRun

/-- cmd/common.go:15-35 before parsing, for the commands that read a journal. -/
def Machine.runFiltered [Unicode] (m : Machine) (o : Options) (args : List Str) (filters : List Filter) (c : Command) : Run :=
  if c = .version then versionRun
  else
    match m.rootPath o with
    | none => ⟨str "no root journal path provided\n", .exit 0⟩
    | some path =>
      match m.fs path with
      | none => m.finish [] (.error (.err (.openFile path)))
      | some bytes => m.runOn (m.env o filters) o args bytes path c

/-- The program: cmd/root.go:26-36 (an error is reported by cobra on standard error, and the status is 1), then the command. -/
def Machine.run [Unicode] (m : Machine) (o : Options) (c : Command) (args : List Str) : Run :=
  match makeFilters m.engine args with
  | .error (.panic p) => ⟨[], .panic p⟩
  | .error _ => ⟨[], .exit 1⟩
  | .ok filters => m.runFiltered o args filters c

end Gledger
