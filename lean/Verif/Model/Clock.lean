/-
A run during which time passes: the clock is read anew for every transaction (cmd/common.go:120, parser/dates.go:87), and Go orders maps anew every
time it ranges over one (cmd/common.go:157).
-/
import Verif.Model.Program

namespace Gledger

/-- What a transaction meets when it is checked against the flags and filters. The two readings of the clock for `--begin` and `--end` of one transaction are taken to
be one. -/
structure Moment where
  /-- `time.Now().AddDate(0, 0, 1)` -/
  tomorrow : Int
  /-- `time.Now().Year()` -/
  year : Nat
  /-- the order of the map of matched postings -/
  order : List Posting → List Posting

/-- The environment at a moment. -/
def Env.at (e : Env) (w : Moment) : Env := { e with tomorrow := w.tomorrow, nowYear := w.year, mapOrder := w.order }

variable {σ : Type}

/-- Handlers for which time passes from one transaction to the next: the first component counts the transactions. Handlers of periodic transactions do not look at the
clock (cmd/balance.go:25, cmd/budget.go:46-70). -/
def Handlers.ticking (clock : Nat → Moment) (H : Moment → Handlers σ) : Handlers (Nat × σ) where
  th := (H (clock 0)).th.map fun _ s t path =>
    match (H (clock s.1)).th with
    | none => (s, none)
    | some h => ((s.1 + 1, (h s.2 t path).1), (h s.2 t path).2)
  ph := (H (clock 0)).ph.map fun h s pt path => ((s.1, (h s.2 pt path).1), (h s.2 pt path).2)

/-- `runParse` while time passes -/
def tickParse [Unicode] (clock : Nat → Moment) (fs : FileSystem) (maxOpen : Nat) (bytes : List UInt8) (path : Str) (H : Moment → Handlers σ) (init : σ) :
    Except Failure σ := (runParse fs maxOpen bytes path (Handlers.ticking clock H) (0, init)).map Prod.snd

/-- `printedBy` while time passes -/
def tickPrinted [Unicode] (clock : Nat → Moment) (fs : FileSystem) (maxOpen : Nat) (bytes : List UInt8) (path : Str) (H : Moment → Handlers (σ × Str)) (init : σ) :
    Str := (parse fs (Handlers.ticking clock H) maxOpen bytes path (newParser (0, init, []))).1.user.2.2

/-- The `Run` functions, as `Machine.runOn`, while time passes. -/
def Machine.runOnTicking [Unicode] (m : Machine) (clock : Nat → Moment) (e : Env) (o : Options) (args : List Str) (bytes : List UInt8) (path : Str) : Command → Run
  | .accounts => m.finish [] ((tickParse clock m.fs m.maxOpen bytes path (fun w => (e.at w).accountsHandlers) []).map fun s =>
      printLines (e.accountsPrepare (m.stringOrder s)))
  | .balance => m.finish (tickPrinted clock m.fs m.maxOpen bytes path (fun w => (e.at w).balancePrinting) newJournal)
      ((tickParse clock m.fs m.maxOpen bytes path (fun w => (e.at w).balanceHandlers) newJournal).map fun j =>
        report (prepareBalance o.showZero j.heap) o.flatten o.collapse)
  | .budget => m.finish (tickPrinted clock m.fs m.maxOpen bytes path (fun w => (e.at w).budgetPrinting) [])
      ((tickParse clock m.fs m.maxOpen bytes path (fun w => (e.at w).budgetHandlers) []).map fun b => budgetMonths b (m.sortDates (b.map (·.1))))
  | .payees => m.finish [] (match tickParse clock m.fs m.maxOpen bytes path (fun w => (e.at w).payeesHandlers) [] with
      | .error f => .error f
      | .ok s => (payeesPrepare m.engine args (m.stringOrder s)).map printLines)
  | .print => m.finish [] ((tickParse clock m.fs m.maxOpen bytes path (fun w => (e.at w).printHandlers) []).map fun ts =>
      printReport (m.sortTransactions ts))
  | .statistics => m.finish [] ((tickParse clock m.fs m.maxOpen bytes path (fun w => (e.at w).statsHandlers) {}).map fun s =>
      statsReport m.humanize (m.stringOrder s.files) (averageAge (s.ages m.sortDates)) s)
  | .version => versionRun

/-- The program, as `Machine.run`, while time passes. -/
def Machine.runTicking [Unicode] (m : Machine) (clock : Nat → Moment) (o : Options) (c : Command) (args : List Str) : Run :=
  match makeFilters m.engine args with
  | .error (.panic p) => ⟨[], .panic p⟩
  | .error _ => ⟨[], .exit 1⟩
  | .ok filters =>
    if c = .version then versionRun
    else
      match m.rootPath o with
      | none => ⟨str "no root journal path provided\n", .exit 0⟩
      | some path =>
        match m.fs path with
        | none => m.finish [] (.error (.err (.openFile path)))
        | some bytes => m.runOnTicking clock (m.env o filters) o args bytes path c

/-- The machine at a moment. -/
def Machine.at (m : Machine) (w : Moment) : Machine := { m with tomorrow := w.tomorrow, nowYear := w.year, postingOrder := w.order }

end Gledger
