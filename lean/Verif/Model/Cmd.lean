/-
cmd/*.go: date flags, filters, and the commands.
-/
import Verif.Model.Parser
import Verif.Model.Account
import Verif.Model.Budget
import Verif.Model.Display
import Verif.Model.Reporting

namespace Gledger

/-- Nanoseconds per day; instants are nanoseconds since 1 January of year 1, UTC (`time.Time{}`). -/
def nsPerDay : Int := 86400 * 1000000000

/-- Everything the commands read from flags and from the machine: cmd/root.go:10-20, cmd/balance.go:10-15,
`time.Now()`, `time.Local`, the order in which a map of postings is iterated. -/
structure Env where
  /-- `--begin`, empty if absent -/
  beginDate : Str := []
  /-- `--end`, empty if absent -/
  endDate : Str := []
  /-- `--current` -/
  current : Bool := false
  /-- the filters made from the arguments (cmd/root.go:26-36) -/
  filters : List Filter := []
  /-- `time.Now().AddDate(0, 0, 1)` as an instant: what the local clock will show the same time of day as now, a day later. It is 24 hours ahead unless the local
  zone's offset changes in between. (The clock is read anew for every transaction; here it stands still during the run.) -/
  tomorrow : Int := nsPerDay
  /-- `time.Now().Year()` in the local zone -/
  nowYear : Nat := 2020
  /-- the local zone's offset east of UTC, in nanoseconds, at local midnight of a civil day -/
  offset : Date → Int := fun _ => 0
  /-- iteration order of the map of matched postings (cmd/common.go:157) -/
  mapOrder : List Posting → List Posting := id

/-- The instant of a UTC midnight. -/
def Date.instant (d : Date) : Int := d.dayNumber * nsPerDay

/-- The instant of local midnight of a civil day (`time.Date(..., time.Local)`). -/
def Env.localInstant (e : Env) (d : Date) : Int := d.instant - e.offset d

/-- The optional bound given by a flag: cmd/common.go:104-116; the zero time if absent. -/
def Env.bound (e : Env) (flag : Str) : Except Err Int :=
  if 0 < flag.length ∧ e.current = false then
    match parseSmartDate e.nowYear flag with
    | .ok d => .ok (e.localInstant d)
    | .error err => .error err
  else .ok 0

/-- cmd/common.go:100-126. -/
def Env.withinDateRange (e : Env) (t : Transaction) : Except Err Bool :=
  match e.bound e.beginDate with
  | .error err => .error err
  | .ok start =>
    match e.bound e.endDate with
    | .error err => .error err
    | .ok «end» =>
      let start := if e.current then 0 else start
      let «end» := if e.current then e.tomorrow else «end»
      .ok ((t.date.instant = start || start < t.date.instant) &&
        («end» = 0 || t.date.instant < «end»))

/-- Positions of `l` at the given indices. -/
def pick {α : Type} (l : List α) (is : List Nat) : List α := is.filterMap fun i => l[i]?

/-- Loop of cmd/common.go:145-156 over the filters: `none` means a transaction-wide match, otherwise the
set of matched postings (by position, each once). -/
def filterLoop (t : Transaction) : List Filter → List Nat → Option (List Nat)
  | [], acc => some acc
  | f :: fs, acc =>
    match f.matchesTransactionHow t with
    | (matchesPayee, matchesNote, mp) =>
      if matchesPayee || matchesNote then none
      else filterLoop t fs (mp.foldl (fun acc i => if acc.contains i then acc else acc ++ [i]) acc)

/-- cmd/common.go:131-162: (matched transaction, postings). -/
def Env.checkAgainstFilters (e : Env) (t : Transaction) : Except Err (Bool × List Posting) :=
  match e.withinDateRange t with
  | .error err => .error err
  | .ok false => .ok (false, [])
  | .ok true =>
    if e.filters.length = 0 then .ok (true, t.postings)
    else
      match filterLoop t e.filters [] with
      | none => .ok (true, t.postings)
      | some is => .ok (false, e.mapOrder (pick t.postings is))

variable {σ : Type}

/-- cmd/common.go:60-73 -/
def Env.dateChecked (e : Env) (handler : σ → Transaction → Str → Step σ) : σ → Transaction → Str → Step σ :=
  fun s t path =>
    match e.withinDateRange t with
    | .error err => (s, some (.err err))
    | .ok true => handler s t path
    | .ok false => (s, none)

/-- cmd/common.go:75-98 (not used by any command) -/
def Env.dateCheckedFiltering (e : Env) (handler : σ → Transaction → Str → Step σ) :
    σ → Transaction → Str → Step σ :=
  fun s t path =>
    match e.withinDateRange t with
    | .error err => (s, some (.err err))
    | .ok false => (s, none)
    | .ok true =>
      if e.filters.length = 0 then handler s t path
      else if e.filters.any fun f => f.matchesTransaction t then handler s t path
      else (s, none)

/-- A panic inside a handler: a posting that cannot be used. -/
def panicking {σ : Type} (s : σ) : Step σ := (s, some (.panic .unusablePosting))

/-- Adding postings one after the other (cmd/balance.go:71-75). -/
def addPostings (t : Transaction) : List Posting → Journal → Option Journal
  | [], j => some j
  | p :: ps, j => (j.addPosting t p).bind (addPostings t ps)

/-- cmd/balance.go:57-78 -/
def Env.balanceHandler (e : Env) (j : Journal) (t : Transaction) (location : Str) : Step Journal :=
  match e.checkAgainstFilters t with
  | .error err => (j, some (.err err))
  | .ok (matched, postings) =>
    if matched = false ∧ postings.length = 0 then (j, none)
    else
      let j := j.addTransaction t location
      match addPostings t postings j with
      | some j => (j, none)
      | none => panicking j

/-- The handlers of the balance command (cmd/balance.go:25). -/
def Env.balanceHandlers (e : Env) : Handlers Journal where
  th := some e.balanceHandler
  ph := some fun j pt location => (j.addPeriodicTransaction pt location, none)

/-- cmd/balance.go:81-85 -/
def prepareBalance (showZero : Bool) (h : Heap) : Heap := if showZero then h else h.removeEmptyChildren 0

/-- `%20s`: pad on the left to 20 runes. -/
def padLeft (w : Nat) (s : Str) : Str := List.replicate (w - s.length) ' ' ++ s

/-- `%-30s`: pad on the right. -/
def padRight (w : Nat) (s : Str) : Str := s ++ List.replicate (w - s.length) ' '

/-- cmd/common.go:40-42 -/
def reportPrepender : Prepender := fun a => padLeft 20 (a.amount.display true) ++ str "  "

/-- cmd/common.go:39-57: the text printed. -/
def report (h : Heap) (flatten collapse : Bool) : Str :=
  let body := if flatten then flattenedTree h reportPrepender 0 else treeReport h reportPrepender collapse 0
  body ++ str "\n" ++ str "--------------------" ++ str "\n" ++
    padLeft 20 ((h.node 0).amount.display false) ++ str "\n"

/-- The outcome of a command: the text it prints, or the failure of parsing (an error is printed alone). -/
abbrev Outcome := Except Failure Str

/-- Parsing the root journal with a command's handlers (cmd/common.go:15-35, the file being open). -/
def runParse [Unicode] (fs : FileSystem) (maxOpen : Nat) (bytes : List UInt8) (path : Str)
    (H : Handlers σ) (init : σ) : Except Failure σ :=
  match parse fs H maxOpen bytes path (newParser init) with
  | (st, none) => .ok st.user
  | (_, some f) => .error f

/-- cmd/balance.go:22-37 -/
def balanceCmd [Unicode] (e : Env) (showZero flatten collapse : Bool) (fs : FileSystem) (maxOpen : Nat)
    (bytes : List UInt8) (path : Str) : Outcome :=
  (runParse fs maxOpen bytes path e.balanceHandlers newJournal).map fun j =>
    report (prepareBalance showZero j.heap) flatten collapse

/-- cmd/print.go:41-52 -/
def Env.printHandler (e : Env) (ts : List Transaction) (t : Transaction) (_ : Str) : Step (List Transaction) :=
  match e.checkAgainstFilters t with
  | .error err => (ts, some (.err err))
  | .ok (matched, postings) =>
    if matched = true ∨ 0 < postings.length then (ts ++ [t], none) else (ts, none)

/-- The handlers of the print command (cmd/print.go:22). -/
def Env.printHandlers (e : Env) : Handlers (List Transaction) where
  th := some e.printHandler
  ph := none

/-- cmd/print.go:60-64: `fmt.Println(t)` for each transaction. -/
def printReport (ts : List Transaction) : Str := ts.flatMap fun t => t.format ++ str "\n"

/-- cmd/print.go:20-28; `sortByDate` is what `sort.Slice` does with the comparison of cmd/print.go:55-57. -/
def printCmd [Unicode] (e : Env) (sortByDate : List Transaction → List Transaction) (fs : FileSystem)
    (maxOpen : Nat) (bytes : List UInt8) (path : Str) : Outcome :=
  (runParse fs maxOpen bytes path e.printHandlers []).map fun ts => printReport (sortByDate ts)

/-- Adding a key to a map used as a set. -/
def addKey {α : Type} [DecidableEq α] (s : List α) (a : α) : List α := if s.contains a then s else s ++ [a]

/-- cmd/accounts.go:46-51 -/
def accountsHandler (s : List Str) (t : Transaction) (_ : Str) : Step (List Str) :=
  (t.postings.foldl (fun s p => addKey s p.accountPath) s, none)

/-- The handlers of the accounts command (cmd/accounts.go:22-23). -/
def Env.accountsHandlers (e : Env) : Handlers (List Str) where
  th := some (e.dateChecked accountsHandler)
  ph := none

/-- cmd/accounts.go:53-79; `keys` are the map's keys in iteration order. -/
def Env.accountsPrepare (e : Env) (keys : List Str) : List Str :=
  if e.filters.length = 0 then sortStrings keys
  else sortStrings (keys.filter fun a => e.filters.any fun f => f.regex a)

/-- One line per entry (`fmt.Println`). -/
def printLines (ls : List Str) : Str := ls.flatMap fun l => l ++ str "\n"

/-- cmd/accounts.go:20-32; `order` is the iteration order of the map. -/
def accountsCmd [Unicode] (e : Env) (order : List Str → List Str) (fs : FileSystem) (maxOpen : Nat)
    (bytes : List UInt8) (path : Str) : Outcome :=
  (runParse fs maxOpen bytes path e.accountsHandlers []).map fun s => printLines (e.accountsPrepare (order s))

/-- cmd/payees.go:48-51 -/
def payeesHandler (s : List Str) (t : Transaction) (_ : Str) : Step (List Str) := (addKey s t.payee, none)

/-- The handlers of the payees command (cmd/payees.go:24-25). -/
def Env.payeesHandlers (e : Env) : Handlers (List Str) where
  th := some (e.dateChecked payeesHandler)
  ph := none

/-- cmd/payees.go:64-75: compiling the arguments. -/
def compileArgs [Unicode] (R : RegexEngine) : List Str → Except Failure (List (Str → Bool))
  | [] => .ok []
  | a :: as =>
    match R.compile (smartCase a) with
    | none => .error (.err (.regexp (smartCase a)))
    | some r => (compileArgs R as).map (r :: ·)

/-- cmd/payees.go:53-91; `keys` are the map's keys in iteration order. -/
def payeesPrepare [Unicode] (R : RegexEngine) (args : List Str) (keys : List Str) : Except Failure (List Str) :=
  if args.length = 0 then .ok (sortStrings keys)
  else (compileArgs R args).map fun rs => sortStrings (keys.filter fun p => rs.any fun r => r p)

/-- cmd/payees.go:22-34 -/
def payeesCmd [Unicode] (e : Env) (R : RegexEngine) (args : List Str) (order : List Str → List Str)
    (fs : FileSystem) (maxOpen : Nat) (bytes : List UInt8) (path : Str) : Outcome :=
  match runParse fs maxOpen bytes path e.payeesHandlers [] with
  | .error f => .error f
  | .ok s => (payeesPrepare R args (order s)).map printLines

/-- A map from dates to int64 (cmd/stats.go:44-45). -/
abbrev Buckets := List (Date × I64)

/-- `m[d]`, zero if absent -/
def Buckets.get (b : Buckets) (d : Date) : I64 := ((b.find? fun kv => kv.1 = d).map (·.2)).getD 0

/-- `m[d] = v` -/
def Buckets.put (b : Buckets) (d : Date) (v : I64) : Buckets :=
  match b with
  | [] => [(d, v)]
  | (k, w) :: rest => if k = d then (k, v) :: rest else (k, w) :: Buckets.put rest d v

/-- cmd/stats.go:37-47 -/
structure Stats where
  first : Date := Date.zero
  last : Date := Date.zero
  count : Nat := 0
  accounts : List Str := []
  payees : List Str := []
  files : List Str := []
  income : Buckets := []
  expense : Buckets := []

/-- cmd/stats.go:100-110, one posting; `none` is a panic on a nil amount. -/
def Stats.addBucket (date : Date) (s : Stats) (p : Posting) : Option Stats :=
  let head := (split ':' p.accountPath).headD []
  if head = incomeID then
    p.amount.map fun a => { s with income := s.income.put date (s.income.get date - a.quantity) }
  else if head = expensesID then
    p.amount.map fun a => { s with expense := s.expense.put date (s.expense.get date + a.quantity) }
  else some s

/-- cmd/stats.go:100-110 -/
def Stats.addBuckets (date : Date) : List Posting → Stats → Option Stats
  | [], s => some s
  | p :: ps, s => (s.addBucket date p).bind (addBuckets date ps)

/-- cmd/stats.go:63-113 -/
def Env.statsHandler (e : Env) (s : Stats) (t : Transaction) (path : Str) : Step Stats :=
  match e.checkAgainstFilters t with
  | .error err => (s, some (.err err))
  | .ok (matched, postings) =>
    if matched = false ∧ postings.length = 0 then (s, none)
    else
      let s := { s with
        files := addKey s.files path
        count := s.count + 1
        first := if s.first.isZero || t.date.before s.first then t.date else s.first
        last := if s.last.isZero || t.date.after s.last then t.date else s.last
        accounts := postings.foldl (fun k (p : Posting) => addKey k p.accountPath) s.accounts
        payees := addKey s.payees t.payee }
      match Stats.addBuckets t.date postings s with
      | some s => (s, none)
      | none => panicking s

/-- The handlers of the statistics command (cmd/stats.go:26). -/
def Env.statsHandlers (e : Env) : Handlers Stats where
  th := some e.statsHandler
  ph := none

/-- Inner loop of cmd/stats.go:141-158 for one expense: the income keys still to visit, the remaining
expense, the buckets, and the ages recorded so far (expense date, income date). -/
def ageInner (ek : Date) : List Date → I64 → Buckets → List (Date × Date) → Buckets × List (Date × Date)
  | [], _, buckets, ages => (buckets, ages)
  | ik :: iks, expense, buckets, ages =>
    let income := buckets.get ik
    if income = 0 then ageInner ek iks expense buckets ages
    else
      let ages := ages ++ [(ek, ik)]
      if income.toInt < expense.toInt then ageInner ek iks (expense - income) (buckets.put ik 0) ages
      else (buckets.put ik (income - expense), ages)

/-- Outer loop of cmd/stats.go:137-159. -/
def ageOuter (expenses : Buckets) (incomeKeys : List Date) :
    List Date → Buckets → List (Date × Date) → Buckets × List (Date × Date)
  | [], buckets, ages => (buckets, ages)
  | ek :: eks, buckets, ages =>
    let r := ageInner ek incomeKeys (expenses.get ek) buckets ages
    ageOuter expenses incomeKeys eks r.1 r.2

/-- `ek.Sub(ik)` in nanoseconds, saturated to int64. -/
def durationNs (ek ik : Date) : I64 :=
  let d := (ek.dayNumber - ik.dayNumber) * nsPerDay
  BitVec.ofInt 64 (max (-(2 ^ 63)) (min d (2 ^ 63 - 1)))

/-- cmd/stats.go:161-173: the average age in nanoseconds (for the conversion to days see `ageOfMoney`). -/
def averageAge (ages : List (Date × Date)) : I64 :=
  let rangeCap := if 20 < ages.length then 11 else 0
  let summed := ((ages.take (ages.length - rangeCap)).map fun a => durationNs a.1 a.2).sum
  BitVec.ofInt 64 (Int.tdiv summed.toInt (max 1 (ages.length : Int)))

/-- cmd/budget.go:86-97; `none` is a panic. -/
def budgetAddPostings (date : Date) : List Posting → Budget → Option Budget
  | [], b => some b
  | p :: ps, b =>
    let head := (split ':' p.accountPath).headD []
    (if head = expensesID then b.addPosting date p .expense
     else if head = incomeID then b.addPosting date p .income
     else some b).bind (budgetAddPostings date ps)

/-- cmd/budget.go:72-100 -/
def Env.budgetHandler (e : Env) (b : Budget) (t : Transaction) (_ : Str) : Step Budget :=
  match e.checkAgainstFilters t with
  | .error err => (b, some (.err err))
  | .ok (matched, postings) =>
    if matched = false ∧ postings.length = 0 then (b, none)
    else match budgetAddPostings t.date postings b with
      | some b => (b, none)
      | none => panicking b

/-- cmd/budget.go:56-61; `none` is a panic. -/
def budgetAddEnvelopes (date : Date) : List Posting → Budget → Option Budget
  | [], b => some b
  | p :: ps, b => (b.addPosting date p .envelope).bind (budgetAddEnvelopes date ps)

/-- cmd/budget.go:46-70. `Run` dates the transaction at the period's start; with an interval it returns no
transactions. -/
def budgetPeriodicHandler (b : Budget) (pt : PeriodicTransaction) (_ : Str) : Step Budget :=
  match pt.run with
  | [] => (b, none)
  | t :: _ =>
    match budgetAddEnvelopes t.date t.postings b with
    | some b => (b, none)
    | none => panicking b

/-- The handlers of the budget command (cmd/budget.go:20). -/
def Env.budgetHandlers (e : Env) : Handlers Budget where
  th := some e.budgetHandler
  ph := some budgetPeriodicHandler

/-- The headings of cmd/budget.go:132. -/
def budgetHeadings : List Str := [str "Category", str "Budgeted", str "Activity", str "Available"]

/-- One line of cmd/budget.go:137-156, as its four cells; `none` is the "didn't find" exit. -/
def budgetRow (bm : BudgetMonth) (cn : Str) : Option (List Str) :=
  (bm.envelope.child 0 cn).bind fun er =>
    (bm.expense.child 0 cn).map fun xr =>
      let env := (bm.envelope.node er).amount
      let exp := (bm.expense.node xr).amount
      [cn, exp.display false, env.display false, (env.add exp).display true]

/-- The rows of one month (cmd/budget.go:137-156). -/
def budgetRows (bm : BudgetMonth) : List (Option (List Str)) :=
  (bm.envelope.sortedChildNames 0).map (budgetRow bm)

/-- `fmt.Println(month)` of cmd/budget.go:114, by `Time.String` for a UTC midnight. -/
def monthLine (month : Date) : Str := month.format ++ str " 00:00:00 +0000 UTC\n"

/-- `fmt.Printf("%30s | %20s\n", ...)` -/
def fundsLine (label amount : Str) : Str := padLeft 30 label ++ str " | " ++ padLeft 20 amount ++ str "\n"

/-- What cmd/budget.go:114-134 prints before the envelopes of a month. The figures other than the income are
not computed by the program. -/
def budgetHeader (month : Date) (income : Amount) : Str :=
  monthLine month ++ str "\n" ++
    fundsLine (str "Funds") (income.display true) ++
    fundsLine (str "Overspent in 2020-??") (str "£??.??") ++
    fundsLine (str "Budgeted") (str "£??.??") ++
    fundsLine (str "Budgeted in the future") (str "£??.??") ++
    List.replicate 53 '-' ++ str "\n" ++
    fundsLine (str "To be budgeted") (str "£??.??") ++ str "\n" ++ str "\n" ++
    padRight 30 (budgetHeadings.headD []) ++ ((budgetHeadings.drop 1).flatMap fun c => str " | " ++ padRight 20 c) ++ str " |\n" ++
    List.replicate 50 '-' ++ List.replicate 51 '-' ++ str "\n"

/-- The format of cmd/budget.go:155. -/
def budgetLine (cells : List Str) : Str :=
  padRight 30 (cells.headD []) ++ ((cells.drop 1).flatMap fun c => str " | " ++ padLeft 20 c) ++ str " |\n"

/-- What cmd/budget.go:137-156 prints before a line: `amount.Add(expenseAccount.Amount)`. -/
def budgetRowOut (bm : BudgetMonth) (cn : Str) : Str :=
  ((bm.envelope.child 0 cn).bind fun er =>
    (bm.expense.child 0 cn).map fun xr => (bm.envelope.node er).amount.addOut (bm.expense.node xr).amount).getD []

/-- The envelopes of a month (cmd/budget.go:137-158); `false` if the report ends there. -/
def budgetLines (bm : BudgetMonth) : List Str → Str × Bool
  | [] => (str "\n", true)
  | cn :: cns =>
    match budgetRow bm cn with
    | none => (str "didn't find expense account " ++ cn ++ str "\n", false)
    | some cells => (budgetRowOut bm cn ++ budgetLine cells ++ (budgetLines bm cns).1, (budgetLines bm cns).2)

/-- cmd/budget.go:112-159 for the sorted months -/
def budgetMonths (b : Budget) : List Date → Str
  | [] => []
  | m :: ms =>
    let bm := (b.get m).getD newBudgetMonth
    let lines := budgetLines bm (bm.envelope.sortedChildNames 0)
    budgetHeader m bm.income ++ lines.1 ++ if lines.2 then budgetMonths b ms else []

/-- cmd/budget.go:19-27 and the report (lines 103-160); `sortMonths` is what ranging over the map and `sort.Slice`
with the comparison of cmd/budget.go:109-111 do with the months. -/
def budgetCmd [Unicode] (e : Env) (sortMonths : List Date → List Date) (fs : FileSystem) (maxOpen : Nat)
    (bytes : List UInt8) (path : Str) : Outcome :=
  (runParse fs maxOpen bytes path e.budgetHandlers []).map fun b => budgetMonths b (sortMonths (b.map (·.1)))

end Gledger
