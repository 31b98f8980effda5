import Verif.Props.Runs
import Verif.Model.Names

/-! The unit tests of the repository and its sample journals, run on the model. They say nothing for all inputs; they are here to compare the model
with what the authors of the code expect of it.

Two of them do not fit the code as it is: reporting/tree_test.go and flattenedtree_test.go call methods that have become functions (the expected texts
are compared with those functions), and parser/dates_test.go expects `06/22` to be in 2020, which was so in 2020. The expected balance written in
testdata/test.journal has `0` where the code now prints `0.00`, and is that of `--collapse --show-zero`. -/

namespace Gledger

/-! ### journal/account_test.go -/

/-- Creating accounts one after another. -/
def grown (h : Heap) : List (List Str) → Heap
  | [] => h
  | cs :: rest => match h.findOrCreate 0 cs with
    | none => h
    | some (_, h) => grown h rest

/-- journal/account_test.go:8-86 `createRoot` -/
def createRootTree : Heap :=
  grown (newAccount rootID)
    [[str "A0", str "A1a"], [str "A0", str "A1b", str "A2", str "A3"], [str "E0", str "E1a", str "E2a", str "E3a"],
      [str "E0", str "E1a", str "E2a", str "E3b"], [str "E0", str "E1b", str "E2b"], [str "I0", str "I1"]]

/-- journal/testutilities.go:3-43 `newTestAccount` -/
def testAccountTree : Heap :=
  grown (newAccount rootID)
    [[str "Assets", str "Current"], [str "Assets", str "Savings", str "ISA"], [str "Expenses", str "Fun", str "Hobbies"],
      [str "Expenses", str "Fun", str "Dining Out"], [str "Expenses", str "Life", str "Groceries"], [str "Income", str "Work"]]

/-- The account with these components. -/
def accountIn (h : Heap) (cs : List Str) : Option Ref :=
  match h.findChild 0 cs with
  | some (r, []) => some r
  | _ => none

/-- The names of the children of the account with these components. -/
def childrenIn (h : Heap) (cs : List Str) : Option (List Str) := (accountIn h cs).map fun r => h.sortedChildNames r

/-- `TestFindOrCreate` -/
example :
    let h := grown (newAccount rootID) [[str "assets", str "current"]]
    let h' := grown h [[str "assets", str "savings"]]
    let h'' := grown h' [[str "assets", str "savings"], [str "expenses", str "groceries"]]
    (accountIn h [str "assets", str "current"]).map (fun r => ((h.node r).name, ((h.node r).parent.map fun p => ((h.node p).name, (h.node p).parent)))) =
        some (str "current", some (str "assets", some 0)) ∧
      (h.node 0).name = rootID ∧
      childrenIn h' [str "assets"] = some [str "current", str "savings"] ∧
      childrenIn h'' [str "assets"] = some [str "current", str "savings"] ∧
      h''.sortedChildNames 0 = [str "assets", str "expenses"] := by decide +kernel

/-- `TestAccountPathGeneration` (the accounts are below a root here) -/
example :
    let h := grown (newAccount rootID) [[str "assets", str "savings", str "isa"]]
    (accountIn h [str "assets", str "savings", str "isa"]).map (fun r => (h.createPath r, (h.node r).path, h.slice (h.node r).comps)) =
        some (str "assets:savings:isa", str "assets:savings:isa", [str "assets", str "savings", str "isa"]) ∧
      (accountIn h [str "assets", str "savings"]).map (fun r => h.slice (h.node r).comps) = some [str "assets", str "savings"] ∧
      (accountIn h [str "assets"]).map (fun r => h.slice (h.node r).comps) = some [str "assets"] := by decide +kernel

/-- `TestAccountPrinting` -/
example :
    let h := grown (newAccount rootID) [[str "assets", str "my savings account "]]
    (accountIn h [str "assets"]).map h.string = some (str "assets\n  my savings account ") := by decide +kernel

/-- `TestMatcher` -/
example : (createRootTree.leaves 0).length = 6 := by decide +kernel

/-- `TestPruning` -/
example :
    (createRootTree.pruneChildren 0 0 0).sortedChildNames 0 = [] ∧
      ((createRootTree.pruneChildren 0 1 0).sortedChildNames 0).length = 3 ∧
      (∀ n ∈ [str "A0", str "E0", str "I0"], childrenIn (createRootTree.pruneChildren 0 1 0) [n] = some []) ∧
      ((createRootTree.pruneChildren 0 2 0).sortedChildNames 0).length = 3 ∧
      (childrenIn (createRootTree.pruneChildren 0 2 0) [str "A0"]).map List.length = some 2 ∧
      (childrenIn (createRootTree.pruneChildren 0 2 0) [str "E0"]).map List.length = some 2 ∧
      (childrenIn (createRootTree.pruneChildren 0 2 0) [str "I0"]).map List.length = some 1 := by decide +kernel

/-- `TestRemoveChildren` -/
example :
    let h := (testAccountTree.removeChildren 0 fun a => a.name = str "Groceries").2
    h.sortedChildNames 0 = [str "Expenses"] ∧ childrenIn h [str "Expenses"] = some [str "Life"] ∧
      childrenIn h [str "Expenses", str "Life"] = some [str "Groceries"] := by decide +kernel

/-! ### journal/amount_test.go -/

/-- All five tests. -/
example :
    (⟨str "GBP ", 4281⟩ : Amount).display true = str "GBP 42.81" ∧ (⟨str "GBP ", 4281⟩ : Amount).display false = str "42.81" ∧
      (⟨str "£", -4281⟩ : Amount).display true = str "£-42.81" ∧ (⟨str "£", -4281⟩ : Amount).display false = str "-42.81" ∧
      (⟨str "GBP ", 981⟩ : Amount).display true = str "GBP 9.81" ∧ (⟨str "GBP ", 981⟩ : Amount).display false = str "9.81" ∧
      (⟨str "GBP ", 81⟩ : Amount).display true = str "GBP 0.81" ∧ (⟨str "GBP ", 81⟩ : Amount).display false = str "0.81" ∧
      (⟨str "GBP ", 9⟩ : Amount).display true = str "GBP 0.09" ∧ (⟨str "GBP ", 9⟩ : Amount).display false = str "0.09" := by decide +kernel

/-! ### parser/dates_test.go -/

/-- All tests, in the year 2020. -/
example :
    (parseSmartDate 2020 (str "2020")).toOption = some ⟨2020, 1, 1⟩ ∧ (parseSmartDate 2020 (str "20")).toOption = none ∧
      (parseSmartDate 2020 (str "2020/06")).toOption = some ⟨2020, 6, 1⟩ ∧ (parseSmartDate 2020 (str "2020-06")).toOption = some ⟨2020, 6, 1⟩ ∧
      (parseSmartDate 2020 (str "20/06")).toOption = none ∧ (parseSmartDate 2020 (str "2020/42")).toOption = none ∧
      (parseSmartDate 2020 (str "06/22")).toOption = some ⟨2020, 6, 22⟩ ∧ (parseSmartDate 2020 (str "06.22")).toOption = some ⟨2020, 6, 22⟩ ∧
      (parseSmartDate 2020 (str "13/06")).toOption = none ∧ (parseSmartDate 2020 (str "2020/06/22")).toOption = some ⟨2020, 6, 22⟩ ∧
      (parseSmartDate 2020 (str "2020.06.22")).toOption = some ⟨2020, 6, 22⟩ ∧ (parseSmartDate 2020 (str "2020/6/3")).toOption = none ∧
      (parseSmartDate 2020 (str "20/12/06")).toOption = none := by decide +kernel

/-! ### parser/lexer_test.go -/

/-- `TestTakeToNextLineOrComment`; lines come without their ends. -/
example :
    ∀ line ∈ ["input test", "input test;comment", "input test  ", "input test ", "input test\thello"],
      (Lexer.ofLine (utf8 line)).takeToTabOrNextLineOrComment.1 = str "input test" := by decide +kernel

/-- Remembering the items (the `mockParser` of the test). -/
def itemLog : ItemParser (List (ItemType × Str)) := fun i c s => (s ++ [(i, c)], none)

/-- `TestLex`, `TestLexTransactionHeader`: a date and a payee, no state. -/
example :
    letI := asciiUnicode
    lex itemLog (str "th") (utf8 "2020-10-11 A shop") [] =
        ([(.dateItem, str "2020-10-11"), (.payeeItem, str "A shop"), (.eofItem, [])], none) ∧
      lexTransactionHeader itemLog (Lexer.ofLine (utf8 "2020-10-11 A shop")) [] =
        ([(.dateItem, str "2020-10-11"), (.payeeItem, str "A shop")], none) := by decide +kernel

/-! ### parser/transactionbuilder_test.go -/

/-- `TestDateItemParsing` -/
example :
    (∀ d ∈ ["2020/10/11", "2020-10-11", "2020.10.11"], ((({} : Builder).begin .normal).build .dateItem (str d)).2 = none) ∧
      (∀ d ∈ ["20201011", "2020-10-89", "2020.10"], ((({} : Builder).begin .normal).build .dateItem (str d)).2 ≠ none) := by decide +kernel

/-- The builder of `TestAmountItemParsing`. -/
def amountBuilder : Builder := { (({} : Builder).begin .normal) with current := some {}, prev := some .commodityItem }

/-- `TestAmountItemParsing` -/
example :
    ((amountBuilder.build .amountItem (str "42.81")).1.current.bind fun p => p.amount.map (·.quantity)) = some 4281 ∧
      ((amountBuilder.build .amountItem (str "+42.81")).1.current.bind fun p => p.amount.map (·.quantity)) = some 4281 ∧
      ((amountBuilder.build .amountItem (str "-42")).1.current.bind fun p => p.amount.map (·.quantity)) = some (-4200) ∧
      (∀ s ∈ ["42.81", "+42.81", "-42"], (amountBuilder.build .amountItem (str s)).2 = none) ∧
      (∀ s ∈ ["g81", "8g1"], (amountBuilder.build .amountItem (str s)).2 ≠ none) := by decide +kernel

/-! ### reporting/tree_test.go, reporting/flattenedtree_test.go -/

/-- `TestTree` -/
example :
    treeReport createRootTree (fun _ => str "£123  ") true 0 =
      str ("£123  A0\n£123    A1a\n£123    A1b:A2:A3\n£123  E0\n£123    E1a:E2a\n£123      E3a\n£123      E3b\n£123    E1b:E2b\n" ++
        "£123  I0:I1") := by decide +kernel

/-- `TestFlattenedTree` -/
example :
    flattenedTree createRootTree (fun _ => []) 0 =
      str "A0:A1a\nA0:A1b:A2:A3\nE0:E1a:E2a:E3a\nE0:E1a:E2a:E3b\nE0:E1b:E2b\nI0:I1" := by decide +kernel

/-! ### testdata -/

/-- testdata/test.journal -/
def sampleTest : String :=
  ";\n" ++
  "; ---------------------------\n" ++
  "; DO NOT CHANGE THIS FILE\n" ++
  "; ---------------------------\n" ++
  ";\n" ++
  "\n" ++
  "\n" ++
  "2020-01-01 * Job\n" ++
  "  Assets:Current  £1000\n" ++
  "  Income:Work\n" ++
  "\n" ++
  "; This is a comment\n" ++
  "; This is another comment\n" ++
  "2020-01-02 * Grocery store  ; Weekly shop\n" ++
  "\t\t; transaction note\n" ++
  "\t\t; more notes for the transaction\n" ++
  "\t\tAssets:Cash  £-40\n" ++
  "\t\t\t; posting note\n" ++
  "\t\t; another posting note\n" ++
  "    Expenses:Immediate Obligations:Groceries    £40\n" ++
  "\n" ++
  "\n" ++
  "2020-01-03 A restaurant\n" ++
  "      \t\t\t; a comment in the restaurant posting\n" ++
  "    Assets:Current \n" ++
  "    Expenses:Life:Dining    £30\n" ++
  "\n" ++
  "2021-02-11 ! clothes store  ; new shoes\n" ++
  "    Assets:Current\n" ++
  "    Expenses:Life:Clothing    £20.00\n" ++
  "\n" ++
  "; note that this transaction is out of chronological order\n" ++
  "2020-01-04 * Cash\n" ++
  "  Assets:Current     £-40.00\n" ++
  "  Assets:Cash\n" ++
  "\n" ++
  "\n" ++
  "include included.journal\n" ++
  "\n" ++
  ";\n" ++
  "; ---------------------------\n" ++
  "; DO NOT CHANGE THIS FILE\n" ++
  "; ---------------------------\n" ++
  ";\n" ++
  "\n" ++
  "\n" ++
  ";\n" ++
  "; EXPECTED BALANCE OUTPUT\n" ++
  ";\n" ++
  ";             £840.00  Assets\n" ++
  ";                   0    Cash\n" ++
  ";             £840.00    Current\n" ++
  ";             £160.00  Expenses\n" ++
  ";              £40.00    Immediate Obligations:Groceries\n" ++
  ";             £120.00    Life\n" ++
  ";              £70.00      Clothing\n" ++
  ";              £50.00      Dining\n" ++
  ";           £-1000.00  Income:Work\n" ++
  ";--------------------\n" ++
  ";                   0\n" ++
  ";\n" ++
  "\n" ++
  ";\n" ++
  "; EXPECTED ACCOUNTS OUTPUT\n" ++
  ";\n" ++
  "; Assets:Cash\n" ++
  "; Assets:Current\n" ++
  "; Expenses:Immediate Obligations:Groceries\n" ++
  "; Expenses:Life:Clothing\n" ++
  "; Expenses:Life:Dining\n" ++
  "; Income:Work\n" ++
  "\n" ++
  ";\n" ++
  "; EXPECTED PAYEES OUTOUT\n" ++
  ";\n" ++
  "; A restaurant\n" ++
  "; Cash\n" ++
  "; Clothes store\n" ++
  "; Grocery store\n" ++
  "; Job\n" ++
  "; clothes store\n" ++
  ";\n"

/-- testdata/included.journal -/
def sampleIncluded : String :=
  ";\n" ++
  "; ---------------------------\n" ++
  "; DO NOT CHANGE THIS FILE\n" ++
  "; ---------------------------\n" ++
  ";\n" ++
  "\n" ++
  "2020-01-05 A restaurant\n" ++
  "    ; a comment in the restaurant posting\n" ++
  "    Assets:Current          £-20\n" ++
  "    Expenses:Life:Dining\n" ++
  "\n" ++
  "2020-01-06 ! Clothes store  ; new shoes\n" ++
  "    Assets:Current\n" ++
  "    Expenses:Life:Clothing    £50.00\n" ++
  "\n" ++
  ";\n" ++
  "; ---------------------------\n" ++
  "; DO NOT CHANGE THIS FILE\n" ++
  "; ---------------------------\n" ++
  ";\n"

/-- testdata/budget-test.journal -/
def sampleBudget : String :=
  "2020-10-01 * Salary\n" ++
  "    Assets:Current    £100\n" ++
  "    Income:Job\n" ++
  "\n" ++
  "~ 2020-10\n" ++
  "    Clothing   £50\n" ++
  "\n" ++
  "2020-10-02 * Clothes store  ; new shoes\n" ++
  "    Assets:Current\n" ++
  "    Expenses:Clothing    £40.00\n" ++
  "\n" ++
  "2020-10-02 * Grocery store ; unbudgeted spending\n" ++
  "    Assets:Current\n" ++
  "    Expenses:Groceries    £20.00\n" ++
  "\n" ++
  "\n" ++
  "~ 2020-11\n" ++
  "    Groceries   £45\n" ++
  "\n" ++
  "\n" ++
  "2020-11-01 * Salary\n" ++
  "    Assets:Current    £100\n" ++
  "    Income:Job\n" ++
  "\n" ++
  "2020-11-01 * Grocery store\n" ++
  "    Assets:Current\n" ++
  "    Expenses:Groceries    £30.00\n"

/-- testdata/age-test.journal -/
def sampleAge : String :=
  "; income \n" ++
  "\n" ++
  "2020-01-01\n" ++
  "\tIncome:Work\t\t£-100\n" ++
  "\tAssets:Current\n" ++
  "\n" ++
  "2020-02-01\n" ++
  "\tIncome:Work\t\t£-100\n" ++
  "\tAssets:Current\n" ++
  "\n" ++
  "2020-03-01\n" ++
  "\tIncome:Work\t\t£-100\n" ++
  "\tAssets:Current\n" ++
  "\n" ++
  "2020-04-01\n" ++
  "\tIncome:Work\t\t£-100\n" ++
  "\tAssets:Current\n" ++
  "\n" ++
  "2020-05-01\n" ++
  "\tIncome:Work\t\t£-100\n" ++
  "\tAssets:Current\n" ++
  "\n" ++
  "; groceries\n" ++
  "\n" ++
  "2020-01-01\n" ++
  "\tExpenses:Groceries \t\t£60\n" ++
  "\tAssets:Current\n" ++
  "\n" ++
  "2020-02-01\n" ++
  "\tExpenses:Groceries \t\t£60\n" ++
  "\tAssets:Current\n" ++
  "\n" ++
  "2020-03-01\n" ++
  "\tExpenses:Groceries \t\t£60\n" ++
  "\tAssets:Current\n" ++
  "\n" ++
  "2020-04-01\n" ++
  "\tExpenses:Groceries \t\t£60\n" ++
  "\tAssets:Current\n" ++
  "\n" ++
  "2020-05-01\n" ++
  "\tExpenses:Groceries \t\t£60\n" ++
  "\tAssets:Current\n" ++
  "\n" ++
  "; bar\n" ++
  "\n" ++
  "2020-01-05\n" ++
  "\tExpenses:Dining Out \t\t£20\n" ++
  "\tAssets:Current\n" ++
  "\n" ++
  "2020-02-05\n" ++
  "\tExpenses:Dining Out \t\t£20\n" ++
  "\tAssets:Current\n" ++
  "\n" ++
  "2020-03-05\n" ++
  "\tExpenses:Dining Out \t\t£20\n" ++
  "\tAssets:Current\n" ++
  "\n" ++
  "2020-04-05\n" ++
  "\tExpenses:Dining Out \t\t£20\n" ++
  "\tAssets:Current\n" ++
  "\n" ++
  "2020-05-05\n" ++
  "\tExpenses:Dining Out \t\t£20\n" ++
  "\tAssets:Current\n"

/-- testdata/context.journal -/
def sampleContext : String :=
  "2004/05/27 Book Store\n" ++
  "    ; This note applies to all postings. :SecondTag:\n" ++
  "    Expenses:Books                 20 BOOK @ $10\n" ++
  "    ; Metadata: Some Value\n" ++
  "    ; Typed:: $100 + $200\n" ++
  "    ; :ExampleTag:\n" ++
  "    ; Here follows a note describing the posting.\n" ++
  "    Liabilities:MasterCard        $-200.00"

/-! The checks of the sample journals are evaluated by the compiler, not proved: the kernel needs too much memory for journals of this size. -/

/-- A machine with the sample journals. -/
def sampleMachine : Machine :=
  { runsMachine with
    fs := fun p =>
      if p = str "test.journal" then some (utf8 sampleTest)
      else if p = str "included.journal" then some (utf8 sampleIncluded)
      else if p = str "budget-test.journal" then some (utf8 sampleBudget)
      else if p = str "age-test.journal" then some (utf8 sampleAge)
      else if p = str "context.journal" then some (utf8 sampleContext)
      else none
    lib := fun _ => str "strconv.ParseInt: parsing \"20 BOOK @ $10\": invalid syntax" }

-- The expected accounts (testdata/test.journal).
#guard
  letI := asciiUnicode
  sampleMachine.run { file := str "test.journal" } .accounts [] =
      ⟨str ("Assets:Cash\nAssets:Current\nExpenses:Immediate Obligations:Groceries\nExpenses:Life:Clothing\nExpenses:Life:Dining\n" ++
        "Income:Work\n"), .exit 0⟩

-- The expected payees (testdata/test.journal).
#guard
  letI := asciiUnicode
  sampleMachine.run { file := str "test.journal" } .payees [] =
      ⟨str "A restaurant\nCash\nClothes store\nGrocery store\nJob\nclothes store\n", .exit 0⟩

-- The expected balance (testdata/test.journal), with `0.00` for `0`.
#guard
  letI := asciiUnicode
  sampleMachine.run { file := str "test.journal", showZero := true, collapse := true } .balance [] =
      ⟨str ("             £840.00  Assets\n" ++
        "               £0.00    Cash\n" ++
        "             £840.00    Current\n" ++
        "             £160.00  Expenses\n" ++
        "              £40.00    Immediate Obligations:Groceries\n" ++
        "             £120.00    Life\n" ++
        "              £70.00      Clothing\n" ++
        "              £50.00      Dining\n" ++
        "           £-1000.00  Income:Work\n" ++
        "--------------------\n" ++
        "                0.00\n"), .exit 0⟩

-- The statistics of testdata/age-test.journal: 15 transactions, five of them incomes of £100.
#guard
  letI := asciiUnicode
  sampleMachine.run { file := str "age-test.journal" } .statistics [] =
      ⟨str ("Transactions found in 1 files:\n  age-test.journal\nFirst transaction:\t2020-01-01 ()\nLast transaction:\t2020-05-05 ()\n" ++
        "Time period:\t\t125 days\nTransactions:\t\t15 (0.1 per day)\nUnique accounts:\t4\nUnique payees:\t\t1\n" ++
        "Age of money:\t\t14 days\n"), .exit 0⟩

-- The example of the ledger manual is not read: prices are no part of the language.
#guard
  letI := asciiUnicode
  sampleMachine.run { file := str "context.journal" } .print [] =
      ⟨str "error at context.journal:3\nerror parsing amount: strconv.ParseInt: parsing \"20 BOOK @ $10\": invalid syntax\n", .exit 0⟩

end Gledger
