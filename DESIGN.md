# gledger in Lean 4: design

`/repo` (rikchilvers/gledger, Go) is read as text; nothing is built or run. The model is
in `lean/Verif/`, one Lean module per part of the code, every definition citing the Go file
and lines it models. Properties are in `properties.jsonl`; the theorem names for each are
in `MANIFEST.json`.

## Layers

1. `Verif/Model/*` : the model, function by function, total and computable.
2. `Verif/Spec/*`  : small specifications, independent of the model's helpers.
3. `Verif/Lemmas/*`: helper lemmas.
4. `Verif/Props/*` : the property theorems `Cnn_...` and, beside each, an `example` (or
   `..._witness` theorem) showing a concrete case satisfying its hypotheses.

Naming: `Cnn_foo` is a proof of property Cnn (or a named part of it); `Cnn_foo_partial` proves
a weaker statement than the English one; `Cnn_foo_false` proves the *negation* of a property the
code violates, on a concrete input.

## How Go is modelled

* `int64` is `BitVec 64` (wrap-around included). `int` used for depths and counts is `Nat`/`Int`.
* A rune is a Lean `Char` (a Unicode scalar value: exactly what `utf8.DecodeRune` can return);
  `eof` (-1) is `none`. Strings that the program handles are `List Char` (`Str`). File contents and
  lexer input are byte lists; UTF-8 decoding is modelled byte by byte.
* Error returns are values; a panic (index out of range, nil dereference) and `log.Fatalln` are
  distinguished outcomes. A parser step returns the new state *and* an optional failure, so that
  what handlers saw before a failure stays visible. The panics of a command's handler (a posting
  without amount: nil dereference; an expense without category: index out of range) are one outcome,
  `Panic.unusablePosting`: which of the two comes first can depend on the order of a map, and only
  standard error, which is not modelled, tells them apart.
* `nil` pointers are `none`. Mutation through a pointer is a function returning the new value.
  The account tree is a heap of nodes with parent references and child maps; `PathComponents` are
  slices (array id, length, capacity) into a heap of backing arrays, because a property depends on
  their aliasing.
* Go maps are association lists whose order is arbitrary; theorems quantify over every order.
* Callbacks (`itemParser`, transaction handlers, matchers, prependers) are function parameters.
* Recursion that Go bounds by resources (include depth, bounded by open files) takes that bound as a
  parameter, and theorems quantify over it.

The specifications of budgets, statistics and hidden accounts mention the program's constants for `Expenses`, `Income`, `_root_` and `_budget_root_`. The
theorems `Cnn_words` (`Verif/Props/Reserved.lean`) say the same with the words spelled out, so that a wrong constant makes them false. `C49_layout` (`Verif/Props/PrintLayout.lean`) spells out the lines of a printed transaction.

## Outside the model (trusted base)

* Lean's kernel; the axioms `propext`, `Classical.choice`, `Quot.sound` (see `AXIOMS.md` for the axioms
  of each property theorem). No `sorry`, no own axioms, no `native_decide`/`bv_decide`.
* That the model reads the Go code correctly (citations are given on every definition; the unit tests and sample journals of the repository, run on the model
  in `Props/RepoTests.lean`, come out as expected).
* The Go standard library as described in comments: `bufio.Reader.ReadLine`, `utf8.DecodeRune`,
  `time.Parse` for the layouts used, `strconv.ParseInt/Atoi`, `strings.Split/IndexRune`,
  `fmt.Sprintf` for the verbs used, `sort.Strings`, `sort.Slice` are *modelled* (their code is not in
  /repo); `unicode.IsLetter/IsNumber/IsUpper` and the `regexp` engine are *parameters* with stated
  assumptions.
* The program as a whole (`Model/Program.lean`): `os.Exit`, `log.Fatal` and panics are the endings of a run;
  standard output is one text. Which command a word selects is modelled (first match in the order of the
  `init` functions); texts of the standard library's errors are a parameter.
* Warnings are modelled by separate functions (`Model/Warnings.lean`) that give the text printed by the same
  statements; that printing does not change what the handlers do is a theorem (`printing_run`).
* The command line (`Model/CommandLine.lean`): how cobra 1.1.1 and pflag 1.0.5 find the command and read the flags is *modelled* (their code is
  not in /repo). Texts of help and the hidden command `__complete` for shells are parameters. Arguments are valid UTF-8.
* Not modelled: standard error,
  memory exhaustion, the time-zone database (the local zone is an arbitrary offset function; the instant a day from now by the local clock is a parameter), the
  passing of time during a run (the clock is read for every transaction; here it stands still, except in Model/Clock.lean, where every transaction has its moment). `humanize.Time` is a parameter of the commands; what it
  gives is *modelled* in Model/Humanize.lean (its code is not in /repo). Floating point is modelled where used
  (`DisplayableQuantity`, the statistics report): round to nearest even with 53 bits, exponents unbounded.
  Code no command reaches is left out: `prepareBudget` (cmd/budget.go:162-171), `lexer.ingest` (parser/lexer.go:66-77, reads one line as `lex` does, called by tests only) and the helpers of the tests.

## Properties: what is modelled and how it is proved

| id | model | proof |
|----|-------|-------|
| C01 | builder + parser with arbitrary handlers, byte-level lexer, includes | invariant: every handler call passes a balanced transaction; induction over items, lines, include depth |
| C02 | `AddPosting`, `Close` | algebra over posting lists |
| C03 | same as C01 | case analysis of `Close`, then fold prefix lemma |
| C04 | `Close` | negation by witness; partial: elided posting is filled when the rest is non-zero |
| C05 | builder | negation by witness; partial: surplus elided posting in last position is rejected; dropped otherwise |
| C06 | `parseAmount`, `ParseInt` | digit-string induction; negation by witness for one-digit fractions |
| C07 | exact IEEE-754 rounding on rationals | error bound: half an ulp < 1/200 below 2^46 |
| C08 | C06 + C07 | composition |
| C09 | `parseAmount` | negation by witness; partial under the no-overflow guard |
| C10 | `parseDate`, `time.Parse` | characterisation of accepted texts |
| C11 | `Date.Format` + C10 | round trip; day-number monotonicity |
| C12 | lexer + parser | step lemma: comment line is the identity; lift to files |
| C13 | lexer + parser | `endTransaction` idempotent |
| C14 | `ReadLine` on bytes | induction over lines |
| C15 | lexer + parser | fold over append, blank line closes |
| C16 | include | eof and blank line have the same effect; induction over the tree of files |
| C17 | include with open-file bound | induction over the bound |
| C18 | `journalFiles` | negation by witness; exact labels for any tree of files |
| C19 | `lex` | induction over lines |
| C20 | parser | negation by witnesses; partial: sufficient syntactic condition on files |
| C21 | `ReadLine` | induction |
| C22 | `DecodeRune`, `next`/`backup`/`peek` | decode∘encode = id; refinement of the position-based lexer to a list-based one |
| C23 | lexer functions | refinement, then list reasoning |
| C24 | lexer functions | idem |
| C25 | builder | idem |
| C26 | lexer | negation by witness; partial |
| C27 | account heap | refinement of the pointer structure to a prefix-sum specification |
| C28 | C01 + C27 + balance command | composition |
| C29 | account heap | from C27 |
| C30 | account heap | invariant + lookup lemmas |
| C31 | account heap | invariant |
| C32 | slices with backing arrays | negation by witness; exact description of the components by an invariant about shared arrays; own components for shallow trees |
| C33 | C27 | permutation invariance of sums |
| C34 | `RemoveEmptyChildren` on the heap | lookup characterisation; negation by witness for the second half |
| C35 | `PruneChildren` | lookup characterisation |
| C36 | `RemoveChildren` | lookup characterisation |
| C37 | `FindAccounts` | induction over depth |
| C38-C41 | reports | refinement to sorted list of paths |
| C42 | reports + C27 | negation by witness; partial |
| C43-C45 | filters, regexp as parameter | case analysis, permutations |
| C46-C48 | date flags, smart dates, local zone as parameter | arithmetic; witnesses |
| C49 | print, `sort.Slice` as an arbitrary sorting permutation | permutation reasoning |
| C50 | print + parse | composition of C08, C11, C23, C24, C25 |
| C51-C53 | commands | sets as duplicate-free lists |
| C54 | age of money loop | induction |
| C55-C58 | budget | invariants over histories; witness for C58 |
| C59 | `normaliseToMonth` | arithmetic |
| C60 | `parsePeriod` | witness; partial |
| C61 | balance + filters | composition of C27 and C44 |
| C62 | `Close` | witness; partial for single-commodity transactions |
| C63 | balance command | composition of C27-C31, C44 |
| C64 | age of money average | witness; exact formula |
| C65-C66 | parser + print | invariant over lexer items, parser and builder; composition with C50 |
| C67-C68 | budget report | composition of C55-C58; witness |
| C69-C71 | float64 arithmetic of the statistics report | error bounds over the rationals; witnesses |
| C72 | statistics command | composition of C53, C54, C64, C69-C71 |
| C73-C76 | printing handlers for balance and budget | homomorphism from printing to plain handlers; simulation of trees by posting lists; witnesses |
| C77-C82 | the program: flags, root journal, filters, commands, endings | C19 and replay; case analysis of all commands; witnesses |
| C83-C84 | the program on split, joined and re-laid-out files | handlers blind to file names; inlining (C16) and layout (C12, C13) as relations between runs |
| C85-C90 | reports of parts add up; commands agree with each other | sums over delivered transactions; partition of lists; C49, C51, C52, C56, C61, C66, C72 combined |
| C91-C92 | date flags and the runs of the program | agreement of handlers on delivered transactions; dates read from every spelling (C48) |
| C93 | map iteration orders | simulation of runs with permuted orders; uniqueness of sorted lists and of the report of a posting list; witness |
| C94 | lines that cannot be read | case analysis of line items; every parser state fails; C06, C10, C79, C82 |
| C95 | arguments of commands | induction over the arguments; C45 |
| C96 | crashes of commands on accepted journals | induction over the delivered transactions; C61, C67 |
| C97 | the whole program on journals of entries | refinement: meaning of the text and of included files (`Reads` in Spec/Whole), up to layout (C84), then C51-C52, C55, C63, C67, C72, C73, C75, C95, C96 |
| C98 | the error reported for a mistake after any journal, also in included files | state after the paragraphs (`Reads`, `Broken`), then each kind of mistake; C73, C75, C95, C96 |
| C99 | every journal, whatever bytes it is made of | kinds of lines (Spec/Lines) and the course of reading (Spec/Journals) are total and functional; simulation of the parser; C97, C98 |
| C100 | record of transactions, files, budget entries, and postings beside their transactions | invariant of the account tree (Spec/Records), replay of the handlers |
| C101 | what the program does, for every command, flags, arguments and files | case analysis; handlers that fail make the parser fail where the paragraph is complete (Spec/Spots); exact smart dates (C48); what is printed before a crash |
| C102 | flags and arguments as cobra and pflag read them | how they are written (`Typed` in Spec/CommandLine) against the reader: induction over argument lists both ways; last values by induction from the end |
| C103 | same, with the search for the command's name | negation by witness; partial: flags written one at a time, none of whose values is the command's name |
| C104 | same, with help and unknown commands | total and functional description (`Handles` in Spec/CommandLine) equal to the program |
| C105 | the generated `String` methods, slices of one text | the tables against the declarations, decimal writing is injective |
| C106 | `Account.String` on the heap, arbitrary map order | preorder of the tree by induction; reading paths back from indentation |
| C107 | `PeriodicTransaction.Run` with bounds | negation by witness; partial: with an interval, or without bounds; exact result |
| C108 | the whole program on a journal made of paragraphs | deliveries of paragraphs are concatenated (C15); every report is determined, up to what is named, by the multiset of what is delivered |
| C109 | the whole program on two journals | simulation: calls that are not heeded change nothing seen by the report |
| C110 | the whole program before and after a move of its files | simulation of the two parses: everything equal but for the prefix of paths; the directory of a path characterised without `splitDir` |
| C111 | bufio's reader over any division of a file into pieces (Model/Reader.lean) refines `readLines` | invariant: buffered bytes ++ bytes to come; then induction over lines and over open files |
| C112 | files whose reading ends with an error | same invariant; success with failing files = success without them, by induction over open files |
| C113 | delivered transactions against exact integers | negation by witness; sums in 64 bits are exact sums modulo 2^64; bounds by the sum of magnitudes |
| C114 | the balance command against exact integers | negation by witness; exact iff the sum is in range; composition with C61 and C07 |
| C115 | the budget command against exact integers | negation by witness; exact iff the sum is in range; composition with C56 |
| C116 | runs on two disks that agree on the files of the journal | the files of a journal as an inductive closure; induction on the depth of inclusion; the include items of a line are those of an include line (C97) |
| C117 | runs at two times in two time zones | a run depends on time only through the predicate of the date range, which is compared case by case |
| C118 | a run during which time passes against one at its first moment | handlers that count transactions and take the moment of each; a map of handler states, or two replays in step; a counterexample at midnight |
| C119 | commands on a printed journal against the journal it was printed from | the printed text delivers a permutation of the picked transactions (C66); what a command heeds is kept; permutation lemmas of C108 for two different sources |
| C120 | the lines of a top-level account in two balance reports | lines labelled with accounts; which accounts are shown, stand alone or in chains is settled below the top-level account |
| C121 | months, categories and income in two budget reports | the report in labelled pieces, each a function of the part filed there |
| C122 | two requests of which one asks for more, or journals of which one has more paragraphs | sublists of what is selected; sorted lists with one set inside the other |
| C123 | a journal or period and its two parts | permutations of what is selected |
| C124 | journals that agree in what is looked at | reports as functions of accounts and amounts, of which there is only one for each list of postings; handlers that do not see the rest |
| C125 | a run with arguments that cover an account or category, against one without arguments | what is selected there is the same list; the parts of reports (C120, C121) |
| C126 | `humanize.Time` of go-humanize 1.0.0 (Model/Humanize.lean) and the statistics command | binary search over the table of magnitudes; one case for each range |
| C127 | filter arguments that are plain words; the engine is only required to find plain words (`SearchesWords`, met by `wordEngine`) | selection by filters rewritten as containment of words, then C99 |
| C128 | the text of a balance report with the warnings before it (`BalanceReport`, `Shown`, `OwnLine`) | each line cut into amount, indentation and names; the accounts recovered from levels and names (`outline_unique`); legible names from C65 |
| C129 | the texts of the other reports (`Lists`, `FiguresOf`, `BudgetReport`, `BudgetsAlike`, printed transactions) | texts cut into lines, lines into cells; commodities legible and labels on one line by induction over readings; print by reading its text back (C66) |
| C130 | `BalanceReport` of two lists of postings; runs | the accounts shown are determined by the sums if none is called `_root_`; reports are unique (C124); commodities by C73 |
| C131 | `BalanceLine`, names replaced one to one | accounts shown, leaves, only children and levels carried over by the replacement; sorted lists with the same members; runs in one commodity; `C131_texts` for a journal written out and the same text with other names |
| C132 | opposite postings | tallies are opposite by induction; same accounts shown, so the same lines; sign of `%.2f` |
| C133 | `BudgetRow`, `Filed.Renamed` | figures, commodities and warnings carried over one by one; the same months; sorted lists with the same members |
| C134 | `WholeLines`, `unfinished`, `delivered` as list of everything read | what has been recorded only grows, item by item; at the end of the input at most one item is added; a line that is cut off and the whole line begin a transaction alike |
| C135 | `Figures.Fit` (no reference to the computation) | lists without repetition are at most as long as what they are taken from; each pair of days matched is within the period, and so is the average, bounded before it overflows and after |
| C136 | `carried`: the accounts in some order with the sum of each; `openingOf` as an entry of the written form | the report is determined by which accounts occur and by the sums below each (C133); both are the same for what is carried forward; sums grouped by account are the sums below any account |
| C137 | `Numeral.Slip`, `Entry.Slip`: kinds of slips by how they are written | digits of equal length or without leading zeros denote the same number only if they are the same; changing one term of a sum that is zero makes it nonzero modulo 2^64; C98 |
| C138 | `AddsUp` on the printed lines with indentation | the children of an account are disjoint and exhaust what is below it; an account that is not shown has value zero, as have all below it |
| C139 | `laterBy k`: the date advanced k times to the next day; `Postponed`: the transactions in some order, each k days later | day numbers are injective on real dates and keep their order; the age of money is a fold over days, carried along an injective order preserving map; the other reports do not look at dates but to select and to sort |
| C140 | `Posting.Recoined`: the same account and quantity, the commodity under another name | the first commodity of a list of postings is carried along; the lines shown depend on sums only; warnings are pairs of names that differ, kept apart by a one to one renaming |
| C141 | `Posting.Times k`: the same account and commodity, k times the quantity; `KeepsNonzero` | sums are linear modulo 2^64; the accounts shown are the same if no nonzero sum vanishes; odd numbers are invertible modulo 2^64 |
| C142 | `Filed.Times k`: the same day, kind and category, k times the quantity; `MonthFigures.times` | all sums are linear modulo 2^64; nothing is hidden in budgets, so no condition on the number |
| C143 | `ShowsFigures`: the figures a budget shows; `incomeIn`, `rowIn`: zero where nothing is listed | what is filed of the parts together is a permutation of what is filed of the whole; for periods the envelopes are filed alike on each side |
| C144 | `timesBy c`: the same transaction, c times the amounts; `turnover`: the sum of the magnitudes | the matching of incomes and expenses is scaled step by step; what is left in all buckets together never exceeds the turnover, so that no comparison is spoiled by overflow |
| C145 | `SameSums`: the same months, the same categories, the same sums; `BudgetReport` of two lists of postings | a report of the one list is a report of the other; reports are unique (C124); commodities are known from what occurs at all |
| C146 | `FillsColumn`, `BalanceInColumns`, `TableLine`, `SummaryLine`, `BudgetInColumns`: widths and places of bars only | lengths of decimal renderings by induction; every sum shown is bounded by the turnover; floats are exact there (C07) |
| C147 | `UnderOtherNames f g φ`: the same transaction with other names; `KeepsKinds`: the two top accounts the program knows | sets of names are mapped one to one, so their sizes agree; the buckets of incomes and expenses agree day by day |
| C148 | `EnoughBy`: the same spending, covered by the same incomes up to a day; `earnedOn`, `spentOn`: day sums | incomes laid end to end (C54): those after the day begin where the expenses have ended |
| C149 | `NoneTwice`: no posting selected by both lists of filters; `BalancesAdd`: accounts together, balances as sums | what is selected by two lists is a permutation of the two selections (`selection_two`); C143's sharing for budgets |
| C150 | `ListsBoth`: sorted lists, the one with the lines of the other two; multiplicities of printed transactions as maxima | what two lists of filters want is what either wants (`wantedBy_two`), counted by `count_filter_or` and `length_filter_or` |
| C151 | `SameArguments`: the same arguments as a set | equal filters by C95, equal selections by C44, and the postings of each transaction permuted as in C93 |
| C152 | `SameSelections`: equal selections from every delivered transaction in range | `check_picks` per call, replay congruence, at least one posting per transaction by C65 |
