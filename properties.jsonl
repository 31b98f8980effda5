{"id": "C01", "title": "Delivered transactions balance", "statement": "Every transaction (normal or periodic) that the parser hands to a handler balances: the int64 sum of the amounts of its postings, a posting without an amount counting as zero, is 0. This holds for the calls made before a later failure too.", "quantifier": "all byte contents of the root file and of every included file, all handlers, all lines at which parsing stops", "why_tests_cant": "unit tests feed a handful of transactions; the claim is about every file content and every way the builder can be driven into closing a transaction", "anchors": ["parser/transactionbuilder.go:endTransaction", "parser/transactionbuilder.go:endNormalTransaction", "journal/transaction.go:Close", "journal/transaction.go:AddPosting"]}
{"id": "C02", "title": "Elided amount is inferred exactly", "statement": "If a transaction has one posting without an amount and the other postings sum to s with s != 0, closing it gives that posting the amount -s (in the last non-empty commodity written in the transaction) and changes no other posting and no other field.", "quantifier": "all lists of postings, all int64 amounts including those that overflow when summed", "why_tests_cant": "unbounded number of postings and 2^64 amounts per posting", "anchors": ["journal/transaction.go:AddPosting", "journal/transaction.go:Close"]}
{"id": "C03", "title": "Unbalanced transactions are rejected and never delivered", "statement": "If the postings of a transaction all carry amounts and those do not sum to zero, parsing fails with 'transaction does not balance', the handler is not called with it, and no handler call happens afterwards.", "quantifier": "all postings, all handlers, all remaining input", "why_tests_cant": "needs every posting list and every continuation of the file", "anchors": ["journal/transaction.go:Close", "parser/transactionbuilder.go:endTransaction", "parser/parser.go:parseItem"]}
{"id": "C04", "title": "Delivered postings all carry an amount", "statement": "Every posting of every transaction handed to a handler has an amount. (False of the code: an elided posting in a transaction whose other postings already sum to zero keeps no amount, and balance/budget/stats then dereference nil.)", "quantifier": "all journal files", "why_tests_cant": "the failing inputs are a thin slice of the input space that the tests do not sample", "anchors": ["journal/transaction.go:Close", "journal/journal.go:wireUpPosting", "journal/posting.go:String"]}
{"id": "C05", "title": "More than one elided posting is rejected", "statement": "A transaction in which two or more postings have no amount makes parsing fail. (False of the code: only the last posting's error is looked at; an earlier surplus elided posting is silently dropped.)", "quantifier": "all transactions, all positions of the elided postings", "why_tests_cant": "depends on which position the surplus elided posting takes", "anchors": ["journal/transaction.go:AddPosting", "parser/transactionbuilder.go:buildNormalTransaction", "parser/transactionbuilder.go:endNormalTransaction"]}
{"id": "C06", "title": "An amount text denotes its decimal value", "statement": "The quantity stored for an amount written as [sign]digits or [sign]digits.dd is the written number times 100, exactly, and every text that is not a signed decimal number is rejected. (False of the code for a fractional part that is not two digits: 1.5 is stored as 1.05; and signs inside are accepted.)", "quantifier": "all amount texts whose value fits in int64", "why_tests_cant": "unbounded texts; tests try three", "anchors": ["parser/parser.go:parseAmount"]}
{"id": "C07", "title": "Amount display is exact", "statement": "The displayed quantity is the exact decimal rendering with two places of quantity/100, although it is computed through float64, for every quantity of magnitude below 100*2^46; beyond that it can be wrong.", "quantifier": "all int64 quantities, all commodities", "why_tests_cant": "rounding claims about float64 need all 2^53 values; tests display six", "anchors": ["journal/amount.go:DisplayableQuantity"]}
{"id": "C08", "title": "Displayed amounts parse back", "statement": "Displaying a quantity and parsing the displayed text gives the same quantity back, for every quantity of magnitude below 100*2^46.", "quantifier": "all int64 quantities in the range", "why_tests_cant": "a round trip over 10^16 values", "anchors": ["journal/amount.go:DisplayableQuantity", "parser/parser.go:parseAmount"]}
{"id": "C09", "title": "Amounts too large for the ledger are rejected", "statement": "An amount whose value in minor units does not fit in int64 is rejected instead of stored as another number. (False of the code: whole*100 wraps.)", "quantifier": "all digit strings", "why_tests_cant": "the wrap happens only beyond 92233720368547758.07", "anchors": ["parser/parser.go:parseAmount"]}
{"id": "C10", "title": "Transaction dates are accepted exactly when they are real calendar days", "statement": "A transaction date text is accepted iff it is YYYYsMMsDD with s one of - . / used twice and names a day of the Gregorian calendar; the stored date is that day. Texts shorter than five characters are the exception: they crash the program instead of being rejected.", "quantifier": "all texts", "why_tests_cant": "texts are unbounded and calendar validity involves every month/leap-year combination", "anchors": ["parser/parser.go:parseDate", "parser/transactionbuilder.go:buildNormalTransaction"]}
{"id": "C11", "title": "Printed dates parse back to the same day", "statement": "Formatting a transaction date with the layout used by print and parsing it again yields the same day; and comparing two parsed dates compares their (year, month, day).", "quantifier": "all valid dates of years 0 to 9999", "why_tests_cant": "3.6 million days", "anchors": ["journal/transaction.go:String", "parser/parser.go:parseDate"]}
{"id": "C12", "title": "Comment lines are transparent", "statement": "Inserting or removing a line that starts with ; or # in a journal file does not change the transactions delivered, their order, their contents or whether parsing succeeds (only line numbers in error messages shift).", "quantifier": "all files, all positions, all comment texts", "why_tests_cant": "every position of every file", "anchors": ["parser/lexer.go:lexLine"]}
{"id": "C13", "title": "Extra blank lines are transparent", "statement": "Repeating a blank line, or inserting a blank line immediately before a transaction or periodic-transaction header or before the end of file, does not change what is delivered.", "quantifier": "all files, all positions next to a blank line or a header", "why_tests_cant": "every position of every file", "anchors": ["parser/lexer.go:lexLine", "parser/parser.go:parseItem", "parser/transactionbuilder.go:endTransaction"]}
{"id": "C14", "title": "Line endings and the final newline do not matter", "statement": "A file with CRLF line endings yields the same lines as the same file with LF endings, and a final newline may be present or absent.", "quantifier": "all lists of lines within the reader's line limit, none containing a newline or ending in a carriage return", "why_tests_cant": "all file contents", "anchors": ["parser/lexer.go:lex"]}
{"id": "C15", "title": "Files compose: every transaction exactly once, in order", "statement": "Parsing a file made of two parts separated by a blank line delivers exactly the transactions of the first part followed by exactly those of the second, each once.", "quantifier": "all pairs of parts, all handlers", "why_tests_cant": "all ways of cutting all files", "anchors": ["parser/lexer.go:lex", "parser/parser.go:parseItem", "parser/transactionbuilder.go:endTransaction"]}
{"id": "C16", "title": "Include is inlining", "statement": "An include directive delivers the same transactions with the same contents and order as replacing the directive with the lines of the included file, directives in it replaced likewise, followed by a blank line (file attribution apart), when no file is missing.", "quantifier": "all trees of files, all positions of directives, all states of the transaction being built", "why_tests_cant": "all pairs of files and positions", "anchors": ["parser/lexer.go:lexIncludeDirective", "parser/parser.go:parseItem"]}
{"id": "C17", "title": "A cyclic include never succeeds", "statement": "Parsing a file that includes itself, directly or through other files, never returns success, whatever the limit on open files is.", "quantifier": "all file systems with an include cycle reachable from the root, all limits on open files", "why_tests_cant": "unbounded recursion", "anchors": ["parser/parser.go:parseItem", "parser/lexer.go:lexIncludeDirective"]}
{"id": "C18", "title": "Transactions are attributed to the file they are written in", "statement": "The path passed to the handler with a transaction is the path of the file containing it. (False of the code after a nested include returns, and for a transaction left open at an include.)", "quantifier": "all file systems", "why_tests_cant": "all nestings of includes", "anchors": ["parser/parser.go:parseItem", "parser/transactionbuilder.go:endTransaction"]}
{"id": "C19", "title": "Errors name the line where parsing stopped", "statement": "When a line of the root file without includes makes parsing fail with an error, the error names the file and the 1-based number of that line, and all previous lines were processed without failure; an error raised when the end of file closes the last transaction carries no line number.", "quantifier": "all files", "why_tests_cant": "all files and failing positions", "anchors": ["parser/lexer.go:lex", "parser/parser.go:Parse"]}
{"id": "C20", "title": "No input crashes the parser", "statement": "For every file content Parse returns (success or an error) instead of panicking. (False of the code: short dates, trailing blanks after an account, postings or indented comments after a blank line, notes under a periodic header.)", "quantifier": "all byte contents", "why_tests_cant": "needs all inputs", "anchors": ["parser/parser.go:parseDate", "parser/parser.go:parseAmount", "parser/transactionbuilder.go:buildNormalTransaction"]}
{"id": "C21", "title": "Over-long lines are never truncated silently", "statement": "A line that does not fit the 4096-byte read buffer ends the program at that line; it is never processed as a shorter line, and lines that fit are processed whole.", "quantifier": "all file contents", "why_tests_cant": "boundary of the reader buffer over all contents", "anchors": ["parser/lexer.go:lex", "parser/lexer.go:ingest"]}
{"id": "C22", "title": "Text is read as UTF-8 without loss", "statement": "A line that is valid UTF-8 is lexed as exactly its characters, for characters of any width; every byte that is not part of a valid sequence is read as U+FFFD and consumes one byte; no byte is skipped or read twice, and the lexer's position/backup bookkeeping never leaves a character boundary.", "quantifier": "all byte strings", "why_tests_cant": "all byte strings", "anchors": ["parser/lexer.go:next", "parser/lexer.go:backup", "parser/lexer.go:peek"]}
{"id": "C23", "title": "A well-formed header line is read as written", "statement": "A header line 'DATE [!|*] PAYEE  ; NOTE' yields exactly that date, state, payee and note. (False of the code for the note when fewer than two blanks precede the ; : the first character of the note is lost.)", "quantifier": "all dates, states, clean payees, notes and amounts of white space", "why_tests_cant": "unbounded texts", "anchors": ["parser/lexer.go:lexTransactionHeader", "parser/lexer.go:takeToTabOrNextLineOrComment", "parser/lexer.go:trimSpaceStart"]}
{"id": "C24", "title": "A well-formed posting line is read as written", "statement": "A posting line made of indentation, an account name, at least two blanks (or a tab), an optional commodity and an amount yields exactly that account, commodity and amount; a line with only the account yields an elided posting.", "quantifier": "all clean account names, commodities, amount texts and blank runs", "why_tests_cant": "unbounded texts", "anchors": ["parser/lexer.go:lexPosting", "parser/lexer.go:takeUntilMoreThanOneSpace", "parser/lexer.go:lexCommodity"]}
{"id": "C25", "title": "Notes attach to the right thing", "statement": "An indented comment before the first posting becomes a note of the transaction; after a posting it becomes a comment of that posting; order is kept.", "quantifier": "all transactions, all comment positions", "why_tests_cant": "all interleavings of comments and postings", "anchors": ["parser/lexer.go:lexPosting", "parser/transactionbuilder.go:buildNormalTransaction"]}
{"id": "C26", "title": "No posting line is ignored", "statement": "Every indented line that is neither blank nor a comment adds a posting to the open transaction or makes parsing fail. (False of the code: an account not starting with a letter makes the line disappear, and trailing text after an amount and two blanks is dropped.)", "quantifier": "all indented lines", "why_tests_cant": "all line contents", "anchors": ["parser/lexer.go:lexPosting"]}
{"id": "C27", "title": "An account's balance is the sum of the postings below it", "statement": "After any sequence of postings has been added to a journal, the account at path p exists iff p is a prefix of the path of some posting, and its amount is the int64 sum of the amounts of exactly the postings whose path has p as a prefix of components.", "quantifier": "all finite sequences of postings, all paths, all amounts", "why_tests_cant": "induction over histories; the tree and its parent pointers are mutable shared state", "anchors": ["journal/journal.go:AddPosting", "journal/journal.go:wireUpPosting", "journal/account.go:FindOrCreateAccount", "journal/account.go:WalkAncestors"]}
{"id": "C28", "title": "The unfiltered balance total is zero", "statement": "Whenever the balance command without filters prints a report, for any journal, the total on the last line of the report is 0. (It crashes before printing anything if a posting has been left without an amount.)", "quantifier": "all journal files and includes", "why_tests_cant": "whole-program property over all files", "anchors": ["cmd/balance.go:transactionHandler", "cmd/common.go:report", "journal/transaction.go:Close", "journal/journal.go:wireUpPosting"]}
{"id": "C29", "title": "A parent's balance is its own postings plus its children's balances", "statement": "At every account of a journal the amount equals the sum of the amounts posted directly to it plus the sum of the amounts of its children.", "quantifier": "all reachable account trees", "why_tests_cant": "induction over histories", "anchors": ["journal/journal.go:wireUpPosting", "journal/account.go:WalkAncestors"]}
{"id": "C30", "title": "Looking up an account twice gives the same account", "statement": "FindOrCreateAccount(c) returns the account reached from the receiver by the names c; a second call with the same c returns the very same account and changes nothing; calls with different paths return different accounts; no existing account is lost, moved or re-created.", "quantifier": "all trees, all non-empty component lists, all histories of calls", "why_tests_cant": "identity over all histories", "anchors": ["journal/account.go:FindOrCreateAccount", "journal/account.go:findChild", "journal/account.go:newAccountWithChildren"]}
{"id": "C31", "title": "An account's path spells its position", "statement": "The Path of every account created under a journal root is its component names joined with ':', and splitting it at ':' gives back the components it was created from (no component being one of the reserved root names).", "quantifier": "all trees built from colon-delimited paths", "why_tests_cant": "all histories", "anchors": ["journal/account.go:CreatePath", "journal/account.go:newAccountWithChildren", "journal/account.go:Head"]}
{"id": "C32", "title": "An account's PathComponents are its own", "statement": "PathComponents of every account equals the components it was created with, and creating further accounts never changes it. (False of the code: append shares backing arrays, so a sibling created later overwrites the last component.)", "quantifier": "all histories of account creation", "why_tests_cant": "needs slice aliasing across histories", "anchors": ["journal/account.go:newAccountWithChildren", "journal/budget.go:newBudgetMonth"]}
{"id": "C33", "title": "Posting order does not matter for balances", "statement": "Adding the same postings in any order gives the same set of accounts with the same amounts.", "quantifier": "all permutations of all posting lists", "why_tests_cant": "n! orders", "anchors": ["journal/journal.go:AddPosting"]}
{"id": "C34", "title": "Hiding zero accounts", "statement": "After removing empty children, an account is still shown iff neither it nor any ancestor below the root has a zero amount; in particular no shown account is zero. (Accounts that are themselves named _root_ are never removed.) A user also expects no non-zero account to be hidden: false of the code when a parent nets to zero.", "quantifier": "all account trees, all iteration orders", "why_tests_cant": "all trees", "anchors": ["journal/account.go:RemoveEmptyChildren", "journal/account.go:Unlink", "cmd/balance.go:prepareBalance"]}
{"id": "C35", "title": "Pruning by depth keeps exactly the accounts down to that depth", "statement": "After PruneChildren(d, 0) the accounts reachable are exactly those at depth <= d, with amounts and names unchanged.", "quantifier": "all trees, all depths", "why_tests_cant": "all trees and depths", "anchors": ["journal/account.go:PruneChildren"]}
{"id": "C36", "title": "Removing children keeps matches and their ancestors", "statement": "After RemoveChildren(m) an account below the receiver is still reachable iff it or one of its descendants satisfies m, and the result says whether the receiver or some descendant matched.", "quantifier": "all trees, all matchers, all iteration orders", "why_tests_cant": "all trees and matchers", "anchors": ["journal/account.go:RemoveChildren", "journal/account.go:Unlink"]}
{"id": "C37", "title": "Finding accounts visits every account once", "statement": "FindAccounts(m) returns every account of the tree (receiver included) satisfying m exactly once, and nothing else; Leaves returns exactly the accounts without children.", "quantifier": "all trees, all matchers, all iteration orders", "why_tests_cant": "all trees", "anchors": ["journal/account.go:FindAccounts", "journal/account.go:findAccounts", "journal/account.go:Leaves"]}
{"id": "C38", "title": "The flat report lists each leaf account once, sorted", "statement": "FlattenedTree is one line per leaf account, consisting of the prefix for that account and its path, in component-wise alphabetical order, joined by newlines.", "quantifier": "all trees with at least one account below the root, all prependers returning non-empty text", "why_tests_cant": "all trees", "anchors": ["reporting/flattenedtree.go:FlattenedTree", "reporting/flattenedtree.go:flattenedTree", "journal/account.go:SortedChildNames"]}
{"id": "C39", "title": "The tree report lists each account once, indented by depth", "statement": "Without collapsing, Tree is one line per account below the root, in depth-first alphabetical order, each being the prefix for that account, two blanks per level and its name.", "quantifier": "all trees, all prependers returning non-empty text", "why_tests_cant": "all trees", "anchors": ["reporting/tree.go:Tree", "reporting/tree.go:tree"]}
{"id": "C40", "title": "Collapsing only joins only-child chains", "statement": "With collapsing, the tree report has one line for each account that does not have exactly one child, carrying that account's prefix, and the line shows the joined names of the maximal chain of single-child ancestors ending in it; every account name appears exactly once.", "quantifier": "all trees, all prependers", "why_tests_cant": "all trees; threading of mutable context through recursion", "anchors": ["reporting/tree.go:tree"]}
{"id": "C41", "title": "Reports do not depend on map iteration order", "statement": "The flat and tree reports depend only on which children each account has, not on the order in which the runtime iterates the child maps.", "quantifier": "all trees, all permutations of every child map", "why_tests_cant": "Go randomises map order per run", "anchors": ["journal/account.go:SortedChildNames", "reporting/tree.go:Tree", "reporting/flattenedtree.go:FlattenedTree"]}
{"id": "C42", "title": "The lines of the flat report add up to the total", "statement": "The amounts on the lines of the flat balance report sum to the total printed under it. (False of the code if an account with children also has postings of its own.)", "quantifier": "all journals", "why_tests_cant": "all journals", "anchors": ["reporting/flattenedtree.go:flattenedTree", "cmd/common.go:report"]}
{"id": "C43", "title": "The two filter evaluators agree", "statement": "A filter matches a transaction (MatchesTransaction) iff MatchesTransactionHow reports a payee match, a note match or at least one matching posting; the postings it reports are exactly the postings with a matching account path (account filter) or a matching comment (note filter), each once.", "quantifier": "all filters, all transactions, all regular-expression engines", "why_tests_cant": "all transactions and regexes", "anchors": ["reporting/filter.go:MatchesTransactionHow", "reporting/filter.go:MatchesTransaction"]}
{"id": "C44", "title": "Several filters mean any-of, in any order", "statement": "The postings selected for a transaction under a list of filters are: all of them if there are no filters or a filter matches payee or transaction note; otherwise exactly the postings selected by some filter. The selection does not depend on the order or repetition of filters, and adding a filter to a non-empty list never removes a posting.", "quantifier": "all filter lists, all permutations, all transactions", "why_tests_cant": "all filter lists", "anchors": ["cmd/common.go:checkAgainstFilters", "cmd/common.go:dateCheckedFilteringTransactionHandler", "reporting/filter.go:MatchesRegex"]}
{"id": "C45", "title": "Filter arguments: prefix picks the field, lower case ignores case", "statement": "An argument starting with @ filters payees, with = filters notes, otherwise account names; the pattern is the rest of the argument, made case-insensitive iff it contains no upper-case letter; an argument is rejected iff the pattern does not compile. (The empty argument crashes.)", "quantifier": "all non-empty arguments, all regular-expression engines", "why_tests_cant": "all strings", "anchors": ["reporting/filter.go:NewFilter", "reporting/filter.go:ContainsUppercase", "cmd/root.go:PersistentPreRunE"]}
{"id": "C46", "title": "--begin is inclusive and --end is exclusive", "statement": "With --begin b and --end e a transaction dated d is included iff b <= d and d < e, by calendar day. (False of the code when the local time zone is west of UTC: transaction dates are UTC, the flags are local.)", "quantifier": "all dates, all flag dates, all time zone offsets", "why_tests_cant": "depends on the time zone of the machine running the tests", "anchors": ["cmd/common.go:withinDateRange", "parser/dates.go:ParseSmartDate", "parser/parser.go:parseDate"]}
{"id": "C47", "title": "--current includes exactly the transactions up to today", "statement": "With --current a transaction is included iff it is dated today or earlier. (False of the code: tomorrow's transactions are included too.)", "quantifier": "all dates, all instants at which the program runs", "why_tests_cant": "depends on the wall clock", "anchors": ["cmd/common.go:withinDateRange"]}
{"id": "C48", "title": "Smart dates name the first day of the period they spell", "statement": "YYYY, YYYYsMM, MMsDD and YYYYsMMsDD are accepted exactly when they name a real year, month or day and denote the first day of it (MMsDD in the current year); all other texts are rejected. (False of the code for signed years such as -202.)", "quantifier": "all texts, all current years", "why_tests_cant": "unbounded texts", "anchors": ["parser/dates.go:ParseSmartDate", "parser/dates.go:parseYear", "parser/dates.go:parseYearMonth", "parser/dates.go:parseMonthDay", "parser/dates.go:parseYearMonthDay"]}
{"id": "C49", "title": "print shows every matching transaction once, in date order", "statement": "The print command outputs exactly the transactions selected by the filters and date flags, each once, in non-decreasing date order.", "quantifier": "all journals, all filters, every unstable sort", "why_tests_cant": "sort.Slice gives no stability guarantee; all journals", "anchors": ["cmd/print.go:transactionHandler", "cmd/print.go:prepare", "cmd/print.go:report"]}
{"id": "C50", "title": "print output parses back to the same transactions", "statement": "Parsing the text printed for a list of transactions delivers exactly these transactions again, in the same order, with the same dates, states, payees, notes, postings, commodities and quantities.", "quantifier": "all lists of transactions with clean texts and quantities below 100*2^46", "why_tests_cant": "round trip over an unbounded domain", "anchors": ["journal/transaction.go:String", "journal/posting.go:String", "parser/lexer.go:lexLine", "parser/transactionbuilder.go:build"]}
{"id": "C51", "title": "accounts lists each used account path once, sorted", "statement": "The accounts command prints exactly the distinct account paths of the postings of transactions within the date range that match some filter (all if none), each once, in ascending order.", "quantifier": "all journals, all filters, all map iteration orders", "why_tests_cant": "all journals", "anchors": ["cmd/accounts.go:transactionHandler", "cmd/accounts.go:prepare"]}
{"id": "C52", "title": "payees lists each payee once, sorted", "statement": "The payees command prints exactly the distinct payees of the transactions within the date range that match some argument (all if none), each once, in ascending order; an argument that does not compile yields an error and no list.", "quantifier": "all journals, all arguments, all map iteration orders", "why_tests_cant": "all journals", "anchors": ["cmd/payees.go:transactionHandler", "cmd/payees.go:prepare"]}
{"id": "C53", "title": "statistics counts are right", "statement": "After any sequence of transactions the statistics are: the number of selected transactions, the earliest and latest of their dates, the number of distinct selected account paths, of distinct payees and of distinct files. (For the earliest and latest date, transactions of 1 January of year 1 are excluded: the code takes that date for none.)", "quantifier": "all sequences of transactions", "why_tests_cant": "induction over histories", "anchors": ["cmd/stats.go:transactionHandler"]}
{"id": "C54", "title": "Age of money spends income first-in first-out without losing any", "statement": "When incomes and expenses are non-negative, matching expenses to incomes consumes the incomes in date order, never makes a bucket negative, and consumes in total exactly min(total income, total expense).", "quantifier": "all income and expense histories", "why_tests_cant": "induction over histories", "anchors": ["cmd/stats.go:prepare"]}
{"id": "C55", "title": "Budget report finds an expense line for every envelope", "statement": "After any sequence of budget, expense and income postings, in every month the envelopes and the expense categories have exactly the same account paths, so the report never stops with 'didn't find'.", "quantifier": "all sequences of postings", "why_tests_cant": "two trees kept in step over all histories", "anchors": ["journal/budget.go:AddPosting", "cmd/budget.go:report"]}
{"id": "C56", "title": "Budget amounts are the month's sums", "statement": "In every month the amount of an envelope is the sum of the month's budget postings below it, the amount of an expense category is minus the sum of the month's expense postings below it, and income is minus the sum of the month's income postings; postings of one month never change another month.", "quantifier": "all sequences of postings over all months", "why_tests_cant": "induction over histories", "anchors": ["journal/budget.go:AddPosting", "journal/budget.go:addIncomePosting", "journal/budget.go:normaliseToMonth"]}
{"id": "C57", "title": "Budgeting moves funds, it does not create them", "statement": "In every month the envelope root holds exactly the month's income after any number of complete budget transactions: allocating to envelopes takes the same sum out of the root.", "quantifier": "all sequences of transactions", "why_tests_cant": "invariant over histories", "anchors": ["journal/budget.go:AddPosting", "parser/transactionbuilder.go:endNormalTransaction"]}
{"id": "C58", "title": "Budget report columns show what their headings say", "statement": "In the budget report the column headed Budgeted shows the envelope's amount, Activity shows the category's spending and Available their sum. (False of the code: the first two are swapped.)", "quantifier": "all budgets", "why_tests_cant": "no test prints a report", "anchors": ["cmd/budget.go:report"]}
{"id": "C59", "title": "Months are normalised to their first day", "statement": "Two dates share a budget month iff they have the same year and month, and the month's key is the first day of it.", "quantifier": "all valid dates", "why_tests_cant": "all dates", "anchors": ["journal/budget.go:normaliseToMonth"]}
{"id": "C60", "title": "An unreadable period is rejected", "statement": "A periodic header whose period is not YYYY-MM makes parsing fail. (False of the code: the error is discarded and the transaction becomes a budget for month 0001-01.)", "quantifier": "all period texts", "why_tests_cant": "all texts", "anchors": ["parser/parser.go:parsePeriod"]}
{"id": "C61", "title": "A filtered balance is the sum of the selected postings", "statement": "For every journal that parses, with any filters and date flags, the amount shown for an account is the sum of the selected postings below it, and the total is the sum of all selected postings.", "quantifier": "all journals, all filters, all flags", "why_tests_cant": "whole-program property", "anchors": ["cmd/balance.go:transactionHandler", "cmd/common.go:checkAgainstFilters", "journal/journal.go:AddPosting"]}
{"id": "C62", "title": "Each commodity balances on its own", "statement": "A transaction is only accepted if the amounts balance separately in each commodity. (False of the code: quantities are summed regardless of commodity.)", "quantifier": "all transactions", "why_tests_cant": "all transactions", "anchors": ["journal/transaction.go:Close", "journal/amount.go:Add"]}
{"id": "C63", "title": "The balance report is determined by the selected postings", "statement": "Whenever the balance command prints a report, the text is exactly: one line per shown account (flat: those with none shown below; tree: all, indented by depth; collapsed: those without exactly one shown below, with the chain of names), sorted, with the sum of the selected postings below it, then a rule and the total; shown means posted to at or below, and unless zero accounts are wanted neither it nor an account above it sums to zero.", "quantifier": "all journals as bytes, all file systems, filters, date flags, all three forms, with and without zero accounts, all map orders", "why_tests_cant": "end to end over all inputs", "anchors": ["cmd/balance.go:transactionHandler", "cmd/balance.go:prepareBalance", "cmd/common.go:report", "reporting/tree.go:tree", "reporting/flattenedtree.go:flattenedTree"]}
{"id": "C64", "title": "Age of money averages the last ten ages", "statement": "The age of money is the mean of the ages of the last ten matches of an expense with an income (of all of them if there are at most ten). (False of the code: with more than twenty matches it sums all but the last eleven and divides by the number of all.)", "quantifier": "all lists of matches", "why_tests_cant": "needs long histories; no test runs it", "anchors": ["cmd/stats.go:prepare"]}
{"id": "C65", "title": "Handlers only ever get well-formed transactions", "statement": "Every normal transaction handed to a command has a real calendar date, a payee without separators that cannot be mistaken for a state mark unless there is one, trimmed notes, at least one posting, postings that point back to their transaction, and accounts and commodities that can be written back; no text in it contains a newline; every periodic transaction has the first of a month as period and no interval.", "quantifier": "all journals as bytes, all include trees, all handlers, all schedules of delivery", "why_tests_cant": "an invariant of lexer, parser and builder over all inputs", "anchors": ["parser/parser.go:parseItem", "parser/transactionbuilder.go:build", "journal/transaction.go:AddPosting", "journal/transaction.go:Close"]}
{"id": "C66", "title": "The output of print is a journal, and printing it again changes nothing", "statement": "What the print command prints for a journal parses without error to exactly the transactions shown, in the printed order, and printing it again with the same flags gives the same text (provided the shown transactions have an account and an amount in each posting, notes that are not blank, header notes only after a payee, and lines that fit the read buffer).", "quantifier": "all journals as bytes, all include trees, all flags and filters, all map orders", "why_tests_cant": "round trip over all inputs", "anchors": ["cmd/print.go:report", "journal/transaction.go:String", "parser/parser.go:Parse"]}
{"id": "C67", "title": "The budget report is determined by the filed postings", "statement": "Whenever the budget command prints a report, the text is exactly, for each month that has income, expense or budget postings, in calendar order: the header with the month's income, one line per top-level category in ascending order with the month's sums over it and its subcategories, and an empty line; the report is never cut short.", "quantifier": "all journals as bytes, all include trees, filters and date flags, all map orders", "why_tests_cant": "end to end over all inputs; no test runs the command", "anchors": ["cmd/budget.go:report", "cmd/budget.go:13-27", "journal/budget.go:AddPosting"]}
{"id": "C68", "title": "The budget report shows the commodity", "statement": "If all postings of a month are in one commodity, the Available column of every category shows it. (False of the code: a category with postings only in its subcategories is shown without a commodity.)", "quantifier": "all budgets", "why_tests_cant": "no test prints a report", "anchors": ["cmd/budget.go:report", "journal/budget.go:AddPosting"]}
{"id": "C69", "title": "Time period in the statistics", "statement": "The number of days shown as time period is the number of days from the first to the last transaction. (False of the code for periods of 292 years or more, where the duration saturates and 106752 is shown.)", "quantifier": "all pairs of dates", "why_tests_cant": "no test runs the command; the calculation goes through nanoseconds and floating point", "anchors": ["cmd/stats.go:195-196"]}
{"id": "C70", "title": "Transactions per day", "statement": "The number of transactions per day that is shown is the number of transactions divided by the days of the period, to the nearest tenth. (False of the code if all transactions are on one day: +Inf is shown.)", "quantifier": "all counts below 2^53/20 and periods", "why_tests_cant": "no test runs the command; floating point division and formatting", "anchors": ["cmd/stats.go:200-201"]}
{"id": "C71", "title": "Age of money in days", "statement": "The age of money shown is the average age in days, rounded to the nearest day (up to five microseconds from a half), or 0 if the average is negative.", "quantifier": "all 64-bit durations", "why_tests_cant": "no test runs the command; three floating point roundings follow each other", "anchors": ["cmd/stats.go:161-176", "cmd/stats.go:209"]}
{"id": "C72", "title": "The statistics report is determined by the transactions", "statement": "Whenever the statistics command succeeds it prints that nothing matched if no transaction is selected, and otherwise exactly the report whose figures are those of the selected transactions: the files, first and last date, days between, number of transactions, rate per day, numbers of accounts and payees, and the age of money from spending income first-in first-out.", "quantifier": "all journals as bytes, all include trees, filters and date flags, all map orders", "why_tests_cant": "end to end over all inputs; no test runs the command", "anchors": ["cmd/stats.go:report", "cmd/stats.go:transactionHandler"]}
{"id": "C73", "title": "Warnings about mixed commodities are exact (balance)", "statement": "Whenever the balance command's handlers accept a journal, what has been printed when reading ends is exactly one line per posting and account (from the deepest up to the root) whose first written commodity differs from the posting's, in the order of the journal; a journal in one commodity prints none; the run's output is these lines followed by the report.", "quantifier": "all journals as bytes, include trees, filters and flags, all map orders", "why_tests_cant": "no test looks at standard output; interleaving of printing and reading for all journals", "anchors": ["journal/amount.go:Add", "journal/account.go:WalkAncestors", "cmd/balance.go:transactionHandler"]}
{"id": "C74", "title": "Every mix of commodities is pointed out (balance)", "statement": "If two selected postings have different commodities a successful balance run prints a warning. (False of the code if one of the commodities is empty: postings without a commodity followed by postings in one commodity are added silently.)", "quantifier": "all journals as bytes, filters and flags", "why_tests_cant": "needs all orders and commodities", "anchors": ["journal/amount.go:Add", "journal/journal.go:wireUpPosting"]}
{"id": "C75", "title": "Warnings about mixed commodities are exact (budget)", "statement": "Whenever the budget command's handlers accept a journal, what has been printed when reading ends is exactly the lines determined by the filed postings: month by month, for each category above the posting's the commodity last used by that category itself, for the pool, for all spending and for income the first commodity of the month; the report's own lines bring no further warning.", "quantifier": "all journals as bytes, include trees, filters and flags, all map orders", "why_tests_cant": "no test looks at standard output", "anchors": ["journal/budget.go:AddPosting", "journal/amount.go:Add", "cmd/budget.go"]}
{"id": "C76", "title": "A budget in one commodity gives no warning", "statement": "If all postings filed in the budget are in one commodity then the budget command prints no warning. (False of the code: a nested category warns, its parent's amount having no commodity.)", "quantifier": "all journals as bytes, filters and flags", "why_tests_cant": "needs nested categories in all orders", "anchors": ["journal/budget.go:AddPosting", "journal/budget.go:47-151"]}
{"id": "C77", "title": "Which journal is read", "statement": "A journal given by --file is read whatever the environment; otherwise the one named by LEDGER_FILE, as if given by --file; without either the program says that no path was provided, and if the file cannot be opened it prints the error of opening it, and in both cases nothing else.", "quantifier": "all machines, flags, commands and arguments", "why_tests_cant": "no test runs the program", "anchors": ["cmd/common.go:15-29", "cmd/root.go:43"]}
{"id": "C78", "title": "Failures show in the exit status", "statement": "A run that does not produce what was asked for ends with an exit status other than 0. (False of the code: a rejected or missing journal and unreadable dates end with status 0.)", "quantifier": "all machines, flags, commands and arguments", "why_tests_cant": "no test runs the program", "anchors": ["cmd/root.go:Execute", "cmd/accounts.go:20-32", "cmd/balance.go:22-37"]}
{"id": "C79", "title": "A rejected journal's message names the place", "statement": "Every command that reads a rejected journal prints, after its warnings, the parser's message beginning with 'error at PATH:LINE', LINE being a line number of the file; only a last transaction that is closed by the end of the file and does not balance is reported without a place.", "quantifier": "all journals as bytes, all commands, flags and arguments", "why_tests_cant": "end to end over all inputs", "anchors": ["parser/lexer.go:106", "parser/parser.go:47", "cmd/common.go:30-34"]}
{"id": "C80", "title": "Unreadable --begin and --end are reported", "statement": "If --begin or --end is not a date then the command reports this and produces no report. (False of the code: the flags are only looked at when a transaction is handled, so a journal without transactions is reported on; and with --current they are never looked at, which is documented.)", "quantifier": "all journals, all flag values, all commands", "why_tests_cant": "needs journals without transactions and all flag values", "anchors": ["cmd/common.go:withinDateRange"]}
{"id": "C81", "title": "Each word for a command selects it", "statement": "Every name and alias of a command selects that command. (False of the code: p is an alias of both payees and print.)", "quantifier": "all commands and words", "why_tests_cant": "no test looks at aliases", "anchors": ["cmd/payees.go:18", "cmd/print.go:15"]}
{"id": "C82", "title": "No partial reports", "statement": "If the journal is rejected or a command stops at one of its transactions, the output consists of the warnings and at most one message: nothing of a report is printed.", "quantifier": "all journals as bytes, all commands, flags and arguments", "why_tests_cant": "end to end over all inputs", "anchors": ["cmd/common.go:15-35", "cmd/balance.go:22-37", "cmd/stats.go:24-32"]}
{"id": "C83", "title": "Splitting a journal into files changes no report", "statement": "Replacing a journal that includes other files, in directories and to any depth, by the one file that has their contents in place of the include lines leaves every command's output and exit status as they are: same text, or the same warnings and an error for the same reason. The statistics differ in the list of files only.", "quantifier": "all file systems, journals, commands, flags and arguments", "why_tests_cant": "end to end over all trees of files", "anchors": ["parser/parser.go:64-85", "parser/lexer.go:161-182", "cmd/common.go:15-35", "cmd/stats.go:74-75"]}
{"id": "C84", "title": "Layout changes no report", "statement": "Changing comment lines, repeated blank lines, blank lines before headers or at the end, line ends, or the final newline in any of the files leaves every command's output and exit status as they are, up to file and line in an error message.", "quantifier": "all file systems, commands, flags and arguments", "why_tests_cant": "end to end over all rewritings of all files", "anchors": ["parser/lexer.go:79-130", "parser/parser.go:53-113", "cmd/common.go:15-35"]}
{"id": "C85", "title": "Balances of the parts of a journal add up", "statement": "If a journal consists of two parts separated by a blank line, of which the first is accepted, then the balance command reads it to the end exactly if it does so with each part; its accounts are those of the parts, and each balance is the sum of the parts' balances. The order of the parts does not matter.", "quantifier": "all files, filters and date flags", "why_tests_cant": "quantifies over all pairs of journals", "anchors": ["cmd/balance.go:57-78", "parser/parser.go:53-113", "journal/journal.go:70-105"]}
{"id": "C86", "title": "Balances of the parts of a period add up", "statement": "Divide the period given by --begin and --end at a date within it: each transaction is in exactly one of the two parts, and each balance is the sum of those of the parts.", "quantifier": "all journals, filters, date flags and dividing dates", "why_tests_cant": "boundary of a half-open interval for all dates and zones", "anchors": ["cmd/common.go:100-126", "cmd/balance.go:57-78"]}
{"id": "C87", "title": "The commands count alike", "statement": "Without filters, the statistics' numbers of accounts, payees and transactions are the numbers of lines of the accounts and payees commands and of transactions that print prints.", "quantifier": "all journals and date flags", "why_tests_cant": "relates four commands for all journals", "anchors": ["cmd/stats.go:63-115", "cmd/accounts.go:46-85", "cmd/payees.go:48-97", "cmd/print.go:41-64"]}
{"id": "C88", "title": "The budget agrees with the balances", "statement": "With the same flags and filters, the months' spendings on a category sum up to minus the balance of the account of that name under Expenses, and the months' incomes to minus the balance of Income.", "quantifier": "all journals, filters, date flags and categories", "why_tests_cant": "relates two commands that build separate trees", "anchors": ["cmd/budget.go:72-100", "journal/budget.go:47-191", "cmd/balance.go:57-78"]}
{"id": "C89", "title": "Balances of the printed journal", "statement": "The balance command finds for the output of the print command the accounts and quantities that it finds for the journal itself, with the same flags and filters.", "quantifier": "all journals whose transactions print can write, all filters and date flags", "why_tests_cant": "composition of two commands for all journals", "anchors": ["cmd/print.go:41-64", "journal/transaction.go:54-73", "cmd/balance.go:57-78"]}
{"id": "C90", "title": "The accounts list and the tree", "statement": "Without filters, the accounts of the balance tree are exactly the accounts that the accounts command lists and those above them.", "quantifier": "all journals and date flags", "why_tests_cant": "relates two commands for all journals", "anchors": ["cmd/accounts.go:46-85", "cmd/balance.go:57-78", "journal/account.go:114-140"]}
{"id": "C91", "title": "Date flags matter through the transactions they admit", "statement": "Two settings of --begin, --end and --current that admit the same transactions of a journal give the same output, the same errors up to the place named in them, and the same panics, for every command.", "quantifier": "all journals, commands, filters and pairs of flag settings that treat the delivered transactions alike", "why_tests_cant": "the pairs of flag settings, dates and journals are unbounded", "anchors": ["cmd/common.go:59-98", "cmd/common.go:100-126", "cmd/common.go:131-138"]}
{"id": "C92", "title": "Spellings of a bound, and --current", "statement": "Two spellings of --begin or --end that name the same day give identical runs, and with --current the values of --begin and --end, readable or not, are never looked at.", "quantifier": "all journals, commands and filters, all pairs of accepted spellings, all present years from 1000 to 9999", "why_tests_cant": "every spelling of every date, with every journal", "anchors": ["cmd/common.go:104-121", "parser/dates.go:11-131"]}
{"id": "C93", "title": "Reports do not depend on the order of Go maps", "statement": "The output of a command does not depend on the orders in which Go iterates over the maps of accounts, payees, files, buckets and matched postings.", "quantifier": "all journals, commands, filters, flags and pairs of iteration orders", "why_tests_cant": "Go picks an order at random in each run; a test sees one", "anchors": ["cmd/common.go:157-159", "cmd/accounts.go:55-57", "cmd/payees.go:55-57", "cmd/stats.go:118-129", "cmd/stats.go:186-189", "reporting/filter.go:89-91"]}
{"id": "C94", "title": "Unreadable lines are never passed over", "statement": "A line of no known kind (forgotten indentation, misspelt directive, include without a file, ~ without a blank), a header whose date is not a day, or a posting whose amount is not a number is never accepted: reading ends at that line or before, nothing that follows is looked at, no command gives a report, and for lines of no known kind the message is exactly the place and the reason.", "quantifier": "all files, all lines of these kinds, all commands", "why_tests_cant": "all lines and all contexts in which the line may stand", "anchors": ["parser/lexer.go:115-192", "parser/parser.go:117-193", "parser/transactionbuilder.go:77-82", "parser/transactionbuilder.go:130-143"]}
{"id": "C95", "title": "The arguments are the filters", "statement": "If every argument stands for a filter (non-empty, field picked by its first character, pattern compiling, case ignored unless it has an upper-case letter) then a command runs with exactly these filters in this order; otherwise the first argument that does not stops the program without output before any journal is looked for, with a panic if it is empty and status 1 if its pattern does not compile, whatever the command, options and files.", "quantifier": "all lists of arguments, commands, options, regular expression engines and files", "why_tests_cant": "argument lists and engines are unbounded", "anchors": ["cmd/root.go:26-36", "reporting/filter.go:32-57"]}
{"id": "C96", "title": "Which journals make a command crash", "statement": "A command run on an accepted journal crashes exactly if it meets a posting it cannot use: balance if some selected posting has no amount, statistics if some selected posting to Income or Expenses has none, budget if some posting it files has none or names no category. In every other case, and always for the other commands, it ends with status 0.", "quantifier": "all accepted journals, filters, date options that can be read, map orders and commands", "why_tests_cant": "absence of crashes over all journals cannot be established by running some", "anchors": ["journal/journal.go:77-105", "journal/transaction.go:96-121", "journal/budget.go:47-151", "cmd/stats.go:100-110", "cmd/balance.go:57-79", "cmd/budget.go:46-100"]}
{"id": "C97", "title": "From the bytes of the journal to the text of the report", "statement": "For a journal of well-formed entries and budget entries, in one file or in files that include each other, in any layout, with numbers, dates, filters and date flags described by how they are written, every command either crashes, exactly when an amount it needs is missing, or prints the report of what the journal means: accounts and payees the sorted lists of the names used, print the transactions asked for in date order, balance and budget the warnings followed by the sums and table of the postings asked for, statistics the figures of the transactions asked for.", "quantifier": "all journals of entries and budget entries, commands, filters, date flags, time zones and map orders", "why_tests_cant": "the statement joins lexer, parser, filters, dates, account tree and report; tests only look at parts of it on chosen journals", "anchors": ["cmd/root.go:26-36", "cmd/common.go:15-37", "cmd/common.go:60-162", "parser/parser.go:117-193", "cmd/balance.go:57-85", "cmd/budget.go:46-160", "cmd/stats.go:63-211", "cmd/print.go:41-64", "cmd/accounts.go:46-85", "cmd/payees.go:48-97", "parser/parser.go:64-85"]}
{"id": "C98", "title": "Mistakes in a journal are reported with their place", "statement": "If complete paragraphs are followed by a mistake, in the journal or in a file it includes (a line of no known kind, a date or an amount that cannot be read, an entry that does not balance or lacks two amounts, an include file that is missing or one too many to open, an indented line that belongs to nothing, a line that is too long), every command prints its warnings about the paragraphs before, no report, and then the include directives that lead there, the file, the number of the line at which the mistake is noticed and the reason, with exit status 0; dates of fewer than five characters and stray indented lines crash the program instead, overlong lines end it with status 1.", "quantifier": "all journals, places, mistakes of these kinds, commands, filters and date flags", "why_tests_cant": "tests check the error of one text at a time, never the number of the line after an arbitrary journal nor the output of the commands", "anchors": ["parser/lexer.go:79-175", "parser/parser.go:40-115", "parser/parser.go:117-193", "parser/transactionbuilder.go:66-147", "parser/transactionbuilder.go:165-239", "cmd/root.go:26-36", "cmd/common.go:15-37"]}
{"id": "C99", "title": "Every journal has one reading, and the program follows it", "statement": "Whatever bytes a journal and the files it includes are made of, every line of it is of exactly one kind, determined by its characters, and there is exactly one way to read it: line by line, what is open, which transactions and budget entries are complete and to which file they belong, and what is wrong at which place, if anything. Every command acts on exactly these paragraphs: it crashes if one of them lacks an amount that the command needs, and otherwise prints its answer if the whole journal can be read, or its warnings and the place and reason of the error if not.", "quantifier": "all byte strings, file systems, limits on open files, commands, filters, date flags and time zones", "why_tests_cant": "tests choose journals; this is about all of them, also those nobody would think of, such as an entry that goes on in an included file", "anchors": ["parser/lexer.go:79-476", "parser/parser.go:40-193", "parser/transactionbuilder.go:28-239", "journal/transaction.go:80-121", "cmd/common.go:15-37"]}
{"id": "C100", "title": "The journal keeps what it is given", "statement": "After the balance command has read a journal without failing, its own Journal has recorded, in order, exactly the transactions within the date range that some filter lets through, beside each the file it is from, and all budget entries; every account has recorded exactly the selected postings made to it, and beside each posting the transaction it belongs to.", "quantifier": "all byte strings and file systems, all filters, all date flags, all iteration orders of maps", "why_tests_cant": "invariant over all histories of AddTransaction, AddPeriodicTransaction and AddPosting", "anchors": ["journal/journal.go:38-75", "journal/journal.go:77-105", "cmd/balance.go:57-78"]}
{"id": "C101", "title": "Every run is described", "statement": "On an ordinary machine, whatever the command, the flags, the arguments and the files, the program does one of these things, as the first that applies: it stops without output at the first argument that is no filter (crash if it is empty, status 1 otherwise); it prints the version; it says that no journal is named, or that it cannot be opened; if a date flag spells no day, it complains about the first such flag at the place where the first transaction of the journal is complete, unless there is none, when the flags are ignored; it crashes at an amount that is missing and needed, after printing its warnings about the postings before; it reports the first mistake in the journal after its warnings; or it prints its warnings and its answer. How a run ends follows from this description.", "quantifier": "all commands, flags, argument lists, file systems, regular expression engines, time zones with offsets within a day, days between the years 1000 and 9999, iteration orders of maps", "why_tests_cant": "the description covers every input; in particular where an error of a flag is reported depends on the whole course of reading, through all included files", "anchors": ["cmd/root.go:26-36", "cmd/common.go:15-35", "cmd/common.go:37-90", "parser/dates.go:11-131", "cmd/balance.go:22-78", "cmd/budget.go:20-100"]}
{"id": "C102", "title": "Flags mean the same however they are written", "statement": "After the name of a command, flags may be written by their long or one-letter names, one-letter flags together, values in the next argument, after an equals sign or directly behind a one-letter name, in any order and mixed with the arguments; each flag has the value it is given last, everything after two dashes is an argument, and the command runs with exactly these settings and arguments. Argument lists that are not written this way are rejected with status 1, without output and without a look at the journal.", "quantifier": "all argument lists, all commands, all machines", "why_tests_cant": "argument lists, spellings and orders are unbounded; that all others are rejected is a statement about every other list", "anchors": ["cmd/root.go:42-47", "cmd/balance.go:40-44", "cmd/budget.go:28-33", "cmd/root.go:50-55"]}
{"id": "C103", "title": "Flags of the whole program may stand before the command", "statement": "Flags that belong to the whole program (--file, --begin, --end, --current) mean the same before the name of the command as after it.", "quantifier": "all such flags with all values, all commands, all remaining arguments", "why_tests_cant": "whether it holds depends on the values: a value that happens to be the name of the command, or one-letter flags written together, break it", "anchors": ["cmd/root.go:42-47", "cmd/root.go:50-55", "main.go:7-9"]}
{"id": "C104", "title": "Every command line is dealt with in one way", "statement": "Whatever the arguments of the program are, it does exactly one of these things: what the command does with the flags and arguments written; help for a command, for help itself or for the whole program; an error with status 1 for an unknown command, for flags that are wrong, or for an argument without a command that is no filter (a crash if that is empty); nothing, with status 0, for help on something unknown; the hidden command for shells. The name of the command is the first argument that is neither a flag nor taken for the value of a flag.", "quantifier": "all argument lists, all machines", "why_tests_cant": "a statement about every list of texts; a missing case cannot be found by trying cases", "anchors": ["main.go:7-9", "cmd/root.go:22-55", "cmd/balance.go:17-44", "cmd/budget.go:13-33"]}
{"id": "C105", "title": "Generated names are the names of the constants", "statement": "The String methods of the period types, transaction states, item types and transaction types give each constant the name it is declared with; any other number is shown as the type followed by the number in brackets; different numbers are never shown alike, and no number makes them fail.", "quantifier": "all integers, all four types", "why_tests_cant": "the claim is about every integer, and about names cut out of one long text by offsets, which go wrong silently if a constant is added or moved", "anchors": ["journal/periodtype_string.go:22-31", "journal/transactionstate_string.go:16-25", "parser/itemtype_string.go:25-34", "parser/transactiontype_string.go:15-24", "journal/periodictransaction.go:11-24", "journal/transaction.go:11-18", "parser/lexer.go:19-34", "parser/transactionbuilder.go:11-16"]}
{"id": "C106", "title": "The text of an account shows its tree", "statement": "The text of an account has one line for the account and for each account below it, with the name indented by two columns for each level, and a line stands below that of its parent so that the indentation shows what is below what. If no name begins with a space or contains a line end, the text determines all accounts of the tree, whatever the iteration order of the maps.", "quantifier": "all account trees, all iteration orders of maps", "why_tests_cant": "trees are unbounded and the order of maps varies from run to run", "anchors": ["journal/account.go:35-54"]}
{"id": "C107", "title": "A periodic transaction keeps to the bounds it is given", "statement": "The transactions that a periodic transaction gives for a span of days lie within that span.", "quantifier": "all periodic transactions, all spans", "why_tests_cant": "the claim is about every period, interval and span; the program itself uses only one span", "anchors": ["journal/periodictransaction.go:46-70"]}
{"id": "C108", "title": "The order of the paragraphs of a journal", "statement": "If the paragraphs of an accepted journal are put in another order, every command ends as before; accounts and payees print the same; print lists the same transactions by date (and exactly the same text if no two have the same date); balance and budget show the same lines and quantities, and can differ only in the commodities of accounts, incomes and categories that mix them (and in their warnings), so that balances in one commodity are the same text; and the statistics are the same if no transaction is dated 1 January of year 1.", "quantifier": "all lists of accepted paragraphs and all permutations of them, all flags that can be read, all filters, all iteration orders of maps", "why_tests_cant": "the claim compares all orders of any number of paragraphs", "anchors": ["parser/parser.go:29-146", "cmd/balance.go:22-86", "cmd/budget.go:26-160", "cmd/stats.go:49-212", "cmd/print.go:20-64", "cmd/accounts.go:20-79", "cmd/payees.go:22-91"]}
{"id": "C109", "title": "What is not asked for has no influence", "statement": "What a command prints and how it ends depends only on what it is asked about: transactions out of the date range (for all commands), transactions that match no filter (for print, statistics, balance and budget), budget entries (for all but budget), and transactions without selected postings to Income and Expenses (for budget) can be removed from or added to an accepted journal without any change.", "quantifier": "all pairs of accepted journals with the same relevant entries, all flags that can be read, all filters, all commands", "why_tests_cant": "the claim is about everything that could be added to a journal", "anchors": ["cmd/common.go:60-138", "cmd/balance.go:57-78", "cmd/budget.go:46-100", "cmd/stats.go:63-113", "cmd/print.go:41-52", "cmd/accounts.go:46-51", "cmd/payees.go:48-51"]}
{"id": "C110", "title": "A journal can be moved with the files it includes", "statement": "An include directive names the file whose path is the directory of the including file (everything up to its last slash) followed by the name as it is written, even if that begins with a slash; if there is no such file every command reports that path. If a journal is moved with the files it includes to another directory, every command does the same as before: reports are the same text, the statistics differ only in the files, which are named at their new places, and so do errors.", "quantifier": "all file systems, journals, directories, include directives to any depth, commands, flags and arguments", "why_tests_cant": "the claim compares runs on all journals with all directories they could be moved to", "anchors": ["parser/lexer.go:165-185", "parser/parser.go:53-90", "cmd/common.go:15-35", "cmd/stats.go:63-113"]}
{"id": "C111", "title": "The pieces in which a file arrives do not matter", "statement": "What the program makes of a journal depends only on the bytes of the files: however the operating system divides the root journal and the included files into pieces (down to single bytes, inside lines, between \"\\r\" and \"\\n\", with reads that return nothing yet), every command hands the same transactions to its handlers, ends the same way and reports the same.", "quantifier": "all journals with included files, all readers that deliver their bytes in non-empty pieces of at most the size asked for (and fewer than 100 empty reads in a row), all handlers", "why_tests_cant": "the tests read from strings and small files that arrive in one piece; the claim is about all ways of dividing all files", "anchors": ["parser/lexer.go:52-63", "parser/lexer.go:79-112", "parser/parser.go:40-51", "parser/parser.go:68-90", "cmd/common.go:15-35"]}
{"id": "C112", "title": "No report on a file that cannot be read to its end", "statement": "If reading the root journal or an included file fails with an error other than the end of the file (a directory, a disk error, a source that gives neither bytes nor an error any more), the parse fails: the lines read so far are dealt with, the open transaction is not handed over, and the error is \"error at \" followed by the text of the read error, without the file's name and line. A parse succeeds only if every file it opened was read to its end, and then as if no other files existed.", "quantifier": "all journals with included files, all read errors and all places in the files where they occur, all handlers", "why_tests_cant": "no test makes a read fail; the claim ranges over all places of the failure and all inclusion structures", "anchors": ["parser/lexer.go:82-93", "parser/parser.go:45-48", "parser/parser.go:68-90", "cmd/common.go:26-34"]}
{"id": "C113", "title": "Delivered transactions balance in exact arithmetic", "statement": "The amounts of every transaction that the parser hands to a handler sum to zero as numbers, not only modulo 2^64. (False of the code: 92233720368547758.07 twice and 0.02 are accepted.) The sum is always a multiple of 2^64 hundredths; it is zero if the magnitudes sum to less than 2^64, and with two postings unless both are the least int64; no transaction that balances exactly is rejected for not balancing.", "quantifier": "all journals, all handlers, all amounts", "why_tests_cant": "the amounts in tests are small; the claim is about sums that overflow", "anchors": ["journal/transaction.go:96-121", "parser/transactionbuilder.go:165-205"]}
{"id": "C114", "title": "Balances are the exact sums", "statement": "The balance of an account is the sum of the selected postings below it as a number. (False of the code: two deposits of 92233720368547758.07 give -0.02.) It is exactly if that sum can be stored in 64 bits, whatever overflows on the way; if less than 100*2^46 hundredths are moved altogether, every balance is exact and is shown exactly with two decimals.", "quantifier": "all journals, filters, date flags and accounts", "why_tests_cant": "the claim is about all sums, in particular those that overflow", "anchors": ["journal/account.go:80-88", "journal/journal.go:77-105", "journal/amount.go:26-44", "cmd/balance.go:22-37"]}
{"id": "C115", "title": "Budget figures are the exact sums", "statement": "The figures of a budget month (budgeted, spent, earned) are the sums of the postings they count as numbers. (False of the code: they wrap around.) Each is exactly if its sum can be stored in 64 bits.", "quantifier": "all journals, filters, date flags, months and categories", "why_tests_cant": "the claim is about all sums, in particular those that overflow", "anchors": ["journal/budget.go:47-187", "journal/amount.go:36-53", "cmd/budget.go:46-100"]}
{"id": "C116", "title": "Only the files a journal consists of are read", "statement": "What a command prints and how it ends depends on no file but the root journal and the files included from it, directly or through other files: if another disk has the same contents under these names (or lacks the same ones), the run is the same.", "quantifier": "all file systems, journals, commands, flags and arguments", "why_tests_cant": "the claim compares runs on all pairs of disks that agree on the journal", "anchors": ["parser/lexer.go:161-183", "parser/parser.go:68-90", "cmd/common.go:15-35"]}
{"id": "C117", "title": "Clock and time zone matter only where they are asked for", "statement": "Without --begin, --end and --current the time of the run and the time zone have no influence on a run (the words for elapsed time in the statistics aside). With --current only the instant a day from now by the local clock has one. Without --current that instant has none, and the current year has none unless --begin or --end is written without a year. The words for elapsed time are used by the statistics only.", "quantifier": "all machines, journals, commands, flags and arguments", "why_tests_cant": "a test runs at one time in one zone; the claim compares runs at all times", "anchors": ["cmd/common.go:100-126", "parser/dates.go:11-48", "cmd/stats.go:49-113"]}
{"id": "C118", "title": "All transactions of a run are judged by the same days", "statement": "A run gives what it would give if time stood still: no transaction is left out while another of the same day is taken, however long the run takes and however often maps are ordered anew.", "quantifier": "all machines, journals, commands, flags and arguments, and all clocks that go on during the run", "why_tests_cant": "a test runs within an instant; the claim is about runs that pass midnight, and about every way in which maps can be ordered anew for each transaction", "anchors": ["cmd/common.go:100-126", "cmd/common.go:157", "parser/dates.go:86-110"]}
{"id": "C119", "title": "A printed journal can stand in for the journal", "statement": "Let print write a journal, with any flags and filters, all of whose printed transactions it can write exactly (every posting has an account and an amount below 2^46 units, no note is blank, a note on the header line follows a payee, lines fit the read buffer). Then every command that is asked only about printed transactions gives for the printed text, under any name, what it gives for the journal: accounts and payees the same lists; print the same transactions, by date; balance the same accounts and quantities; statistics the same figures, for one file; budget the same months, categories and quantities.", "quantifier": "all machines, journals with any include trees, flags and filters of the printing and of the later command, all names and surroundings of the printed file, all map orders", "why_tests_cant": "needs a round trip through printing and parsing for every journal and every pair of command lines, and equality of six reports whose order of work differs between the two files", "anchors": ["cmd/print.go:20-64", "journal/transaction.go:String", "cmd/accounts.go:20-79", "cmd/payees.go:22-91", "cmd/balance.go:22-85", "cmd/stats.go:49-211", "cmd/budget.go:26-160"]}
{"id": "C120", "title": "Changes stay local in the balance report", "statement": "The lines of a balance report about a top-level account and the accounts below it (which lines there are, their amounts, indentation and names) depend only on what is selected in that account: two runs with the same display flags, on whatever journals and machines, show the same lines for it if the same is posted there. In particular a paragraph put anywhere into a journal leaves alone the lines of all top-level accounts to which it posts nothing. (With filters that pick single postings, commodities are only settled if all are in one.)", "quantifier": "all machines, journals, paragraphs and places in the journal, all flags and filters, flat, tree and collapsed form", "why_tests_cant": "relates pairs of runs on unrelated journals that agree in one account; collapsing and hiding of empty accounts look at neighbours, so interference has to be excluded for every shape of the tree", "anchors": ["cmd/balance.go:transactionHandler", "cmd/balance.go:prepareBalance", "cmd/common.go:report", "reporting/tree.go:tree", "reporting/flattenedtree.go:flattenedTree", "journal/account.go:RemoveEmptyChildren", "journal/journal.go:AddPosting"]}
{"id": "C121", "title": "Months and categories of a budget do not influence each other", "statement": "The section of a month in a budget report depends only on what is filed in that month, the line of a category in a month only on what is filed under that category in that month, and the summary of a month only on the income of the month. In particular a paragraph put anywhere into a journal leaves alone the months in which it files nothing, and within other months the lines of the categories under which it files nothing.", "quantifier": "all machines, journals, paragraphs, places in the journal, flags, and filters that select transactions as a whole", "why_tests_cant": "relates pairs of runs on unrelated journals that agree in one month or category only", "anchors": ["cmd/budget.go:transactionHandler", "cmd/budget.go:periodicTransactionHandler", "cmd/budget.go:report", "journal/budget.go:AddPosting", "journal/budget.go:addEnvelopePosting", "journal/budget.go:addExpensePosting", "journal/budget.go:addIncomePosting"]}
{"id": "C122", "title": "Whoever asks for more is shown more", "statement": "Adding arguments to existing ones (or leaving out all arguments), widening the period given by --begin and --end, and adding paragraphs to a journal never takes anything away: accounts and payees lists contain all earlier entries in order, print contains all earlier transactions (as often), a balance tree with --show-zero contains lines for all earlier accounts in order, a budget contains all earlier months with all their categories, and in the statistics no count decreases, no file disappears, and (if nothing is dated 0001-01-01, Go's zero date) the days covered do not become fewer.", "quantifier": "all pairs of requests of which the second asks for more, all journals of which one is contained in the other, all machines", "why_tests_cant": "relates all pairs of runs; filters, date flags and journals vary independently", "anchors": ["cmd/common.go:withinDateRange", "cmd/common.go:checkAgainstFilters", "cmd/accounts.go:prepare", "cmd/payees.go:prepare", "cmd/print.go:transactionHandler", "cmd/balance.go:transactionHandler", "cmd/budget.go:transactionHandler", "cmd/stats.go:transactionHandler"]}
{"id": "C123", "title": "Lists, prints and statistics of the parts of a journal or period", "statement": "If a journal is cut in two at a blank line, or a period at a date, then the accounts and payees listed for the whole are those listed for either part, the transactions printed for the whole are those printed for the parts (each as often), and in the statistics the number of transactions is the sum, the files are those of either part, and (if nothing is dated 0001-01-01, Go's zero date) the first and last dates are the earliest and latest of the parts.", "quantifier": "all journals and places at which they can be cut, all periods and dates at which they can be cut, all filters, machines", "why_tests_cant": "relates triples of runs for every place of the cut", "anchors": ["cmd/common.go:withinDateRange", "cmd/common.go:checkAgainstFilters", "cmd/accounts.go:prepare", "cmd/payees.go:prepare", "cmd/print.go:transactionHandler", "cmd/stats.go:transactionHandler"]}
{"id": "C124", "title": "Reports depend on nothing but what they are about", "statement": "States (! and *), notes, comments, payees and file names of a journal do not influence the balance and budget reports, nor warnings printed with them, unless there are filters by payee or note; then payees or notes matter for those filters only. The list of accounts depends on dates and accounts only, the list of payees on dates and payees only, the statistics on dates, payees, accounts, amounts and files only. Two accepted journals that agree in what a command looks at give the same output, character by character.", "quantifier": "all pairs of accepted journals, machines, flags, and filters that select transactions as a whole or not at all", "why_tests_cant": "relates all pairs of journals that agree up to irrelevant details; a test compares finitely many", "anchors": ["cmd/common.go:checkAgainstFilters", "reporting/filter.go:MatchesTransactionHow", "cmd/accounts.go:transactionHandler", "cmd/payees.go:transactionHandler", "cmd/balance.go:transactionHandler", "cmd/budget.go:transactionHandler", "cmd/budget.go:periodicTransactionHandler", "cmd/stats.go:transactionHandler"]}
{"id": "C125", "title": "Asking about an account shows it as it is shown among the others", "statement": "If the balance command gives a report without arguments, it gives one with any arguments; and if these leave out nothing that is posted to a top-level account and below it, the lines about it are the same in both reports; if the arguments select nothing else, those lines are the whole report up to its footer. Likewise for budgets: if the arguments leave out nothing that is spent on a category, its lines are the same, month by month. (If the arguments pick single postings, those there have to be in one commodity.)", "quantifier": "all accepted journals, filters, machines, flags, accounts and categories", "why_tests_cant": "relates pairs of runs for all filters and all accounts they cover; regular expressions and orders of maps are arbitrary", "anchors": ["cmd/common.go:checkAgainstFilters", "reporting/filter.go:MatchesTransactionHow", "cmd/balance.go:transactionHandler", "cmd/common.go:report", "cmd/budget.go:transactionHandler", "cmd/budget.go:report"]}
{"id": "C126", "title": "The statistics say how long ago the first and last transactions were", "statement": "The words in parentheses after the dates of the first and the last transaction tell the time between midnight (UTC) of that date and now: how many of the longest unit of time that fits into it (second to week, month of 30 days, year of 12 such months) do so, rounded down, and whether it is ago or from now. (False of the code: 18 to 24 months are said to be \"2 years\", and more than 37 years \"a long while\"; and since the day begins in Greenwich, east of it a transaction of today can be \"2 hours from now\".)", "quantifier": "all dates, all instants, all accepted journals", "why_tests_cant": "the output depends on the clock; all boundaries between seventeen ranges of durations up to the saturation of int64", "anchors": ["cmd/stats.go:report"]}
{"id": "C127", "title": "A word as an argument asks for what contains it", "statement": "An argument that is a plain word (without characters special in regular expressions) asks for what contains the word, up to case unless the word has an upper-case letter: a word behind @ for the transactions whose payee contains it, a word behind = for those with a note, and the postings with a comment, that contains it, and any other word for the postings to accounts whose names contain it; several words ask for whatever one of them asks for. print prints, and balance reports on, exactly what is asked for. (False of the code for accounts, which looks for every word in the names of accounts whether or not it is behind @ or =, and for payees, which looks for every word in payees, including a leading @ or =.)", "quantifier": "all accepted journals, all lists of plain words, all date flags, all regular expression engines that find plain words where they stand", "why_tests_cant": "all words, all texts and all combinations of fields, including words that occur in several fields and case folding of the whole alphabet", "anchors": ["reporting/filter.go:NewFilter", "reporting/filter.go:MatchesTransactionHow", "cmd/accounts.go:prepare", "cmd/payees.go:prepare"]}
{"id": "C128", "title": "Different balances do not look alike", "statement": "Two runs of balance in the same form (list, tree or collapsed tree), on whatever journals and with whatever arguments, that print the same, show the same accounts, with the same commodity and number on each line and the same total; if all sums are below 2^46 units the accounts with a line have the same sums. So the indentation, the names and the amounts on a report can be read back without ambiguity, whatever the names and commodities, and warnings printed before the report cannot be taken for lines of it. (False of the code for --flat if an account has a reserved name above it: the names before that are not printed; and for larger amounts, which are rounded in print.)", "quantifier": "all pairs of journals as bytes, all filters, all date flags, all three forms", "why_tests_cant": "pairs of all reports; ambiguity would need names with blanks or digits that line up with amounts and indentation", "anchors": ["cmd/balance.go:prepareBalance", "reporting/tree.go:Tree", "reporting/tree.go:tree", "reporting/flattenedtree.go:FlattenedTree", "journal/amount.go:DisplayableQuantity"]}
{"id": "C129", "title": "Different lists, statistics, budgets and transactions do not look alike", "statement": "Two runs of the same command, on whatever journals and with whatever arguments, that print the same, found the same. accounts and payees: the same names. statistics: the same figures, one and all (if no path has a line feed in it, no transaction is of 0001-01-01, and there are fewer than 2^48). budget: the same months, in each month the same income and the same categories, and for each category the same figures and commodity (if no top category ends in a blank). print: the same transactions, up to which amounts were left out (if print can write them). (False of the code for budget if a category ends in a blank, which the padding hides; and for print if amounts are large: then the balances of journals that print the same can be different.)", "quantifier": "all pairs of journals as bytes, all filters, all date flags, all clocks", "why_tests_cant": "pairs of all reports; ambiguity needs names, commodities or padding that run into each other", "anchors": ["cmd/accounts.go:report", "cmd/payees.go:report", "cmd/stats.go:report", "cmd/budget.go:report", "cmd/print.go:report", "journal/transaction.go:String"]}
{"id": "C130", "title": "Balances show the sums and nothing else", "statement": "Two runs of balance in the same form, on whatever journals and with whatever arguments and date flags, print the same if what is asked for is in one commodity and every account has the same sum in both: how the sums have come about does not show. In particular postings and postings that take them back leave no trace, nor does an account through which money only passes. (False with --show-zero, which shows accounts that sum to zero; and if an account is called _root_, since such accounts are never hidden.)", "quantifier": "all pairs of journals as bytes, all filters, all date flags, the three forms of the report", "why_tests_cant": "pairs of all journals with equal sums; the exception depends on a name the program uses itself", "anchors": ["cmd/balance.go:prepareBalance", "cmd/common.go:report", "journal/account.go:RemoveEmptyChildren", "reporting/tree.go:Tree"]}
{"id": "C131", "title": "Account names are only names", "statement": "If the same is posted, in one commodity, to accounts with other names (names replaced one to one, except the names the program uses itself), balance prints the same lines with the same amounts and indentation under the other names and the same total, in every form; and in the same order if the names have the same order. accounts lists the same accounts under the other names.", "quantifier": "all one-to-one replacements of names, all pairs of journals as bytes, all filters, all date flags, all display flags", "why_tests_cant": "all replacements of names; special treatment of a particular name would have to be guessed", "anchors": ["journal/account.go:FindOrCreateAccount", "cmd/common.go:report", "reporting/tree.go:Tree", "cmd/accounts.go:report"]}
{"id": "C132", "title": "Exchanging plus and minus", "statement": "If the opposite amounts are posted to the same accounts, in one commodity, balance prints the same lines with the opposite amounts, and the opposite total, in every form: the same accounts are shown and hidden, in the same order, and each number has the opposite sign and the same digits (except the least number, which has no opposite).", "quantifier": "all pairs of journals as bytes with opposite postings, all filters, all date flags, all display flags", "why_tests_cant": "all journals; treatment by sign, in sums, hiding or rounding, would show only for particular amounts", "anchors": ["journal/amount.go:DisplayableQuantity", "journal/amount.go:Add", "cmd/balance.go:prepareBalance", "cmd/common.go:report"]}
{"id": "C133", "title": "Category names are only names", "statement": "If two runs of budget without filters are about the same days, amounts and kinds of postings, in the same order, in categories whose names have been replaced one to one, they print the same warnings and the same months with the same summaries, and in each month the same rows of figures under the other names, in alphabetical order; so in the same order if the names have the same order. No name of a category is treated specially.", "quantifier": "all one-to-one replacements of names, all pairs of journals as bytes, all date flags", "why_tests_cant": "all replacements of names; a category treated specially would have to be guessed", "anchors": ["journal/budget.go:AddPosting", "cmd/budget.go:report", "cmd/budget.go:periodicTransactionHandler", "journal/account.go:FindOrCreateAccount"]}
{"id": "C134", "title": "Journals that are cut off", "statement": "If an accepted journal is cut off anywhere except within an include directive, everything that is read of it, except at most the last item, is read of the whole journal too, in the same order; what is complete and followed by a blank line is never lost; and what stands below a mistake never changes what is reported or what has been read (unless the mistake is only that the last transaction does not balance, which the following lines may put right). The last item may be wrong without anything being reported; cut off in the name of an included file, another file may be read.", "quantifier": "all accepted journals as bytes, all places to cut, all continuations, all file systems", "why_tests_cant": "all places at which a file may be cut, within lines, names, amounts and encodings of characters, and all continuations", "anchors": ["parser/parser.go:Parse", "parser/parser.go:parseItem", "parser/lexer.go:lex", "parser/lexer.go:lexLine", "parser/transactionbuilder.go:endTransaction"]}
{"id": "C135", "title": "The figures of statistics fit together", "statement": "The figures that statistics prints fit together: there is at least one file and one payee and at most as many of either as transactions, at most as many accounts as postings, the first day is not after the last, the period is zero days just if they are the same, and the age of money is at most the period, however much is earned and spent, in whichever order, and despite overflow. (False if a transaction is on 1 January of the year 1.)", "quantifier": "all journals, filters and date flags", "why_tests_cant": "all journals; the age is computed by matching what is earned with what is spent in a loop with removal, and overflows", "anchors": ["cmd/stats.go:transactionHandler", "cmd/stats.go:prepare", "cmd/stats.go:report"]}
{"id": "C136", "title": "Balances can be carried forward", "statement": "If the postings of any part of a journal in one commodity are replaced by one opening transaction with the sum of each account, written as print would write it, then balance prints the same text as before in every form (tree, flattened, collapsed, with or without accounts at zero). In general the balances of two journals in the same commodity are printed alike whenever the same accounts occur with the same sums, however many transactions there are and in whichever order. (With several commodities this is false.)", "quantifier": "all journals in one commodity, all ways to divide them, all forms of the report", "why_tests_cant": "all journals and all divisions of them; sums of each account and of everything below it, with overflow", "anchors": ["cmd/balance.go:transactionHandler", "cmd/balance.go:prepareBalance", "cmd/common.go:report", "journal/amount.go:Add", "journal/transaction.go:String"]}
{"id": "C137", "title": "Double entry catches slips", "statement": "In a balanced transaction with all amounts written out, a slip in one amount (wrong digits, digits that have changed places, digits too many or too few before the point, a minus sign too many or too few), a posting left out or a posting written twice is always noticed: whatever comes before and after it, every command reports that the transaction does not balance, naming the line below it if there is one, and prints no report. (If an amount is left to be computed, or if two slips cancel, nothing is noticed.)", "quantifier": "all balanced transactions with all amounts written, all slips of these kinds, all journals around them, all commands", "why_tests_cant": "all amounts and all ways to misspell them, including numbers of up to 19 digits where sums overflow", "anchors": ["journal/transaction.go:Close", "parser/transactionbuilder.go:endNormalTransaction", "parser/transactionbuilder.go:buildNormalTransaction", "cmd/common.go:parse"]}
{"id": "C138", "title": "The lines of the tree add up", "statement": "The numbers in the tree that balance prints add up: the lines that are not indented sum to the total below the rule, and each line is the sum of the lines one level below it and of what is posted to that account itself, also if accounts at zero are hidden, for every journal in any commodities, modulo 2^64. (With --collapse this is false: what is posted to an account with one account below it is not shown.)", "quantifier": "all journals, filters and dates, with and without accounts at zero", "why_tests_cant": "all trees of accounts; hidden accounts may have accounts below them that are not zero", "anchors": ["cmd/balance.go:transactionHandler", "cmd/balance.go:prepareBalance", "cmd/common.go:report", "journal/account.go:RemoveEmptyChildren", "reporting/tree.go:tree"]}
{"id": "C139", "title": "A journal some days later", "statement": "If all transactions of a journal are moved by the same number of days, over month ends and leap days and in whichever order they are written, and the days asked for are moved as well, then accounts, payees and (in one commodity) balance print the same; print prints the same transactions in the same order with the later dates if no two are on the same day; and statistics prints the same counts, period, rate and age of money, and only the first and last day, how long ago they are, and the order in which several files are listed may differ. (Not so for budgets, which are by month. 1 January of year 1 is excluded.)", "quantifier": "all journals, all numbers of days, all orders of the transactions, all days asked for", "why_tests_cant": "all journals and all shifts; calendar arithmetic over months of different lengths and leap years, and the age of money computed with overflow", "anchors": ["cmd/stats.go:transactionHandler", "cmd/stats.go:prepare", "cmd/stats.go:report", "cmd/balance.go:transactionHandler", "cmd/print.go:prepare", "cmd/common.go:withinDateRange"]}
{"id": "C140", "title": "Commodities are only names in balances and budgets", "statement": "If the commodities of a journal get other names, one to one (amounts without a commodity staying without one), then without arguments balance prints the same lines in the same order with the same numbers, indentation and account names and the same total, in every form, and budget prints the same months, categories and figures; both print the same warnings about mixed commodities. Only the names of the commodities differ. This holds for any number of commodities in any accounts and categories. (If two commodities get the same name, there are fewer warnings.)", "quantifier": "all journals, all one to one renamings of commodities, all forms of the report", "why_tests_cant": "all journals with any mixture of commodities and all renamings; which commodity a line shows depends on the order of all postings below the account", "anchors": ["journal/amount.go:Add", "journal/amount.go:DisplayableQuantity", "cmd/balance.go:transactionHandler", "cmd/balance.go:prepareBalance", "cmd/common.go:report", "cmd/budget.go:transactionHandler", "cmd/budget.go:report"]}
{"id": "C141", "title": "Amounts in a smaller unit", "statement": "If every amount of a journal is multiplied by the same number, balance without arguments prints the same warnings and the same lines in the same order, in every form, with every amount and the total multiplied by that number modulo 2^64, for any mixture of commodities; a hundredfold of an amount below 2^46 hundredths is printed with its hundredths as units. This needs that no nonzero sum of an account becomes zero modulo 2^64, which holds for every odd number and whenever the multiples fit in 64 bits. (Otherwise it is false: accounts disappear.)", "quantifier": "all journals, all factors, all forms of the report", "why_tests_cant": "all journals and factors, including sums that overflow; which accounts are hidden depends on sums being zero modulo 2^64", "anchors": ["journal/amount.go:Add", "journal/amount.go:DisplayableQuantity", "journal/account.go:RemoveEmptyChildren", "cmd/balance.go:transactionHandler", "cmd/common.go:report"]}
{"id": "C142", "title": "Budgets in a smaller unit", "statement": "If every amount that is filed in a budget is multiplied by the same number, budget without arguments prints the same warnings, months and categories, with the income of each month and all three figures of each category multiplied by that number modulo 2^64, for any number and any mixture of commodities.", "quantifier": "all journals and factors", "why_tests_cant": "all journals and factors, including sums that overflow and factors that make sums vanish", "anchors": ["cmd/budget.go:report", "journal/budget.go:AddPosting", "journal/budget.go:addExpensePosting", "journal/budget.go:addEnvelopePosting", "journal/amount.go:Add"]}
{"id": "C143", "title": "Budgets of the parts of a journal or period", "statement": "If a journal consists of two parts separated by a blank line, of which the first is accepted, there is a budget of the whole exactly if there is one of each part; its months, and the categories of each month, are those of either part, and each income, spending, budgeted and available amount is the sum of those of the parts. If a period is divided at a date, incomes and spendings add up in the same way, while what is budgeted is the same in both parts as in the whole, wherever the month lies (so budgeted and available amounts do not add up).", "quantifier": "all journals and places at which they can be cut, all periods and dividing dates, all filters, months and categories", "why_tests_cant": "relates triples of runs for every place of the cut", "anchors": ["cmd/budget.go:transactionHandler", "cmd/budget.go:periodicTransactionHandler", "cmd/budget.go:report", "cmd/common.go:withinDateRange", "journal/budget.go:AddPosting"]}
{"id": "C144", "title": "Statistics do not depend on the unit", "statement": "If every amount of a journal is multiplied by the same positive number, statistics prints the same report, including the age of money to the nanosecond, for all filters and date flags, provided that the number times the sum of the magnitudes of all selected amounts is below 2^63, something is selected, and nothing is dated 0001-01-01, Go's zero date. The order of the transactions may differ. (Without the bound it is false: incomes that wrap around become negative.)", "quantifier": "all pairs of journals, all factors, filters and date flags", "why_tests_cant": "relates pairs of runs for every factor; the matching of incomes and expenses compares and subtracts amounts", "anchors": ["cmd/stats.go:transactionHandler", "cmd/stats.go:report", "cmd/stats.go:prepare"]}
{"id": "C145", "title": "Budgets show the sums and nothing else", "statement": "Two runs of budget, on whatever journals and with whatever arguments and date flags, print the same report if what is asked for is in one commodity and in every month both have postings or both have none, both have income or both have none, the same categories occur (and the same occur by themselves, not only with subcategories), and the income and for each top category what is spent and what is budgeted are the same sums: how the sums have come about, on which days, in how many postings and in which order does not show. Without a commodity the whole output is the same; otherwise there may be different warnings before the report.", "quantifier": "all pairs of journals as bytes, all filters, all date flags, all commodities", "why_tests_cant": "pairs of all journals with equal monthly sums; the program keeps trees, lists and maps that depend on the order of the postings", "anchors": ["cmd/budget.go:transactionHandler", "cmd/budget.go:periodicTransactionHandler", "cmd/budget.go:report", "journal/budget.go:AddPosting"]}
{"id": "C146", "title": "The columns of reports line up", "statement": "If the magnitudes of the amounts asked for sum to less than 10^k hundredths, 3 <= k <= 15, and no commodity has more than 18 - k runes (three for dollars, up to ten million million), then in every form of balance each figure and the total fill exactly twenty columns, with the last digit in the twentieth, and names begin behind two blanks; and in budget, if no top category has a name of more than 30 runes, all lines of summaries are 53 wide and all lines of tables 101 wide, like the rules and the headings, with the bars in the same places. (Nothing is cut: beyond these bounds lines get longer.)", "quantifier": "all journals as bytes within the bounds, all filters, all date flags, the three forms of balance, budget", "why_tests_cant": "widths of all sums, including intermediate accounts, for all journals; figures pass through floating point", "anchors": ["cmd/common.go:report", "cmd/budget.go:report", "journal/amount.go:DisplayableQuantity"]}
{"id": "C147", "title": "Statistics only count names", "statement": "Without arguments, statistics prints the same report for two journals whose payees, accounts and files differ by a one-to-one replacement of names, as long as incomes stay incomes and expenses stay expenses (the top accounts Income and Expenses) and nothing else becomes one: only the names of the files in the list of files are replaced. Commodities, notes, states and the order of the transactions do not matter. At least one transaction is asked for, and none is dated 0001-01-01, Go's zero date. (An expense under another top account is not recognised, and the age of money changes.)", "quantifier": "all one-to-one replacements of payees, accounts and files; all pairs of journals as bytes; all date flags", "why_tests_cant": "all replacements of names; special treatment of a particular name would have to be guessed", "anchors": ["cmd/stats.go:transactionHandler", "cmd/stats.go:report", "cmd/stats.go:prepare"]}
{"id": "C148", "title": "Later income does not change the age of money", "statement": "If the same is spent, and what is spent altogether does not exceed what is earned up to some day, up to which the same is earned in both journals, then statistics shows the same age of money: whatever is earned after that day, and whatever else the journals contain. Days have no negative income and positive spending. (Income that is needed does matter.)", "quantifier": "all pairs of journals as bytes, all days, all filters, all date flags", "why_tests_cant": "all possible continuations of a journal; incomes and expenses of all days are matched one by one", "anchors": ["cmd/stats.go:transactionHandler", "cmd/stats.go:report", "cmd/stats.go:prepare"]}
{"id": "C149", "title": "Reports for several arguments are the sums of reports for some of them", "statement": "If the filter arguments are divided into two parts (neither empty) and no posting is asked for by both, the accounts balance shows for all arguments are those it shows for either part, with the sums of their balances; likewise for budget: months, rows, incomes and spendings are those of both parts together, and what is budgeted is the same in all three. (A posting asked for twice counts once.)", "quantifier": "all journals as bytes, all filter arguments and divisions of them, all date flags, all layouts", "why_tests_cant": "all journals and all ways to divide the arguments", "anchors": ["reporting/filter.go:NewFilter", "cmd/common.go:checkAgainstFilters", "cmd/balance.go:transactionHandler", "cmd/budget.go:transactionHandler", "cmd/budget.go:report"]}
{"id": "C150", "title": "Lists, prints and statistics for several arguments", "statement": "If the arguments are divided into two parts (neither empty), accounts and payees list for all arguments what they list for either part, each once and sorted; print prints each transaction as often as for whichever part prints it more often (what both parts ask for is not printed twice); and statistics counts at least as many transactions as for either part and at most the sum, exactly the sum if no transaction is asked for by both, in the files of both, with the earlier of the first and the later of the last days.", "quantifier": "all journals as bytes, all arguments and divisions of them, all date flags", "why_tests_cant": "all journals and all ways to divide the arguments, with any overlap", "anchors": ["cmd/accounts.go:59-80", "cmd/payees.go:60-92", "cmd/common.go:checkAgainstFilters", "cmd/print.go:transactionHandler", "cmd/stats.go:transactionHandler"]}
{"id": "C151", "title": "The order of the arguments and repeating them does not matter", "statement": "On the same journal (whatever it is, readable or not), with the same flags, the same arguments in another order or another number of times give the same run of accounts, print and statistics, character by character, and so for payees if every argument can be read as a pattern for payees too, and for balance if what is asked for is in one commodity; for budget in one commodity the report is the same, and the whole output if there is no commodity (otherwise there may be different warnings). All arguments stand for filters (otherwise the first that does not decides how the run fails). (In several commodities the one shown may depend on the order.)", "quantifier": "all files, all flags, all arguments, all orders and repetitions of them, all orders of Go maps", "why_tests_cant": "all orders of all argument lists on all journals; Go map order varies from run to run", "anchors": ["cmd/common.go:checkAgainstFilters", "cmd/accounts.go:59-80", "cmd/payees.go:60-92", "cmd/root.go:PersistentPreRunE"]}
{"id": "C152", "title": "Arguments matter only through the postings they select", "statement": "On the same journal (whatever it is, readable or not), with the same flags, two lists of arguments that stand for filters and select the same postings of every transaction on the days asked for give the same run of print and of statistics, character by character; the same run of balance if what is asked for is in one commodity; and, if the journal can be read and lacks no amounts, the same budget in one commodity up to warnings about commodities. Lists that match the same of the accounts used on those days give the same run of accounts, and lists of readable patterns that match the same of the payees give the same run of payees. In particular, arguments that between them take every posting could as well be left out of print and statistics. (Letting the same transactions through is not enough for statistics.)", "quantifier": "all files, all flags, all pairs of argument lists, all orders of Go maps", "why_tests_cant": "all pairs of argument lists on all journals; the filters are arbitrary regular expressions; Go map order varies from run to run", "anchors": ["cmd/common.go:checkAgainstFilters", "cmd/print.go:transactionHandler", "cmd/root.go:PersistentPreRunE", "cmd/accounts.go:59-80", "cmd/payees.go:60-92"]}
