import Verif.Model.Cmd
import Verif.Props.Transactions
import Verif.Props.Files
import Verif.Props.Includes
import Verif.Props.IncludeTrees
import Verif.Props.Sources
import Verif.Props.Adding
import Verif.Props.Errors
import Verif.Props.Crashes
import Verif.Props.Entries
import Verif.Props.Rejects
import Verif.Props.Amounts
import Verif.Props.Dates
import Verif.Props.Flags
import Verif.Props.Filters
import Verif.Props.Balances
import Verif.Props.Accounts
import Verif.Props.Removal
import Verif.Props.Reports
import Verif.Props.BalanceText
import Verif.Props.Lists
import Verif.Props.Statistics
import Verif.Props.StatsText
import Verif.Props.Print
import Verif.Props.Delivered
import Verif.Props.Budgets
import Verif.Props.Warnings
import Verif.Props.Program
import Verif.Props.DateFlags
import Verif.Props.Orders
import Verif.Props.Malformed
import Verif.Props.HeaderNotes
import Verif.Props.Arguments
import Verif.Props.Stops
import Verif.Props.Whole
import Verif.Props.Mistakes
import Verif.Props.Journals
import Verif.Props.Records
import Verif.Props.Runs
import Verif.Props.MapOrders
import Verif.Props.CommandLine
import Verif.Props.Names
import Verif.Props.Components
import Verif.Props.RepoTests
import Verif.Props.Rearranged
import Verif.Props.Heeded
import Verif.Props.Moved
import Verif.Props.Reading
import Verif.Props.Exact
import Verif.Props.Surroundings
import Verif.Props.Clock
import Verif.Props.Ticks
import Verif.Props.Archive
import Verif.Props.Elided
import Verif.Spec.Local
import Verif.Props.Local
import Verif.Spec.Monotone
import Verif.Props.Monotone
import Verif.Spec.Bare
import Verif.Props.Bare
import Verif.Props.CrashLines
import Verif.Props.OwnTime
import Verif.Spec.Asking
import Verif.Props.Asking
import Verif.Model.Humanize
import Verif.Spec.HowLong
import Verif.Props.HowLong
import Verif.Props.Unbalanced
import Verif.Spec.Words
import Verif.Props.Words
import Verif.Spec.Alike
import Verif.Lemmas.Alike
import Verif.Props.OneLine
import Verif.Props.Alike
import Verif.Props.Clear
import Verif.Props.Tables
import Verif.Props.AlikeToo
import Verif.Props.SumsOnly
import Verif.Spec.Renaming
import Verif.Props.Renaming
import Verif.Props.Mirror
import Verif.Props.RenamedTexts
import Verif.Props.Categories
import Verif.Props.Cut
import Verif.Props.Fit
import Verif.Props.Carry
import Verif.Props.Slips
import Verif.Props.AddsUp
import Verif.Props.Later
import Verif.Props.Coins
import Verif.Props.Scale
import Verif.Props.Reserved
import Verif.Props.ScaleBudget
import Verif.Props.BudgetParts
import Verif.Props.PrintLayout
import Verif.Props.UnitFree
import Verif.Props.BudgetSums
import Verif.Props.Columns
import Verif.Props.NamesCounted
import Verif.Props.LaterIncome
import Verif.Props.ArgParts
import Verif.Props.ArgLists
import Verif.Props.ArgOrder
import Verif.Props.ArgSame
