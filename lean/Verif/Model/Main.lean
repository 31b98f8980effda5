/-
cmd/stats.go (the printed report), cmd/root.go and cmd/common.go:15-35 (arguments, root journal), and the program as a whole.
-/
import Verif.Model.Cmd

namespace Gledger

/-- The value of a double as a fraction: numerator. -/
def Dbl.num (x : Dbl) : Nat := x.mant * 2 ^ x.exp.toNat

/-- The value of a double as a fraction: denominator. -/
def Dbl.den (x : Dbl) : Nat := 2 ^ (-x.exp).toNat

/-- `x + y` in float64 arithmetic, for non-negative values. -/
def Dbl.add (x y : Dbl) : Dbl := toDbl (x.num * y.den + y.num * x.den) (x.den * y.den)

/-- `x / y` in float64 arithmetic, for a non-negative and a positive value. -/
def Dbl.div (x y : Dbl) : Dbl := toDbl (x.num * y.den) (x.den * y.num)

/-- Nanoseconds in an hour. -/
def nsPerHour : Nat := 3600 * 1000000000

/-- `d.Hours()` of package time for a non-negative duration: `float64(d/Hour) + float64(d%Hour)/(60*60*1e9)`. -/
def hoursOf (ns : Nat) : Dbl := (toDbl (ns / nsPerHour) 1).add ((toDbl (ns % nsPerHour) 1).div ⟨nsPerHour, 0⟩)

/-- `d.Hours() / 24` -/
def daysOf (ns : Nat) : Dbl := (hoursOf ns).div ⟨24, 0⟩

/-- `math.Round` of a non-negative value: halves away from zero. -/
def Dbl.round (x : Dbl) : Nat := (2 * x.num + x.den) / (2 * x.den)

/-- `%.f` of a non-negative value: the nearest integer, ties to even. -/
def Dbl.format0 (x : Dbl) : Str := natDigits (rne x.num x.den)

/-- `%.1f` of a non-negative value. -/
def Dbl.format1 (x : Dbl) : Str :=
  let t := rne (x.num * 10) x.den
  natDigits (t / 10) ++ ['.'] ++ natDigits (t % 10)

/-- cmd/stats.go:115-159: the ages in the order in which they are recorded; `sortDates` is what ranging over a map and
`sort.Slice` by date do with its keys. -/
def Stats.ages (s : Stats) (sortDates : List Date → List Date) : List (Date × Date) :=
  (ageOuter s.expense (sortDates (s.income.map (·.1))) (sortDates (s.expense.map (·.1))) s.income []).2

/-- cmd/stats.go:175: `math.Max(summedAges.Hours()/24, 0)`; a negative duration has negative hours. -/
def ageOfMoney (average : I64) : Dbl := if average.toInt < 0 then ⟨0, 0⟩ else daysOf average.toInt.toNat

/-- cmd/stats.go:195-196: the whole days between the first and the last transaction. -/
def Stats.days (s : Stats) : Nat := (daysOf (durationNs s.last s.first).toInt.toNat).round

/-- `%.1f` of `float64(count) / days` (cmd/stats.go:200-201); a positive number divided by zero is `+Inf`. -/
def perDay (count days : Nat) : Str :=
  if days = 0 then str "+Inf" else ((toDbl count 1).div (toDbl days 1)).format1

/-- cmd/stats.go:178-212. `files` are the keys of the map of files in iteration order, `humanize` is `humanize.Time`. -/
def statsReport (humanize : Date → Str) (files : List Str) (average : I64) (s : Stats) : Str :=
  if s.count = 0 then str "No transactions matched arguments.\n"
  else
    str "Transactions found in " ++ natDigits s.files.length ++ str " files:\n" ++
    (files.flatMap fun f => str "  " ++ f ++ str "\n") ++
    str "First transaction:\t" ++ s.first.format ++ str " (" ++ humanize s.first ++ str ")\n" ++
    str "Last transaction:\t" ++ s.last.format ++ str " (" ++ humanize s.last ++ str ")\n" ++
    str "Time period:\t\t" ++ natDigits s.days ++ str " days\n" ++
    str "Transactions:\t\t" ++ natDigits s.count ++ str " (" ++ perDay s.count s.days ++ str " per day)\n" ++
    str "Unique accounts:\t" ++ natDigits s.accounts.length ++ str "\n" ++
    str "Unique payees:\t\t" ++ natDigits s.payees.length ++ str "\n" ++
    str "Age of money:\t\t" ++ (ageOfMoney average).format0 ++ str " days\n"

/-- cmd/stats.go:24-32; `order` is the iteration order of the map of files. -/
def statsCmd [Unicode] (e : Env) (humanize : Date → Str) (order : List Str → List Str) (sortDates : List Date → List Date)
    (fs : FileSystem) (maxOpen : Nat) (bytes : List UInt8) (path : Str) : Outcome :=
  (runParse fs maxOpen bytes path e.statsHandlers {}).map fun s =>
    statsReport humanize (order s.files) (averageAge (s.ages sortDates)) s

end Gledger
