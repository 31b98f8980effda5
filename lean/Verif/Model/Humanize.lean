/-
`humanize.Time` of github.com/dustin/go-humanize v1.0.0 (go.mod:6), which cmd/stats.go:191-192 calls for the first and the last transaction. Its code
(times.go) is not in /repo: like the standard library it is modelled here as its sources are known to read.
-/
import Verif.Model.Program

namespace Gledger

/-- times.go, `RelTimeMagnitude`: up to which duration (in nanoseconds) the format is used, and what the duration is divided by. -/
structure Magnitude where
  d : Int
  format : Str
  divBy : Int

/-- Package time's `Second`. -/
def nsPerSecond : Int := 1000000000

/-- times.go, `defaultMagnitudes`; `Day` is 24 hours, `Week` 7 days, `Month` 30 days, `Year` 12 months, `LongTime` 37 years. -/
def magnitudes : List Magnitude :=
  let second := nsPerSecond
  let minute := 60 * second
  let hour := 60 * minute
  let day := 24 * hour
  let week := 7 * day
  let month := 30 * day
  let year := 12 * month
  [⟨second, str "now", second⟩,
   ⟨2 * second, str "1 second %s", 1⟩,
   ⟨minute, str "%d seconds %s", second⟩,
   ⟨2 * minute, str "1 minute %s", 1⟩,
   ⟨hour, str "%d minutes %s", minute⟩,
   ⟨2 * hour, str "1 hour %s", 1⟩,
   ⟨day, str "%d hours %s", hour⟩,
   ⟨2 * day, str "1 day %s", 1⟩,
   ⟨week, str "%d days %s", day⟩,
   ⟨2 * week, str "1 week %s", 1⟩,
   ⟨month, str "%d weeks %s", week⟩,
   ⟨2 * month, str "1 month %s", 1⟩,
   ⟨year, str "%d months %s", month⟩,
   ⟨18 * month, str "1 year %s", 1⟩,
   ⟨2 * year, str "2 years %s", 1⟩,
   ⟨37 * year, str "%d years %s", year⟩,
   ⟨2 ^ 63 - 1, str "a long while %s", 1⟩]

/-- The loop of `sort.Search` between `i` and `j`; the first argument bounds its rounds. -/
def searchLoop (f : Nat → Bool) : Nat → Nat → Nat → Nat
  | 0, i, _ => i
  | n + 1, i, j => if i < j then (let h := (i + j) / 2; if f h then searchLoop f n i h else searchLoop f n (h + 1) j) else i

/-- `sort.Search(n, f)` -/
def sortSearch (n : Nat) (f : Nat → Bool) : Nat := searchLoop f n 0 n

/-- `t.Sub(u)` of package time, for instants in nanoseconds: saturated to int64. -/
def saturatedSub (t u : Int) : Int := max (-(2 ^ 63)) (min (t - u) (2 ^ 63 - 1))

/-- times.go, `CustomRelTime`, the end: `fmt.Sprintf` of a format with the label for every `%s` and the quotient for every `%d`. (The quotient is never
negative: it is rendered without sign.) -/
def sprintfRel (label : Str) (quotient : Int) : Str → Str
  | [] => []
  | '%' :: 's' :: rest => label ++ sprintfRel label quotient rest
  | '%' :: 'd' :: rest => natDigits quotient.toNat ++ sprintfRel label quotient rest
  | c :: rest => c :: sprintfRel label quotient rest

/-- times.go, `CustomRelTime`: `magnitudes[i].D > diff` -/
def magnitudeAbove (diff : Int) (i : Nat) : Bool :=
  match magnitudes[i]? with
  | some m => decide (diff < m.d)
  | none => false

/-- times.go, `RelTime`, `CustomRelTime` -/
def relTime (a b : Int) (albl blbl : Str) : Str :=
  let lbl := if b < a then blbl else albl
  let diff := if b < a then saturatedSub a b else saturatedSub b a
  let n := sortSearch magnitudes.length (magnitudeAbove diff)
  let n := if magnitudes.length ≤ n then magnitudes.length - 1 else n
  match magnitudes[n]? with
  | some mag => sprintfRel lbl (diff.tdiv mag.divBy) mag.format
  | none => []

/-- times.go, `Time`: the date is midnight UTC, `now` is the instant of `time.Now()`. -/
def humanizeTime (now : Int) (d : Date) : Str := relTime d.instant now (str "ago") (str "from now")

/-- The machine at the instant `now`. -/
def Machine.saying (m : Machine) (now : Int) : Machine := { m with humanize := humanizeTime now }

end Gledger
