/-
Calendar dates, `time.Parse` for the layouts used, `strconv.ParseInt`, smart dates.
-/
import Verif.Model.Basic

namespace Gledger

/-- A `time.Time` that is midnight of a civil day (every transaction and period date is: they come from
`time.Parse` with layouts without a clock, parser/parser.go:117-142,202, in UTC). -/
structure Date where
  year : Int
  month : Nat
  day : Nat
  deriving DecidableEq, Repr

/-- `time.Time{}`: 1 January of year 1, UTC. -/
def Date.zero : Date := ⟨1, 1, 1⟩

/-- Gregorian leap years, as in package time. -/
def isLeap (y : Int) : Bool := y % 4 = 0 && (y % 100 ≠ 0 || y % 400 = 0)

/-- `daysIn` of package time. -/
def daysIn (m : Nat) (y : Int) : Nat :=
  if m = 2 then (if isLeap y then 29 else 28)
  else if m = 4 ∨ m = 6 ∨ m = 9 ∨ m = 11 then 30
  else 31

/-- Days of the year before the first of month `m`. -/
def daysBeforeMonth : Nat → Int → Nat
  | 0, _ => 0
  | 1, _ => 0
  | m + 2, y => daysBeforeMonth (m + 1) y + daysIn (m + 1) y

/-- Days from 1 January of year 1 to 1 January of year `y` (proleptic Gregorian). -/
def daysBeforeYear (y : Int) : Int :=
  365 * (y - 1) + (y - 1) / 4 - (y - 1) / 100 + (y - 1) / 400

/-- Number of days since 1 January of year 1; the instant of a `Date` (UTC) is this times 86400 seconds. -/
def Date.dayNumber (d : Date) : Int :=
  daysBeforeYear d.year + daysBeforeMonth d.month d.year + (d.day - 1 : Int)

/-- `t.Before(u)` for two UTC dates: comparison of instants. -/
def Date.before (a b : Date) : Bool := a.dayNumber < b.dayNumber

/-- `t.After(u)` for two UTC dates. -/
def Date.after (a b : Date) : Bool := b.dayNumber < a.dayNumber

/-- `t.IsZero()` for a UTC date. -/
def Date.isZero (a : Date) : Bool := a.dayNumber = Date.zero.dayNumber

/-- Four-digit year (`stdLongYear` of `time.Parse`). -/
def takeYear : Str → Option (Nat × Str)
  | a :: b :: c :: d :: rest =>
    if isDigit a && isDigit b && isDigit c && isDigit d then
      some (digitVal a * 1000 + digitVal b * 100 + digitVal c * 10 + digitVal d, rest)
    else none
  | _ => none

/-- Two-digit field (`getnum(value, true)` of `time.Parse`). -/
def takeNum2 : Str → Option (Nat × Str)
  | a :: b :: rest => if isDigit a && isDigit b then some (digitVal a * 10 + digitVal b, rest) else none
  | _ => none

/-- Literal character of a layout. -/
def takeLit (sep : Char) : Str → Option Str
  | c :: rest => if c = sep then some rest else none
  | [] => none

/-- `time.Parse("2006<sep>01", s)` resp. `ParseInLocation`: accepted civil day (first of the month). -/
def parseYM (sep : Char) (s : Str) : Option Date :=
  (takeYear s).bind fun (y, s) =>
  (takeLit sep s).bind fun s =>
  (takeNum2 s).bind fun (m, s) =>
  if 1 ≤ m ∧ m ≤ 12 ∧ s = [] then some ⟨y, m, 1⟩ else none

/-- `time.Parse("2006<sep>01<sep>02", s)` resp. `ParseInLocation`: accepted civil day. -/
def parseYMD (sep : Char) (s : Str) : Option Date :=
  (takeYear s).bind fun (y, s) =>
  (takeLit sep s).bind fun s =>
  (takeNum2 s).bind fun (m, s) =>
  (takeLit sep s).bind fun s =>
  (takeNum2 s).bind fun (d, s) =>
  if 1 ≤ m ∧ m ≤ 12 ∧ 1 ≤ d ∧ d ≤ daysIn m y ∧ s = [] then some ⟨y, m, d⟩ else none

/-- Decimal value of a digit string; `none` if some character is not a digit. -/
def digitsValue : Nat → Str → Option Nat
  | acc, [] => some acc
  | acc, c :: cs => if isDigit c then digitsValue (acc * 10 + digitVal c) cs else none

/-- `strconv.ParseInt(s, 10, 64)` (and `Atoi` on a 64-bit platform): optional sign, at least one digit,
value within int64. The kinds of error are not distinguished. -/
def parseInt (s : Str) : Option I64 :=
  let (neg, digits) := match s with
    | '+' :: cs => (false, cs)
    | '-' :: cs => (true, cs)
    | cs => (false, cs)
  if digits.length = 0 then none
  else match digitsValue 0 digits with
    | none => none
    | some v =>
      if neg then (if v ≤ 2 ^ 63 then some (BitVec.ofInt 64 (-(v : Int))) else none)
      else (if v < 2 ^ 63 then some (BitVec.ofInt 64 (v : Int)) else none)

/-- parser/parser.go:117-142 -/
def parseDate (content : Str) : Except Failure Date :=
  match content[4]? with
  | none => .error (.panic .indexOutOfRange)
  | some c =>
    if c = '-' ∨ c = '.' ∨ c = '/' then
      match parseYMD c content with
      | some d => .ok d
      | none => .error (.err (.timeParse content))
    else .error (.err (.dateMalformed content))

/-- parser/parser.go:144-193 -/
def parseAmount (content : Str) : Except Failure I64 :=
  match content with
  | [] => .error (.panic .indexOutOfRange)
  | firstRune :: tail =>
    let (multiplier, content) : I64 × Str :=
      if firstRune = '+' then (1, tail)
      else if firstRune = '-' then (-1, tail)
      else (1, content)
    match content.findIdx? (· = '.') with
    | none =>
      match parseInt content with
      | none => .error (.err (.number content))
      | some whole => .ok (multiplier * (whole * 100 + 0))
    | some decimalPosition =>
      match parseInt (content.take decimalPosition) with
      | none => .error (.err (.number (content.take decimalPosition)))
      | some whole =>
        match parseInt (content.drop (decimalPosition + 1)) with
        | none => .error (.err (.number (content.drop (decimalPosition + 1))))
        | some decimal => .ok (multiplier * (whole * 100 + decimal))

/-- journal/periodictransaction.go:14-24; `parsePeriod` only ever produces `PNone`. -/
inductive PeriodType
  | none | daily | weekly | monthly | quarterly | yearly | biweekly | fortnightly | biMonthly
  deriving DecidableEq, Repr

/-- journal/periodictransaction.go:27-32 -/
structure Period where
  startDate : Date := Date.zero
  endDate : Date := Date.zero
  interval : PeriodType := .none
  intervalFrequency : Int := 0
  deriving DecidableEq, Repr

/-- parser/parser.go:195-212: an unreadable period is the zero Period with a nil error. -/
def parsePeriod (content : Str) : Period :=
  match parseYM '-' content with
  | none => {}
  | some d => { startDate := d, endDate := d, interval := .none }

/-- Decimal rendering with a bound on the number of digits produced. -/
def natDigitsAux : Nat → Nat → Str
  | 0, n => [Char.ofNat (48 + n % 10)]
  | f + 1, n =>
    if n < 10 then [Char.ofNat (48 + n)] else natDigitsAux f (n / 10) ++ [Char.ofNat (48 + n % 10)]

/-- Decimal rendering of a natural number (`%d`). -/
def natDigits (n : Nat) : Str := natDigitsAux n n

/-- Two-digit zero-padded field. -/
def pad2 (n : Nat) : Str := [Char.ofNat (48 + n / 10 % 10), Char.ofNat (48 + n % 10)]

/-- Four-digit zero-padded year. -/
def pad4 (n : Nat) : Str :=
  [Char.ofNat (48 + n / 1000 % 10), Char.ofNat (48 + n / 100 % 10), Char.ofNat (48 + n / 10 % 10),
   Char.ofNat (48 + n % 10)]

/-- `t.Format("2006-01-02")` (journal/transaction.go:56) for years 0 to 9999, the only ones a
transaction can have. -/
def Date.format (d : Date) : Str :=
  pad4 d.year.toNat ++ ['-'] ++ pad2 d.month ++ ['-'] ++ pad2 d.day

/-- `strings.IndexRune(s, c) > 0` (parser/dates.go:22-28): the character occurs, but not first. -/
def occursAfterFirst (c : Char) (s : Str) : Bool :=
  match s with
  | [] => false
  | h :: t => h ≠ c && t.contains c

/-- UTF-8 length of a rune, for `len(string)`. -/
def utf8Len (s : Str) : Nat := (s.map Char.utf8Size).sum

/-- parser/dates.go:50-61 -/
def parseYear (date : Str) : Except Err Date :=
  if utf8Len date ≠ 4 then .error (.badYear date)
  else match parseInt date with
    | none => .error (.number date)
    | some y => .ok ⟨y.toInt, 1, 1⟩

/-- parser/dates.go:64-83 -/
def parseYearMonth (date : Str) (separator : Char) : Except Err Date :=
  match parseYM separator date with
  | some d => .ok d
  | none => .error (.timeParse date)

/-- parser/dates.go:86-109; `year` is `time.Now().Year()`. -/
def parseMonthDay (year : Nat) (date : Str) (separator : Char) : Except Err Date :=
  match parseYMD separator (natDigits year ++ [separator] ++ date) with
  | some d => .ok d
  | none => .error (.timeParse date)

/-- parser/dates.go:112-131 -/
def parseYearMonthDay (date : Str) (separator : Char) : Except Err Date :=
  match parseYMD separator date with
  | some d => .ok d
  | none => .error (.timeParse date)

/-- parser/dates.go:35-47, the switch on the number of components. -/
def parseComponents (year : Nat) (date : Str) (separator : Char) : Except Err Date :=
  match split separator date with
  | [_] => parseYear date
  | [first, _] =>
    if utf8Len first = 4 then parseYearMonth date separator else parseMonthDay year date separator
  | [_, _, _] => parseYearMonthDay date separator
  | _ => .error .smartDateComponents

/-- parser/dates.go:11-48: the civil day named by a smart date (midnight of it in the local zone).
`year` is the current year. -/
def parseSmartDate (year : Nat) (date : Str) : Except Err Date :=
  if occursAfterFirst '/' date then parseComponents year date '/'
  else if occursAfterFirst '.' date then parseComponents year date '.'
  else if occursAfterFirst '-' date then parseComponents year date '-'
  else parseYear date

end Gledger
