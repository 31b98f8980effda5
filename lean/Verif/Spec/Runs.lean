/-
Specification: what the program does, whatever it is given.
-/
import Verif.Spec.Mistakes
import Verif.Spec.Spots

namespace Gledger

/-- An ordinary machine: iteration is in some order, sorting sorts, days begin within a day of those in Greenwich, and the present is between the years
1000 and 9999. -/
structure Machine.Sane (m : Machine) : Prop where
  fair : m.Fair
  offsets : ∀ d, -nsPerDay < m.offset d ∧ m.offset d < nsPerDay
  year : 1000 ≤ m.nowYear ∧ m.nowYear ≤ 9999
  tomorrow : m.tomorrow ≠ 0 ∧ ∃ day : Date, day.Real ∧ 1 ≤ day.year ∧ day.instant ≤ m.tomorrow ∧ m.tomorrow < day.instant + nsPerDay

/-- A date flag that is given but spells no day. -/
def BadFlag (year : Nat) (flag : Str) : Prop := flag ≠ [] ∧ ∀ d, ¬ (SmartDate year flag d ∨ SignedYear flag d)

/-- The date flag there is a complaint about. -/
def FaultyFlag (m : Machine) (o : Options) (flag : Str) : Prop :=
  o.current = false ∧ ((flag = o.beginDate ∧ BadFlag m.nowYear flag) ∨ (¬ BadFlag m.nowYear o.beginDate ∧ flag = o.endDate ∧ BadFlag m.nowYear flag))

/-- The separator a flag is taken apart at: the first of slash, full stop and hyphen that it contains, but does not begin with. -/
def SeparatedBy (flag : Str) (sep : Char) : Prop :=
  let inside (c : Char) : Prop := c ∈ flag ∧ flag.head? ≠ some c
  inside sep ∧ (sep = '/' ∨ (sep = '.' ∧ ¬ inside '/') ∨ (sep = '-' ∧ ¬ inside '/' ∧ ¬ inside '.'))

/-- The complaint about a flag that spells no day. -/
inductive FlagComplaint (lib : Err → Str) (flag : Str) : Str → Prop
  | notAYear : (∀ sep, ¬ SeparatedBy flag sep) → (encode flag).length ≠ 4 → FlagComplaint lib flag (str "could not parse year: '" ++ flag ++ str "'")
  | notANumber : (∀ sep, ¬ SeparatedBy flag sep) → (encode flag).length = 4 → FlagComplaint lib flag (lib (.number flag))
  | notADay {sep} : SeparatedBy flag sep → flag.count sep ≤ 2 → FlagComplaint lib flag (lib (.timeParse flag))
  | tooMany {sep} : SeparatedBy flag sep → 2 < flag.count sep → FlagComplaint lib flag (str "unhandled number of smart date components")

/-- The same flags, without dates. -/
def Options.undated (o : Options) : Options := { o with beginDate := [], endDate := [] }

/-- What is printed while the journal is read: warnings about mixed commodities, up to the first amount that is missing. -/
def Command.Printed (filters : List Filter) (admits : Date → Bool) (ms : List Meant) (w : Str) : Command → Prop
  | .balance => ∃ qss : List (List Posting), List.Forall₂ (Taken filters) qss (asked admits ms) ∧
      w = balanceMixes [] (qss.flatten.takeWhile fun p => p.amount ≠ none)
  | .budget => ∃ xss : List (List Filed), List.Forall₂ (Meant.FiledAs filters admits) xss ms ∧
      w = budgetMixes [] (xss.flatten.takeWhile fun x => x.Fileable)
  | _ => w = []

/-- The arguments are these filters, and the journal is to be found here. -/
structure Asked [Unicode] (m : Machine) (o : Options) (c : Command) (args : List Str) (filters : List Filter) (path : Str) : Prop where
  command : c ≠ .version
  filters : List.Forall₂ (IsFilterOf m.engine) args filters
  file : (o.file = path ∧ path ≠ []) ∨ (o.file = [] ∧ m.ledgerFile = some path)

/-- What the program may do, given these flags and arguments. -/
inductive Does [Unicode] (m : Machine) (c : Command) (args : List Str) : Options → Run → Prop
  /-- an argument is no filter -/
  | badFilter {o good bad rest} : args = good ++ bad :: rest → (∀ a ∈ good, ∃ f, IsFilterOf m.engine a f) → (∀ f, ¬ IsFilterOf m.engine bad f) →
      Does m c args o (if bad = [] then ⟨[], .panic .indexOutOfRange⟩ else ⟨[], .exit 1⟩)
  /-- the version -/
  | version {o filters} : c = .version → List.Forall₂ (IsFilterOf m.engine) args filters → Does m c args o ⟨str "gledger v0.1\n", .exit 0⟩
  /-- no journal is named -/
  | noJournal {o filters} : c ≠ .version → List.Forall₂ (IsFilterOf m.engine) args filters → o.file = [] → m.ledgerFile = none →
      Does m c args o ⟨str "no root journal path provided\n", .exit 0⟩
  /-- the journal cannot be opened -/
  | notFound {o filters path} : Asked m o c args filters path → m.fs path = none → Does m c args o ⟨m.lib (.openFile path) ++ str "\n", .exit 0⟩
  /-- there is a posting the command cannot use: an amount or a category is missing -/
  | crash {o filters path admits bytes js out w} : Asked m o c args filters path → m.fs path = some bytes → DaysAsked m o admits →
      Reading m.fs m.lib m.maxOpen path bytes js out → c.Short filters admits (meanings js) → c.Printed filters admits (meanings js) w →
      Does m c args o ⟨w, .panic .unusablePosting⟩
  /-- the journal can be read to the end -/
  | answer {o filters path admits bytes js pg run} : Asked m o c args filters path → m.fs path = some bytes → DaysAsked m o admits →
      Reading m.fs m.lib m.maxOpen path bytes js (.ok pg) → ¬ c.Short filters admits (meanings js) → c.Answers m o args js filters admits run →
      Does m c args o run
  /-- there is a mistake in it -/
  | mistake {o filters path admits bytes js rep w run} : Asked m o c args filters path → m.fs path = some bytes → DaysAsked m o admits →
      Reading m.fs m.lib m.maxOpen path bytes js (.error rep) → ¬ c.Short filters admits (meanings js) → c.Warned filters admits (meanings js) w →
      rep.Shown w run → Does m c args o run
  /-- a date flag spells no day, but there is no transaction in the journal -/
  | unused {o filters path bytes js out flag run} : Asked m o c args filters path → m.fs path = some bytes → FaultyFlag m o flag →
      Reading m.fs m.lib m.maxOpen path bytes js out → transactionsOf (meanings js) = [] → Does m c args o.undated run → Does m c args o run
  /-- a date flag spells no day, and there is a posting the command cannot use before the first transaction -/
  | flagCrash {o filters path admits bytes budgets t file rest out flag w} : Asked m o c args filters path → m.fs path = some bytes → FaultyFlag m o flag →
      DaysAsked m o.undated admits → Reading m.fs m.lib m.maxOpen path bytes (budgets ++ (.transaction t, file) :: rest) out →
      transactionsOf (meanings budgets) = [] → c.Short filters admits (meanings budgets) → c.Printed filters admits (meanings budgets) w →
      Does m c args o ⟨w, .panic .unusablePosting⟩
  /-- a date flag spells no day: the complaint comes where the first transaction is complete -/
  | flag {o filters path admits bytes budgets t file rest out flag w via place msg run} : Asked m o c args filters path → m.fs path = some bytes → FaultyFlag m o flag →
      DaysAsked m o.undated admits → Reading m.fs m.lib m.maxOpen path bytes (budgets ++ (.transaction t, file) :: rest) out →
      transactionsOf (meanings budgets) = [] → ¬ c.Short filters admits (meanings budgets) → c.Warned filters admits (meanings budgets) w →
      SpotIn m.fs m.lib m.maxOpen path bytes budgets.length via place → FlagComplaint m.lib flag msg →
      (Report.message via place (· = msg)).Shown w run → Does m c args o run

end Gledger
