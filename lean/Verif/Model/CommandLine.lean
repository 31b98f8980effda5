/-
The command line: main.go:7-9, cmd/root.go:22-56, the `init` functions and the `cobra.Command` values of cmd/*.go. What cobra 1.1.1
(go.mod:7) and its pflag 1.0.5 make of the arguments is modelled as these libraries do it; their code is not in /repo. Arguments are texts (valid UTF-8).
The texts of help and the hidden command that shells use for completion are parameters; standard error is not modelled.
-/
import Verif.Model.Program

namespace Gledger

/-- The flags: cmd/root.go:43-46, cmd/balance.go:41-43, cmd/budget.go:30-32, and the flag `--help` that cobra adds to every command when
it is executed. -/
inductive Flag
  | file | beginDate | endDate | current | flatten | showZero | collapse | help
  deriving DecidableEq, Repr

/-- cmd/root.go:43-46, cmd/balance.go:41-43 -/
def Flag.long : Flag → Str
  | .file => str "file"
  | .beginDate => str "begin"
  | .endDate => str "end"
  | .current => str "current"
  | .flatten => str "flatten"
  | .showZero => str "show-zero"
  | .collapse => str "collapse"
  | .help => str "help"

/-- cmd/root.go:43-46, cmd/balance.go:41-43 -/
def Flag.short : Flag → Char
  | .file => 'f'
  | .beginDate => 'b'
  | .endDate => 'e'
  | .current => 'c'
  | .flatten => 'F'
  | .showZero => 'Z'
  | .collapse => 'C'
  | .help => 'h'

/-- Made by `BoolVarP` rather than `StringVarP`: the flag can stand without a value. -/
def Flag.isSwitch : Flag → Bool
  | .file | .beginDate | .endDate => false
  | _ => true

/-- What a command line selects: no command, the command `help` that cobra adds, the hidden command `__complete` that cobra adds, or a command
of cmd/*.go. -/
inductive Chosen
  | root | help | complete
  | command (c : Command)
  deriving DecidableEq, Repr

/-- The persistent flags, cmd/root.go:43-46. -/
def rootFlags : List Flag := [.file, .beginDate, .endDate, .current]

/-- The flags a command takes: the persistent ones, and those of cmd/balance.go:41-43 and cmd/budget.go:30-32. -/
def Chosen.flags : Chosen → List Flag
  | .command .balance | .command .budget => rootFlags ++ [.flatten, .showZero, .collapse]
  | _ => rootFlags

/-- `FlagSet.Lookup` -/
def lookupLong (fs : List Flag) (name : Str) : Option Flag := fs.find? fun f => f.long = name

/-- `FlagSet.ShorthandLookup` -/
def lookupShort (fs : List Flag) (c : Char) : Option Flag := fs.find? fun f => f.short = c

/-- In cobra's `stripFlags`: the argument looks like a flag whose value is the next argument. It is `--name` or `-n` (two bytes, so `n` is ASCII), without `=`, and not a
known flag that can stand alone. -/
def takesNext (fs : List Flag) (s : Str) : Bool :=
  !s.contains '=' &&
    ((s.take 2 = str "--" && !((lookupLong fs (s.drop 2)).any Flag.isSwitch)) ||
     (s.head? = some '-' && s.length = 2 && (s.getD 1 '-').toNat < 128 && !((lookupShort fs (s.getD 1 '-')).any Flag.isSwitch)))

/-- cobra's `stripFlags`: the arguments that are neither flags nor values of flags. -/
def stripFlags (fs : List Flag) : List Str → List Str
  | [] => []
  | s :: args =>
    if s = str "--" then []
    else if takesNext fs s then
      match args with
      | _ :: a :: rest => stripFlags fs (a :: rest)
      | _ => []
    else if s ≠ [] ∧ s.head? ≠ some '-' then s :: stripFlags fs args
    else stripFlags fs args

/-- cobra's `findNext` on the root command: the commands of cmd/*.go come first, then `help`, then `__complete` while that is there. -/
def findNext (complete : Bool) (word : Str) : Option Chosen :=
  match commandOf word with
  | some c => some (.command c)
  | none =>
    if word = str "help" then some .help
    else if complete && (word = str "__complete" || word = str "__completeNoDesc") then some .complete
    else none

/-- cobra's `Find` (without its error): the command, and the arguments without the first that equals its name. -/
def findCommand (complete : Bool) (argv : List Str) : Chosen × List Str :=
  match stripFlags rootFlags argv with
  | [] => (.root, argv)
  | w :: _ =>
    match findNext complete w with
    | some c => (c, argv.erase w)
    | none => (.root, argv)

/-- The error of cobra's `Find`: without a command, there may be no arguments (`legacyArgs`). -/
def unknownCommand (found : Chosen × List Str) : Bool := found.1 = .root && stripFlags rootFlags found.2 ≠ []

/-- The flags as they are set, and the remaining arguments. -/
structure Parsed where
  options : Options := {}
  help : Bool := false
  args : List Str := []

/-- `strconv.ParseBool` -/
def parseBool (s : Str) : Option Bool :=
  if s ∈ [str "1", str "t", str "T", str "TRUE", str "true", str "True"] then some true
  else if s ∈ [str "0", str "f", str "F", str "FALSE", str "false", str "False"] then some false
  else none

/-- A switch is set. -/
def Parsed.switch (p : Parsed) (f : Flag) (b : Bool) : Parsed :=
  match f with
  | .current => { p with options := { p.options with current := b } }
  | .flatten => { p with options := { p.options with flatten := b } }
  | .showZero => { p with options := { p.options with showZero := b } }
  | .collapse => { p with options := { p.options with collapse := b } }
  | .help => { p with help := b }
  | _ => p

/-- `FlagSet.Set`; `none` is an error. -/
def Parsed.set (p : Parsed) (f : Flag) (v : Str) : Option Parsed :=
  match f with
  | .file => some { p with options := { p.options with file := v } }
  | .beginDate => some { p with options := { p.options with beginDate := v } }
  | .endDate => some { p with options := { p.options with endDate := v } }
  | f => (parseBool v).map (p.switch f)

/-- pflag's `parseLongArg` for what follows `--`; the second component is a flag that takes the next argument as its value. -/
def parseLong (fs : List Flag) (name : Str) (p : Parsed) : Option (Parsed × Option Flag) :=
  if name.head? = some '-' ∨ name.head? = some '=' then none
  else
    match lookupLong fs (name.takeWhile (· ≠ '=')) with
    | none => none
    | some f =>
      if name.contains '=' then (p.set f ((name.dropWhile (· ≠ '=')).drop 1)).map fun p => (p, none)
      else if f.isSwitch then some (p.switch f true, none)
      else some (p, some f)

/-- pflag's `parseShortArg` and `parseSingleShortArg` for what follows `-`. -/
def parseShort (fs : List Flag) : Str → Parsed → Option (Parsed × Option Flag)
  | [], p => some (p, none)
  | c :: rest, p =>
    if str "test." <+: c :: rest then some (p, none)
    else
      match lookupShort fs c with
      | none => none
      | some f =>
        if rest.head? = some '=' ∧ 1 < rest.length then (p.set f (rest.drop 1)).map fun p => (p, none)
        else if f.isSwitch then parseShort fs rest (p.switch f true)
        else if rest ≠ [] then (p.set f rest).map fun p => (p, none)
        else some (p, some f)

/-- pflag's `parseArgs`; flags and arguments can be mixed. `none` is an error. -/
def parseArgs (fs : List Flag) : List Str → Parsed → Option Parsed
  | [], p => some p
  | s :: args, p =>
    if s.head? ≠ some '-' ∨ s.length = 1 then parseArgs fs args { p with args := p.args ++ [s] }
    else if s = str "--" then some { p with args := p.args ++ args }
    else
      match (if s.take 2 = str "--" then parseLong fs (s.drop 2) p else parseShort fs (s.drop 1) p) with
      | none => none
      | some (p, none) => parseArgs fs args p
      | some (p, some f) =>
        match args with
        | [] => none
        | v :: rest =>
          match p.set f v with
          | none => none
          | some p => parseArgs fs rest p

/-- What the program shows besides the commands' output: the help of a command, and what the hidden completion command does. -/
structure Shell where
  help : Chosen → Str
  complete : List Str → Run

/-- cobra's `execute` for a command and its arguments: flags, then `--help`, then the filters (cmd/root.go:26-36; the command `help` has its own
`PersistentPreRun`) and the command. The root command shows its help, cmd/root.go:37-39. -/
def Machine.execute [Unicode] (m : Machine) (sh : Shell) (c : Chosen) (argv : List Str) : Run :=
  match parseArgs (c.flags ++ [.help]) argv {} with
  | none => ⟨[], .exit 1⟩
  | some p =>
    if p.help then ⟨sh.help c, .exit 0⟩
    else
      match c with
      | .command c => m.run p.options c p.args
      | .help =>
        let found := findCommand false p.args
        if unknownCommand found then ⟨[], .exit 0⟩ else ⟨sh.help found.1, .exit 0⟩
      | _ =>
        match makeFilters m.engine p.args with
        | .error (.panic p) => ⟨[], .panic p⟩
        | .error _ => ⟨[], .exit 1⟩
        | .ok _ => ⟨sh.help .root, .exit 0⟩

/-- main.go:7-9, cmd/root.go:50-55: cobra's `ExecuteC`. An error makes the exit status 1; messages about it go to standard error. -/
def Machine.main [Unicode] (m : Machine) (sh : Shell) (argv : List Str) : Run :=
  if (findCommand true argv).1 = .complete then sh.complete argv
  else
    let found := findCommand false argv
    if unknownCommand found then ⟨[], .exit 1⟩ else m.execute sh found.1 found.2

end Gledger
