/-
Specification: how flags and arguments are written on a command line, what they mean, and what the program does with a command line.
-/
import Verif.Model.CommandLine
import Verif.Props.Arguments

namespace Gledger

/-- What is written on a command line besides the name of the command: a flag with a value, a flag that is switched on or off, or an argument. -/
inductive Piece
  | value (f : Flag) (v : Str)
  | switch (f : Flag) (on : Bool)
  | word (w : Str)
  deriving DecidableEq

/-- The flags with a value. -/
def ValueFlag (f : Flag) : Prop := f = .file ∨ f = .beginDate ∨ f = .endDate

instance (f : Flag) : Decidable (ValueFlag f) := by unfold ValueFlag; infer_instance

/-- The texts that switch a flag on and off. -/
def OnOff (v : Str) (b : Bool) : Prop :=
  (b = true ∧ (v = str "1" ∨ v = str "t" ∨ v = str "T" ∨ v = str "true" ∨ v = str "True" ∨ v = str "TRUE")) ∨
  (b = false ∧ (v = str "0" ∨ v = str "f" ∨ v = str "F" ∨ v = str "false" ∨ v = str "False" ∨ v = str "FALSE"))

instance (v : Str) (b : Bool) : Decidable (OnOff v b) := by unfold OnOff; infer_instance

/-- One-letter flags written together, without the leading dash; `next` is a flag whose value is the next argument. A value is attached to its flag, with or
without a `=` between them (a single `=` is a value itself). -/
inductive Bundle (fs : List Flag) : Str → List Piece → Option Flag → Prop
  | done : Bundle fs [] [] none
  /-- left for the test framework of Go -/
  | ignored (rest : Str) : Bundle fs (str "test." ++ rest) [] none
  | attached {f : Flag} {v : Str} (hf : f ∈ fs) (hv : ValueFlag f) (hne : v ≠ []) (heq : v = str "=" ∨ v.head? ≠ some '=') :
      Bundle fs (f.short :: v) [.value f v] none
  | equals {f : Flag} {v : Str} (hf : f ∈ fs) (hv : ValueFlag f) (hne : v ≠ []) : Bundle fs (f.short :: '=' :: v) [.value f v] none
  | set {f : Flag} {v : Str} {b : Bool} (hf : f ∈ fs) (hv : ¬ ValueFlag f) (hb : OnOff v b) : Bundle fs (f.short :: '=' :: v) [.switch f b] none
  | next {f : Flag} (hf : f ∈ fs) (hv : ValueFlag f) : Bundle fs [f.short] [] (some f)
  | on {f : Flag} {rest : Str} {ps : List Piece} {next : Option Flag} (hf : f ∈ fs) (hv : ¬ ValueFlag f) (h : Bundle fs rest ps next) :
      Bundle fs (f.short :: rest) (.switch f true :: ps) next

/-- The arguments after the name of the command, for a command with these flags. -/
inductive Typed (fs : List Flag) : List Str → List Piece → Prop
  | nil : Typed fs [] []
  /-- an argument that does not begin with a dash, or is nothing else -/
  | word {w : Str} {l : List Str} {ps : List Piece} (hw : w.head? ≠ some '-' ∨ w = str "-") (h : Typed fs l ps) : Typed fs (w :: l) (.word w :: ps)
  /-- after two dashes everything is an argument -/
  | rest (l : List Str) : Typed fs (str "--" :: l) (l.map .word)
  /-- `--flag=value` -/
  | longEquals {f : Flag} {v : Str} {l : List Str} {ps : List Piece} (hf : f ∈ fs) (hv : ValueFlag f) (h : Typed fs l ps) :
      Typed fs ((str "--" ++ f.long ++ str "=" ++ v) :: l) (.value f v :: ps)
  /-- `--flag value` -/
  | longNext {f : Flag} {v : Str} {l : List Str} {ps : List Piece} (hf : f ∈ fs) (hv : ValueFlag f) (h : Typed fs l ps) :
      Typed fs ((str "--" ++ f.long) :: v :: l) (.value f v :: ps)
  /-- `--flag` -/
  | longOn {f : Flag} {l : List Str} {ps : List Piece} (hf : f ∈ fs) (hv : ¬ ValueFlag f) (h : Typed fs l ps) :
      Typed fs ((str "--" ++ f.long) :: l) (.switch f true :: ps)
  /-- `--flag=true` -/
  | longSet {f : Flag} {v : Str} {b : Bool} {l : List Str} {ps : List Piece} (hf : f ∈ fs) (hv : ¬ ValueFlag f) (hb : OnOff v b) (h : Typed fs l ps) :
      Typed fs ((str "--" ++ f.long ++ str "=" ++ v) :: l) (.switch f b :: ps)
  /-- `-fvalue` -/
  | short {b : Str} {qs : List Piece} {l : List Str} {ps : List Piece} (hne : b ≠ []) (hb : Bundle fs b qs none) (h : Typed fs l ps) :
      Typed fs (('-' :: b) :: l) (qs ++ ps)
  /-- `-f value` -/
  | shortNext {b : Str} {qs : List Piece} {f : Flag} {v : Str} {l : List Str} {ps : List Piece} (hb : Bundle fs b qs (some f)) (h : Typed fs l ps) :
      Typed fs (('-' :: b) :: v :: l) (qs ++ .value f v :: ps)

/-- The value a flag is given last; empty if it is given none. -/
def lastValue (f : Flag) (ps : List Piece) : Str :=
  (ps.filterMap fun
    | .value g v => if g = f then some v else none
    | _ => none).getLastD []

/-- Whether a flag is switched on, the last time it is mentioned. -/
def lastSwitch (f : Flag) (ps : List Piece) : Bool :=
  (ps.filterMap fun
    | .switch g b => if g = f then some b else none
    | _ => none).getLastD false

/-- The arguments. -/
def wordsOf (ps : List Piece) : List Str :=
  ps.filterMap fun
    | .word w => some w
    | _ => none

/-- The settings that the flags make. -/
def optionsOf (ps : List Piece) : Options where
  file := lastValue .file ps
  beginDate := lastValue .beginDate ps
  endDate := lastValue .endDate ps
  current := lastSwitch .current ps
  flatten := lastSwitch .flatten ps
  showZero := lastSwitch .showZero ps
  collapse := lastSwitch .collapse ps

/-! ### Where the name of the command is looked for -/

/-- An argument that can be the name of a command. -/
def Ordinary (w : Str) : Prop := w ≠ [] ∧ w.head? ≠ some '-'

instance (w : Str) : Decidable (Ordinary w) := by unfold Ordinary; infer_instance

/-- An argument that is taken for a flag with its value in the next argument: one letter after a dash, or a name after two dashes, without `=`, and not the
only switch of the whole program, `--current`. -/
def SeemsToTake (s : Str) : Prop :=
  (∃ c : Char, s = ['-', c] ∧ c ≠ '-' ∧ c ≠ '=' ∧ c ≠ 'c' ∧ c.toNat < 128) ∨
  (∃ name : Str, s = str "--" ++ name ∧ name ≠ [] ∧ '=' ∉ name ∧ name ≠ str "current")

/-- What is passed over in the search for the name of the command. -/
inductive Skipped : List Str → Prop
  | nil : Skipped []
  | alone {s : Str} {l : List Str} (h : s = [] ∨ s.head? = some '-') (hd : s ≠ str "--") (ht : ¬ SeemsToTake s) (hl : Skipped l) : Skipped (s :: l)
  | pair {s v : Str} {l : List Str} (ht : SeemsToTake s) (hl : Skipped l) : Skipped (s :: v :: l)

/-- The argument that is taken for the name of the command. -/
def NamesCommand (argv : List Str) (w : Str) : Prop := ∃ pre post, argv = pre ++ w :: post ∧ Skipped pre ∧ Ordinary w

/-- The flags of the whole program and of the command `--help`. -/
def commonFlags : List Flag := [.file, .beginDate, .endDate, .current, .help]

/-- The flags of a command. -/
def flagsOf (c : Command) : List Flag :=
  if c = .balance ∨ c = .budget then [.file, .beginDate, .endDate, .current, .flatten, .showZero, .collapse, .help] else commonFlags

/-- What the program does with a command line. -/
inductive Handles [Unicode] (m : Machine) (sh : Shell) (argv : List Str) : Run → Prop
  /-- the hidden command for shells -/
  | complete {w : Str} (hn : NamesCommand argv w) (hw : w = str "__complete" ∨ w = str "__completeNoDesc") : Handles m sh argv (sh.complete argv)
  /-- a command -/
  | command {w : Str} {c : Command} {ps : List Piece} (hn : NamesCommand argv w) (hw : commandOf w = some c)
      (ht : Typed (flagsOf c) (argv.erase w) ps) (hh : lastSwitch .help ps = false) : Handles m sh argv (m.run (optionsOf ps) c (wordsOf ps))
  /-- `--help` for a command -/
  | commandHelp {w : Str} {c : Command} {ps : List Piece} (hn : NamesCommand argv w) (hw : commandOf w = some c)
      (ht : Typed (flagsOf c) (argv.erase w) ps) (hh : lastSwitch .help ps = true) : Handles m sh argv ⟨sh.help (.command c), .exit 0⟩
  /-- flags that a command does not have, or that are not written as flags are -/
  | badFlags {w : Str} {c : Command} (hn : NamesCommand argv w) (hw : commandOf w = some c)
      (ht : ∀ ps, ¬ Typed (flagsOf c) (argv.erase w) ps) : Handles m sh argv ⟨[], .exit 1⟩
  /-- `help` and a command -/
  | help {ps : List Piece} {w : Str} {c : Command} (hn : NamesCommand argv (str "help")) (ht : Typed commonFlags (argv.erase (str "help")) ps)
      (hh : lastSwitch .help ps = false) (hw : NamesCommand (wordsOf ps) w) (hc : commandOf w = some c) : Handles m sh argv ⟨sh.help (.command c), .exit 0⟩
  /-- `help help`, and `help --help` -/
  | helpHelp {ps : List Piece} (hn : NamesCommand argv (str "help")) (ht : Typed commonFlags (argv.erase (str "help")) ps)
      (hh : lastSwitch .help ps = true ∨ NamesCommand (wordsOf ps) (str "help")) : Handles m sh argv ⟨sh.help .help, .exit 0⟩
  /-- `help` alone -/
  | helpAll {ps : List Piece} (hn : NamesCommand argv (str "help")) (ht : Typed commonFlags (argv.erase (str "help")) ps)
      (hh : lastSwitch .help ps = false) (hw : ∀ w, ¬ NamesCommand (wordsOf ps) w) : Handles m sh argv ⟨sh.help .root, .exit 0⟩
  /-- `help` and something that is not a command -/
  | helpUnknown {ps : List Piece} {w : Str} (hn : NamesCommand argv (str "help")) (ht : Typed commonFlags (argv.erase (str "help")) ps)
      (hh : lastSwitch .help ps = false) (hw : NamesCommand (wordsOf ps) w) (hc : commandOf w = none) (hne : w ≠ str "help") : Handles m sh argv ⟨[], .exit 0⟩
  /-- `help` with bad flags -/
  | helpBadFlags (hn : NamesCommand argv (str "help")) (ht : ∀ ps, ¬ Typed commonFlags (argv.erase (str "help")) ps) : Handles m sh argv ⟨[], .exit 1⟩
  /-- something that is not a command -/
  | unknown {w : Str} (hn : NamesCommand argv w) (hc : commandOf w = none) (hne : w ≠ str "help") (h1 : w ≠ str "__complete") (h2 : w ≠ str "__completeNoDesc") :
      Handles m sh argv ⟨[], .exit 1⟩
  /-- no command: the help of the program, if the arguments after `--` are filters -/
  | nothing {ps : List Piece} (hn : ∀ w, ¬ NamesCommand argv w) (ht : Typed commonFlags argv ps)
      (hh : lastSwitch .help ps = true ∨ ∀ a ∈ wordsOf ps, ¬ NoFilter m.engine a) : Handles m sh argv ⟨sh.help .root, .exit 0⟩
  /-- the first that is not one decides, as for a command -/
  | nothingBadFilter {ps : List Piece} {good rest : List Str} {bad : Str} (hn : ∀ w, ¬ NamesCommand argv w) (ht : Typed commonFlags argv ps)
      (hh : lastSwitch .help ps = false) (hw : wordsOf ps = good ++ bad :: rest) (hg : ∀ a ∈ good, ¬ NoFilter m.engine a) (hb : NoFilter m.engine bad) :
      Handles m sh argv ⟨[], if bad = [] then .panic .indexOutOfRange else .exit 1⟩
  /-- no command and bad flags -/
  | nothingBadFlags (hn : ∀ w, ¬ NamesCommand argv w) (ht : ∀ ps, ¬ Typed commonFlags argv ps) : Handles m sh argv ⟨[], .exit 1⟩

end Gledger
