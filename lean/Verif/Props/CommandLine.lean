/-
C102 Flags mean the same however they are written.
C103 Flags of the whole program before the name of the command.
C104 What the program does with a command line.
-/
import Verif.Lemmas.CommandLine
import Verif.Props.Program

namespace Gledger

set_option maxRecDepth 100000

theorem flagsOf_eq (c : Command) : (Chosen.command c).flags ++ [.help] = flagsOf c := by cases c <;> rfl

theorem commandOf_ordinary {w : Str} {c : Command} (h : commandOf w = some c) :
    Ordinary w ∧ w ≠ str "help" ∧ w ≠ str "__complete" ∧ w ≠ str "__completeNoDesc" := by
  have hm := List.find?_some h
  have hc := List.mem_of_find?_eq_some h
  have key : ∀ c ∈ allCommands, ∀ w ∈ c.words, Ordinary w ∧ w ≠ str "help" ∧ w ≠ str "__complete" ∧ w ≠ str "__completeNoDesc" := by decide
  exact key c hc w (by simpa using hm)

theorem findCommand_none {argv : List Str} (b : Bool) (h : ∀ w, ¬ NamesCommand argv w) : findCommand b argv = (.root, argv) := by
  unfold findCommand
  rw [unnamed_iff.1 h]

theorem findCommand_some {argv : List Str} {w : Str} {x : Chosen} (b : Bool) (h : NamesCommand argv w) (hx : findNext b w = some x) :
    findCommand b argv = (x, argv.erase w) := by
  obtain ⟨ws, hs⟩ := named_iff.1 h
  unfold findCommand
  rw [hs]
  simp only
  rw [hx]

theorem findCommand_unknown {argv : List Str} {w : Str} (b : Bool) (h : NamesCommand argv w) (hx : findNext b w = none) :
    findCommand b argv = (.root, argv) ∧ unknownCommand (.root, argv) = true := by
  obtain ⟨ws, hs⟩ := named_iff.1 h
  unfold findCommand unknownCommand
  rw [hs]
  simp only
  rw [hx]
  exact ⟨rfl, by simp⟩

theorem findNext_command {w : Str} {c : Command} (b : Bool) (h : commandOf w = some c) : findNext b w = some (.command c) := by
  unfold findNext
  rw [h]

theorem findNext_help (b : Bool) : findNext b (str "help") = some .help := by
  unfold findNext
  rw [show commandOf (str "help") = none by decide]
  rfl

theorem findNext_other {w : Str} (b : Bool) (h : commandOf w = none) (h1 : w ≠ str "help") (h2 : b = false ∨ (w ≠ str "__complete" ∧ w ≠ str "__completeNoDesc")) :
    findNext b w = none := by
  unfold findNext
  rw [h]
  simp only
  rw [if_neg h1, if_neg]
  rcases h2 with rfl | ⟨h2, h3⟩
  · simp
  · simp [h2, h3]

theorem findNext_complete {w : Str} (hw : w = str "__complete" ∨ w = str "__completeNoDesc") : findNext true w = some .complete := by
  rcases hw with rfl | rfl <;> decide

/-- A line with the name of a command. -/
theorem main_command [Unicode] (m : Machine) (sh : Shell) {argv : List Str} {w : Str} {c : Command} (hn : NamesCommand argv w) (hw : commandOf w = some c) :
    m.main sh argv = m.execute sh (.command c) (argv.erase w) := by
  unfold Machine.main
  rw [findCommand_some true hn (findNext_command true hw), findCommand_some false hn (findNext_command false hw)]
  rfl

/-- A line with `help`. -/
theorem main_help [Unicode] (m : Machine) (sh : Shell) {argv : List Str} (hn : NamesCommand argv (str "help")) :
    m.main sh argv = m.execute sh .help (argv.erase (str "help")) := by
  unfold Machine.main
  rw [findCommand_some true hn (findNext_help true), findCommand_some false hn (findNext_help false)]
  rfl

/-- A line without a command. -/
theorem main_nothing [Unicode] (m : Machine) (sh : Shell) {argv : List Str} (hn : ∀ w, ¬ NamesCommand argv w) : m.main sh argv = m.execute sh .root argv := by
  unfold Machine.main
  rw [findCommand_none true hn, findCommand_none false hn]
  unfold unknownCommand
  simp only
  rw [unnamed_iff.1 hn]
  rfl

theorem execute_typed [Unicode] (m : Machine) (sh : Shell) {x : Chosen} {argv : List Str} {ps : List Piece} (ht : Typed (x.flags ++ [.help]) argv ps) :
    m.execute sh x argv =
      if lastSwitch .help ps then ⟨sh.help x, .exit 0⟩
      else
        match x with
        | .command c => m.run (optionsOf ps) c (wordsOf ps)
        | .help => if unknownCommand (findCommand false (wordsOf ps)) then ⟨[], .exit 0⟩ else ⟨sh.help (findCommand false (wordsOf ps)).1, .exit 0⟩
        | _ =>
          match makeFilters m.engine (wordsOf ps) with
          | .error (.panic p) => ⟨[], .panic p⟩
          | .error _ => ⟨[], .exit 1⟩
          | .ok _ => ⟨sh.help .root, .exit 0⟩ := by
  unfold Machine.execute
  rw [parseArgs_iff.2 ⟨ps, ht, rfl⟩]
  cases x <;> rfl

theorem execute_untyped [Unicode] (m : Machine) (sh : Shell) {x : Chosen} {argv : List Str} (ht : ∀ ps, ¬ Typed (x.flags ++ [.help]) argv ps) :
    m.execute sh x argv = ⟨[], .exit 1⟩ := by
  unfold Machine.execute
  rw [parseArgs_none.2 ht]

theorem named_first {w : Str} (h : Ordinary w) (argv : List Str) : NamesCommand (w :: argv) w := ⟨[], argv, rfl, .nil, h⟩

/-! ### C102 Flags mean the same however they are written -/

/-- After the name of a command, flags and arguments can be written in any of the ways of `Typed`, in any order: each flag has the value it is given
last, and the arguments are those that are not flags. -/
theorem C102_flags [Unicode] (m : Machine) (sh : Shell) {w : Str} {c : Command} (hw : commandOf w = some c) {argv : List Str} {ps : List Piece}
    (ht : Typed (flagsOf c) argv ps) :
    m.main sh (w :: argv) = if lastSwitch .help ps then ⟨sh.help (.command c), .exit 0⟩ else m.run (optionsOf ps) c (wordsOf ps) := by
  rw [main_command m sh (named_first (commandOf_ordinary hw).1 argv) hw, List.erase_cons_head, execute_typed m sh (by rw [flagsOf_eq]; exact ht)]

/-- All other arguments are rejected: the program prints nothing to standard output, looks at no journal and ends with status 1. -/
theorem C102_rejects [Unicode] (m : Machine) (sh : Shell) {w : Str} {c : Command} (hw : commandOf w = some c) {argv : List Str}
    (ht : ∀ ps, ¬ Typed (flagsOf c) argv ps) : m.main sh (w :: argv) = ⟨[], .exit 1⟩ := by
  rw [main_command m sh (named_first (commandOf_ordinary hw).1 argv) hw, List.erase_cons_head, execute_untyped m sh (by rw [flagsOf_eq]; exact ht)]

/-- Two lines that give every flag the same last value and have the same arguments do the same. -/
theorem C102_same [Unicode] (m : Machine) (sh : Shell) {w w' : Str} {c : Command} (hw : commandOf w = some c) (hw' : commandOf w' = some c)
    {argv argv' : List Str} {ps ps' : List Piece} (ht : Typed (flagsOf c) argv ps) (ht' : Typed (flagsOf c) argv' ps')
    (hv : ∀ f, lastValue f ps = lastValue f ps') (hs : ∀ f, lastSwitch f ps = lastSwitch f ps') (ha : wordsOf ps = wordsOf ps') :
    m.main sh (w :: argv) = m.main sh (w' :: argv') := by
  rw [C102_flags m sh hw ht, C102_flags m sh hw' ht', hs, ha, show optionsOf ps = optionsOf ps' by unfold optionsOf; simp only [hv, hs]]

/-- The value of a flag can follow in the next argument, or after a `=`, or for the one-letter name directly. -/
theorem C102_spellings {fs : List Flag} {f : Flag} (hf : f ∈ fs) (hv : ValueFlag f) {v : Str} {l : List Str} {ps : List Piece} (h : Typed fs l ps) :
    Typed fs ((str "--" ++ f.long) :: v :: l) (.value f v :: ps) ∧
    Typed fs ((str "--" ++ f.long ++ str "=" ++ v) :: l) (.value f v :: ps) ∧
    Typed fs (['-', f.short] :: v :: l) (.value f v :: ps) ∧
    (v ≠ [] → Typed fs (('-' :: f.short :: '=' :: v) :: l) (.value f v :: ps)) ∧
    (v ≠ [] → v.head? ≠ some '=' → Typed fs (('-' :: f.short :: v) :: l) (.value f v :: ps)) :=
  ⟨.longNext hf hv h, .longEquals hf hv h, .shortNext (qs := []) (.next hf hv) h, fun hne => .short (by simp) (.equals hf hv hne) h,
    fun hne he => .short (by simp) (.attached hf hv hne (Or.inr he)) h⟩

theorem main_after [Unicode] (m : Machine) (sh : Shell) {w : Str} {c : Command} (hw : commandOf w = some c) (argv : List Str) :
    m.main sh (w :: argv) = m.execute sh (.command c) argv := by
  rw [main_command m sh (named_first (commandOf_ordinary hw).1 argv) hw, List.erase_cons_head]

/-- The names of the flags of every command, and what they set. -/
theorem C102_names [Unicode] (m : Machine) (sh : Shell) {w : Str} {c : Command} (hw : commandOf w = some c) (v : Str) :
    (∀ name ∈ ["--file", "-f"], m.main sh [w, str name, v] = m.run { file := v } c []) ∧
    (∀ name ∈ ["--begin", "-b"], m.main sh [w, str name, v] = m.run { beginDate := v } c []) ∧
    (∀ name ∈ ["--end", "-e"], m.main sh [w, str name, v] = m.run { endDate := v } c []) ∧
    (∀ name ∈ ["--current", "-c"], m.main sh [w, str name] = m.run { current := true } c []) ∧
    ∀ name ∈ ["--help", "-h"], m.main sh [w, str name] = ⟨sh.help (.command c), .exit 0⟩ := by
  simp only [main_after m sh hw]
  refine ⟨?_, ?_, ?_, ?_, ?_⟩ <;> intro name hn <;> simp only [List.mem_cons, List.not_mem_nil, or_false] at hn <;> rcases hn with rfl | rfl <;>
    cases c <;> rfl

/-- The further flags of balance and budget; the other commands reject them. -/
theorem C102_own_names [Unicode] (m : Machine) (sh : Shell) {w : Str} {c : Command} (hw : commandOf w = some c) :
    (c = .balance ∨ c = .budget →
      (∀ name ∈ ["--flatten", "-F"], m.main sh [w, str name] = m.run { flatten := true } c []) ∧
      (∀ name ∈ ["--show-zero", "-Z"], m.main sh [w, str name] = m.run { showZero := true } c []) ∧
      ∀ name ∈ ["--collapse", "-C"], m.main sh [w, str name] = m.run { collapse := true } c []) ∧
    (c ≠ .balance → c ≠ .budget →
      ∀ name ∈ ["--flatten", "-F", "--show-zero", "-Z", "--collapse", "-C"], m.main sh [w, str name] = ⟨[], .exit 1⟩) := by
  simp only [main_after m sh hw]
  constructor
  · rintro (rfl | rfl) <;> refine ⟨?_, ?_, ?_⟩ <;> intro name hn <;> simp only [List.mem_cons, List.not_mem_nil, or_false] at hn <;>
      rcases hn with rfl | rfl <;> rfl
  · intro h1 h2 name hn
    simp only [List.mem_cons, List.not_mem_nil, or_false] at hn
    rcases hn with rfl | rfl | rfl | rfl | rfl | rfl <;> cases c <;> first | rfl | exact absurd rfl h1 | exact absurd rfl h2

/-- What is given once is meant, wherever it stands among the arguments: a flag can change places with an argument, and with another flag. -/
theorem C102_order (x y : Piece) (hxy : ∀ w w', ¬ (x = .word w ∧ y = .word w')) (hf : ∀ f v v', ¬ (x = .value f v ∧ y = .value f v'))
    (hs : ∀ f b b', ¬ (x = .switch f b ∧ y = .switch f b')) (ps qs : List Piece) :
    (∀ f, lastValue f (ps ++ x :: y :: qs) = lastValue f (ps ++ y :: x :: qs)) ∧
    (∀ f, lastSwitch f (ps ++ x :: y :: qs) = lastSwitch f (ps ++ y :: x :: qs)) ∧
    wordsOf (ps ++ x :: y :: qs) = wordsOf (ps ++ y :: x :: qs) := by
  refine ⟨fun f => ?_, fun f => ?_, ?_⟩
  · unfold lastValue
    congr 1
    rw [List.filterMap_append, List.filterMap_append]
    congr 1
    cases x <;> cases y <;> simp only [List.filterMap_cons]
    rename_i g v g' v'
    by_cases h1 : g = f <;> by_cases h2 : g' = f <;> simp [h1, h2]
    exact absurd ⟨by rw [h1], by rw [h2]⟩ (hf f v v')
  · unfold lastSwitch
    congr 1
    rw [List.filterMap_append, List.filterMap_append]
    congr 1
    cases x <;> cases y <;> simp only [List.filterMap_cons]
    rename_i g v g' v'
    by_cases h1 : g = f <;> by_cases h2 : g' = f <;> simp [h1, h2]
    exact absurd ⟨by rw [h1], by rw [h2]⟩ (hs f v v')
  · unfold wordsOf
    rw [List.filterMap_append, List.filterMap_append]
    congr 1
    cases x <;> cases y <;> simp only [List.filterMap_cons]
    rename_i v v'
    exact absurd ⟨rfl, rfl⟩ (hxy v v')

/-- Five ways to write the same, and arguments that are not flags. -/
example :
    letI := asciiUnicode
    let m := machineWith (str "f") "2020-01-01 x\n  A  1\n  B\n\n"
    let sh : Shell := ⟨fun _ => str "help", fun _ => ⟨[], .exit 0⟩⟩
    m.main sh [str "payees", str "-f", str "f"] = ⟨str "x\n", .exit 0⟩ ∧ m.main sh [str "pay", str "-ff"] = ⟨str "x\n", .exit 0⟩ ∧
    m.main sh [str "p", str "-f=f"] = ⟨str "x\n", .exit 0⟩ ∧ m.main sh [str "p", str "--file", str "g", str "--file=f"] = ⟨str "x\n", .exit 0⟩ ∧
    m.main sh [str "p", str "--file", str "f", str "--current=false"] = ⟨str "x\n", .exit 0⟩ ∧
    m.main sh [str "p", str "-F"] = ⟨[], .exit 1⟩ ∧ m.main sh [str "p", str "-h"] = ⟨str "help", .exit 0⟩ ∧
    m.main sh [str "p", str "--", str "-f"] = ⟨[], .exit 1⟩ ∧ m.main sh [str "p", str "--current=maybe"] = ⟨[], .exit 1⟩ := by
  decide +kernel

/-- `-cf=f x -e 2021` has these pieces. -/
example : Typed (flagsOf .payees) [str "-cf=f", str "x", str "-e", str "2021"]
    [.switch .current true, .value .file (str "f"), .word (str "x"), .value .endDate (str "2021")] :=
  .short (b := str "cf=f") (qs := [.switch .current true, .value .file (str "f")]) (by decide)
    (.on (f := .current) (rest := str "f=f") (by decide) (by decide) (.equals (f := .file) (v := str "f") (by decide) (by decide) (by decide)))
    (.word (by decide) (.shortNext (b := str "e") (qs := []) (.next (f := .endDate) (by decide) (by decide)) .nil))

/-! ### C103 Flags before the name of the command -/

/-- A value before the name of the command is lost if it is that name, and flags written together with a value in the next argument hide the name. -/
theorem C103_flags_first_false :
    ¬ ∀ (m : Machine) (sh : Shell) (w : Str) (c : Command) (pre : List Str) (qs : List Piece) (post : List Str), letI := asciiUnicode
      commandOf w = some c → Typed [.file, .beginDate, .endDate, .current] pre qs → wordsOf qs = [] →
        m.main sh (pre ++ w :: post) = m.main sh (w :: (pre ++ post)) := by
  intro h
  have := h (machineWith (str "bal") "2020-01-01 x\n  A  1\n  B\n\n") ⟨fun _ => [], fun _ => ⟨[], .exit 0⟩⟩ (str "bal") .balance
    [str "-f", str "bal", str "-b", str "2020"] [.value .file (str "bal"), .value .beginDate (str "2020")] [] (by decide)
    (.shortNext (b := ['f']) (qs := []) (.next (f := .file) (by decide) (by decide)) (.shortNext (b := ['b']) (qs := []) (.next (f := .beginDate) (by decide) (by decide)) .nil)) rfl
  revert this
  decide +kernel

/-- Both cases: the journal `bal` is read only if its name comes after that of the command; `-cf j` before the name makes `j` the name of a command that
does not exist; and `-F`, which belongs to the command, takes the name for its value, though `-FZ` does not. -/
example :
    letI := asciiUnicode
    let m := machineWith (str "bal") "2020-01-01 x\n  A  1\n  B\n\n"
    let sh : Shell := ⟨fun _ => str "help", fun _ => ⟨[], .exit 0⟩⟩
    m.main sh [str "-f", str "bal", str "-b", str "2020", str "bal"] = ⟨[], .exit 1⟩ ∧
    (m.main sh [str "bal", str "-f", str "bal", str "-b", str "2020"]).ending = .exit 0 ∧
    (m.main sh [str "-f", str "bal", str "-b", str "2020", str "bal"]).stdout ≠ (m.main sh [str "bal", str "-f", str "bal", str "-b", str "2020"]).stdout ∧
    m.main sh [str "-cf", str "bal", str "payees"] ≠ m.main sh [str "payees", str "-cf", str "bal"] ∧
    m.main sh [str "-F", str "bal"] = ⟨[], .exit 1⟩ ∧
    m.main sh [str "-FZ", str "bal", str "-f", str "bal"] = m.main sh [str "bal", str "-FZ", str "-f", str "bal"] := by
  decide +kernel

/-- What is passed over in the search for the command's name may as well stand behind it, unless it contains that name itself. -/
theorem C103_before_partial [Unicode] (m : Machine) (sh : Shell) {w : Str} {c : Command} (hw : commandOf w = some c) {pre : List Str} (hp : Skipped pre)
    (hn : w ∉ pre) (post : List Str) : m.main sh (pre ++ w :: post) = m.main sh (w :: (pre ++ post)) := by
  have ho := (commandOf_ordinary hw).1
  rw [main_command m sh ⟨pre, post, rfl, hp, ho⟩ hw, main_command m sh (named_first ho _) hw, List.erase_cons_head, List.erase_append_right _ hn,
    List.erase_cons_head]

/-- Flags of the whole program, one at a time. -/
inductive Leading : List Str → List Piece → Prop
  | nil : Leading [] []
  | longNext {f : Flag} {v : Str} {l : List Str} {ps : List Piece} (hv : ValueFlag f) (h : Leading l ps) : Leading ((str "--" ++ f.long) :: v :: l) (.value f v :: ps)
  | longEquals {f : Flag} {v : Str} {l : List Str} {ps : List Piece} (hv : ValueFlag f) (h : Leading l ps) :
      Leading ((str "--" ++ f.long ++ str "=" ++ v) :: l) (.value f v :: ps)
  | shortNext {f : Flag} {v : Str} {l : List Str} {ps : List Piece} (hv : ValueFlag f) (h : Leading l ps) : Leading (['-', f.short] :: v :: l) (.value f v :: ps)
  | shortEquals {f : Flag} {v : Str} {l : List Str} {ps : List Piece} (hv : ValueFlag f) (hne : v ≠ []) (h : Leading l ps) :
      Leading (('-' :: f.short :: '=' :: v) :: l) (.value f v :: ps)
  | attached {f : Flag} {v : Str} {l : List Str} {ps : List Piece} (hv : ValueFlag f) (hne : v ≠ []) (he : v.head? ≠ some '=') (h : Leading l ps) :
      Leading (('-' :: f.short :: v) :: l) (.value f v :: ps)
  | longOn {l : List Str} {ps : List Piece} (h : Leading l ps) : Leading (str "--current" :: l) (.switch .current true :: ps)
  | shortOn {l : List Str} {ps : List Piece} (h : Leading l ps) : Leading (str "-c" :: l) (.switch .current true :: ps)

theorem not_takes_equals {s : Str} (h : '=' ∈ s) : ¬ SeemsToTake s := by
  rintro (⟨c, rfl, _, h2, _⟩ | ⟨n, rfl, _, h2, _⟩)
  · simp only [List.mem_cons, List.not_mem_nil, or_false] at h
    rcases h with h | h
    · exact absurd h (by decide)
    · exact h2 h.symm
  · rw [dashes] at h
    simp only [List.cons_append, List.nil_append, List.mem_cons] at h
    rcases h with h | h | h
    · exact absurd h (by decide)
    · exact absurd h (by decide)
    · exact h2 h

theorem leading_skipped {l : List Str} {ps : List Piece} (h : Leading l ps) : Skipped l := by
  induction h with
  | nil => exact .nil
  | longNext hv h ih =>
    refine .pair (Or.inr ⟨_, rfl, long_plain.2.2.2, long_plain.1, ?_⟩) ih
    rcases hv with rfl | rfl | rfl <;> decide
  | @longEquals f v l ps hv h ih =>
    refine .alone (Or.inr (by rw [dashes]; rfl)) (by rw [List.append_assoc, List.append_assoc]; exact long_not_dash (by simp [long_plain.2.2.2])) (not_takes_equals ?_) ih
    rw [show str "=" = ['='] by decide]
    simp
  | @shortNext f v l ps hv h ih =>
    refine .pair (Or.inl ⟨_, rfl, short_ne.1, short_ne.2.1, ?_, ?_⟩) ih <;> rcases hv with rfl | rfl | rfl <;> decide
  | @shortEquals f v l ps hv hne h ih =>
    exact .alone (Or.inr rfl) (by rw [dashes]; simp) (not_takes_equals (by simp)) ih
  | @attached f v l ps hv hne he h ih =>
    refine .alone (Or.inr rfl) (by rw [dashes]; simp [hne]) ?_ ih
    rintro (⟨c, h1, _⟩ | ⟨n, h1, _⟩)
    · simp at h1; exact hne h1.2
    · rw [dashes] at h1
      simp only [List.cons_append, List.nil_append, List.cons.injEq] at h1
      exact short_ne.1 h1.2.1
  | longOn h ih =>
    refine .alone (Or.inr (by decide)) (by decide) ?_ ih
    rintro (⟨c, h1, _⟩ | ⟨n, h1, _, _, h2⟩)
    · have := congrArg List.length h1
      rw [show (str "--current").length = 9 by decide] at this
      simp at this
    · rw [show str "--current" = str "--" ++ str "current" by decide] at h1
      exact h2 (List.append_cancel_left h1).symm
  | shortOn h ih =>
    refine .alone (Or.inr (by decide)) (by decide) ?_ ih
    rintro (⟨c, h1, _, _, h2, _⟩ | ⟨n, h1, _⟩)
    · rw [show str "-c" = ['-', 'c'] by decide] at h1
      simp at h1
      exact h2 h1.symm
    · rw [show str "-c" = ['-', 'c'] by decide, dashes] at h1
      simp at h1

theorem leading_typed {l : List Str} {ps : List Piece} (h : Leading l ps) (c : Command) {l' : List Str} {ps' : List Piece} (h' : Typed (flagsOf c) l' ps') :
    Typed (flagsOf c) (l ++ l') (ps ++ ps') := by
  have mem : ∀ {f : Flag}, ValueFlag f → f ∈ flagsOf c := by
    intro f hf
    rcases hf with rfl | rfl | rfl <;> cases c <;> decide
  have cur : Flag.current ∈ flagsOf c := by cases c <;> decide
  induction h with
  | nil => exact h'
  | longNext hv h ih => exact .longNext (mem hv) hv ih
  | longEquals hv h ih => exact .longEquals (mem hv) hv ih
  | shortNext hv h ih => exact .shortNext (qs := []) (.next (mem hv) hv) ih
  | shortEquals hv hne h ih => exact .short (qs := [_]) (by simp) (.equals (mem hv) hv hne) ih
  | attached hv hne he h ih => exact .short (qs := [_]) (by simp) (.attached (mem hv) hv hne (Or.inr he)) ih
  | longOn h ih => exact .longOn (f := .current) cur (by decide) ih
  | shortOn h ih => exact .short (b := ['c']) (qs := [.switch .current true]) (by simp) (.on (f := .current) cur (by decide) .done) ih

/-- Flags of the whole program, written one at a time, may stand before the name of the command, unless a value among them is that name. -/
theorem C103_flags_first_partial [Unicode] (m : Machine) (sh : Shell) {w : Str} {c : Command} (hw : commandOf w = some c) {pre : List Str} {qs : List Piece}
    (hp : Leading pre qs) (hn : w ∉ pre) {post : List Str} {ps : List Piece} (ht : Typed (flagsOf c) post ps) :
    m.main sh (pre ++ w :: post) =
      if lastSwitch .help (qs ++ ps) then ⟨sh.help (.command c), .exit 0⟩ else m.run (optionsOf (qs ++ ps)) c (wordsOf (qs ++ ps)) := by
  rw [C103_before_partial m sh hw (leading_skipped hp) hn, C102_flags m sh hw (leading_typed hp c ht)]

/-! ### C104 What the program does with a command line -/

theorem filters_none [U : Unicode] (R : RegexEngine) {good : List Str} (hg : ∀ a ∈ good, ¬ NoFilter R a) {bad : Str} (hb : NoFilter R bad) (rest : List Str) :
    ∃ x, makeFilters R (good ++ bad :: rest) = .error x ∧ (bad = [] → x = .panic .indexOutOfRange) ∧ (bad ≠ [] → ∀ p, x ≠ .panic p) := by
  by_cases h : bad = []
  · subst h
    exact ⟨_, makeFilters_error R hg rest (C45_empty_argument_crashes R), fun _ => rfl, fun h => absurd rfl h⟩
  · obtain ⟨k1, k2⟩ := C45_filter_argument R bad h
    have hn := k2 (by
      cases hc : R.compile (if (∃ c ∈ argPattern bad, U.isUpper c = true) then argPattern bad else str "(?i)" ++ argPattern bad) with
      | none => rfl
      | some r => exact absurd ((isFilterOf_iff R bad _).2 (k1 r hc)) (hb _))
    exact ⟨_, makeFilters_error R hg rest hn, fun h0 => absurd h0 h, fun _ p hp => by cases hp⟩

theorem filters_all [U : Unicode] (R : RegexEngine) {l : List Str} (hg : ∀ a ∈ l, ¬ NoFilter R a) : ∃ fs, makeFilters R l = .ok fs := by
  rcases makeFilters_cases R l with ⟨fs, h, _⟩ | ⟨e, pre, a, post, _, h2, h3, _⟩ | ⟨pre, post, _, h2, _⟩
  · exact ⟨fs, h⟩
  · exact absurd (fun f hf => by rw [(isFilterOf_iff R a f).1 hf] at h3; cases h3) (hg a (by rw [h2]; simp))
  · exact absurd (fun f hf => hf.1 rfl) (hg [] (by rw [h2]; simp))

theorem execute_root_ok [Unicode] (m : Machine) (sh : Shell) {argv : List Str} {ps : List Piece} (ht : Typed commonFlags argv ps)
    (hh : lastSwitch .help ps = true ∨ ∀ a ∈ wordsOf ps, ¬ NoFilter m.engine a) : m.execute sh .root argv = ⟨sh.help .root, .exit 0⟩ := by
  rw [execute_typed (x := .root) m sh ht]
  cases hl : lastSwitch .help ps with
  | true => rfl
  | false =>
    obtain ⟨fs, hfs⟩ := filters_all m.engine (hh.resolve_left (by rw [hl]; simp))
    simp only [hfs]
    rfl

theorem execute_root_bad [Unicode] (m : Machine) (sh : Shell) {argv : List Str} {ps : List Piece} {good rest : List Str} {bad : Str} (ht : Typed commonFlags argv ps)
    (hh : lastSwitch .help ps = false) (hw : wordsOf ps = good ++ bad :: rest) (hg : ∀ a ∈ good, ¬ NoFilter m.engine a) (hb : NoFilter m.engine bad) :
    m.execute sh .root argv = ⟨[], if bad = [] then .panic .indexOutOfRange else .exit 1⟩ := by
  rw [execute_typed (x := .root) m sh ht, hh, if_neg (by simp), hw]
  obtain ⟨x, h1, h2, h3⟩ := filters_none m.engine hg hb rest
  rw [h1]
  by_cases h : bad = []
  · rw [h2 h, if_pos h]
  · rw [if_neg h]
    cases x with
    | err e => rfl
    | fatal => rfl
    | panic p => exact absurd rfl (h3 h p)

theorem handles_sound [Unicode] {m : Machine} {sh : Shell} {argv : List Str} {run : Run} (h : Handles m sh argv run) : m.main sh argv = run := by
  cases h with
  | complete hn hw =>
    unfold Machine.main
    rw [findCommand_some true hn (findNext_complete hw)]
    rfl
  | command hn hw ht hh => rw [main_command m sh hn hw, execute_typed m sh (by rw [flagsOf_eq]; exact ht), hh]; rfl
  | commandHelp hn hw ht hh => rw [main_command m sh hn hw, execute_typed m sh (by rw [flagsOf_eq]; exact ht), hh]; rfl
  | badFlags hn hw ht => rw [main_command m sh hn hw, execute_untyped m sh (by rw [flagsOf_eq]; exact ht)]
  | help hn ht hh hw hc =>
    rw [main_help m sh hn, execute_typed (x := .help) m sh ht, hh, if_neg (by simp), findCommand_some false hw (findNext_command false hc)]
    rfl
  | @helpHelp ps hn ht hh =>
    rw [main_help m sh hn, execute_typed (x := .help) m sh ht]
    cases hl : lastSwitch .help ps with
    | true => rfl
    | false =>
      rw [if_neg (by simp), findCommand_some false (hh.resolve_left (by rw [hl]; simp)) (findNext_help false)]
      rfl
  | helpAll hn ht hh hw =>
    rw [main_help m sh hn, execute_typed (x := .help) m sh ht, hh, if_neg (by simp), findCommand_none false hw, if_neg]
    unfold unknownCommand
    rw [unnamed_iff.1 hw]
    simp
  | helpUnknown hn ht hh hw hc hne =>
    obtain ⟨h1, h2⟩ := findCommand_unknown false hw (findNext_other false hc hne (Or.inl rfl))
    rw [main_help m sh hn, execute_typed (x := .help) m sh ht, hh, if_neg (by simp), h1, if_pos h2]
  | helpBadFlags hn ht => rw [main_help m sh hn, execute_untyped (x := .help) m sh ht]
  | unknown hn hc hne h1 h2 =>
    obtain ⟨k1, _⟩ := findCommand_unknown true hn (findNext_other true hc hne (Or.inr ⟨h1, h2⟩))
    obtain ⟨k2, k3⟩ := findCommand_unknown false hn (findNext_other false hc hne (Or.inl rfl))
    unfold Machine.main
    rw [k1, k2, if_neg (by simp)]
    simp only
    rw [if_pos k3]
  | nothing hn ht hh => rw [main_nothing m sh hn, execute_root_ok m sh ht hh]
  | nothingBadFilter hn ht hh hw hg hb => rw [main_nothing m sh hn, execute_root_bad m sh ht hh hw hg hb]
  | nothingBadFlags hn ht => rw [main_nothing m sh hn, execute_untyped (x := .root) m sh ht]

theorem first_bad [U : Unicode] (R : RegexEngine) (l : List Str) :
    (∀ a ∈ l, ¬ NoFilter R a) ∨ ∃ good bad rest, l = good ++ bad :: rest ∧ (∀ a ∈ good, ¬ NoFilter R a) ∧ NoFilter R bad := by
  induction l with
  | nil => exact Or.inl (by simp)
  | cons a l ih =>
    by_cases ha : NoFilter R a
    · exact Or.inr ⟨[], a, l, rfl, by simp, ha⟩
    · rcases ih with ih | ⟨good, bad, rest, h1, h2, h3⟩
      · exact Or.inl (by simpa using ⟨ha, ih⟩)
      · exact Or.inr ⟨a :: good, bad, rest, by rw [h1]; rfl, by simpa using ⟨ha, h2⟩, h3⟩

/-- Every command line is dealt with in one of the ways of `Handles`. -/
theorem C104_every_line [Unicode] (m : Machine) (sh : Shell) (argv : List Str) : ∃ run, Handles m sh argv run := by
  by_cases hn : ∃ w, NamesCommand argv w
  · obtain ⟨w, hn⟩ := hn
    cases hc : commandOf w with
    | some c =>
      by_cases ht : ∃ ps, Typed (flagsOf c) (argv.erase w) ps
      · obtain ⟨ps, ht⟩ := ht
        cases hh : lastSwitch .help ps with
        | true => exact ⟨_, .commandHelp hn hc ht hh⟩
        | false => exact ⟨_, .command hn hc ht hh⟩
      · exact ⟨_, .badFlags hn hc (not_exists.1 ht)⟩
    | none =>
      by_cases h1 : w = str "help"
      · subst h1
        by_cases ht : ∃ ps, Typed commonFlags (argv.erase (str "help")) ps
        · obtain ⟨ps, ht⟩ := ht
          cases hh : lastSwitch .help ps with
          | true => exact ⟨_, .helpHelp hn ht (Or.inl hh)⟩
          | false =>
            by_cases hw : ∃ w, NamesCommand (wordsOf ps) w
            · obtain ⟨w, hw⟩ := hw
              cases hcw : commandOf w with
              | some c => exact ⟨_, .help hn ht hh hw hcw⟩
              | none =>
                by_cases h2 : w = str "help"
                · subst h2
                  exact ⟨_, .helpHelp hn ht (Or.inr hw)⟩
                · exact ⟨_, .helpUnknown hn ht hh hw hcw h2⟩
            · exact ⟨_, .helpAll hn ht hh (not_exists.1 hw)⟩
        · exact ⟨_, .helpBadFlags hn (not_exists.1 ht)⟩
      · by_cases h2 : w = str "__complete" ∨ w = str "__completeNoDesc"
        · exact ⟨_, .complete hn h2⟩
        · push Not at h2
          exact ⟨_, .unknown hn hc h1 h2.1 h2.2⟩
  · have hn := not_exists.1 hn
    by_cases ht : ∃ ps, Typed commonFlags argv ps
    · obtain ⟨ps, ht⟩ := ht
      cases hh : lastSwitch .help ps with
      | true => exact ⟨_, .nothing hn ht (Or.inl hh)⟩
      | false =>
        rcases first_bad m.engine (wordsOf ps) with h | ⟨good, bad, rest, h1, h2, h3⟩
        · exact ⟨_, .nothing hn ht (Or.inr h)⟩
        · exact ⟨_, .nothingBadFilter hn ht hh h1 h2 h3⟩
    · exact ⟨_, .nothingBadFlags hn (not_exists.1 ht)⟩

/-- `Handles` describes exactly what the program does. -/
theorem C104_main [Unicode] (m : Machine) (sh : Shell) (argv : List Str) (run : Run) : Handles m sh argv run ↔ m.main sh argv = run := by
  constructor
  · exact handles_sound
  · rintro rfl
    obtain ⟨run, h⟩ := C104_every_line m sh argv
    rw [handles_sound h]
    exact h

/-- So there is only one way it can be dealt with. -/
theorem C104_one [Unicode] (m : Machine) (sh : Shell) (argv : List Str) {run run' : Run} (h : Handles m sh argv run) (h' : Handles m sh argv run') : run = run' :=
  (handles_sound h).symm.trans (handles_sound h')

/-- Nothing, a word that is not a command, the help of a command, and of something else. -/
example :
    letI := asciiUnicode
    let m := machineWith (str "f") ""
    let sh : Shell := ⟨fun
      | .root => str "root"
      | .command .balance => str "balance"
      | _ => str "other", fun _ => ⟨[], .exit 0⟩⟩
    m.main sh [] = ⟨str "root", .exit 0⟩ ∧ m.main sh [str "registers"] = ⟨[], .exit 1⟩ ∧ m.main sh [str "help", str "bal"] = ⟨str "balance", .exit 0⟩ ∧
    m.main sh [str "help", str "registers"] = ⟨[], .exit 0⟩ ∧ m.main sh [str "help"] = ⟨str "root", .exit 0⟩ ∧
    m.main sh [str "bal", str "--help"] = ⟨str "balance", .exit 0⟩ ∧ m.main sh [str "--help", str "bal"] = ⟨str "root", .exit 0⟩ ∧
    m.main sh [str "--", []] = ⟨[], .panic .indexOutOfRange⟩ ∧ m.main sh [str "--", str "("] = ⟨[], .exit 1⟩ ∧
    m.main sh [str "-x"] = ⟨[], .exit 1⟩ := by
  decide +kernel

end Gledger
