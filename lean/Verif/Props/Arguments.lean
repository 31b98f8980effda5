/-
C81, with the words written out, and C95: the arguments of a command are its filters.
-/
import Verif.Props.Program
import Verif.Props.Filters

namespace Gledger

set_option maxRecDepth 100000

/-! ### C81 The words for commands -/

/-- Names and aliases, as documented in the help texts. -/
def commandTable : List (Command × List String) :=
  [(.accounts, ["accounts", "acc", "a"]), (.balance, ["balance", "bal", "b"]), (.budget, ["budget", "bud", "B"]),
   (.payees, ["payees", "pay", "p"]), (.print, ["print"]), (.statistics, ["statistics", "stats", "s"]), (.version, ["version"])]

/-- Exactly these words select these commands (with `p` taken by payees). -/
theorem C81_table (w : Str) (c : Command) : commandOf w = some c ↔ ∃ row ∈ commandTable, row.1 = c ∧ ∃ x ∈ row.2, w = str x := by
  constructor
  · intro h
    have hw := C81_only_words w c h
    have key : ∀ c ∈ allCommands, ∀ w ∈ c.words, commandOf w = some c → ∃ row ∈ commandTable, row.1 = c ∧ ∃ x ∈ row.2, w = str x := by decide
    exact key c (by cases c <;> decide) w hw h
  · rintro ⟨row, hr, rfl, x, hx, rfl⟩
    have key : ∀ row ∈ commandTable, ∀ x ∈ row.2, commandOf (str x) = some row.1 := by decide
    exact key row hr x hx

/-! ### C95 Arguments -/

/-- The filter an argument stands for: a field picked by the first character, and a compiled pattern, case being ignored unless the pattern has
an upper-case letter. -/
def IsFilterOf [U : Unicode] (R : RegexEngine) (arg : Str) (f : Filter) : Prop :=
  arg ≠ [] ∧ f.ftype = argField arg ∧
    R.compile (if (∃ c ∈ argPattern arg, U.isUpper c = true) then argPattern arg else str "(?i)" ++ argPattern arg) = some f.regex

/-- An argument that is not a filter. -/
def NoFilter [U : Unicode] (R : RegexEngine) (arg : Str) : Prop := ∀ f, ¬ IsFilterOf R arg f

theorem isFilterOf_iff [U : Unicode] (R : RegexEngine) (arg : Str) (f : Filter) : IsFilterOf R arg f ↔ newFilter R arg = .ok f := by
  by_cases h : arg = []
  · subst h
    constructor
    · intro hf; exact absurd rfl hf.1
    · intro hf; cases hf
  · obtain ⟨k1, k2⟩ := C45_filter_argument R arg h
    constructor
    · rintro ⟨_, h2, h3⟩
      rw [k1 _ h3, ← h2]
    · intro hf
      cases hc : R.compile (if (∃ c ∈ argPattern arg, U.isUpper c = true) then argPattern arg else str "(?i)" ++ argPattern arg) with
      | none => rw [k2 hc] at hf; cases hf
      | some r =>
        rw [k1 r hc] at hf
        cases hf
        exact ⟨h, rfl, hc⟩

theorem makeFilters_iff [U : Unicode] (R : RegexEngine) (args : List Str) (filters : List Filter) :
    makeFilters R args = .ok filters ↔ List.Forall₂ (IsFilterOf R) args filters := by
  induction args generalizing filters with
  | nil =>
    constructor
    · intro h; cases h; exact .nil
    · intro h; cases h; rfl
  | cons a as ih =>
    rw [makeFilters]
    constructor
    · intro h
      cases hf : newFilter R a with
      | error x => rw [hf] at h; cases h
      | ok f =>
        rw [hf] at h
        simp only at h
        cases hg : makeFilters R as with
        | error x => rw [hg] at h; cases h
        | ok g =>
          rw [hg] at h
          cases h
          exact .cons ((isFilterOf_iff R a f).2 hf) ((ih g).1 hg)
    · intro h
      cases h with
      | cons h1 h2 =>
        rw [(isFilterOf_iff R a _).1 h1]
        simp only [(ih _).2 h2]
        rfl

theorem makeFilters_error [U : Unicode] (R : RegexEngine) {good : List Str} (hg : ∀ a ∈ good, ¬ NoFilter R a) {bad : Str} (rest : List Str)
    {x : Failure} (hb : newFilter R bad = .error x) : makeFilters R (good ++ bad :: rest) = .error x := by
  induction good with
  | nil => simp only [List.nil_append, makeFilters, hb]
  | cons a as ih =>
    have := hg a (by simp)
    unfold NoFilter at this
    push Not at this
    obtain ⟨f, hf⟩ := this
    rw [List.cons_append, makeFilters, (isFilterOf_iff R a f).1 hf]
    simp only [ih fun b hb => hg b (by simp [hb])]
    rfl

/-- If every argument stands for a filter then a command that reads a journal runs with exactly these filters, in this order. -/
theorem C95_filters [U : Unicode] (m : Machine) (o : Options) {c : Command} (hc : c ≠ .version) {args : List Str} {filters : List Filter}
    (hf : List.Forall₂ (IsFilterOf m.engine) args filters) {path : Str} {bytes : List UInt8} (hp : m.rootPath o = some path) (hb : m.fs path = some bytes) :
    m.run o c args = m.runOn (m.env o filters) o args bytes path c ∧ (m.env o filters).filters = filters := by
  refine ⟨?_, rfl⟩
  simp only [Machine.run, (makeFilters_iff _ _ _).2 hf, Machine.runFiltered, if_neg hc, hp, hb]

/-- Otherwise the first argument that does not decides: the program stops without output before any journal is looked for, with a panic if that
argument is empty and with status 1 if its pattern does not compile. -/
theorem C95_invalid [U : Unicode] (m : Machine) (o : Options) (c : Command) {good : List Str} (hg : ∀ a ∈ good, ¬ NoFilter m.engine a) {bad : Str}
    (hb : NoFilter m.engine bad) (rest : List Str) :
    m.run o c (good ++ bad :: rest) = if bad = [] then ⟨[], .panic .indexOutOfRange⟩ else ⟨[], .exit 1⟩ := by
  by_cases h : bad = []
  · subst h
    rw [if_pos rfl]
    simp only [Machine.run, makeFilters_error m.engine hg rest (C45_empty_argument_crashes m.engine)]
  · rw [if_neg h]
    obtain ⟨k1, k2⟩ := C45_filter_argument m.engine bad h
    have hn : newFilter m.engine bad = .error (.err (.regexp (if (∃ c ∈ argPattern bad, U.isUpper c = true) then argPattern bad else str "(?i)" ++ argPattern bad))) := by
      apply k2
      cases hc : m.engine.compile (if (∃ c ∈ argPattern bad, U.isUpper c = true) then argPattern bad else str "(?i)" ++ argPattern bad) with
      | none => rfl
      | some r => exact absurd ⟨h, rfl, hc⟩ (hb ⟨r, argField bad⟩)
    simp only [Machine.run, makeFilters_error m.engine hg rest hn]

/-- Every list of arguments is of one of the two kinds. -/
theorem C95_complete [U : Unicode] (R : RegexEngine) (args : List Str) :
    (∃ filters, List.Forall₂ (IsFilterOf R) args filters) ∨ ∃ good bad rest, args = good ++ bad :: rest ∧ (∀ a ∈ good, ¬ NoFilter R a) ∧ NoFilter R bad := by
  induction args with
  | nil => exact Or.inl ⟨[], .nil⟩
  | cons a as ih =>
    by_cases h : NoFilter R a
    · exact Or.inr ⟨[], a, as, rfl, by simp, h⟩
    · rcases ih with ⟨fs, hf⟩ | ⟨g, b, r, rfl, h1, h2⟩
      · have h' := h
        unfold NoFilter at h'
        push Not at h'
        obtain ⟨f, hf'⟩ := h'
        exact Or.inl ⟨f :: fs, .cons hf' hf⟩
      · refine Or.inr ⟨a :: g, b, r, rfl, ?_, h2⟩
        intro x hx
        rcases List.mem_cons.1 hx with rfl | hx
        · exact h
        · exact h1 x hx

/-- A machine whose patterns are words to be found, those with a parenthesis that is not closed excepted. -/
def searching (text : String) : Machine :=
  { machineWith (str "f") text with engine := ⟨fun p => if p = str "(?i)(" then none else some fun s => p.isSuffixOf (str "(?i)" ++ s)⟩ }

/-- Two filters, of which the second matches; a pattern that does not compile; an empty argument. -/
example :
    letI := asciiUnicode
    (searching "2020-01-01 x\n  a  1\n  b\n").run { file := str "f" } .accounts [str "c", str "b"] = ⟨str "b\n", .exit 0⟩ ∧
    (searching "2020-01-01 x\n  a  1\n  b\n").run { file := str "f" } .accounts [str "c", str "(", str ""] = ⟨[], .exit 1⟩ ∧
    (searching "2020-01-01 x\n  a  1\n  b\n").run { file := str "f" } .accounts [str "", str "("] = ⟨[], .panic .indexOutOfRange⟩ ∧
    (searching "").run {} .version [str "("] = ⟨[], .exit 1⟩ := by
  decide +kernel

end Gledger
