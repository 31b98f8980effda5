/-
C20: exactly which journals crash the parser.
-/
import Verif.Props.Journals

namespace Gledger

set_option maxRecDepth 100000

/-- Exactly four kinds of lines crash the parser: a header with a date of less than five characters (if what is open can end there), a note that belongs to nothing, a
posting whose amount has no number, and a posting that belongs to nothing, later than at the beginning. -/
theorem C20_lines_partial {pg : Page} {L : Line} {p : Panic} :
    (∃ ms, Effect pg L ms (.error (.crash p))) ↔
      (p = .indexOutOfRange ∧
        ((∃ date state payee note ms, L = .header date state payee note ∧ date.length < 5 ∧ pg.Ends (.ok ms)) ∨
         ∃ account commodity, L = .posting account (some (commodity, [])) ∧ ¬ pg.Closed)) ∨
      (p = .nilDereference ∧
        ((∃ text, L = .note text ∧ (pg.Closed ∨ ∃ m, pg = .budget m [])) ∨
         ∃ account amount, L = .posting account amount ∧ pg = .closed true)) := by
  constructor
  · rintro ⟨ms, h⟩
    cases h with
    | shortDate h1 h2 => exact Or.inl ⟨rfl, Or.inl ⟨_, _, _, _, _, rfl, h2, h1⟩⟩
    | strayNote h => exact Or.inr ⟨rfl, Or.inl ⟨_, rfl, h⟩⟩
    | noAmount h => exact Or.inl ⟨rfl, Or.inr ⟨_, _, rfl, h⟩⟩
    | strayPosting => exact Or.inr ⟨rfl, Or.inr ⟨_, _, rfl, rfl⟩⟩
  · rintro (⟨rfl, ⟨date, state, payee, note, ms, rfl, h1, h2⟩ | ⟨account, commodity, rfl, h⟩⟩ | ⟨rfl, ⟨text, rfl, h⟩ | ⟨account, amount, rfl, rfl⟩⟩)
    · exact ⟨ms, .shortDate h2 h1⟩
    · exact ⟨_, .noAmount h⟩
    · exact ⟨_, .strayNote h⟩
    · exact ⟨_, .strayPosting⟩

/-- A journal crashes the parser exactly if its reading, line by line and file by file, comes to such a line (and not to a mistake before it). -/
theorem C20_exactly_partial [Unicode] (fs : FileSystem) (lib : Err → Str) (opens : Nat) (path : Str) (bytes : List UInt8) (p : Panic) :
    rejection fs opens bytes path = some (.panic p) ↔ ∃ js, Reading fs lib opens path bytes js (.error (.crashes p)) := by
  obtain ⟨js, out, h, hu⟩ := C99_one_reading fs lib opens path bytes
  obtain ⟨-, d2, d3⟩ := C99_parsed h
  constructor
  · intro hr
    rcases out with rep | pg
    · obtain ⟨f, e1, e2⟩ := d3 rep rfl
      rw [hr] at e1
      cases rep with
      | message via place reason =>
        obtain ⟨e, _, rfl⟩ := e2
        cases e1
      | crashes q =>
        cases e2
        cases e1
        exact ⟨js, h⟩
      | quits =>
        cases e2
        cases e1
    · rw [d2 pg rfl] at hr
      cases hr
  · rintro ⟨js', h'⟩
    obtain ⟨-, -, d3⟩ := C99_parsed h'
    obtain ⟨f, e1, e2⟩ := d3 _ rfl
    cases e2
    exact e1

/-- Otherwise the journal is read, or there is an error value (with C20_exactly_partial: all that can happen), or a line is too long, and the program exits. -/
theorem C20_otherwise_partial [Unicode] (fs : FileSystem) (lib : Err → Str) (opens : Nat) (path : Str) (bytes : List UInt8)
    (h : ∀ js p, ¬ Reading fs lib opens path bytes js (.error (.crashes p))) :
    rejection fs opens bytes path = none ∨ (∃ e, rejection fs opens bytes path = some (.err e)) ∨
      (rejection fs opens bytes path = some .fatal ∧ ∃ js, Reading fs lib opens path bytes js (.error .quits)) := by
  obtain ⟨js, out, hr, hu⟩ := C99_one_reading fs lib opens path bytes
  obtain ⟨-, d2, d3⟩ := C99_parsed hr
  rcases out with rep | pg
  · obtain ⟨f, e1, e2⟩ := d3 rep rfl
    cases rep with
    | message via place reason =>
      obtain ⟨e, _, rfl⟩ := e2
      exact Or.inr (Or.inl ⟨_, e1⟩)
    | crashes q => exact absurd hr (h _ _)
    | quits =>
      cases e2
      exact Or.inr (Or.inr ⟨e1, js, hr⟩)
  · exact Or.inl (d2 pg rfl)

/-- An unreadable date of less than five characters, in the second entry. -/
example : letI := asciiUnicode
    rejection noFiles 1 (utf8 "2020-01-01 x\n  A  1\n  B\n\n2020 y\n") (str "f") = some (.panic .indexOutOfRange) ∧
    rejection noFiles 1 (utf8 "2020-01-01 x\n  A  1\n\n2020 y\n") (str "f") ≠ some (.panic .indexOutOfRange) := by
  decide +kernel

end Gledger
