/-
Specification: where the files are that a journal includes, and what becomes of messages when the files are moved.
-/
import Verif.Spec.Layout

namespace Gledger

/-- The directory that a path leads to: everything up to its last slash. -/
def Directory (path d : Str) : Prop := ∃ base, path = d ++ base ∧ '/' ∉ base ∧ (d = [] ∨ ∃ e, d = e ++ ['/'])

/-- The same files, below another directory. -/
def MovedTo (d : Str) (fs fs' : FileSystem) : Prop := (∃ e, d = e ++ ['/']) ∧ ∀ p, fs' (d ++ p) = fs p

/-- An error, the files it names having been moved. -/
def Err.moved (d : Str) : Err → Err
  | .openFile p => .openFile (d ++ p)
  | .atLine p n e => .atLine (d ++ p) n (e.moved d)
  | .errorAt e => .errorAt (e.moved d)
  | .parsingDate e => .parsingDate (e.moved d)
  | .parsingPeriod e => .parsingPeriod (e.moved d)
  | .parsingAmount e => .parsingAmount (e.moved d)
  | e => e

/-- Panics name no files. -/
def Failure.moved (d : Str) : Failure → Failure
  | .err e => .err (e.moved d)
  | f => f

end Gledger
