/-
Specification vocabulary for whole files: parts, lines, line numbers in errors.
-/
import Verif.Spec.Delivery
import Verif.Spec.Runes

namespace Gledger

/-- A part of a file consisting of complete lines: empty, or ending with a newline. -/
def WholeLines (a : List UInt8) : Prop := a = [] ∨ a.getLast? = some 10

instance (a : List UInt8) : Decidable (WholeLines a) := by unfold WholeLines; infer_instance

/-- An error with the line numbers blotted out. -/
def Err.unnumbered : Err → Err
  | .atLine file _ e => .atLine file 0 e.unnumbered
  | .errorAt e => .errorAt e.unnumbered
  | .parsingDate e => .parsingDate e.unnumbered
  | .parsingPeriod e => .parsingPeriod e.unnumbered
  | .parsingAmount e => .parsingAmount e.unnumbered
  | e => e

/-- A failure with the line numbers blotted out. -/
def Failure.unnumbered : Failure → Failure
  | .err e => .err e.unnumbered
  | f => f

/-- The innermost cause of an error: file names and line numbers removed. -/
def Err.core : Err → Err
  | .atLine _ _ e => e.core
  | .errorAt e => e.core
  | .parsingDate e => .parsingDate e.core
  | .parsingPeriod e => .parsingPeriod e.core
  | .parsingAmount e => .parsingAmount e.core
  | e => e

/-- The cause of a failure. -/
def Failure.core : Failure → Failure
  | .err e => .err e.core
  | f => f

/-- Lines written one after the other, each ended by `nl`. -/
def textOf (nl : List UInt8) (ls : List (List UInt8)) : List UInt8 := ls.flatMap fun l => l ++ nl

/-- A line text that fits the buffer: no newline inside, no carriage return at its end. -/
def PlainLine (l : List UInt8) : Prop := (10 : UInt8) ∉ l ∧ l.getLast? ≠ some 13 ∧ l.length < 4095

instance (l : List UInt8) : Decidable (PlainLine l) := by unfold PlainLine; infer_instance

/-- A handler call without the file name. -/
def Call.unfiled : Call → Call
  | .normal t _ => .normal t []
  | .periodic pt _ => .periodic pt []

/-- Handlers that do not look at the file name. -/
def FileBlind {σ : Type} (H : Handlers σ) : Prop :=
  (∀ h, H.th = some h → ∀ s t f g, h s t f = h s t g) ∧ (∀ h, H.ph = some h → ∀ s t f g, h s t f = h s t g)

variable {S : Type}

/-- Lexing some lines of a file, starting with line number `n`, without reaching the end of the file. -/
def feedLines [Unicode] (cb : ItemParser S) (hint : Str) : Nat → List RawLine → S → Step S
  | _, [], s => (s, none)
  | _, .tooLong :: _, s => (s, some .fatal)
  | n, .line b :: rest, s =>
    ((runLine cb (lineItems hint (runes b)) s).wrap (.atLine hint n)).andThen (feedLines cb hint (n + 1) rest)

end Gledger
