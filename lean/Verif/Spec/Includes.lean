/-
Specification: a tree of files that include each other as one sequence of lines.
-/
import Verif.Spec.File

namespace Gledger

/-- What is met when a tree of files is read: a line that is not an include directive, the end of a file, a line that does
not fit the read buffer, a file that cannot be opened. -/
inductive Event
  | line (items : LineItems)
  | fileEnd
  | overlong
  | missing (path : Str)
  deriving DecidableEq, Repr

/-- The file named by the line, if it is an include directive. -/
def directive (li : LineItems) : Option Str :=
  match li.items with
  | [(.includeItem, path)] => some path
  | _ => none

/-- What is met in the lines of a file, each with the file name under which a transaction ended there is delivered:
`label`, until an include directive has been met; the root file from then on. -/
def unfold [Unicode] (included : Str → List (Str × Event)) (root path : Str) : Str → List RawLine → List (Str × Event)
  | label, [] => [(label, .fileEnd)]
  | label, .tooLong :: _ => [(label, .overlong)]
  | label, .line b :: rest =>
    match directive (lineItems path (runes b)) with
    | some file => included file ++ unfold included root path root rest
    | none => (label, .line (lineItems path (runes b))) :: unfold included root path label rest

/-- What is met in an included file: its lines carry its own name up to its first include directive. -/
def unfoldFile [Unicode] (fs : FileSystem) (root : Str) : Nat → Str → List (Str × Event)
  | 0, path => [(path, .missing path)]
  | n + 1, path =>
    match fs path with
    | none => [(path, .missing path)]
    | some bytes => unfold (unfoldFile fs root n) root path path (readLines bytes)

/-- What is met when a root file is read. -/
def unfoldRoot [Unicode] (fs : FileSystem) (maxOpen : Nat) (path : Str) (bytes : List UInt8) : List (Str × Event) :=
  unfold (unfoldFile fs path maxOpen) path path path (readLines bytes)

variable {σ : Type}

/-- What an event does to the parser. -/
def meet [Unicode] (H : Handlers σ) : Event → PState σ → Step (PState σ)
  | .line li, s => runLine (parseItem noFiles H 0) li s
  | .fileEnd, s => endTransaction H s
  | .overlong, s => (s, some .fatal)
  | .missing path, s => (s, some (.err (.openFile path)))

/-- Reading events one after the other; transactions ended by an event are filed under its label. -/
def meetAll [Unicode] (H : Handlers σ) : List (Str × Event) → PState σ → Step (PState σ)
  | [], s => (s, none)
  | (label, e) :: es, s => (meet H e { s with files := [label] }).andThen (meetAll H es)

/-- A tree of files as the lines of one file: each include directive is replaced by the lines of the file and a blank line.
(`none` if some file is missing or too many are open at once.) -/
def inlineLines [Unicode] (included : Str → Option (List RawLine)) (path : Str) : List RawLine → Option (List RawLine)
  | [] => some []
  | .tooLong :: rest => (inlineLines included path rest).map (.tooLong :: ·)
  | .line b :: rest =>
    match directive (lineItems path (runes b)) with
    | some file => do
      let ls ← included file
      let rs ← inlineLines included path rest
      return ls ++ .line [] :: rs
    | none => (inlineLines included path rest).map (.line b :: ·)

/-- The lines of an included file. -/
def inlineFile [Unicode] (fs : FileSystem) : Nat → Str → Option (List RawLine)
  | 0, _ => none
  | n + 1, path => (fs path).bind fun bytes => inlineLines (inlineFile fs n) path (readLines bytes)

end Gledger
