/-
Specification: which sequences of items are free of crashes. A small automaton that only remembers which kind of
transaction is open.
-/
import Verif.Spec.File

namespace Gledger

/-- What is open: nothing, a transaction, or a periodic transaction (with or without a posting so far). -/
inductive Open
  | nothing
  | transaction
  | periodic (posting : Bool)
  deriving DecidableEq, Repr

/-- Whether an item (other than an include) can be handled safely, and what is open afterwards (`none`: it may crash). -/
def Open.next : Open → ItemType → Str → Option Open
  | _, .emptyLineItem, _ => some .nothing
  | _, .eofItem, _ => some .nothing
  | _, .includeItem, _ => none
  | _, .dateItem, date => if 5 ≤ date.length then some .transaction else none
  | _, .periodItem, _ => some (.periodic false)
  | .nothing, _, _ => none
  | o, .amountItem, amount => if amount = [] then none else some o
  | .periodic _, .transactionHeaderCommentItem, _ => none
  | .periodic false, .commentItem, _ => none
  | .periodic _, .accountItem, account => if account = [] then none else some (.periodic true)
  | .periodic p, .stateItem, content => if content = [] then none else some (.periodic p)
  | .transaction, .stateItem, content => if content = [] then none else some .transaction
  | o, _, _ => some o

/-- A list of items; include items refer to files judged by `file`. -/
def safeItems (file : Open → Str → Option Open) : List (ItemType × Str) → Open → Option Open
  | [], o => some o
  | (.includeItem, path) :: is, o => (file o path).bind (safeItems file is)
  | i :: is, o => (o.next i.1 i.2).bind (safeItems file is)

/-- Lines; none may exceed the read buffer. -/
def safeLines [Unicode] (file : Open → Str → Option Open) (hint : Str) : List RawLine → Open → Option Open
  | [], o => some o
  | .tooLong :: _, _ => none
  | .line b :: rest, o => (safeItems file (lineItems hint (runes b)).items o).bind (safeLines file hint rest)

/-- An included file; with no file handle left, or without such a file, opening it is an error, not a crash. -/
def safeFile [Unicode] (fs : FileSystem) : Nat → Open → Str → Option Open
  | 0, o, _ => some o
  | n + 1, o, path =>
    match fs path with
    | none => some o
    | some bytes => (safeLines (safeFile fs n) path (readLines bytes) o).map fun _ => .nothing

/-- The files under a root file contain no line that may crash. -/
def SafeText [Unicode] (fs : FileSystem) (maxOpen : Nat) (path : Str) (bytes : List UInt8) : Prop :=
  safeLines (safeFile fs maxOpen) path (readLines bytes) .nothing ≠ none

instance [Unicode] (fs : FileSystem) (maxOpen : Nat) (path : Str) (bytes : List UInt8) : Decidable (SafeText fs maxOpen path bytes) := by
  unfold SafeText; infer_instance

end Gledger
