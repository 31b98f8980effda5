/-
Specification vocabulary for what the parser delivers to its handlers.
-/
import Verif.Model.Parser

namespace Gledger

/-- What a posting contributes to a sum: nothing if it has no amount. -/
def Posting.value (p : Posting) : I64 :=
  match p.amount with
  | none => 0
  | some a => a.quantity

/-- The transaction's amounts sum to zero. -/
def Transaction.Balanced (t : Transaction) : Prop := (t.postings.map Posting.value).sum = 0

instance (t : Transaction) : Decidable t.Balanced := by unfold Transaction.Balanced; infer_instance

/-- A call of a handler: the transaction and the file path it is given. -/
inductive Call
  | normal (t : Transaction) (file : Str)
  | periodic (pt : PeriodicTransaction) (file : Str)
  deriving DecidableEq, Repr

/-- The transaction of a call. -/
def Call.transaction : Call → Transaction
  | .normal t _ => t
  | .periodic pt _ => pt.transaction

/-- The file of a call. -/
def Call.file : Call → Str
  | .normal _ f => f
  | .periodic _ f => f

variable {σ : Type}

/-- The same handlers, also keeping a log of their calls (each call is logged whether or not the handler
then fails). -/
def logged (H : Handlers σ) : Handlers (σ × List Call) where
  th := H.th.map fun h s t f => (((h s.1 t f).1, s.2 ++ [.normal t f]), (h s.1 t f).2)
  ph := H.ph.map fun h s pt f => (((h s.1 pt f).1, s.2 ++ [.periodic pt f]), (h s.1 pt f).2)

/-- Handlers that only record, never fail. -/
def recorder : Handlers (List Call) where
  th := some fun s t f => (s ++ [.normal t f], none)
  ph := some fun s pt f => (s ++ [.periodic pt f], none)

/-- The calls made while parsing a root file with handlers `H` started in `u`, up to the end or the failure. -/
def callsOf [Unicode] (fs : FileSystem) (H : Handlers σ) (maxOpen : Nat) (bytes : List UInt8) (path : Str)
    (u : σ) : List Call :=
  (parse fs (logged H) maxOpen bytes path (newParser (u, []))).1.user.2

/-- The handlers' own state when parsing ends. -/
def endStateOf [Unicode] (fs : FileSystem) (H : Handlers σ) (maxOpen : Nat) (bytes : List UInt8) (path : Str)
    (u : σ) : σ :=
  (parse fs (logged H) maxOpen bytes path (newParser (u, []))).1.user.1

/-- The failure that ends parsing, if any. -/
def failureOf [Unicode] (fs : FileSystem) (H : Handlers σ) (maxOpen : Nat) (bytes : List UInt8) (path : Str)
    (u : σ) : Option Failure :=
  (parse fs (logged H) maxOpen bytes path (newParser (u, []))).2

/-- The UTF-8 encoding of a text. -/
def encode (cs : Str) : List UInt8 := cs.flatMap String.utf8EncodeChar

/-- Bytes of a string literal. -/
def utf8 (s : String) : List UInt8 := encode s.toList

/-- No file besides the root file. -/
def noFiles : FileSystem := fun _ => none

end Gledger
