/-
Specification vocabulary: running a command's handlers over a list of calls.
-/
import Verif.Spec.Delivery
import Verif.Spec.File

namespace Gledger

variable {σ : Type}

/-- One call of the handlers; a missing handler does nothing. -/
def Handlers.call (H : Handlers σ) (u : σ) : Call → Step σ
  | .normal t f =>
    match H.th with
    | none => (u, none)
    | some h => h u t f
  | .periodic pt f =>
    match H.ph with
    | none => (u, none)
    | some h => h u pt f

/-- The calls one after the other, up to the first that fails. -/
def Handlers.replay (H : Handlers σ) : List Call → σ → Step σ
  | [], u => (u, none)
  | c :: cs, u => (H.call u c).andThen (H.replay cs)

/-- What a journal delivers: the calls a recorder sees. -/
def delivered [Unicode] (fs : FileSystem) (maxOpen : Nat) (bytes : List UInt8) (path : Str) : List Call :=
  (parse fs recorder maxOpen bytes path (newParser [])).1.user

/-- How a journal is rejected, if it is. -/
def rejection [Unicode] (fs : FileSystem) (maxOpen : Nat) (bytes : List UInt8) (path : Str) : Option Failure :=
  (parse fs recorder maxOpen bytes path (newParser [])).2

end Gledger
