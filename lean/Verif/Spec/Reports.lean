/-
Specification vocabulary for reports: alphabetical order, lists of lines.
-/
import Verif.Spec.Accounts

namespace Gledger

/-- Alphabetical order of strings, by code points. -/
def StrLt : Str → Str → Prop := List.Lex fun a b => a.toNat < b.toNat

/-- Component-wise alphabetical order of account paths; an account comes before the accounts below it. -/
def PathLt : List Str → List Str → Prop := List.Lex StrLt

/-- A text at the right of a column of this width; a longer one is not cut. -/
def rightAligned (width : Nat) (s : Str) : Str := List.replicate (width - s.length) ' ' ++ s

/-- A text at the left of a column of this width; a longer one is not cut. -/
def leftAligned (width : Nat) (s : Str) : Str := s ++ List.replicate (width - s.length) ' '

/-- Lines joined by newlines. -/
def joinLines (ls : List Str) : Str := List.intercalate ['\n'] ls

/-- These are the accounts with the property, each once, in alphabetical order. -/
structure Heap.Listing (h : Heap) (P : List Str → Ref → Prop) (l : List (List Str × Ref)) : Prop where
  sorted : l.Pairwise fun a b => PathLt a.1 b.1
  mem : ∀ cs x, (cs, x) ∈ l ↔ h.at cs = some x ∧ P cs x

/-- The account has no children. -/
def Heap.Leaf (h : Heap) (x : Ref) : Prop := (h.node x).children.length = 0

instance leafDecidable (h : Heap) (x : Ref) : Decidable (h.Leaf x) := by unfold Heap.Leaf; infer_instance

/-- The account with these components has exactly one child. -/
def Heap.Single (h : Heap) (cs : List Str) : Prop := (h.at cs).map (fun x => (h.node x).children.length) = some 1

instance singleDecidable (h : Heap) (cs : List Str) : Decidable (h.Single cs) := by unfold Heap.Single; infer_instance

/-- The levels above an account at which a new line starts: the root, and the accounts that do not have exactly one child. -/
def Heap.stops (h : Heap) (cs : List Str) : List Nat := (List.range cs.length).filter fun i => i = 0 ∨ ¬ h.Single (cs.take i)

/-- How many lines are above the line of an account in a collapsed report. -/
def Heap.level (h : Heap) (cs : List Str) : Nat := (h.stops cs).length - 1

/-- The names shown on the line of an account in a collapsed report: its own and those of the only-child chain above it. -/
def Heap.chain (h : Heap) (cs : List Str) : List Str := cs.drop ((h.stops cs).getLastD 0)

end Gledger
