/-
Specification vocabulary for account trees: what a heap of accounts is as a set of component paths with data.
-/
import Verif.Model.Account
import Verif.Spec.Transactions
import Mathlib.Data.List.Infix

namespace Gledger

/-- The account reached from `r` by following child names. -/
def Heap.walk (h : Heap) : Ref → List Str → Option Ref
  | r, [] => some r
  | r, c :: cs => (h.child r c).bind fun k => h.walk k cs

/-- The account with the given components, seen from the root. -/
abbrev Heap.at (h : Heap) (cs : List Str) : Option Ref := h.walk 0 cs

/-- Some account has these components. -/
def Heap.Has (h : Heap) (cs : List Str) : Prop := (h.at cs).isSome = true

instance (h : Heap) (cs : List Str) : Decidable (h.Has cs) := by unfold Heap.Has; infer_instance

/-- The pointers form a tree: child pointers lead to younger accounts that point back and carry the name they are filed
under, and names are filed once. -/
structure Heap.Tree (h : Heap) : Prop where
  root : 0 < h.next ∧ (h.node 0).parent = none
  down : ∀ r k c, (k, c) ∈ (h.node r).children → r < c ∧ c < h.next ∧ (h.node c).parent = some r ∧ (h.node c).name = k
  keys : ∀ r, ((h.node r).children.map Prod.fst).Nodup

/-- Moreover every account is filed under its parent. -/
structure Heap.Linked (h : Heap) : Prop extends h.Tree where
  up : ∀ c p, (h.node c).parent = some p → ((h.node c).name, c) ∈ (h.node p).children

/-- Moreover every account but the root has a parent: nothing has been removed. -/
structure Heap.Full (h : Heap) : Prop extends h.Linked where
  all : ∀ r, r < h.next → r ≠ 0 → ∃ p, (h.node r).parent = some p

/-- Same accounts, linked in the same way; amounts and postings may differ. -/
structure Heap.Shape (h h' : Heap) : Prop where
  next : h'.next = h.next
  node : ∀ r, (h'.node r).name = (h.node r).name ∧ (h'.node r).path = (h.node r).path ∧ (h'.node r).comps = (h.node r).comps ∧
    (h'.node r).parent = (h.node r).parent ∧ (h'.node r).children = (h.node r).children
  arrs : h'.nextArr = h.nextArr ∧ h'.arr = h.arr

/-- Trees made from a root by looking up or creating accounts and by changing the amounts and postings of accounts. -/
inductive Heap.Made (name : Str) : Heap → Prop
  | new : Made name (newAccount name)
  | find {h h' : Heap} {bs cs : List Str} {r x : Ref} : Made name h → h.at bs = some r → h.findOrCreate r cs = some (x, h') → Made name h'
  | data {h h' : Heap} : Made name h → h.Shape h' → Made name h'

/-- The names of the roots of the journal and of the budget. -/
def Reserved (name : Str) : Prop := name = str "_root_" ∨ name = str "_budget_root_"

instance (name : Str) : Decidable (Reserved name) := by unfold Reserved; infer_instance

/-- The names that the path of an account spells: all of them if no account above it has a reserved name, otherwise those below the last that
has. -/
def spelledNames : List Str → List Str
  | [] => []
  | c :: cs => if ∃ d ∈ (c :: cs).dropLast, Reserved d then spelledNames cs else c :: cs

/-- The root has a reserved name, and no account below it. -/
def Heap.Clean (h : Heap) : Prop := Reserved (h.node 0).name ∧ ∀ cs, h.Has cs → ∀ c ∈ cs, ¬ Reserved c

/-- Accounts from the third level on have at most one child. -/
def Heap.Narrow (h : Heap) : Prop := ∀ cs x, h.at cs = some x → 3 ≤ cs.length → (h.node x).children.length ≤ 1

/-- The amount of the account with the given components; zero if there is none. -/
def Heap.amt (h : Heap) (cs : List Str) : Amount := ((h.at cs).map fun x => (h.node x).amount).getD Amount.zero

/-- The postings made directly to the account with the given components. -/
def Heap.own (h : Heap) (cs : List Str) : List Posting := ((h.at cs).map fun x => (h.node x).postings).getD []

/-- The components of a posting's account. -/
def Posting.components (p : Posting) : List Str := split ':' p.accountPath

/-- The postings to an account and to the accounts below it. -/
def below (cs : List Str) (ps : List Posting) : List Posting := ps.filter fun p => cs <+: p.components

/-- The postings to an account itself. -/
def exactly (cs : List Str) (ps : List Posting) : List Posting := ps.filter fun p => p.components = cs

/-- The first commodity written, empty if there is none. -/
def firstCommodity (ps : List Posting) : Str := (writtenCommodities ps).headD []

/-- What an account shows for a list of postings: the first commodity and the sum of the quantities. -/
def tally (ps : List Posting) : Amount := ⟨firstCommodity ps, (ps.map Posting.value).sum⟩

/-- The tree holds exactly these postings. -/
structure Heap.Books (h : Heap) (ps : List Posting) : Prop where
  full : h.Full
  has : ∀ cs, h.Has cs ↔ cs = [] ∨ ∃ p ∈ ps, cs <+: p.components
  amt : ∀ cs, h.amt cs = tally (below cs ps)
  own : ∀ cs, h.own cs = exactly cs ps

/-- Components joined with colons. -/
def joinPath : List Str → Str
  | [] => []
  | [c] => c
  | c :: cs => c ++ ':' :: joinPath cs

end Gledger
