/-
journal/account.go and journal/journal.go: the account tree as a heap of nodes.
-/
import Verif.Model.Journal

namespace Gledger

/-- A pointer to an account: the index of its node. -/
notation "Ref" => Nat

/-- A Go slice of strings: backing array, length, capacity (`PathComponents`). The offset into the
array is always 0 in this code. -/
structure Slice where
  arr : Nat
  len : Nat
  cap : Nat
  deriving DecidableEq, Repr

/-- journal/account.go:11-20 -/
structure Node where
  name : Str := []
  path : Str := []
  comps : Slice := ⟨0, 0, 0⟩
  amount : Amount := Amount.zero
  parent : Option Ref := none
  /-- the map `Children`; the order of the list stands for an arbitrary iteration order -/
  children : List (Str × Ref) := []
  postings : List Posting := []
  transactions : List Transaction := []

/-- All accounts reachable from one root (which is node 0), with the backing arrays of their
`PathComponents`. Separate roots never share nodes or arrays. -/
structure Heap where
  next : Ref
  node : Ref → Node
  nextArr : Nat
  arr : Nat → Nat → Str

/-- Writing a node. -/
def Heap.set (h : Heap) (r : Ref) (n : Node) : Heap :=
  { h with node := fun x => if x = r then n else h.node x }

/-- Mutating a node through a pointer. -/
def Heap.modify (h : Heap) (r : Ref) (f : Node → Node) : Heap := h.set r (f (h.node r))

/-- The elements of a slice. -/
def Heap.slice (h : Heap) (s : Slice) : List Str := (List.range s.len).map (h.arr s.arr)

/-- journal/account.go:23-33, for a root account: `PathComponents` is `make([]string, 0, 5)`. -/
def newAccount (name : Str) : Heap where
  next := 1
  node := fun x => if x = 0 then { name := name, comps := ⟨0, 0, 5⟩ } else {}
  nextArr := 1
  arr := fun _ _ => []

/-- Map lookup `m[key]`. -/
def lookupKey (key : Str) : List (Str × Ref) → Option Ref
  | [] => none
  | (k, r) :: rest => if k = key then some r else lookupKey key rest

/-- Map assignment `m[key] = r`. -/
def assignKey (key : Str) (r : Ref) : List (Str × Ref) → List (Str × Ref)
  | [] => [(key, r)]
  | (k, r') :: rest => if k = key then (k, r) :: rest else (k, r') :: assignKey key r rest

/-- `delete(m, key)` -/
def deleteKey (key : Str) (m : List (Str × Ref)) : List (Str × Ref) := m.filter (fun kr => kr.1 ≠ key)

/-- `a.Children[name]` -/
def Heap.child (h : Heap) (r : Ref) (name : Str) : Option Ref := lookupKey name (h.node r).children

/-- Capacity after growing a full slice of strings by one element: `runtime.growslice` doubles (and 16
byte elements make every doubled size a size class) below 1024 elements; the slower growth beyond is not
modelled. -/
def growCap (cap : Nat) : Nat := if cap = 0 then 1 else 2 * cap

/-- Go's `append(s, x)` on a slice of strings: writes into the backing array if there is spare capacity,
otherwise copies to a new array. -/
def Heap.append (h : Heap) (s : Slice) (x : Str) : Slice × Heap :=
  if s.len < s.cap then
    (⟨s.arr, s.len + 1, s.cap⟩,
     { h with arr := fun a i => if a = s.arr ∧ i = s.len then x else h.arr a i })
  else
    (⟨h.nextArr, s.len + 1, growCap s.cap⟩,
     { h with
       nextArr := h.nextArr + 1,
       arr := fun a i => if a = h.nextArr then (if i = s.len then x else h.arr s.arr i) else h.arr a i })

/-- The slice literal `[]string{x}` (journal/account.go:102). -/
def Heap.literal (h : Heap) (x : Str) : Slice × Heap :=
  (⟨h.nextArr, 1, 1⟩,
   { h with nextArr := h.nextArr + 1, arr := fun a i => if a = h.nextArr ∧ i = 0 then x else h.arr a i })

/-- `name == RootID || name == BudgetRootID` (journal/account.go:60,72,101) -/
def isRootName (name : Str) : Bool := name = rootID || name = budgetRootID

/-- Loop of journal/account.go:59-65. The bound is the number of nodes: parents are older than children. -/
def Heap.createPathLoop (h : Heap) : Nat → Ref → Str → Str
  | 0, _, path => path
  | n + 1, current, path =>
    match (h.node current).parent with
    | none => path
    | some p =>
      if isRootName (h.node p).name then path
      else createPathLoop h n p ((h.node p).name ++ ':' :: path)

/-- journal/account.go:56-66 -/
def Heap.createPath (h : Heap) (r : Ref) : Str := h.createPathLoop h.next r (h.node r).name

/-- Loop of journal/account.go:71-76. -/
def Heap.headLoop (h : Heap) : Nat → Ref → Ref
  | 0, current => current
  | n + 1, current =>
    match (h.node current).parent with
    | none => current
    | some p => if isRootName (h.node p).name then current else headLoop h n p

/-- journal/account.go:69-77 -/
def Heap.head (h : Heap) (r : Ref) : Ref := h.headLoop h.next r

/-- journal/account.go:80-88 for an action that mutates the amount and never fails. -/
def Heap.walkLoop (f : Amount → Amount) : Nat → Ref → Heap → Heap
  | 0, _, h => h
  | n + 1, r, h =>
    let h := h.modify r fun a => { a with amount := f a.amount }
    match (h.node r).parent with
    | none => h
    | some p => walkLoop f n p h

/-- journal/account.go:80-88 -/
def Heap.walkAncestors (h : Heap) (r : Ref) (f : Amount → Amount) : Heap := Heap.walkLoop f h.next r h

/-- One level of journal/account.go:95-107: a new child named `c` of `parent`. -/
def Heap.newChild (h : Heap) (parent : Ref) (c : Str) : Ref × Heap :=
  let child := h.next
  let pcomps := (h.node parent).comps
  let isTop := isRootName (h.node parent).name
  let h : Heap := { h with next := h.next + 1 }
  let h := h.set child { name := c, parent := some parent }
  let h := h.modify parent fun a => { a with children := assignKey c child a.children }
  let sh := if isTop then h.literal c else h.append pcomps c
  let h := sh.2.modify child fun a => { a with comps := sh.1 }
  let h := h.modify child fun a => { a with path := h.createPath child }
  (child, h)

/-- journal/account.go:90-110, for a non-nil parent (nil is only passed by tests). -/
def Heap.newAccountWithChildren : Heap → Ref → List Str → Ref × Heap
  | h, parent, [] => (parent, h)
  | h, parent, c :: cs =>
    let r := h.newChild parent c
    newAccountWithChildren r.2 r.1 cs

/-- journal/account.go:128-139: the deepest account found and the remaining components (`[]` is nil);
`none` is the index panic on an empty component list. -/
def Heap.findChild (h : Heap) : Ref → List Str → Option (Ref × List Str)
  | _, [] => none
  | r, [c] =>
    match h.child r c with
    | some k => some (k, [])
    | none => some (r, [c])
  | r, c :: c' :: cs =>
    match h.child r c with
    | some k => findChild h k (c' :: cs)
    | none => some (r, c :: c' :: cs)

/-- journal/account.go:114-125; `none` is the index panic on an empty component list. -/
def Heap.findOrCreate (h : Heap) (r : Ref) (components : List Str) : Option (Ref × Heap) :=
  match h.findChild r components with
  | none => none
  | some (k, []) => some (k, h)
  | some (k, remaining) => some (h.newAccountWithChildren k remaining)

/-- Lexicographic order on strings: Go compares bytes, and UTF-8 preserves the order of code points. -/
def strLe : Str → Str → Bool
  | [], _ => true
  | _ :: _, [] => false
  | a :: as, b :: bs => a.toNat < b.toNat || (a.toNat = b.toNat && strLe as bs)

/-- Insertion into a sorted list. -/
def insertStr (s : Str) : List Str → List Str
  | [] => [s]
  | t :: ts => if strLe s t then s :: t :: ts else t :: insertStr s ts

/-- `sort.Strings` (journal/account.go:147, cmd/accounts.go:60,75, cmd/payees.go:60,87). Sorting strings by a
total order has only one result, so the algorithm does not matter. -/
def sortStrings : List Str → List Str
  | [] => []
  | s :: ss => insertStr s (sortStrings ss)

/-- journal/account.go:142-149 -/
def Heap.sortedChildNames (h : Heap) (r : Ref) : List Str := sortStrings ((h.node r).children.map (·.1))

/-- journal/account.go:152-162; the first argument bounds the recursion (by the number of nodes). -/
def Heap.pruneLoop (target : Int) : Nat → Int → Ref → Heap → Heap
  | 0, _, _, h => h
  | n + 1, depth, r, h =>
    let h := if depth = target then h.modify r fun a => { a with children := [] } else h
    (h.node r).children.foldl (fun h kc => pruneLoop target n (depth + 1) kc.2 h) h

/-- journal/account.go:152-162 -/
def Heap.pruneChildren (h : Heap) (r : Ref) (target depth : Int) : Heap :=
  Heap.pruneLoop target h.next depth r h

/-- journal/account.go:179-190 -/
def Heap.findAccountsLoop (h : Heap) (m : Node → Bool) : Nat → Ref → List Ref → List Ref
  | 0, _, found => found
  | n + 1, r, found =>
    let found := if m (h.node r) then found ++ [r] else found
    (h.node r).children.foldl (fun found kc => findAccountsLoop h m n kc.2 found) found

/-- journal/account.go:173-177 -/
def Heap.findAccounts (h : Heap) (r : Ref) (m : Node → Bool) : List Ref :=
  [] ++ h.findAccountsLoop m h.next r []

/-- journal/account.go:165-170 -/
def Heap.leaves (h : Heap) (r : Ref) : List Ref := h.findAccounts r fun a => a.children.length = 0

/-- journal/account.go:206-211 -/
def Heap.unlink (h : Heap) (r : Ref) : Heap :=
  let h := match (h.node r).parent with
    | none => h
    | some p => h.modify p fun a => { a with children := deleteKey (h.node r).name a.children }
  h.modify r fun a => { a with parent := none }

/-- journal/account.go:192-203 -/
def Heap.removeEmptyChildren (h : Heap) (r : Ref) : Heap :=
  (h.findAccounts r fun a => a.amount.quantity = 0).foldl
    (fun h m => if (h.node m).name = rootID then h else h.unlink m) h

/-- journal/account.go:214-235; the matcher reads the account's own fields. -/
def Heap.removeChildrenLoop (m : Node → Bool) : Nat → Ref → Heap → Bool × Heap
  | 0, _, h => (false, h)
  | n + 1, r, h =>
    let res := (h.node r).children.foldl
      (fun (acc : (Bool × List Ref) × Heap) kc =>
        let cr := removeChildrenLoop m n kc.2 acc.2
        ((acc.1.1 || cr.1, if cr.1 then acc.1.2 else acc.1.2 ++ [kc.2]), cr.2))
      ((m (h.node r), []), h)
    (res.1.1, res.1.2.foldl Heap.unlink res.2)

/-- journal/account.go:214-235 -/
def Heap.removeChildren (h : Heap) (r : Ref) (m : Node → Bool) : Bool × Heap :=
  Heap.removeChildrenLoop m h.next r h

/-- journal/journal.go:18-23; the root is node 0 of `heap`. -/
structure Journal where
  transactions : List Transaction
  periodicTransactions : List PeriodicTransaction
  filePaths : List Str
  heap : Heap

/-- journal/journal.go:26-35 -/
def newJournal : Journal :=
  { transactions := [], periodicTransactions := [], filePaths := [], heap := newAccount rootID }

/-- journal/journal.go:38-41 -/
def Journal.addTransaction (j : Journal) (t : Transaction) (locationHint : Str) : Journal :=
  { j with transactions := j.transactions ++ [t], filePaths := j.filePaths ++ [locationHint] }

/-- journal/journal.go:77-105 for a posting whose `Account` is nil; `none` is a panic (nil amount, or an
empty component list, which `strings.Split` never returns). -/
def wireUpPosting (h : Heap) (root : Ref) (t : Transaction) (p : Posting) : Option Heap :=
  match h.findOrCreate root (split ':' p.accountPath) with
  | none => none
  | some (acc, h) =>
    let h := h.modify acc fun a => { a with postings := a.postings ++ [p] }
    let h := h.modify acc fun a => { a with transactions := a.transactions ++ [t] }
    match p.amount with
    | none => none
    | some amt =>
      some (h.walkAncestors acc fun a =>
        let a : Amount := if a.commodity = [] then { a with commodity := amt.commodity } else a
        a.add amt)

/-- journal/journal.go:70-75 -/
def Journal.addPosting (j : Journal) (t : Transaction) (p : Posting) : Option Journal :=
  (wireUpPosting j.heap 0 t p).map fun h => { j with heap := h }

/-- journal/periodictransaction.go:48-70 with zero time bounds (the only ones used): the transaction
itself dated at the start of the period if there is no interval, nothing otherwise. -/
def PeriodicTransaction.run (pt : PeriodicTransaction) : List Transaction :=
  if pt.period.interval = .none then [{ pt.transaction with date := pt.period.startDate }] else []

/-- journal/journal.go:44-67. With an interval, `Run` returns no transactions, so the loop is empty. -/
def Journal.addPeriodicTransaction (j : Journal) (pt : PeriodicTransaction) (_hint : Str) : Journal :=
  { j with periodicTransactions := j.periodicTransactions ++ [pt] }

end Gledger
