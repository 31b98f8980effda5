/-
reporting/tree.go, reporting/flattenedtree.go, reporting/filter.go.
-/
import Verif.Model.Account
import Verif.Model.Utf8

namespace Gledger

/-- The prefix printed before an account; sees the account's own fields. -/
abbrev Prepender := Node → Str

/-- reporting/flattenedtree.go:19-36; the first argument bounds the depth by the number of nodes. -/
def flattenedTreeLoop (h : Heap) (pre : Prepender) : Nat → Ref → Str → Str
  | 0, _, current => current
  | n + 1, r, current =>
    let a := h.node r
    if a.children.length = 0 then
      if current.length = 0 then current ++ pre a ++ a.path
      else current ++ ['\n'] ++ pre a ++ a.path
    else
      (h.sortedChildNames r).foldl (fun current name =>
        match h.child r name with
        | none => current
        | some c => flattenedTreeLoop h pre n c current) current

/-- reporting/flattenedtree.go:12-17 -/
def flattenedTree (h : Heap) (pre : Prepender) (r : Ref) : Str := flattenedTreeLoop h pre h.next r []

/-- reporting/tree.go:9-17 (`prepender` and `shouldCollapseOnlyChildren` are arguments). -/
structure TreeContext where
  depth : Nat := 0
  isOnlyChild : Bool := false
  collapsedAccounts : Str := []
  collapsedAccountsDepth : Nat := 0
  tree : Str := []
  deriving DecidableEq, Repr

/-- reporting/tree.go:44-51: two blanks per level. -/
def calculateSpaces (depth : Nat) : Str := List.replicate (depth * 2) ' '

/-- reporting/tree.go:43-109; the first argument bounds the depth by the number of nodes. -/
def treeLoop (h : Heap) (pre : Prepender) (collapse : Bool) : Nat → Ref → TreeContext → TreeContext
  | 0, _, c => c
  | n + 1, r, c =>
    let a := h.node r
    let descend (c : TreeContext) : TreeContext :=
      (h.sortedChildNames r).foldl (fun c name =>
        match h.child r name with
        | none => c
        | some k => treeLoop h pre collapse n k c) c
    if c.isOnlyChild && collapse then
      let c :=
        if a.children.length = 1 then
          { c with collapsedAccounts := c.collapsedAccounts ++ [':'] ++ a.name, isOnlyChild := true }
        else
          let spaces := calculateSpaces c.collapsedAccountsDepth
          let line := pre a ++ spaces ++ c.collapsedAccounts ++ [':'] ++ a.name
          let tree := if c.tree.length = 0 then line else c.tree ++ ['\n'] ++ line
          { c with tree := tree, collapsedAccounts := [], isOnlyChild := false }
      descend c
    else
      let c :=
        if a.children.length = 1 && collapse then
          let collapsed :=
            if c.collapsedAccounts.length = 0 then calculateSpaces c.depth ++ a.name
            else c.collapsedAccounts ++ [':'] ++ a.name
          { c with collapsedAccounts := collapsed, isOnlyChild := true }
        else
          let line := pre a ++ calculateSpaces c.depth ++ a.name
          let tree := if c.tree.length = 0 then line else c.tree ++ ['\n'] ++ line
          { c with tree := tree, isOnlyChild := false }
      let c := descend { c with depth := c.depth + 1 }
      { c with depth := c.depth - 1 }

/-- reporting/tree.go:28-39 -/
def treeReport (h : Heap) (pre : Prepender) (collapse : Bool) (r : Ref) : Str :=
  ((h.sortedChildNames r).foldl (fun c name =>
    match h.child r name with
    | none => c
    | some k => treeLoop h pre collapse h.next k c) ({} : TreeContext)).tree

/-- reporting/filter.go:10-17 -/
def containsUppercase [U : Unicode] (s : Str) : Bool := s.any U.isUpper

/-- The `regexp` package: a pattern compiles to a matching predicate or not at all
(reporting/filter.go:49, `MatchString`). -/
structure RegexEngine where
  compile : Str → Option (Str → Bool)

/-- reporting/filter.go:19-25 -/
inductive FilterType
  | accountName | payee | note
  deriving DecidableEq, Repr

/-- reporting/filter.go:27-30 -/
structure Filter where
  regex : Str → Bool
  ftype : FilterType

/-- reporting/filter.go:46-48, cmd/payees.go:67-69 -/
def smartCase [Unicode] (arg : Str) : Str := if !containsUppercase arg then str "(?i)" ++ arg else arg

/-- reporting/filter.go:32-57; an empty argument panics (`[]rune(arg)[0]`). -/
def newFilter [Unicode] (R : RegexEngine) (arg : Str) : Except Failure Filter :=
  match arg with
  | [] => .error (.panic .indexOutOfRange)
  | c :: rest =>
    let (ftype, arg) : FilterType × Str :=
      if c = '@' then (.payee, rest)
      else if c = '=' then (.note, rest)
      else (.accountName, arg)
    match R.compile (smartCase arg) with
    | none => .error (.err (.regexp (smartCase arg)))
    | some regex => .ok { regex := regex, ftype := ftype }

/-- Whether the posting itself is selected (reporting/filter.go:72-86). -/
def Filter.matchesPosting (f : Filter) (p : Posting) : Bool :=
  match f.ftype with
  | .note => p.comments.any f.regex
  | .accountName => f.regex p.accountPath
  | .payee => false

/-- reporting/filter.go:59-93: (payee matches, transaction note matches, matched postings). The matched
postings are the keys of a map of pointers: each posting of the transaction at most once; the model
lists them in the transaction's order (the code in map order). Postings are identified by position. -/
def Filter.matchesTransactionHow (f : Filter) (t : Transaction) : Bool × Bool × List Nat :=
  let matchesPayee := match f.ftype with
    | .payee => f.regex t.payee
    | _ => false
  let matchesNote := match f.ftype with
    | .note => t.notes.foldl (fun m n => m || f.regex n) (f.regex t.headerNote)
    | _ => false
  let mp := (List.range t.postings.length).filter fun i =>
    match t.postings[i]? with
    | some p => f.matchesPosting p
    | none => false
  (matchesPayee, matchesNote, mp)

/-- reporting/filter.go:95-125 -/
def Filter.matchesTransaction (f : Filter) (t : Transaction) : Bool :=
  match f.ftype with
  | .payee => f.regex t.payee
  | .note =>
    if f.regex t.headerNote then true
    else if t.notes.any f.regex then true
    else t.postings.any fun p => p.comments.any f.regex
  | .accountName => t.postings.any fun p => f.regex p.accountPath

/-- reporting/filter.go:136-147, the loop over the arguments. -/
def matchesRegexLoop [Unicode] (R : RegexEngine) (t : Transaction) : List Str → Except Failure Bool
  | [] => .ok false
  | arg :: args =>
    match newFilter R arg with
    | .error e => .error e
    | .ok f => if f.matchesTransaction t then .ok true else matchesRegexLoop R t args

/-- reporting/filter.go:131-148 -/
def matchesRegex [Unicode] (R : RegexEngine) (t : Transaction) (args : List Str) : Except Failure Bool :=
  if args.length = 0 then .ok true else matchesRegexLoop R t args

end Gledger
