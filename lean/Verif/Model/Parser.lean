/-
parser/transactionbuilder.go and parser/parser.go.
-/
import Verif.Model.Lexer
import Verif.Model.Journal

namespace Gledger

/-- parser/transactionbuilder.go:11-16 -/
inductive TransactionType
  | normal | periodic
  deriving DecidableEq, Repr

/-- parser/transactionbuilder.go:18-24; `prev = none` is the initial -1. -/
structure Builder where
  ttype : TransactionType := .normal
  transaction : Option Transaction := none
  periodic : Option PeriodicTransaction := none
  current : Option Posting := none
  prev : Option ItemType := none
  deriving DecidableEq, Repr

/-- parser/transactionbuilder.go:34-48. The new posting's `Transaction` is `tb.transaction`, which may be
nil when a periodic transaction begins. -/
def Builder.begin (b : Builder) (t : TransactionType) : Builder :=
  match t with
  | .normal =>
    { b with ttype := .normal, transaction := some {}, current := some { linked := true } }
  | .periodic =>
    { b with ttype := .periodic, periodic := some {}, current := some { linked := b.transaction.isSome } }

/-- The transaction `t` that `buildNormalTransaction` works on: `tb.transaction`
(parser/transactionbuilder.go:53) or `&tb.periodicTransaction.Transaction` (line 159). -/
def Builder.target (b : Builder) : Option Transaction :=
  match b.ttype with
  | .normal => b.transaction
  | .periodic => b.periodic.map (·.transaction)

/-- Writing back through the pointer `t`. -/
def Builder.setTarget (b : Builder) (t : Transaction) : Builder :=
  match b.ttype with
  | .normal => { b with transaction := some t }
  | .periodic => { b with periodic := b.periodic.map fun p => { p with transaction := t } }

/-- parser/transactionbuilder.go:66-147. `t` is nil exactly when `b.target = none`. -/
def Builder.buildNormal (b : Builder) (item : ItemType) (content : Str) : Step Builder :=
  match item with
  | .transactionHeaderCommentItem =>
    match b.transaction with
    | none => (b, some (.panic .nilDereference))
    | some t => ({ b with transaction := some { t with headerNote := content } }, none)
  | .commentItem =>
    match b.current with
    | none => (b, some (.panic .nilDereference))
    | some p =>
      if p.accountPath.length ≠ 0 then
        ({ b with current := some { p with comments := p.comments ++ [content] } }, none)
      else
        match b.transaction with
        | none => (b, some (.panic .nilDereference))
        | some t => ({ b with transaction := some { t with notes := t.notes ++ [content] } }, none)
  | .dateItem =>
    match parseDate content with
    | .error f => (b, some f)
    | .ok d =>
      match b.target with
      | none => (b, some (.panic .nilDereference))
      | some t => (b.setTarget { t with date := d }, none)
  | .stateItem =>
    if b.prev ≠ some .dateItem then (b, some (.err (.expected item)))
    else
      match content with
      | [] => (b, some (.panic .indexOutOfRange))
      | c :: _ =>
        match b.target with
        | none => (b, some (.panic .nilDereference))
        | some t =>
          let st := if c = '!' then TransactionState.uncleared
            else if c = '*' then .cleared else .noState
          (b.setTarget { t with state := st }, none)
  | .payeeItem =>
    if b.prev ≠ some .dateItem ∧ b.prev ≠ some .stateItem then (b, some (.err (.expected item)))
    else
      match b.target with
      | none => (b, some (.panic .nilDereference))
      | some t => (b.setTarget { t with payee := content }, none)
  | .accountItem =>
    if b.prev ≠ some .commentItem ∧ b.prev ≠ some .transactionHeaderCommentItem ∧
       b.prev ≠ some .payeeItem ∧ b.prev ≠ some .amountItem ∧ b.prev ≠ some .accountItem ∧
       b.prev ≠ some .periodItem then (b, some (.err (.expected item)))
    else
      match b.current with
      | none => (b, some (.panic .nilDereference))
      | some p =>
        if p.accountPath.length ≠ 0 then
          match b.target with
          | none => (b, some (.panic .nilDereference))
          | some t =>
            -- the error of AddPosting is discarded (line 114)
            let b := b.setTarget (t.addPosting p).1
            ({ b with current := some { linked := true, accountPath := content } }, none)
        else
          ({ b with current := some { p with linked := b.target.isSome, accountPath := content } }, none)
  | .commodityItem =>
    if b.prev ≠ some .accountItem then (b, some (.err (.expected item)))
    else
      match b.current with
      | none => (b, some (.panic .nilDereference))
      | some p =>
        let a : Amount := match p.amount with
          | none => ⟨content, 0⟩
          | some a => { a with commodity := content }
        ({ b with current := some { p with amount := some a } }, none)
  | .amountItem =>
    if b.prev ≠ some .commodityItem ∧ b.prev ≠ some .payeeItem then (b, some (.err (.expected item)))
    else
      match b.current with
      | none => (b, some (.panic .nilDereference))
      | some p =>
        let a : Amount := p.amount.getD ⟨[], 0⟩
        let b := { b with current := some { p with amount := some a } }
        match parseAmount content with
        | .error (.err e) => (b, some (.err (.parsingAmount e)))
        | .error f => (b, some f)
        | .ok q => ({ b with current := some { p with amount := some { a with quantity := q } } }, none)
  | _ => (b, none)

/-- parser/transactionbuilder.go:149-163 -/
def Builder.buildPeriodic (b : Builder) (item : ItemType) (content : Str) : Step Builder :=
  match b.periodic with
  | none => (b, some (.panic .nilDereference))
  | some pt =>
    match item with
    | .periodItem => ({ b with periodic := some { pt with period := parsePeriod content } }, none)
    | _ => b.buildNormal item content

/-- parser/transactionbuilder.go:50-64 -/
def Builder.build (b : Builder) (item : ItemType) (content : Str) : Step Builder :=
  let r := match b.ttype with
    | .normal => b.buildNormal item content
    | .periodic => b.buildPeriodic item content
  r.andThen fun b => ({ b with prev := some item }, none)

/-- parser/transactionbuilder.go:207-239: closes the transaction `t`; `budget` says whether it is a
periodic transaction with no interval. Returns the transaction as mutated so far, and the error. -/
def endNormalTransaction (current : Option Posting) (budget : Bool) (t : Transaction) :
    Transaction × Option Err :=
  let r : Transaction × Option Err := match current with
    | none => (t, none)
    | some p => t.addPosting p
  match r with
  | (t, some e) => (t, some e)
  | (t, none) =>
    let t :=
      if budget && !(t.postings.any fun p => p.accountPath = budgetRootID) then
        -- the error of AddPosting is discarded (line 230)
        (t.addPosting { linked := true, accountPath := budgetRootID }).1
      else t
    t.close

/-- parser/parser.go:16-17: the handlers given by a command, over the command's own state `σ`. -/
structure Handlers (σ : Type) where
  th : Option (σ → Transaction → Str → Step σ)
  ph : Option (σ → PeriodicTransaction → Str → Step σ)

/-- parser/parser.go:22-27, together with the state `user` of the handlers' closures. -/
structure PState (σ : Type) where
  builder : Builder := {}
  files : List Str := []
  user : σ

variable {σ : Type}

/-- Calling a handler, if there is one, with the last journal file
(parser/transactionbuilder.go:177-181,194-198). -/
def callHandler {α : Type} (h : Option (σ → α → Str → Step σ)) (a : α) (st : PState σ) :
    Step (PState σ) :=
  match h with
  | none => (st, none)
  | some h =>
    match st.files.getLast? with
    | none => (st, some (.panic .indexOutOfRange))
    | some f =>
      let r := h st.user a f
      ({ st with user := r.1 }, r.2)

/-- parser/transactionbuilder.go:165-205 -/
def endTransaction (H : Handlers σ) (st : PState σ) : Step (PState σ) :=
  match st.builder.ttype with
  | .normal =>
    match st.builder.transaction with
    | none => (st, none)
    | some t =>
      let r := endNormalTransaction st.builder.current false t
      let st := { st with builder := { st.builder with transaction := some r.1 } }
      match r.2 with
      | some e => (st, some (.err e))
      | none =>
        (callHandler H.th r.1 st).andThen fun st =>
          ({ st with builder := { st.builder with transaction := none, current := none } }, none)
  | .periodic =>
    match st.builder.periodic with
    | none => (st, none)
    | some pt =>
      let r := endNormalTransaction st.builder.current (pt.period.interval = .none) pt.transaction
      let pt := { pt with transaction := r.1 }
      let st := { st with builder := { st.builder with periodic := some pt } }
      match r.2 with
      | some e => (st, some (.err e))
      | none =>
        (callHandler H.ph pt st).andThen fun st =>
          ({ st with builder := { st.builder with periodic := none, current := none } }, none)

/-- Run a builder method inside the parser. -/
def liftBuilder (st : PState σ) (r : Step Builder) : Step (PState σ) :=
  ({ st with builder := r.1 }, r.2)

/-- The file system seen by `os.Open` (parser/parser.go:71): contents by path. -/
abbrev FileSystem := Str → Option (List UInt8)

/-- parser/parser.go:53-115. The first argument bounds how many further files can be open at once:
`os.Open` fails when it is exhausted (the operating system's limit on open files). -/
def parseItem [Unicode] (fs : FileSystem) (H : Handlers σ) : Nat → ItemParser (PState σ)
  | _, .emptyLineItem, _, st => endTransaction H st
  | _, .eofItem, _, st => endTransaction H st
  | 0, .includeItem, path, st =>
    ({ st with files := st.files ++ [path] }, some (.err (.openFile path)))
  | n + 1, .includeItem, path, st =>
    let st := { st with files := st.files ++ [path] }
    match fs path with
    | none => (st, some (.err (.openFile path)))
    | some bytes =>
      ((lex (parseItem fs H n) path bytes st).wrap .errorAt).andThen fun st =>
        ({ st with files := st.files.take 1 }, none)
  | _, .dateItem, content, st =>
    (endTransaction H st).andThen fun st =>
      let st := { st with builder := st.builder.begin .normal }
      (liftBuilder st (st.builder.build .dateItem content)).wrap .parsingDate
  | _, .periodItem, content, st =>
    (endTransaction H st).andThen fun st =>
      let st := { st with builder := st.builder.begin .periodic }
      (liftBuilder st (st.builder.build .periodItem content)).wrap .parsingPeriod
  | _, item, content, st => liftBuilder st (st.builder.build item content)

/-- parser/parser.go:40-51 -/
def parse [Unicode] (fs : FileSystem) (H : Handlers σ) (maxOpen : Nat) (bytes : List UInt8)
    (hint : Str) (st : PState σ) : Step (PState σ) :=
  let st := { st with files := st.files ++ [hint] }
  (lex (parseItem fs H maxOpen) hint bytes st).wrap .errorAt

/-- parser/parser.go:30-37 -/
def newParser (user : σ) : PState σ := { user := user }

end Gledger
