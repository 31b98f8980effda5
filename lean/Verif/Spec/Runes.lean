/-
Specification: a line as a list of characters, and the items of a line as a function of its characters
(no positions, no widths, no backing up).
-/
import Verif.Model.Lexer

namespace Gledger

/-- Decoding a byte list rune by rune, at most `n` runes. -/
def decodeUpTo : Nat → List UInt8 → List Char
  | 0, _ => []
  | _ + 1, [] => []
  | n + 1, b :: bs => (decodeRune (b :: bs)).1 :: decodeUpTo n ((b :: bs).drop (decodeRune (b :: bs)).2)

/-- The characters of a byte list. -/
def runes (bs : List UInt8) : List Char := decodeUpTo bs.length bs

/-- Width of a run of white space as counted by the lexer: a tab counts two, other white space except the
blank nothing. -/
def blankWidth : Str → Nat
  | [] => 0
  | c :: cs => (if c = '\t' then 2 else if c = ' ' then 1 else 0) + blankWidth cs

/-- What follows leading white space. -/
def afterSpace (cs : Str) : Str := cs.dropWhile isSpace

/-- Width of the leading white space. -/
def spaceWidth (cs : Str) : Nat := blankWidth (cs.takeWhile isSpace)

/-- A text field: up to a comment character, a tab or two blanks; one trailing blank is dropped.
The rest starts after the character that ended the field. -/
def fieldLoop : Str → Str → Str × Str
  | acc, [] => (trimOneSpace acc, [])
  | acc, c :: cs =>
    if c = ';' ∨ c = '#' ∨ c = '\t' then (trimOneSpace acc, cs)
    else if c = ' ' ∧ cs.head? = some ' ' then (acc, cs)
    else fieldLoop (acc ++ [c]) cs

/-- A text field and what follows it. -/
def field (cs : Str) : Str × Str := fieldLoop [] cs

/-- An account name: up to a tab or two blanks, which stay in the rest. -/
def accountLoop : Str → Str → Str × Str
  | acc, [] => (if acc.getLast? = some ' ' then acc.dropLast else acc, [])
  | acc, c :: cs =>
    if c = '\t' then (if acc.getLast? = some ' ' then acc.dropLast else acc, c :: cs)
    else if c = ' ' ∧ acc.getLast? = some ' ' then (acc.dropLast, ' ' :: c :: cs)
    else accountLoop (acc ++ [c]) cs

/-- An account name and what follows it. -/
def accountName (cs : Str) : Str × Str := accountLoop [] cs

/-- Characters of a commodity symbol. -/
def isCommodityChar [U : Unicode] (c : Char) : Bool :=
  !(U.isNumber c || c = '-' || c = '+' || c = ' ' || c = '\t')

/-- The items of a line, and the error the lexer itself raises after them. -/
structure LineItems where
  items : List (ItemType × Str)
  err : Option Err := none
  deriving DecidableEq, Repr

/-- payee and header note -/
def payeeItems (cs : Str) : List (ItemType × Str) :=
  let p := field cs
  let note := trimSpaceStart p.2
  (.payeeItem, p.1) ::
    (if note = [] then [] else [(.transactionHeaderCommentItem, trimSpaceStart note.tail)])

/-- state, payee and header note -/
def stateItems (cs : Str) : List (ItemType × Str) :=
  match afterSpace cs with
  | '!' :: rest => (.stateItem, ['!']) :: payeeItems (afterSpace rest)
  | '*' :: rest => (.stateItem, ['*']) :: payeeItems (afterSpace rest)
  | rest => payeeItems rest

/-- A transaction header line. -/
def headerItems (cs : Str) : LineItems :=
  { items := (.dateItem, cs.takeWhile (· ≠ ' ')) :: stateItems (cs.dropWhile (· ≠ ' ')) }

/-- commodity and amount -/
def amountItems [Unicode] (cs : Str) : List (ItemType × Str) :=
  let sym := cs.takeWhile isCommodityChar
  let rest := cs.dropWhile isCommodityChar
  [(.commodityItem, if 0 < spaceWidth rest then sym ++ [' '] else sym),
   (.amountItem, (field (afterSpace rest)).1)]

/-- A posting line (after the indentation). The error "not enough spaces following account" cannot occur. -/
def postingItems [U : Unicode] (cs : Str) : LineItems :=
  match afterSpace cs with
  | [] => { items := [] }
  | c :: rest =>
    if c = ';' ∨ c = '#' then { items := [(.commentItem, trimSpaceStart rest)] }
    else if U.isLetter c then
      let a := accountName (c :: rest)
      if spaceWidth a.2 < 2 then { items := [(.accountItem, a.1)] }
      else { items := (.accountItem, a.1) :: amountItems (afterSpace a.2) }
    else { items := [] }

/-- An include line. -/
def includeItems (hint : Str) (cs : Str) : LineItems :=
  if cs.takeWhile (· ≠ ' ') ≠ str "include" then
    { items := [], err := some (.unexpectedDirective (cs.takeWhile (· ≠ ' '))) }
  else
    let rest := cs.dropWhile (· ≠ ' ')
    let file := (field (afterSpace rest)).1
    if rest = [] ∨ file = [] then { items := [], err := some .badInclude }
    else { items := [(.includeItem, splitDir hint ++ file)] }

/-- A periodic transaction header (after the tilde). -/
def periodItems (cs : Str) : LineItems :=
  if spaceWidth cs = 0 then { items := [], err := some .tildeSpaces }
  else { items := [(.periodItem, (field (afterSpace cs)).1)] }

/-- The items of a line. -/
def lineItems [U : Unicode] (hint : Str) : Str → LineItems
  | [] => { items := [(.emptyLineItem, [])] }
  | c :: cs =>
    if c = ';' ∨ c = '#' then { items := [] }
    else if c = 'i' then includeItems hint (c :: cs)
    else if c = '~' then periodItems cs
    else if U.isNumber c then headerItems (c :: cs)
    else if c = '\t' ∨ (c = ' ' ∧ cs.head? = some ' ') then postingItems cs
    else { items := [], err := some .unexpectedLine }

variable {S : Type}

/-- Feeding items to the parser until it fails. -/
def runItems (cb : ItemParser S) : List (ItemType × Str) → S → Step S
  | [], s => (s, none)
  | i :: is, s => (cb i.1 i.2 s).andThen (runItems cb is)

/-- Feeding the items of a line. -/
def runLine (cb : ItemParser S) (li : LineItems) (s : S) : Step S :=
  (runItems cb li.items s).andThen fun s => (s, li.err.map .err)

end Gledger
