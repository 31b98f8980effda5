/-
parser/lexer.go, with byte positions, widths and backups.
-/
import Verif.Model.Utf8

namespace Gledger

/-- parser/lexer.go:41-50. `start` is never read; `reader`, `locationHint`, `currentLine` and `parser`
are arguments of the functions below. -/
structure Lexer where
  input : List UInt8
  pos : Nat
  width : Nat
  deriving DecidableEq, Repr

/-- parser/lexer.go:98-103: positions are reset for every line. -/
def Lexer.ofLine (line : List UInt8) : Lexer := { input := line, pos := 0, width := 0 }

/-- parser/lexer.go:308-318; `none` is `eof`. -/
def Lexer.next (l : Lexer) : Option Char × Lexer :=
  if l.input.length ≤ l.pos then (none, { l with width := 0 })
  else
    let rw := decodeRune (l.input.drop l.pos)
    (some rw.1, { l with pos := l.pos + rw.2, width := rw.2 })

/-- parser/lexer.go:328-330 -/
def Lexer.backup (l : Lexer) : Lexer := { l with pos := l.pos - l.width }

/-- parser/lexer.go:321-325 -/
def Lexer.peek (l : Lexer) : Option Char × Lexer :=
  let (r, l) := l.next
  (r, l.backup)

/-- shared/shared.go:4 -/
def tabWidth : Nat := 2

/-- parser/lexer.go:351-353 (the rune may be eof) -/
def isCommentIndicator (r : Option Char) : Bool := r = some ';' || r = some '#'

/-- Enough iterations for every `for` loop of the lexer: each iteration consumes a rune or leaves the
loop (that the bound is never the reason for stopping is part of the refinement theorem). -/
def Lexer.fuel (l : Lexer) : Nat := l.input.length + 1

/-- Loop of parser/lexer.go:336-348. -/
def Lexer.consumeSpaceLoop : Nat → Nat → Lexer → Nat × Lexer
  | 0, count, l => (count, l)
  | n + 1, count, l =>
    match l.next with
    | (none, l) => (count, l.backup)
    | (some r, l) =>
      if !isSpace r then (count, l.backup)
      else
        let count := if r = '\t' then count + tabWidth else count
        let count := if r = ' ' then count + 1 else count
        consumeSpaceLoop n count l

/-- parser/lexer.go:334-349 -/
def Lexer.consumeSpace (l : Lexer) : Nat × Lexer := Lexer.consumeSpaceLoop l.fuel 0 l

/-- Index of the first non-blank, 0 if there is none (loop of parser/lexer.go:467-473). -/
def firstNonBlank : Nat → Str → Nat
  | _, [] => 0
  | i, c :: cs => if c ≠ ' ' then i else firstNonBlank (i + 1) cs

/-- parser/lexer.go:462-476 -/
def trimSpaceStart (runes : Str) : Str :=
  if runes.length = 0 then runes else runes.drop (firstNonBlank 0 runes)

/-- Loop of parser/lexer.go:357-363. -/
def Lexer.takeToNextLineLoop : Nat → Str → Lexer → Str × Lexer
  | 0, runes, l => (trimSpaceStart runes, l)
  | n + 1, runes, l =>
    match l.next with
    | (none, l) => (trimSpaceStart runes, l)
    | (some r, l) => takeToNextLineLoop n (runes ++ [r]) l

/-- parser/lexer.go:355-364 -/
def Lexer.takeToNextLine (l : Lexer) : Str × Lexer := Lexer.takeToNextLineLoop l.fuel [] l

/-- The closure `trimSpace` of parser/lexer.go:368-376: drops at most one trailing blank. -/
def trimOneSpace (runes : Str) : Str :=
  if runes.length = 0 then runes
  else if runes.getLast? = some ' ' then runes.take (runes.length - 1)
  else runes

/-- Loop of parser/lexer.go:377-396. -/
def Lexer.takeToTabLoop : Nat → Str → Lexer → Str × Lexer
  | 0, runes, l => (trimOneSpace runes, l)
  | n + 1, runes, l =>
    match l.next with
    | (none, l) => (trimOneSpace runes, l)
    | (some r, l) =>
      if isCommentIndicator (some r) then (trimOneSpace runes, l)
      else if r = '\t' then (trimOneSpace runes, l)
      else if r = ' ' then
        match l.peek with
        | (p, l) =>
          if p = some ' ' then (runes, l)
          else takeToTabLoop n (runes ++ [r]) l
      else takeToTabLoop n (runes ++ [r]) l

/-- parser/lexer.go:366-397 -/
def Lexer.takeToTabOrNextLineOrComment (l : Lexer) : Str × Lexer := Lexer.takeToTabLoop l.fuel [] l

/-- Loop of parser/lexer.go:402-414; the deferred `backup` (line 400) runs on return. -/
def Lexer.takeUntilSpaceLoop : Nat → Str → Lexer → Str × Lexer
  | 0, runes, l => (runes, l.backup)
  | n + 1, runes, l =>
    match l.next with
    | (none, l) => (runes, l.backup)
    | (some r, l) => if r = ' ' then (runes, l.backup) else takeUntilSpaceLoop n (runes ++ [r]) l

/-- parser/lexer.go:399-415 -/
def Lexer.takeUntilSpace (l : Lexer) : Str × Lexer := Lexer.takeUntilSpaceLoop l.fuel [] l

/-- Loop of parser/lexer.go:421-445; `prevSpace` is `previous == ' '` (the only values of `previous`
are -1 and ' '). -/
def Lexer.takeUntilMoreThanOneSpaceLoop : Nat → Bool → Str → Lexer → Str × Lexer
  | 0, _, runes, l => (runes, l)
  | n + 1, prevSpace, runes, l =>
    match l.peek with
    | (r, l) =>
      if r = none ∨ r = some '\t' then
        if prevSpace then (runes.take (runes.length - 1), l) else (runes, l)
      else if r = some ' ' then
        if prevSpace then (runes.take (runes.length - 1), l.backup)
        else takeUntilMoreThanOneSpaceLoop n true (runes ++ r.toList) l.next.2
      else takeUntilMoreThanOneSpaceLoop n false (runes ++ r.toList) l.next.2

/-- parser/lexer.go:417-446 -/
def Lexer.takeUntilMoreThanOneSpace (l : Lexer) : Str × Lexer :=
  Lexer.takeUntilMoreThanOneSpaceLoop l.fuel false [] l

/-- Loop of parser/lexer.go:287-304. -/
def Lexer.lexCommodityLoop [U : Unicode] : Nat → Str → Lexer → Str × Lexer
  | 0, runes, l => (runes, l)
  | n + 1, runes, l =>
    match l.next with
    | (none, l) => (runes, l)
    | (some r, l) =>
      if U.isNumber r || r = '-' || r = '+' then (runes, l.backup)
      else if r = ' ' || r = '\t' then (runes, l.backup)
      else lexCommodityLoop n (runes ++ [r]) l

/-- parser/lexer.go:285-305 -/
def Lexer.lexCommodity [Unicode] (l : Lexer) : Str × Lexer := Lexer.lexCommodityLoop l.fuel [] l

/-- `dir, _ := filepath.Split(path)` (parser/lexer.go:178), Unix: everything up to and including the
last slash. -/
def splitDir (path : Str) : Str := (path.reverse.dropWhile (· ≠ '/')).reverse

/-- The parser callback `itemParser` (parser/parser.go:18). -/
abbrev ItemParser (S : Type) := ItemType → Str → S → Step S

variable {S : Type}

/-- parser/lexer.go:161-182 -/
def lexIncludeDirective (cb : ItemParser S) (hint : Str) (l : Lexer) (s : S) : Step S :=
  let (directive, l) := l.takeUntilSpace
  if directive ≠ str "include" then (s, some (.err (.unexpectedDirective directive)))
  else
    let (spaces, l) := l.consumeSpace
    if spaces = 0 then (s, some (.err .badInclude))
    else
      let (file, _) := l.takeToTabOrNextLineOrComment
      if file.length = 0 then (s, some (.err .badInclude))
      else cb .includeItem (splitDir hint ++ file) s

/-- parser/lexer.go:184-192 -/
def lexPeriodTransactionHeader (cb : ItemParser S) (l : Lexer) (s : S) : Step S :=
  let (spaces, l) := l.consumeSpace
  if spaces = 0 then (s, some (.err .tildeSpaces))
  else
    let (period, _) := l.takeToTabOrNextLineOrComment
    cb .periodItem period s

/-- parser/lexer.go:217-230, the part of `lexTransactionHeader` after the state. -/
def lexPayeeAndComment (cb : ItemParser S) (l : Lexer) (s : S) : Step S :=
  let (payee, l) := l.takeToTabOrNextLineOrComment
  (cb .payeeItem payee s).andThen fun s =>
    let (comment, _) := l.takeToNextLine
    if 0 < comment.length then
      cb .transactionHeaderCommentItem (trimSpaceStart (comment.drop 1)) s
    else (s, none)

/-- parser/lexer.go:194-231 -/
def lexTransactionHeader (cb : ItemParser S) (l : Lexer) (s : S) : Step S :=
  let (date, l) := l.takeUntilSpace
  (cb .dateItem date s).andThen fun s =>
    let (_, l) := l.consumeSpace
    let (next, l) := l.next
    if next = some '!' then
      (cb .stateItem ['!'] s).andThen fun s => lexPayeeAndComment cb l.consumeSpace.2 s
    else if next = some '*' then
      (cb .stateItem ['*'] s).andThen fun s => lexPayeeAndComment cb l.consumeSpace.2 s
    else lexPayeeAndComment cb l.backup s

/-- parser/lexer.go:233-282 -/
def lexPosting [U : Unicode] (cb : ItemParser S) (l : Lexer) (s : S) : Step S :=
  let (_, l) := l.consumeSpace
  let (firstRune, l) := l.next
  if isCommentIndicator firstRune then
    let (comment, _) := l.takeToNextLine
    cb .commentItem comment s
  else if firstRune.elim false U.isLetter then
    let l := l.backup
    let (account, l) := l.takeUntilMoreThanOneSpace
    (cb .accountItem account s).andThen fun s =>
      let (spaces, l) := l.consumeSpace
      if spaces < 2 then
        if 1 < l.input.length - l.pos then (s, some (.err .accountSpaces)) else (s, none)
      else
        let (commodity, l) := l.lexCommodity
        let (spaces, l) := l.consumeSpace
        let commodity := if 0 < spaces then commodity ++ [' '] else commodity
        (cb .commodityItem commodity s).andThen fun s =>
          let (amount, _) := l.takeToTabOrNextLineOrComment
          cb .amountItem amount s
  else (s, none)

/-- parser/lexer.go:115-159. The `eof` branch (lines 137-139) is kept although the line is not empty
there. -/
def lexLine [U : Unicode] (cb : ItemParser S) (hint : Str) (line : List UInt8) (s : S) : Step S :=
  if line.length = 0 then cb .emptyLineItem [] s
  else
    let (firstRune, l) := (Lexer.ofLine line).next
    if isCommentIndicator firstRune then (s, none)
    else if firstRune = some 'i' then lexIncludeDirective cb hint l.backup s
    else if firstRune = none then cb .eofItem [] s
    else if firstRune = some '~' then lexPeriodTransactionHeader cb l s
    else if firstRune.elim false U.isNumber then lexTransactionHeader cb l.backup s
    else
      if firstRune = some '\t' then lexPosting cb l s
      else
        -- `firstRune == ' ' && l.peek() == ' '`
        if firstRune = some ' ' then
          let (p, l) := l.peek
          if p = some ' ' then lexPosting cb l s else (s, some (.err .unexpectedLine))
        else (s, some (.err .unexpectedLine))

/-- Loop of parser/lexer.go:81-109 over the lines delivered by `ReadLine`; `n` is `currentLine`. -/
def lexLoop [Unicode] (cb : ItemParser S) (hint : Str) : Nat → List RawLine → S → Step S
  | _, [], s => cb .eofItem [] s
  | _, .tooLong :: _, s => (s, some .fatal)
  | n, .line b :: rest, s =>
    match lexLine cb hint b s with
    | (s, none) => lexLoop cb hint (n + 1) rest s
    | (s, some f) => (s, some (f.wrap (.atLine hint n)))

/-- parser/lexer.go:79-112, on a file that is read to its end (Model/Reader.lean has the loop over `ReadLine`, with read errors) -/
def lex [Unicode] (cb : ItemParser S) (hint : Str) (bytes : List UInt8) (s : S) : Step S :=
  lexLoop cb hint 1 (readLines bytes) s

end Gledger
