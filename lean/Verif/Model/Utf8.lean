/-
Byte-level input: utf8.DecodeRune, unicode predicates, bufio.Reader.ReadLine.
-/
import Verif.Model.Basic

namespace Gledger

/-- U+FFFD, `utf8.RuneError`. -/
def runeError : Char := Char.ofNat 0xFFFD

/-- Continuation byte test: 0x80..0xBF. -/
def isCont (b : Nat) : Bool := 0x80 ≤ b && b ≤ 0xBF

/-- `utf8.DecodeRune` (used at parser/lexer.go:314): the first rune of the input and its width.
Accept ranges of the second byte follow the table in unicode/utf8 (first byte E0: A0..BF,
ED: 80..9F, F0: 90..BF, F4: 80..8F, otherwise 80..BF). Invalid or truncated sequences give
(U+FFFD, 1); the empty input gives (U+FFFD, 0). -/
def decodeRune : List UInt8 → Char × Nat
  | [] => (runeError, 0)
  | b0 :: rest =>
    let x := b0.toNat
    if x < 0x80 then (Char.ofNat x, 1)
    else if 0xC2 ≤ x ∧ x ≤ 0xDF then
      match rest with
      | b1 :: _ =>
        if isCont b1.toNat then (Char.ofNat ((x - 0xC0) * 64 + (b1.toNat - 0x80)), 2)
        else (runeError, 1)
      | _ => (runeError, 1)
    else if 0xE0 ≤ x ∧ x ≤ 0xEF then
      match rest with
      | b1 :: b2 :: _ =>
        let lo := if x = 0xE0 then 0xA0 else 0x80
        let hi := if x = 0xED then 0x9F else 0xBF
        if lo ≤ b1.toNat ∧ b1.toNat ≤ hi ∧ isCont b2.toNat then
          (Char.ofNat ((x - 0xE0) * 4096 + (b1.toNat - 0x80) * 64 + (b2.toNat - 0x80)), 3)
        else (runeError, 1)
      | _ => (runeError, 1)
    else if 0xF0 ≤ x ∧ x ≤ 0xF4 then
      match rest with
      | b1 :: b2 :: b3 :: _ =>
        let lo := if x = 0xF0 then 0x90 else 0x80
        let hi := if x = 0xF4 then 0x8F else 0xBF
        if lo ≤ b1.toNat ∧ b1.toNat ≤ hi ∧ isCont b2.toNat ∧ isCont b3.toNat then
          (Char.ofNat ((x - 0xF0) * 262144 + (b1.toNat - 0x80) * 4096
            + (b2.toNat - 0x80) * 64 + (b3.toNat - 0x80)), 4)
        else (runeError, 1)
      | _ => (runeError, 1)
    else (runeError, 1)

/-- `unicode.IsSpace` (parser/lexer.go:338): the Latin-1 list of the Go documentation and the
White_Space property beyond Latin-1. -/
def isSpace (c : Char) : Bool :=
  let n := c.toNat
  (9 ≤ n && n ≤ 13) || n == 32 || n == 0x85 || n == 0xA0 || n == 0x1680 ||
  (0x2000 ≤ n && n ≤ 0x200a) || n == 0x2028 || n == 0x2029 || n == 0x202f || n == 0x205f || n == 0x3000

/-- ASCII letters. -/
def asciiLetter (c : Char) : Bool :=
  (65 ≤ c.toNat && c.toNat ≤ 90) || (97 ≤ c.toNat && c.toNat ≤ 122)

/-- The Unicode tables consulted by the code: `unicode.IsLetter` (parser/lexer.go:244),
`unicode.IsNumber` (parser/lexer.go:147,293), `unicode.IsUpper` (reporting/filter.go:12).
They are parameters of the model; the assumed facts are their values on ASCII and that white space
is neither a letter nor a number. -/
class Unicode where
  isLetter : Char → Bool
  isNumber : Char → Bool
  isUpper : Char → Bool
  letter_ascii : ∀ c : Char, c.toNat < 128 → isLetter c = asciiLetter c
  number_ascii : ∀ c : Char, c.toNat < 128 → isNumber c = isDigit c
  upper_ascii : ∀ c : Char, c.toNat < 128 → isUpper c = (65 ≤ c.toNat && c.toNat ≤ 90)
  letter_not_space : ∀ c : Char, isSpace c = true → isLetter c = false
  number_not_space : ∀ c : Char, isSpace c = true → isNumber c = false

/-- The assumptions of `Unicode` are satisfiable: tables that know only ASCII (used in examples). -/
@[instance_reducible] def asciiUnicode : Unicode where
  isLetter := asciiLetter
  isNumber := isDigit
  isUpper := fun c => 65 ≤ c.toNat && c.toNat ≤ 90
  letter_ascii := fun _ _ => rfl
  number_ascii := fun _ _ => rfl
  upper_ascii := fun _ _ => rfl
  letter_not_space := by
    intro c h
    simp only [isSpace, asciiLetter, Bool.or_eq_true, Bool.and_eq_true, decide_eq_true_eq, beq_iff_eq,
      Bool.or_eq_false_iff, Bool.and_eq_false_iff, decide_eq_false_iff_not] at *
    omega
  number_not_space := by
    intro c h
    simp only [isSpace, isDigit, Bool.or_eq_true, Bool.and_eq_true, decide_eq_true_eq, beq_iff_eq,
      Bool.and_eq_false_iff, decide_eq_false_iff_not] at *
    omega

/-- Size of `bufio.NewReader`'s buffer (parser/lexer.go:55). -/
def bufSize : Nat := 4096

/-- What one call of `ReadLine` yields before end of file: a whole line, or a prefix of a line that
does not fit the buffer (`isPrefix`). -/
inductive RawLine
  | line (bytes : List UInt8)
  | tooLong
  deriving DecidableEq, Repr

/-- `ReadLine` on a segment that was terminated by '\n' (`seg` excludes the newline): drops one
trailing '\r'; reports a prefix if the segment with its newline exceeds the buffer. -/
def terminatedLine (seg : List UInt8) : RawLine :=
  if bufSize < seg.length + 1 then .tooLong
  else if seg.getLast? = some 13 then .line seg.dropLast
  else .line seg

/-- `ReadLine` on the last, unterminated segment: no '\r' is dropped; a segment that fills the buffer
without a newline is reported as a prefix. -/
def unterminatedLine (seg : List UInt8) : RawLine :=
  if bufSize ≤ seg.length then .tooLong else .line seg

/-- The lines delivered by repeated `bufio.Reader.ReadLine` until EOF (parser/lexer.go:82).
`seg` accumulates the current segment. After a `tooLong` the program exits, so what would follow
in the same segment is not modelled. -/
def readLinesFrom (seg : List UInt8) : List UInt8 → List RawLine
  | [] => if seg = [] then [] else [unterminatedLine seg]
  | b :: rest =>
    if b = 10 then terminatedLine seg :: readLinesFrom [] rest
    else readLinesFrom (seg ++ [b]) rest

/-- All lines of a file. -/
def readLines (bytes : List UInt8) : List RawLine := readLinesFrom [] bytes

end Gledger
