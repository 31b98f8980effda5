/-
How the lexer gets its lines: bufio.NewReader and ReadLine (parser/lexer.go:55,82) on a file of which the operating system delivers one piece at a
time, and the lexer's loop with all its branches. The code of bufio is not in /repo; it is modelled as in Go's standard library (`fill`, `ReadSlice`,
`ReadLine`).
-/
import Verif.Model.Cmd

namespace Gledger

/-- What a `Read` can fail with. -/
inductive ReadErr
  | eof
  /-- `io.ErrNoProgress`, of bufio itself -/
  | noProgress
  /-- any other error, by its text -/
  | other (text : Str)
  deriving DecidableEq, Repr

/-- `Error()` -/
def ReadErr.text : ReadErr → Str
  | .eof => str "EOF"
  | .noProgress => str "multiple Read calls return no data or error"
  | .other s => s

/-- An `io.Reader`: a call of `Read` with a buffer of the given size yields bytes, perhaps an error, and the reader afterwards. -/
structure Source (ρ : Type) where
  read : ρ → Nat → List UInt8 × Option ReadErr × ρ

/-- `bufio.Reader`: the bytes between its positions `r` and `w`, the pending error, the underlying reader. -/
structure BufReader (ρ : Type) where
  buffered : List UInt8 := []
  err : Option ReadErr := none
  src : ρ

variable {ρ S σ : Type}

/-- Loop of bufio's `fill`: at most so many reads without data. -/
def fillLoop (R : Source ρ) : Nat → BufReader ρ → BufReader ρ
  | 0, b => { b with err := some .noProgress }
  | i + 1, b =>
    let r := R.read b.src (bufSize - b.buffered.length)
    let b := { b with buffered := b.buffered ++ r.1, src := r.2.2 }
    match r.2.1 with
    | some e => { b with err := some e }
    | none => if 0 < r.1.length then b else fillLoop R i b

/-- bufio's `fill`; `maxConsecutiveEmptyReads` is 100. -/
def BufReader.fill (R : Source ρ) (b : BufReader ρ) : BufReader ρ := fillLoop R 100 b

/-- What `ReadSlice` can return beside the bytes: nothing, `ErrBufferFull`, or the pending error. -/
inductive SliceEnd
  | found
  | full
  | failed (e : ReadErr)
  deriving DecidableEq, Repr

/-- bufio's `ReadSlice('\n')`. The first argument bounds the rounds of the loop: each makes the buffer longer or is the last but one. -/
def readSliceLoop (R : Source ρ) : Nat → BufReader ρ → List UInt8 × SliceEnd × BufReader ρ
  | 0, b => (b.buffered, .full, { b with buffered := [] })
  | n + 1, b =>
    if (10 : UInt8) ∈ b.buffered then
      (b.buffered.takeWhile (· ≠ 10) ++ [10], .found, { b with buffered := (b.buffered.dropWhile (· ≠ 10)).drop 1 })
    else
      match b.err with
      | some e => (b.buffered, .failed e, { b with buffered := [], err := none })
      | none => if bufSize ≤ b.buffered.length then (b.buffered, .full, { b with buffered := [] }) else readSliceLoop R n (b.fill R)

/-- bufio's `ReadSlice('\n')` -/
def BufReader.readSlice (R : Source ρ) (b : BufReader ρ) : List UInt8 × SliceEnd × BufReader ρ := readSliceLoop R (bufSize + 2) b

/-- bufio's `ReadLine`: a line and whether it is only a prefix, or an error. -/
def BufReader.readLine (R : Source ρ) (b : BufReader ρ) : Except ReadErr (List UInt8 × Bool) × BufReader ρ :=
  match b.readSlice R with
  | (line, .full, b) =>
    if line.getLast? = some 13 then (.ok (line.dropLast, true), { b with buffered := [13] }) else (.ok (line, true), b)
  | (line, .failed e, b) => if line.length = 0 then (.error e, b) else (.ok (line, false), b)
  | (line, .found, b) =>
    if line.dropLast.getLast? = some 13 then (.ok (line.dropLast.dropLast, false), b) else (.ok (line.dropLast, false), b)

/-- parser/lexer.go:79-112. The first number bounds the calls of `ReadLine`: a file need not end. The second is `currentLine`. -/
def lexReader [Unicode] (R : Source ρ) (cb : ItemParser S) (hint : Str) : Nat → Nat → BufReader ρ → S → Step S
  | 0, _, _, s => (s, some .fatal)
  | k + 1, n, b, s =>
    match b.readLine R with
    | (.error e, _) => if e.text = str "EOF" then cb .eofItem [] s else (s, some (.err (.readFile e.text)))
    | (.ok (_, true), _) => (s, some .fatal)
    | (.ok (line, false), b) =>
      match lexLine cb hint line s with
      | (s, none) => lexReader R cb hint k (n + 1) b s
      | (s, some f) => (s, some (f.wrap (.atLine hint n)))

/-- The files as `os.Open` gives them: readers by path. -/
abbrev Disk (ρ : Type) := Str → Option ρ

/-- parser/parser.go:53-115 on such files; only include directives open files. -/
def readItem [Unicode] (R : Source ρ) (disk : Disk ρ) (k : Nat) (H : Handlers σ) : Nat → ItemParser (PState σ)
  | n + 1, .includeItem, path, st =>
    let st := { st with files := st.files ++ [path] }
    match disk path with
    | none => (st, some (.err (.openFile path)))
    | some src =>
      ((lexReader R (readItem R disk k H n) path k 1 { src := src } st).wrap .errorAt).andThen fun st =>
        ({ st with files := st.files.take 1 }, none)
  | n, item, content, st => parseItem (fun _ => none) H n item content st

/-- parser/parser.go:40-51 on an open file -/
def parseReader [Unicode] (R : Source ρ) (disk : Disk ρ) (k : Nat) (H : Handlers σ) (maxOpen : Nat) (src : ρ) (hint : Str) (st : PState σ) : Step (PState σ) :=
  let st := { st with files := st.files ++ [hint] }
  (lexReader R (readItem R disk k H maxOpen) hint k 1 { src := src } st).wrap .errorAt

/-- cmd/common.go:15-35, the root journal being open: what a command's handlers have gathered, or the failure. -/
def readParse [Unicode] (R : Source ρ) (disk : Disk ρ) (k maxOpen : Nat) (src : ρ) (path : Str) (H : Handlers σ) (init : σ) : Except Failure σ :=
  match parseReader R disk k H maxOpen src path (newParser init) with
  | (st, none) => .ok st.user
  | (_, some f) => .error f

end Gledger
