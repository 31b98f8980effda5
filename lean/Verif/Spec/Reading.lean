/-
What the pieces of a file amount to, whatever their sizes: the specification of C111 and C112.
-/
import Verif.Model.Reader
import Verif.Spec.File

namespace Gledger

variable {ρ S : Type}

/-- Readers that behave as open files do, `P` relating a reader (after so many reads without data in a row) to the bytes still to come: a read gives
nothing yet (fewer than 100 times in a row), or at least one byte and at most as many as asked for, or, at the end, no byte and the error `e`, and
again whenever it is asked; or it gets stuck: no byte and no error, for the hundredth time in a row, which to bufio is the error `.noProgress`. (A reader that gives bytes and an error at once is not one of these: an open file of the operating system never does.) -/
def Honest (R : Source ρ) (e : ReadErr) (P : Nat → ρ → List UInt8 → Prop) : Prop :=
  ∀ i s bs, P i s bs → ∀ k, 0 < k → ∃ s',
    (R.read s k = ([], none, s') ∧ i + 1 < 100 ∧ P (i + 1) s' bs) ∨
    (∃ d rest, bs = d ++ rest ∧ 0 < d.length ∧ d.length ≤ k ∧ R.read s k = (d, none, s') ∧ P 0 s' rest) ∨
    (bs = [] ∧ R.read s k = ([], some e, s') ∧ P 0 s' []) ∨
    (bs = [] ∧ e = .noProgress ∧ R.read s k = ([], none, s') ∧ i + 1 = 100 ∧ P 0 s' [])

/-- From this reader come these bytes, in pieces of any sizes, and then the error (`.eof` for a file that is read to its end). -/
def Delivers (R : Source ρ) (e : ReadErr) (s : ρ) (bs : List UInt8) : Prop := ∃ P, Honest R e P ∧ P 0 s bs

/-- A reader over pieces fixed in advance, for examples: each read gives the next piece, or what of it is asked for; then the error. -/
def pieces (e : ReadErr) : Source (List (List UInt8)) where
  read
    | [], _ => ([], some e, [])
    | p :: ps, k => if p.length ≤ k then (p, none, ps) else (p.take k, none, p.drop k :: ps)

/-- The same for files with ends of their own. -/
def endingPieces : Source (List (List UInt8) × ReadErr) where
  read s k := match (pieces s.2).read s.1 k with
    | (d, e, s') => (d, e, (s', s.2))

/-- What each file of the disk amounts to: its bytes as far as they can be read, and what ends them. -/
abbrev Contents := Str → Option (List UInt8 × ReadErr)

/-- The readers that `os.Open` gives deliver those contents; `k` bounds the calls of `ReadLine`. -/
def OnDisk (R : Source ρ) (disk : Disk ρ) (k : Nat) (files : Contents) : Prop :=
  ∀ p, match disk p, files p with
    | none, none => True
    | some src, some c => Delivers R c.2 src c.1 ∧ c.1.length < k
    | _, _ => False

/-- The files that can be read to their end. -/
def readable (files : Contents) : FileSystem := fun p =>
  match files p with
  | some (bs, .eof) => some bs
  | _ => none

/-- No error but the end of the file itself is called "EOF". -/
def Contents.Named (files : Contents) : Prop := ∀ p c, files p = some c → c.2.text = str "EOF" → c.2 = .eof

end Gledger
