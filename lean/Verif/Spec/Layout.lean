/-
Specification: changes to a journal file that only concern its layout.
-/
import Verif.Props.Files
import Verif.Model.Program

namespace Gledger

/-- Two files that differ in their layout only: comment lines, repeated blank lines, blank lines before headers and at the
end, line ends. -/
inductive SameLayout [Unicode] : List UInt8 → List UInt8 → Prop
  | refl (a) : SameLayout a a
  | symm {a b} : SameLayout a b → SameLayout b a
  | trans {a b c} : SameLayout a b → SameLayout b c → SameLayout a c
  /-- a line that starts with `;` or `#` -/
  | comment {a c b} : WholeLines a → (c.head? = some 59 ∨ c.head? = some 35) → (10 : UInt8) ∉ c → c.length < 4096 →
      SameLayout (a ++ (c ++ 10 :: b)) (a ++ b)
  /-- a second blank line -/
  | blanks {a nl nl' b} : WholeLines a → BlankLine nl → BlankLine nl' → SameLayout (a ++ (nl ++ (nl' ++ b))) (a ++ (nl ++ b))
  /-- a blank line before the header of a transaction -/
  | header {a nl b l rest} : WholeLines a → BlankLine nl → readLines b = .line l :: rest → HeaderLine l →
      SameLayout (a ++ (nl ++ b)) (a ++ b)
  /-- a blank line at the end -/
  | atEnd {a nl} : WholeLines a → BlankLine nl → SameLayout (a ++ nl) a
  /-- line ends of the other kind -/
  | crlf {ls} : (∀ l ∈ ls, PlainLine l) → SameLayout (textOf [13, 10] ls) (textOf [10] ls)
  /-- no line end after the last line -/
  | unterminated {ls last} : (∀ l ∈ ls, PlainLine l) → PlainLine last → last ≠ [] →
      SameLayout (textOf [10] ls ++ last) (textOf [10] (ls ++ [last]))

/-- Every file of the one file system differs from the file of that name in the other in its layout only. -/
def SameLayouts [Unicode] (fs fs' : FileSystem) : Prop :=
  ∀ p, (fs p = none ∧ fs' p = none) ∨ ∃ a b, fs p = some a ∧ fs' p = some b ∧ SameLayout a b

/-- Two runs of the program that end alike: they are equal, or both report an error for the same reason (the messages may name
other files and lines) after the same output. -/
def Machine.Alike (m : Machine) (r r' : Run) : Prop :=
  r = r' ∨ ∃ w f f', f.core = f'.core ∧ r = m.finish w (.error f) ∧ r' = m.finish w (.error f')

end Gledger
