/-
Specification: what of its surroundings a run of the program can depend on.
-/
import Verif.Spec.Lines
import Verif.Spec.Moved
import Verif.Model.Program

namespace Gledger

/-- The files a journal consists of: the root journal, and every file that an include directive in one of them names (the name being put behind the directory of
the file it is written in). -/
inductive PartOf [Unicode] (fs : FileSystem) (root : Str) : Str → Prop
  | root : PartOf fs root root
  | included {path bytes l name d} : PartOf fs root path → fs path = some bytes → RawLine.line l ∈ readLines bytes → LineIs (runes l) (.inclusion name) →
      Directory path d → PartOf fs root (d ++ name)

/-- A date without a year: two parts of which the first does not have the four characters of a year. -/
def Yearless (flag : Str) : Prop :=
  ∃ a s b, flag = a ++ s :: b ∧ (s = '/' ∨ s = '.' ∨ s = '-') ∧ s ∉ a ∧ s ∉ b ∧ utf8Len a ≠ 4

end Gledger
