/-
Specification: where in a journal a paragraph is complete. If a command refuses a paragraph, this is the place it names.
-/
import Verif.Spec.Journals

namespace Gledger

/-- Where the paragraph number `i` (from 0) of the course of reading is complete: the include directives that lead to the file, and the line
there at which the paragraph ends; no line if it ends with the file. -/
inductive Spot [Unicode] (fs : FileSystem) (lib : Err → Str) (root : Str) : (opens : Nat) → (path label : Str) → (n : Nat) → Page → List UInt8 →
    (i : Nat) → (via : List (Str × Nat)) → (place : Option (Str × Nat)) → Prop
  /-- with the file -/
  | done {k path label n pg ms i} : pg.Ends (.ok ms) → i < ms.length → Spot fs lib root k path label n pg [] i [] none
  /-- at the next line -/
  | line {k path label n pg bytes l rest L ms out i} : FirstLine bytes (some l) rest → LineIs l L → Effect pg L ms out → i < ms.length →
      Spot fs lib root k path label n pg bytes i [] (some (path, n))
  /-- after it -/
  | later {k path label n pg bytes l rest L ms pg' i via place} : FirstLine bytes (some l) rest → LineIs l L → Effect pg L ms (.ok pg') →
      Spot fs lib root k path label (n + 1) pg' rest i via place → Spot fs lib root k path label n pg bytes (ms.length + i) via place
  /-- in the file that is included next -/
  | within {k path label n pg bytes l rest name b i via place} : FirstLine bytes (some l) rest → LineIs l (.inclusion name) →
      fs (splitDir path ++ name) = some b →
      Spot fs lib root k (splitDir path ++ name) (splitDir path ++ name) 1 pg b i via place →
      Spot fs lib root (k + 1) path label n pg bytes i ((path, n) :: via) place
  /-- after that file -/
  | after {k path label n pg bytes l rest name b js pg' i via place} : FirstLine bytes (some l) rest → LineIs l (.inclusion name) →
      fs (splitDir path ++ name) = some b →
      Course fs lib root k (splitDir path ++ name) (splitDir path ++ name) 1 pg b js (.ok pg') →
      Spot fs lib root (k + 1) path root (n + 1) pg' rest i via place → Spot fs lib root (k + 1) path label n pg bytes (js.length + i) via place

/-- Where the paragraph number `i` of a journal is complete. -/
def SpotIn [Unicode] (fs : FileSystem) (lib : Err → Str) (opens : Nat) (path : Str) (bytes : List UInt8) (i : Nat) (via : List (Str × Nat))
    (place : Option (Str × Nat)) : Prop :=
  Spot fs lib path opens path path 1 (.closed false) bytes i via place

end Gledger
