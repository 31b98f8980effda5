/-
Specification: what arguments that are plain words ask for. Words and fields are compared letter by letter; no regular expression occurs but in
what is required of the engine.
-/
import Verif.Props.Journals

namespace Gledger

/-- The characters that mean something in a regular expression. -/
def specialChars : List Char := ['\\', '.', '+', '*', '?', '(', ')', '|', '[', ']', '{', '}', '^', '$']

/-- A word without such characters. -/
def PlainWord (w : Str) : Prop := ∀ c ∈ w, c ∉ specialChars

instance (w : Str) : Decidable (PlainWord w) := by unfold PlainWord; infer_instance

/-- What is required of the engine: the pattern that is a plain word is found in the texts that contain it, and behind `(?i)` in the texts that contain it
up to case. Characters are the same up to case if `fold` gives the same for both. -/
def SearchesWords (R : RegexEngine) (fold : Char → Char) : Prop :=
  ∀ w, PlainWord w →
    (∃ r, R.compile w = some r ∧ ∀ s, r s = true ↔ w <:+: s) ∧
    ∃ r, R.compile (str "(?i)" ++ w) = some r ∧ ∀ s, r s = true ↔ w.map fold <:+: s.map fold

/-- The word is in the text, exactly if it has an upper case letter, and up to case otherwise. -/
def IsIn [U : Unicode] (fold : Char → Char) (w s : Str) : Prop :=
  if ∃ c ∈ w, U.isUpper c = true then w <:+: s else w.map fold <:+: s.map fold

/-- The posting of the transaction is asked for by the argument: by a word behind `@` that is in the payee, by a word behind `=` that is in a note of the
transaction or of the posting, or by a word that is in the name of the account. -/
def AsksPosting [Unicode] (fold : Char → Char) (t : Transaction) (p : Posting) : Str → Prop
  | '@' :: w => IsIn fold w t.payee
  | '=' :: w => ∃ n ∈ t.headerNote :: t.notes ++ p.comments, IsIn fold w n
  | w => IsIn fold w p.accountPath

/-- The transaction is asked for by the argument. -/
def AsksTransaction [Unicode] (fold : Char → Char) (t : Transaction) : Str → Prop
  | '@' :: w => IsIn fold w t.payee
  | '=' :: w => ∃ n ∈ t.headerNote :: t.notes ++ t.postings.flatMap Posting.comments, IsIn fold w n
  | w => ∃ p ∈ t.postings, IsIn fold w p.accountPath

open Classical in
/-- The postings of a transaction that are asked for: all if there are no arguments. -/
noncomputable def askedFor [Unicode] (fold : Char → Char) (args : List Str) (t : Transaction) : List Posting :=
  t.postings.filter fun p => args = [] ∨ ∃ w ∈ args, AsksPosting fold t p w

/-- The circumstances: the arguments are plain words, each perhaps behind a `@` or `=`, and the journal can be read. -/
structure WordSetting [Unicode] (m : Machine) (fold : Char → Char) (o : Options) (args : List Str) (js : List (Meant × Str)) (admits : Date → Bool)
    (path : Str) : Prop where
  fair : m.Fair
  file : (o.file = path ∧ path ≠ []) ∨ (o.file = [] ∧ m.ledgerFile = some path)
  reading : ∃ bytes pg, m.fs path = some bytes ∧ Reading m.fs m.lib m.maxOpen path bytes js (.ok pg)
  engine : SearchesWords m.engine fold
  words : ∀ w ∈ args, w ≠ [] ∧ PlainWord w
  days : DaysAsked m o admits

end Gledger
