import Verif.Lemmas.Log
import Verif.Lemmas.Encode

namespace Gledger

variable {σ : Type}

theorem parse_lexLoop [Unicode] (fs : FileSystem) (H : Handlers σ) (n : Nat) (bytes : List UInt8) (path : Str) (st : PState σ) :
    parse fs H n bytes path st =
      (lexLoop (parseItem fs H n) path 1 (readLines bytes) { st with files := st.files ++ [path] }).wrap .errorAt := rfl

theorem parse_eq [Unicode] (fs : FileSystem) (H : Handlers σ) (n : Nat) (bytes : List UInt8) (path : Str) (st : PState σ) :
    parse fs H n bytes path st =
      ((feedLines (parseItem fs H n) path 1 (readLines bytes) { st with files := st.files ++ [path] }).andThen
        (parseItem fs H n .eofItem [])).wrap .errorAt := by
  rw [parse_lexLoop, lexLoop_eq]

/-- The parser's state when the first line of the root file is read. -/
def rootStart (u : σ) (path : Str) : PState σ := { builder := {}, files := [path], user := u }

theorem parse_new_lexLoop [Unicode] (fs : FileSystem) (H : Handlers σ) (n : Nat) (bytes : List UInt8) (path : Str) (u : σ) :
    parse fs H n bytes path (newParser u) =
      (lexLoop (parseItem fs H n) path 1 (readLines bytes) (rootStart u path)).wrap .errorAt := rfl

theorem parse_new [Unicode] (fs : FileSystem) (H : Handlers σ) (n : Nat) (bytes : List UInt8) (path : Str) (u : σ) :
    parse fs H n bytes path (newParser u) =
      ((feedLines (parseItem fs H n) path 1 (readLines bytes) (rootStart u path)).andThen
        (parseItem fs H n .eofItem [])).wrap .errorAt := by
  rw [parse_new_lexLoop, lexLoop_eq]

theorem rootStart_shape (u : σ) (path : Str) : (rootStart u path).builder.Shape := Or.inl ⟨rfl, rfl, rfl⟩

theorem wrap_andThen {S : Type} (a : Step S) (f : S → Step S) (w : Err → Err) :
    (a.andThen f).wrap w = (a.wrap w).andThen fun s => (f s).wrap w := by
  obtain ⟨s, _ | e⟩ := a <;> rfl

theorem wrap_wrap {S : Type} (a : Step S) (w w' : Err → Err) : (a.wrap w).wrap w' = a.wrap (w' ∘ w) := by
  obtain ⟨s, _ | e⟩ := a
  · rfl
  · cases e <;> rfl

@[simp] theorem wrap_fst {S : Type} (a : Step S) (w : Err → Err) : (a.wrap w).1 = a.1 := rfl

@[simp] theorem wrap_none {S : Type} (a : Step S) (w : Err → Err) : (a.wrap w).2 = none ↔ a.2 = none := by
  obtain ⟨s, _ | e⟩ := a <;> simp [Step.wrap]

@[simp] theorem parseItem_eof [Unicode] (fs : FileSystem) (H : Handlers σ) (n : Nat) (c : Str) (st : PState σ) :
    parseItem fs H n .eofItem c st = endTransaction H st := by cases n <;> rfl

@[simp] theorem parseItem_empty [Unicode] (fs : FileSystem) (H : Handlers σ) (n : Nat) (c : Str) (st : PState σ) :
    parseItem fs H n .emptyLineItem c st = endTransaction H st := by cases n <;> rfl

theorem parseItem_date [Unicode] (fs : FileSystem) (H : Handlers σ) (n : Nat) (c : Str) (st : PState σ) :
    parseItem fs H n .dateItem c st = (endTransaction H st).andThen fun st =>
      (liftBuilder { st with builder := st.builder.begin .normal } ((st.builder.begin .normal).build .dateItem c)).wrap .parsingDate := by
  cases n <;> rfl

theorem parseItem_period [Unicode] (fs : FileSystem) (H : Handlers σ) (n : Nat) (c : Str) (st : PState σ) :
    parseItem fs H n .periodItem c st = (endTransaction H st).andThen fun st =>
      (liftBuilder { st with builder := st.builder.begin .periodic } ((st.builder.begin .periodic).build .periodItem c)).wrap .parsingPeriod := by
  cases n <;> rfl

theorem newParser_shape (u : σ) : (newParser u).builder.Shape := Or.inl ⟨rfl, rfl, rfl⟩

/-- Two files with the same lines up to a prefix. -/
theorem parse_parts [Unicode] {F : Failure → Failure → Prop} (hF : FailRel F) (fs : FileSystem) (H : Handlers σ)
    (n : Nat) (path : Str) (st : PState σ) (hst : st.builder.Shape) (pre xs ys : List RawLine) (a b : List UInt8)
    (ha : readLines a = pre ++ xs) (hb : readLines b = pre ++ ys)
    (h : ∀ s : PState σ, s.builder.Shape → StepRel Eq Eq F
      (lexLoop (parseItem fs H n) path (1 + pre.length) xs s) (lexLoop (parseItem fs H n) path (1 + pre.length) ys s)) :
    StepRel Eq Eq F (parse fs H n a path st) (parse fs H n b path st) := by
  rw [parse_lexLoop, parse_lexLoop, ha, hb, lexLoop_append, lexLoop_append]
  refine StepRel.wrap ?_ hF.errorAt
  have hk := feedLines_keeps (fun _ _ => trivial) (fun i c s hs => parseItem_keeps (shape_inv H) fs n i c s hs)
    path pre 1 { st with files := st.files ++ [path] } hst
  generalize feedLines (parseItem fs H n) path 1 pre { st with files := st.files ++ [path] } = r at hk
  obtain ⟨s, _ | e⟩ := r
  · exact h s (hk.2 rfl)
  · exact StepRel.fail rfl (hF.refl _)

/-- A line whose items are fed, followed by others. -/
theorem lexLoop_line [Unicode] {S : Type} (cb : ItemParser S) (hint : Str) (n : Nat) (b : List UInt8) (rest : List RawLine)
    (s : S) : lexLoop cb hint n (.line b :: rest) s =
      ((runLine cb (lineItems hint (runes b)) s).wrap (.atLine hint n)).andThen (lexLoop cb hint (n + 1) rest) :=
  lexLine_wrap cb hint b rest n s

/-- The terminated blank line, with either line ending. -/
theorem readLines_blank (nl b : List UInt8) (h : nl = [10] ∨ nl = [13, 10]) : readLines (nl ++ b) = .line [] :: readLines b := by
  rcases h with rfl | rfl
  · simpa [terminatedLine, bufSize] using readLines_line [] b (by simp)
  · simpa [terminatedLine, bufSize] using readLines_line [13] b (by simp)

theorem lineItems_nil [Unicode] (hint : Str) : lineItems hint [] = { items := [(.emptyLineItem, [])] } := rfl

theorem StepRel.trans_eq {S T : Type} {R G : S → T → Prop} {F : Failure → Failure → Prop} (hFt : ∀ f g h, F f g → F g h → F f h)
    {a : Step S} {b c : Step T} (h1 : StepRel R G F a b) (h2 : StepRel Eq Eq F b c) : StepRel R G F a c := by
  rcases h1 with ⟨a1, a2, a3⟩ | ⟨f, g, a1, a2, a3, a4⟩
  · rcases h2 with ⟨b1, b2, b3⟩ | ⟨f', g', b1, b2, b3, b4⟩
    · exact Or.inl ⟨a1, b2, b3 ▸ a3⟩
    · rw [a2] at b1; cases b1
  · rcases h2 with ⟨b1, b2, b3⟩ | ⟨f', g', b1, b2, b3, b4⟩
    · rw [a2] at b1; cases b1
    · rw [a2] at b1; cases b1
      exact Or.inr ⟨f, g', a1, b2, b3 ▸ a3, hFt _ _ _ a4 b4⟩

end Gledger
