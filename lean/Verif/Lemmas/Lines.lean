import Verif.Spec.File
import Verif.Lemmas.LineItems

namespace Gledger

theorem readLinesFrom_append (a b : List UInt8) (seg : List UInt8) (ha : a ≠ []) (hl : a.getLast? = some 10) :
    readLinesFrom seg (a ++ b) = readLinesFrom seg a ++ readLinesFrom [] b := by
  induction a generalizing seg with
  | nil => exact absurd rfl ha
  | cons x a ih =>
    rw [List.cons_append, readLinesFrom, readLinesFrom]
    cases a with
    | nil =>
      simp only [List.getLast?_singleton, Option.some.injEq] at hl
      subst hl
      simp [readLinesFrom]
    | cons y a =>
      have hl' : (y :: a).getLast? = some 10 := by rw [List.getLast?_cons_cons] at hl; exact hl
      split
      · rw [ih [] (by simp) hl']; rfl
      · rw [ih _ (by simp) hl']

/-- Complete lines followed by anything. -/
theorem readLines_append {a : List UInt8} (ha : WholeLines a) (b : List UInt8) :
    readLines (a ++ b) = readLines a ++ readLines b := by
  rcases ha with rfl | ha
  · simp [readLines, readLinesFrom]
  · refine readLinesFrom_append a b [] ?_ ha
    rintro rfl; simp at ha

theorem readLinesFrom_seg (seg c b : List UInt8) (hc : (10 : UInt8) ∉ c) :
    readLinesFrom seg (c ++ 10 :: b) = terminatedLine (seg ++ c) :: readLines b := by
  induction c generalizing seg with
  | nil => simp [readLinesFrom, readLines]
  | cons x c ih =>
    have hx : x ≠ 10 := by rintro rfl; simp at hc
    have := ih (seg ++ [x]) (by simp at hc; exact hc.2)
    simp only [List.cons_append, readLinesFrom, hx, if_false, this]
    simp

/-- A line terminated by a newline. -/
theorem readLines_line (c b : List UInt8) (hc : (10 : UInt8) ∉ c) :
    readLines (c ++ 10 :: b) = terminatedLine c :: readLines b := by
  have := readLinesFrom_seg [] c b hc
  simpa [readLines] using this

theorem readLinesFrom_last (seg c : List UInt8) (hc : (10 : UInt8) ∉ c) :
    readLinesFrom seg c = if seg ++ c = [] then [] else [unterminatedLine (seg ++ c)] := by
  induction c generalizing seg with
  | nil => simp [readLinesFrom]
  | cons x c ih =>
    have hx : x ≠ 10 := by rintro rfl; simp at hc
    have := ih (seg ++ [x]) (by simp at hc; exact hc.2)
    simp only [readLinesFrom, hx, if_false, this]
    simp

/-- A last line without a newline. -/
theorem readLines_last (c : List UInt8) (hc : (10 : UInt8) ∉ c) :
    readLines c = if c = [] then [] else [unterminatedLine c] := by
  have := readLinesFrom_last [] c hc
  simpa [readLines] using this

theorem terminatedLine_plain {c : List UInt8} (h1 : c.length < 4096) (h2 : c.getLast? ≠ some 13) :
    terminatedLine c = .line c := by
  unfold terminatedLine bufSize
  rw [if_neg (by omega), if_neg h2]

theorem terminatedLine_cr {c : List UInt8} (h1 : c.length < 4095) :
    terminatedLine (c ++ [13]) = .line c := by
  unfold terminatedLine bufSize
  simp only [List.length_append, List.length_cons, List.length_nil]
  rw [if_neg (by omega)]
  simp

variable {S : Type}

theorem lexLine_wrap [Unicode] (cb : ItemParser S) (hint : Str) (b : List UInt8) (rest : List RawLine) (n : Nat) (s : S) :
    lexLoop cb hint n (.line b :: rest) s =
      ((runLine cb (lineItems hint (runes b)) s).wrap (.atLine hint n)).andThen (lexLoop cb hint (n + 1) rest) := by
  simp only [lexLoop, lexLine_eq]
  generalize runLine cb (lineItems hint (runes b)) s = r
  obtain ⟨s', _ | e⟩ := r <;> rfl

/-- Lexing a file is lexing a first part and then the rest. -/
theorem lexLoop_append [Unicode] (cb : ItemParser S) (hint : Str) (xs ys : List RawLine) (n : Nat) (s : S) :
    lexLoop cb hint n (xs ++ ys) s =
      (feedLines cb hint n xs s).andThen (lexLoop cb hint (n + xs.length) ys) := by
  induction xs generalizing n s with
  | nil => rfl
  | cons x xs ih =>
    cases x with
    | tooLong => rfl
    | line b =>
      rw [List.cons_append, lexLine_wrap, feedLines, andThen_assoc]
      congr 1
      funext s'
      rw [ih]
      simp only [List.length_cons]
      rw [show n + 1 + xs.length = n + (xs.length + 1) by omega]

/-- The end of the file is just one more item. -/
theorem lexLoop_eq [Unicode] (cb : ItemParser S) (hint : Str) (xs : List RawLine) (n : Nat) (s : S) :
    lexLoop cb hint n xs s = (feedLines cb hint n xs s).andThen (cb .eofItem []) := by
  have := lexLoop_append cb hint xs [] n s
  rw [List.append_nil] at this
  rw [this]
  rfl

theorem feedLines_append [Unicode] (cb : ItemParser S) (hint : Str) (xs ys : List RawLine) (n : Nat) (s : S) :
    feedLines cb hint n (xs ++ ys) s =
      (feedLines cb hint n xs s).andThen (feedLines cb hint (n + xs.length) ys) := by
  induction xs generalizing n s with
  | nil => rfl
  | cons x xs ih =>
    cases x with
    | tooLong => rfl
    | line b =>
      rw [List.cons_append, feedLines, feedLines, andThen_assoc]
      congr 1
      funext s'
      rw [ih]
      simp only [List.length_cons]
      rw [show n + 1 + xs.length = n + (xs.length + 1) by omega]

end Gledger
