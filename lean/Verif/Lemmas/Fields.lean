import Verif.Spec.Text
import Verif.Spec.Runes

/-! Reading fields and account names written in a line. -/

namespace Gledger

theorem OneBlank.tail {c : Char} {cs : Str} (h : OneBlank (c :: cs)) : OneBlank cs := by
  obtain ⟨h1, h2, h3⟩ := h
  refine ⟨fun hm => h1 (by simp [hm]), fun hi => h2 (hi.trans (List.suffix_cons c cs).isInfix), ?_⟩
  cases cs with
  | nil => simp
  | cons d ds => simpa [List.getLast?_cons_cons] using h3

theorem FieldText.tail {c : Char} {cs : Str} (h : FieldText (c :: cs)) : FieldText cs :=
  ⟨fun hm => h.1 (by simp [hm]), fun hm => h.2.1 (by simp [hm]), h.2.2.tail⟩

theorem OneBlank.next {c : Char} {cs : Str} (h : OneBlank (c :: cs)) (rest : Str) :
    ¬ (c = ' ' ∧ (cs ++ rest).head? = some ' ') := by
  rintro ⟨rfl, h2⟩
  cases cs with
  | nil => exact h.2.2 (by simp)
  | cons d ds =>
    simp only [List.cons_append, List.head?_cons, Option.some.injEq] at h2
    subst h2
    exact h.2.1 ⟨[], ds, by simp⟩

theorem fieldLoop_text (s : Str) (h : FieldText s) (rest : Str) : ∀ acc,
    fieldLoop acc (s ++ rest) = fieldLoop (acc ++ s) rest := by
  induction s with
  | nil => simp
  | cons c cs ih =>
    intro acc
    have h1 : ¬ (c = ';' ∨ c = '#' ∨ c = '\t') := by
      rintro (rfl | rfl | rfl)
      · exact h.1 (by simp)
      · exact h.2.1 (by simp)
      · exact h.2.2.1 (by simp)
    rw [List.cons_append, fieldLoop, if_neg h1, if_neg (h.2.2.next rest), ih h.tail]
    simp

theorem trimOneSpace_text {s : Str} (h : s.getLast? ≠ some ' ') : trimOneSpace s = s := by
  unfold trimOneSpace
  rw [if_neg h, ite_self]

theorem trimOneSpace_blank (s : Str) : trimOneSpace (s ++ [' ']) = s := by
  simp [trimOneSpace]

/-- A field at the end of the line. -/
theorem field_end {s : Str} (h : FieldText s) : field s = (s, []) := by
  have := fieldLoop_text s h [] []
  rw [List.append_nil] at this
  simp [field, this, fieldLoop, trimOneSpace_text h.2.2.2.2]

/-- A field followed by a blank at the end of the line. -/
theorem field_end_blank {s : Str} (h : FieldText s) : field (s ++ [' ']) = (s, []) := by
  rw [field, fieldLoop_text s h [' ']]
  simp [fieldLoop, trimOneSpace_blank]

/-- A field followed by two blanks. -/
theorem field_blanks {s : Str} (h : FieldText s) (rest : Str) : field (s ++ ' ' :: ' ' :: rest) = (s, ' ' :: rest) := by
  rw [field, fieldLoop_text s h]
  simp [fieldLoop]

/-- A field followed by a tab or a comment character. -/
theorem field_stop {s : Str} (h : FieldText s) {c : Char} (hc : c = ';' ∨ c = '#' ∨ c = '\t') (rest : Str) :
    field (s ++ c :: rest) = (s, rest) := by
  rw [field, fieldLoop_text s h, List.nil_append, fieldLoop, if_pos hc, trimOneSpace_text h.2.2.2.2]

/-- A field followed by one blank and a tab or a comment character. -/
theorem field_blank_stop {s : Str} (h : FieldText s) {c : Char} (hc : c = ';' ∨ c = '#' ∨ c = '\t') (rest : Str) :
    field (s ++ ' ' :: c :: rest) = (s, rest) := by
  rw [field, fieldLoop_text s h, List.nil_append, fieldLoop, if_neg (by decide), if_neg (by rcases hc with rfl | rfl | rfl <;> simp),
    fieldLoop, if_pos hc, trimOneSpace_blank]

theorem getLast?_append_ne {s : Str} (c : Char) : (s ++ [c]).getLast? = some c := by simp

theorem accountLoop_text (s : Str) (h : OneBlank s) (rest : Str) : ∀ acc, (acc.getLast? = some ' ' → s.head? ≠ some ' ') →
    accountLoop acc (s ++ rest) = accountLoop (acc ++ s) rest := by
  induction s with
  | nil => simp
  | cons c cs ih =>
    intro acc hacc
    have h1 : ¬ c = '\t' := by
      rintro rfl
      exact h.1 (by simp)
    have h2 : ¬ (c = ' ' ∧ acc.getLast? = some ' ') := by
      rintro ⟨rfl, h2⟩
      exact hacc h2 (by simp)
    rw [List.cons_append, accountLoop, if_neg h1, if_neg h2, ih h.tail]
    · simp
    · intro h3 h4
      rw [getLast?_append_ne, Option.some.injEq] at h3
      have := h.next []
      rw [List.append_nil] at this
      exact this ⟨h3, h4⟩

/-- An account name at the end of the line. -/
theorem accountName_end {s : Str} (h : OneBlank s) : accountName s = (s, []) := by
  have := accountLoop_text s h [] [] (by simp)
  rw [List.append_nil] at this
  simp [accountName, this, accountLoop, h.2.2]

/-- An account name followed by one blank at the end of the line. -/
theorem accountName_end_blank {s : Str} (h : OneBlank s) : accountName (s ++ [' ']) = (s, []) := by
  rw [accountName, accountLoop_text s h [' '] [] (by simp)]
  simp [accountLoop, h.2.2]

/-- An account name followed by a tab. -/
theorem accountName_tab {s : Str} (h : OneBlank s) (rest : Str) : accountName (s ++ '\t' :: rest) = (s, '\t' :: rest) := by
  rw [accountName, accountLoop_text s h _ [] (by simp)]
  simp [accountLoop, h.2.2]

/-- An account name followed by two blanks. -/
theorem accountName_blanks {s : Str} (h : OneBlank s) (rest : Str) :
    accountName (s ++ ' ' :: ' ' :: rest) = (s, ' ' :: ' ' :: rest) := by
  rw [accountName, accountLoop_text s h _ [] (by simp)]
  simp [accountLoop, h.2.2]

theorem afterSpace_ink {s : Str} (h : StartsInk s) : afterSpace s = s := by
  cases s with
  | nil => rfl
  | cons c cs => simp [afterSpace, h c (by simp)]

theorem afterSpace_skip {ws s : Str} (hw : ∀ c ∈ ws, isSpace c = true) (h : StartsInk s) : afterSpace (ws ++ s) = s := by
  unfold afterSpace
  rw [List.dropWhile_append_of_pos hw]
  exact afterSpace_ink h

theorem takeWhile_skip {ws s : Str} (hw : ∀ c ∈ ws, isSpace c = true) (h : StartsInk s) : (ws ++ s).takeWhile isSpace = ws := by
  rw [List.takeWhile_append_of_pos hw]
  cases s with
  | nil => simp
  | cons c cs => simp [h c (by simp)]

theorem spaceWidth_skip {ws s : Str} (hw : ∀ c ∈ ws, isSpace c = true) (h : StartsInk s) :
    spaceWidth (ws ++ s) = blankWidth ws := by
  rw [spaceWidth, takeWhile_skip hw h]

end Gledger
