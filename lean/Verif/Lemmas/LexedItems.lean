import Verif.Lemmas.Delivered
import Verif.Lemmas.Fields
import Verif.Spec.Delivered

/-! What the lexer's items can be. -/

namespace Gledger

/-- The items of a line, given the kind of the item before. -/
def ItemText [Unicode] (pv : Option ItemType) : ItemType → Str → Prop
  | .dateItem, _ => pv = none
  | .periodItem, _ => pv = none
  | .stateItem, c => c = ['!'] ∨ c = ['*']
  | .payeeItem, c => FieldText c ∧ StartsInk c ∧
      ((pv = some .dateItem ∧ c.head? ≠ some '!' ∧ c.head? ≠ some '*') ∨ pv = some .stateItem)
  | .accountItem, c => AccountText c
  | .commodityItem, c => CommodityText c
  | .transactionHeaderCommentItem, c => Trimmed c
  | .commentItem, c => Trimmed c
  | _, _ => True

theorem firstNonBlank_spec (s : Str) : ∀ i, (∃ x ∈ s, x ≠ ' ') →
    ∃ k, firstNonBlank i s = i + k ∧ (s.drop k).head? ≠ some ' ' := by
  induction s with
  | nil => rintro i ⟨x, hx, _⟩; cases hx
  | cons c cs ih =>
    rintro i ⟨x, hx, hn⟩
    rw [firstNonBlank]
    by_cases hc : c = ' '
    · rw [if_neg (by simp [hc])]
      obtain ⟨k, h1, h2⟩ := ih (i + 1) ⟨x, by
        rcases List.mem_cons.1 hx with rfl | hx
        · exact absurd hc hn
        · exact hx, hn⟩
      exact ⟨k + 1, by omega, by simpa using h2⟩
    · rw [if_pos hc]
      exact ⟨0, rfl, by simpa using hc⟩

theorem firstNonBlank_blank (s : Str) : ∀ i, (∀ x ∈ s, x = ' ') → firstNonBlank i s = 0 := by
  induction s with
  | nil => intro i _; rfl
  | cons c cs ih =>
    intro i h
    rw [firstNonBlank, if_neg (by simp [h c (by simp)])]
    exact ih _ fun x hx => h x (by simp [hx])

theorem trimSpaceStart_trimmed (s : Str) : Trimmed (trimSpaceStart s) := by
  unfold trimSpaceStart
  by_cases h0 : s.length = 0
  · rw [if_pos h0, List.eq_nil_of_length_eq_zero h0]
    exact Or.inl (by simp)
  · rw [if_neg h0]
    by_cases hb : ∀ x ∈ s, x = ' '
    · rw [firstNonBlank_blank s 0 hb]
      exact Or.inr hb
    · push Not at hb
      obtain ⟨k, h1, h2⟩ := firstNonBlank_spec s 0 hb
      rw [h1, Nat.zero_add]
      exact Or.inl h2

theorem dropWhile_ink (cs : Str) : StartsInk (cs.dropWhile isSpace) := by
  intro c hc
  have := List.head?_dropWhile_not isSpace cs
  rw [hc] at this
  simpa using this

theorem afterSpace_starts (cs : Str) : StartsInk (afterSpace cs) := dropWhile_ink cs

theorem prefix_starts {a b : Str} (h : a <+: b) (hb : StartsInk b) : StartsInk a := by
  intro c hc
  obtain ⟨t, rfl⟩ := h
  cases a with
  | nil => simp at hc
  | cons x xs => exact hb c (by simpa using hc)

theorem not_infix_dropLast {s : Str} (h : ¬ [' ', ' '] <:+: s) : ¬ [' ', ' '] <:+: s.dropLast := fun hc =>
  h (hc.trans (List.dropLast_prefix s).isInfix)

theorem dropLast_no_blank {s : Str} (h : ¬ [' ', ' '] <:+: s) (hl : s.getLast? = some ' ') : s.dropLast.getLast? ≠ some ' ' := by
  intro hc
  obtain ⟨xs, rfl⟩ := List.getLast?_eq_some_iff.1 hl
  rw [List.dropLast_concat] at hc
  obtain ⟨ys, rfl⟩ := List.getLast?_eq_some_iff.1 hc
  exact h ⟨ys, [], by simp⟩

theorem infix_snoc_blank {s : Str} {c : Char} (h : ¬ [' ', ' '] <:+: s) (hc : ¬ (c = ' ' ∧ s.getLast? = some ' ')) :
    ¬ [' ', ' '] <:+: s ++ [c] := by
  rintro ⟨a, b, hab⟩
  rcases List.eq_nil_or_concat' b with rfl | ⟨b', x, rfl⟩
  · rw [List.append_nil, show a ++ [' ', ' '] = (a ++ [' ']) ++ [' '] by simp] at hab
    obtain ⟨h1, h2⟩ := List.append_inj' hab rfl
    exact hc ⟨by simpa using h2.symm, by rw [← h1]; simp⟩
  · rw [← List.append_assoc] at hab
    obtain ⟨h1, _⟩ := List.append_inj' hab rfl
    exact h ⟨a, b', h1⟩

/-- A text with single blanks, after dropping a blank at the end. -/
theorem trim_oneBlank {s : Str} (h1 : '\t' ∉ s) (h2 : ¬ [' ', ' '] <:+: s) :
    OneBlank (if s.getLast? = some ' ' then s.dropLast else s) := by
  by_cases hl : s.getLast? = some ' '
  · rw [if_pos hl]
    exact ⟨fun hc => h1 (List.dropLast_subset s hc), not_infix_dropLast h2, dropLast_no_blank h2 hl⟩
  · rw [if_neg hl]
    exact ⟨h1, h2, hl⟩

theorem trimOneSpace_eq (s : Str) : trimOneSpace s = if s.getLast? = some ' ' then s.dropLast else s := by
  unfold trimOneSpace
  by_cases h0 : s.length = 0
  · rw [List.eq_nil_of_length_eq_zero h0]; simp
  · rw [if_neg h0, List.dropLast_eq_take]

theorem fieldLoop_fieldText (cs : Str) : ∀ acc : Str, ';' ∉ acc → '#' ∉ acc → '\t' ∉ acc → ¬ [' ', ' '] <:+: acc →
    (acc.getLast? = some ' ' → cs.head? ≠ some ' ') → FieldText (fieldLoop acc cs).1 := by
  have hend : ∀ acc : Str, ';' ∉ acc → '#' ∉ acc → '\t' ∉ acc → ¬ [' ', ' '] <:+: acc → FieldText (trimOneSpace acc) := by
    intro acc h1 h2 h3 h4
    rw [trimOneSpace_eq]
    refine ⟨?_, ?_, trim_oneBlank h3 h4⟩
    · split
      · exact fun hc => h1 (List.dropLast_subset _ hc)
      · exact h1
    · split
      · exact fun hc => h2 (List.dropLast_subset _ hc)
      · exact h2
  induction cs with
  | nil => intro acc h1 h2 h3 h4 _; exact hend acc h1 h2 h3 h4
  | cons c cs ih =>
    intro acc h1 h2 h3 h4 h5
    rw [fieldLoop]
    by_cases hc : c = ';' ∨ c = '#' ∨ c = '\t'
    · rw [if_pos hc]; exact hend acc h1 h2 h3 h4
    · rw [if_neg hc]
      push Not at hc
      by_cases hb : c = ' ' ∧ cs.head? = some ' '
      · rw [if_pos hb]
        exact ⟨h1, h2, h3, h4, fun hl => h5 hl (by simp [hb.1])⟩
      · rw [if_neg hb]
        refine ih _ ?_ ?_ ?_ (infix_snoc_blank h4 fun h => h5 h.2 (by simp [h.1])) ?_
        · simp [h1, hc.1.symm]
        · simp [h2, hc.2.1.symm]
        · simp [h3, hc.2.2.symm]
        · intro hl hh
          rw [List.getLast?_concat, Option.some.injEq] at hl
          exact hb ⟨hl, hh⟩

theorem field_fieldText (cs : Str) : FieldText (field cs).1 :=
  fieldLoop_fieldText cs [] (by simp) (by simp) (by simp) (by simp) (by simp)

theorem fieldLoop_prefix (cs : Str) : ∀ acc : Str, (fieldLoop acc cs).1 <+: acc ++ cs := by
  have hend : ∀ acc cs : Str, trimOneSpace acc <+: acc ++ cs := by
    intro acc cs
    rw [trimOneSpace_eq]
    refine List.IsPrefix.trans ?_ (List.prefix_append acc cs)
    split
    · exact List.dropLast_prefix acc
    · exact List.prefix_rfl
  induction cs with
  | nil => intro acc; exact hend acc []
  | cons c cs ih =>
    intro acc
    rw [fieldLoop]
    split
    · exact hend acc _
    · split
      · exact List.prefix_append acc _
      · have := ih (acc ++ [c])
        rwa [List.append_assoc] at this

theorem field_starts {cs : Str} (h : StartsInk cs) : StartsInk (field cs).1 :=
  prefix_starts (by simpa [field] using fieldLoop_prefix cs []) h

theorem field_head {cs : Str} {c : Char} (h : (field cs).1.head? = some c) : cs.head? = some c := by
  obtain ⟨t, ht⟩ := (show (field cs).1 <+: cs by simpa [field] using fieldLoop_prefix cs [])
  rw [← ht]
  cases hf : (field cs).1 with
  | nil => rw [hf] at h; cases h
  | cons x xs => rw [hf] at h; simpa using h

theorem accountLoop_text_spec (x : Char) (hx : x ≠ ' ') (cs : Str) : ∀ acc : Str, acc.head? = some x → '\t' ∉ acc → ¬ [' ', ' '] <:+: acc →
    OneBlank (accountLoop acc cs).1 ∧ (accountLoop acc cs).1.head? = some x := by
  have hend : ∀ acc : Str, acc.head? = some x → '\t' ∉ acc → ¬ [' ', ' '] <:+: acc →
      OneBlank (if acc.getLast? = some ' ' then acc.dropLast else acc) ∧
      (if acc.getLast? = some ' ' then acc.dropLast else acc).head? = some x := by
    intro acc h1 h2 h3
    refine ⟨trim_oneBlank h2 h3, ?_⟩
    split
    · rename_i hl
      cases acc with
      | nil => cases h1
      | cons a as =>
        cases as with
        | nil =>
          simp only [List.head?_cons, Option.some.injEq] at h1
          simp only [List.getLast?_singleton, Option.some.injEq] at hl
          exact absurd (h1.symm.trans hl) hx
        | cons b bs => simpa using h1
    · exact h1
  induction cs with
  | nil => intro acc h1 h2 h3; exact hend acc h1 h2 h3
  | cons c cs ih =>
    intro acc h1 h2 h3
    rw [accountLoop]
    by_cases hc : c = '\t'
    · rw [if_pos hc]; exact hend acc h1 h2 h3
    · rw [if_neg hc]
      by_cases hb : c = ' ' ∧ acc.getLast? = some ' '
      · rw [if_pos hb]
        have := hend acc h1 h2 h3
        rw [if_pos hb.2] at this
        exact this
      · rw [if_neg hb]
        refine ih _ ?_ ?_ (infix_snoc_blank h3 hb)
        · cases acc with
          | nil => cases h1
          | cons a as => exact h1
        · simp [h2, Ne.symm hc]

theorem accountName_text [U : Unicode] {c : Char} (hc : U.isLetter c = true) (cs : Str) : AccountText (accountName (c :: cs)).1 := by
  have hs : isSpace c = false := by
    by_contra hn
    rw [U.letter_not_space c (by simpa using hn)] at hc
    cases hc
  have ht : c ≠ '\t' := by rintro rfl; revert hs; decide
  have hb : c ≠ ' ' := by rintro rfl; revert hs; decide
  have : accountName (c :: cs) = accountLoop [c] cs := by
    unfold accountName
    rw [accountLoop, if_neg ht, if_neg (fun h => hb h.1)]
    rfl
  rw [this]
  obtain ⟨h1, h2⟩ := accountLoop_text_spec c hb cs [c] rfl (by simp [Ne.symm ht]) (by
    rintro ⟨a, b, hab⟩
    have := congrArg List.length hab
    simp at this
    omega)
  exact ⟨⟨c, h2, hc⟩, h1⟩

theorem commodity_text [Unicode] {cs : Str} (h : StartsInk cs) :
    CommodityText (if 0 < spaceWidth (cs.dropWhile isCommodityChar) then cs.takeWhile isCommodityChar ++ [' '] else cs.takeWhile isCommodityChar) := by
  have hall : ∀ c ∈ cs.takeWhile isCommodityChar, isCommodityChar c = true := fun c hc =>
    List.all_eq_true.1 List.all_takeWhile c hc
  have hpre : StartsInk (cs.takeWhile isCommodityChar) := prefix_starts (List.takeWhile_prefix _) h
  by_cases hw : 0 < spaceWidth (cs.dropWhile isCommodityChar)
  · rw [if_pos hw]
    refine ⟨?_, ?_, ?_⟩
    · cases hn : cs.takeWhile isCommodityChar with
      | nil =>
        exfalso
        have hd : cs.dropWhile isCommodityChar = cs := by
          have := List.takeWhile_append_dropWhile (p := isCommodityChar) (l := cs)
          rw [hn] at this
          simpa using this
        rw [hd] at hw
        unfold spaceWidth at hw
        cases cs with
        | nil => simp [blankWidth] at hw
        | cons c cs => simp [h c rfl, blankWidth] at hw
      | cons x xs =>
        rw [hn] at hpre
        intro c hc
        exact hpre c (by simpa using hc)
    · rw [List.dropLast_concat]; exact hall
    · intro c hc
      rw [List.getLast?_concat, Option.mem_def, Option.some.injEq] at hc
      exact Or.inr hc.symm
  · rw [if_neg hw]
    exact ⟨hpre, fun c hc => hall c (List.dropLast_subset _ hc), fun c hc => Or.inl (hall c (List.mem_of_getLast? hc))⟩

theorem payeeItems_ok [Unicode] {pv : Option ItemType} {cs : Str} (h : StartsInk cs)
    (hp : (pv = some .dateItem ∧ cs.head? ≠ some '!' ∧ cs.head? ≠ some '*') ∨ pv = some .stateItem) : ItemsOk ItemText pv (payeeItems cs) := by
  unfold payeeItems
  refine ⟨⟨field_fieldText cs, field_starts h, ?_⟩, ?_⟩
  · rcases hp with ⟨h1, h2, h3⟩ | h1
    · exact Or.inl ⟨h1, fun hc => h2 (field_head hc), fun hc => h3 (field_head hc)⟩
    · exact Or.inr h1
  · simp only
    split
    · trivial
    · exact ⟨trimSpaceStart_trimmed _, trivial⟩

theorem lexed_items [U : Unicode] : Lexed ItemText := by
  refine ⟨trivial, fun hint line => ?_⟩
  cases line with
  | nil => exact ⟨trivial, trivial⟩
  | cons c cs =>
    rw [lineItems]
    by_cases h1 : c = ';' ∨ c = '#'
    · rw [if_pos h1]; trivial
    rw [if_neg h1]
    by_cases h2 : c = 'i'
    · rw [if_pos h2, includeItems]
      split
      · trivial
      · simp only
        split
        · trivial
        · exact ⟨trivial, trivial⟩
    rw [if_neg h2]
    by_cases h3 : c = '~'
    · rw [if_pos h3, periodItems]
      split
      · trivial
      · exact ⟨rfl, trivial⟩
    rw [if_neg h3]
    by_cases h4 : U.isNumber c = true
    · rw [if_pos h4, headerItems]
      refine ⟨rfl, ?_⟩
      simp only
      unfold stateItems
      have hs := afterSpace_starts ((c :: cs).dropWhile (· ≠ ' '))
      split
      · exact ⟨Or.inl rfl, payeeItems_ok (afterSpace_starts _) (Or.inr rfl)⟩
      · exact ⟨Or.inr rfl, payeeItems_ok (afterSpace_starts _) (Or.inr rfl)⟩
      · rename_i hn1 hn2
        refine payeeItems_ok hs (Or.inl ⟨rfl, ?_, ?_⟩)
        · intro hc
          cases hr : afterSpace ((c :: cs).dropWhile (· ≠ ' ')) with
          | nil => rw [hr] at hc; cases hc
          | cons x xs =>
            rw [hr] at hc
            simp only [List.head?_cons, Option.some.injEq] at hc
            exact hn1 xs (by rw [hr, hc])
        · intro hc
          cases hr : afterSpace ((c :: cs).dropWhile (· ≠ ' ')) with
          | nil => rw [hr] at hc; cases hc
          | cons x xs =>
            rw [hr] at hc
            simp only [List.head?_cons, Option.some.injEq] at hc
            exact hn2 xs (by rw [hr, hc])
    rw [if_neg h4]
    by_cases h5 : c = '\t' ∨ (c = ' ' ∧ cs.head? = some ' ')
    · rw [if_pos h5, postingItems]
      split
      · trivial
      · rename_i x xs hx
        split
        · exact ⟨trimSpaceStart_trimmed _, trivial⟩
        · split
          · rename_i hl
            simp only
            split
            · exact ⟨accountName_text hl xs, trivial⟩
            · exact ⟨accountName_text hl xs, commodity_text (afterSpace_starts _), trivial, trivial⟩
          · trivial
    · rw [if_neg h5]; trivial

end Gledger
