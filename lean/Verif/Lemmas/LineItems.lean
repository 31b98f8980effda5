import Verif.Lemmas.LexRefine

namespace Gledger

variable {S : Type}

theorem andThen_assoc (a : Step S) (f g : S → Step S) :
    (a.andThen f).andThen g = a.andThen fun s => (f s).andThen g := by
  obtain ⟨s, _ | e⟩ := a <;> rfl

@[simp] theorem andThen_ok (s : S) (f : S → Step S) : Step.andThen (s, none) f = f s := rfl
@[simp] theorem andThen_fail (s : S) (e : Failure) (f : S → Step S) :
    Step.andThen (s, some e) f = (s, some e) := rfl

@[simp] theorem andThen_pure (a : Step S) : (a.andThen fun s => (s, none)) = a := by
  obtain ⟨s, _ | e⟩ := a <;> rfl

@[simp] theorem runItems_nil (cb : ItemParser S) (s : S) : runItems cb [] s = (s, none) := rfl
@[simp] theorem runItems_cons (cb : ItemParser S) (i : ItemType × Str) (is : List (ItemType × Str)) (s : S) :
    runItems cb (i :: is) s = (cb i.1 i.2 s).andThen (runItems cb is) := rfl

@[simp] theorem andThen_runItems_nil (cb : ItemParser S) (a : Step S) : a.andThen (runItems cb []) = a := by
  obtain ⟨s, _ | e⟩ := a <;> rfl

@[simp] theorem runLine_ok (cb : ItemParser S) (is : List (ItemType × Str)) (s : S) :
    runLine cb { items := is } s = runItems cb is s := by simp [runLine]

@[simp] theorem runLine_err (cb : ItemParser S) (e : Err) (s : S) :
    runLine cb { items := [], err := some e } s = (s, some (.err e)) := rfl

theorem lexPayee_spec (cb : ItemParser S) {inp : List UInt8} {cs : Str} {p w : Nat} (h : At inp p cs) (s : S) :
    lexPayeeAndComment cb ⟨inp, p, w⟩ s = runItems cb (payeeItems cs) s := by
  obtain ⟨p', w', h1, h2⟩ := takeToTab_spec (w := w) h
  have h3 := takeToNextLine_spec (w := w') h2
  simp only [lexPayeeAndComment, h1, payeeItems, runItems_cons]
  congr 1
  funext s
  rw [h3]
  cases hn : trimSpaceStart (field cs).2 with
  | nil => simp
  | cons c cs => simp

theorem lexHeader_spec (cb : ItemParser S) {inp : List UInt8} {cs : Str} {p w : Nat} (h : At inp p cs) (s : S) :
    lexTransactionHeader cb ⟨inp, p, w⟩ s = runLine cb (headerItems cs) s := by
  obtain ⟨p1, w1, h1, h2⟩ := takeUntilSpace_spec (w := w) h
  obtain ⟨p2, w2, h3, h4⟩ := consumeSpace_spec (w := w1) h2
  simp only [lexTransactionHeader, h1, headerItems, runLine_ok, runItems_cons]
  congr 1
  funext s
  rw [h3]
  simp only [stateItems]
  generalize afterSpace (List.dropWhile (fun x => decide (x ≠ ' ')) cs) = rest at h4
  cases rest with
  | nil =>
    rw [(next_nil h4).1]
    simp only [reduceCtorEq, if_false, Lexer.backup]
    exact lexPayee_spec cb h4 s
  | cons c rest =>
    obtain ⟨k, _, h5, h6, _⟩ := next_cons (w := w2) h4
    rw [h5]
    obtain ⟨p3, w3, h7, h8⟩ := consumeSpace_spec (w := k) h6
    simp only [Option.some.injEq]
    by_cases hc1 : c = '!'
    · subst hc1
      simp only [if_true, runItems_cons]
      congr 1; funext s
      rw [h7]
      exact lexPayee_spec cb h8 s
    · rw [if_neg hc1]
      by_cases hc2 : c = '*'
      · subst hc2
        simp only [if_true, runItems_cons]
        congr 1; funext s
        rw [h7]
        exact lexPayee_spec cb h8 s
      · rw [if_neg hc2]
        simp only [Lexer.backup, Nat.add_sub_cancel]
        rw [lexPayee_spec cb h4 s]
        congr 1
        split
        · rename_i heq; injection heq with h9; exact absurd h9 hc1
        · rename_i heq; injection heq with h9; exact absurd h9 hc2
        · rfl

theorem lexPosting_spec [U : Unicode] (cb : ItemParser S) {inp : List UInt8} {cs : Str} {p w : Nat}
    (h : At inp p cs) (s : S) :
    lexPosting cb ⟨inp, p, w⟩ s = runLine cb (postingItems cs) s := by
  obtain ⟨p1, w1, h1, h2⟩ := consumeSpace_spec (w := w) h
  simp only [lexPosting, h1, postingItems]
  generalize afterSpace cs = rest at h2
  cases rest with
  | nil =>
    rw [(next_nil h2).1]
    simp [isCommentIndicator]
  | cons c rest =>
    obtain ⟨k, _, h3, h4, _⟩ := next_cons (w := w1) h2
    rw [h3]
    simp only [isCommentIndicator, Option.some.injEq, Bool.or_eq_true, decide_eq_true_eq, Option.elim_some]
    by_cases hc : c = ';' ∨ c = '#'
    · rw [if_pos hc, if_pos hc, takeToNextLine_spec h4]
      simp
    · rw [if_neg hc, if_neg hc]
      by_cases hl : U.isLetter c = true
      · rw [if_pos hl, if_pos hl]
        simp only [Lexer.backup, Nat.add_sub_cancel]
        obtain ⟨p2, w2, h5, h6⟩ := accountName_spec (w := k) h2
        obtain ⟨p3, w3, h7, h8⟩ := consumeSpace_spec (w := w2) h6
        rw [h5]
        by_cases hsp : spaceWidth (accountName (c :: rest)).2 < 2
        · rw [if_pos hsp]
          simp only [runLine_ok, runItems_cons]
          congr 1; funext s
          rw [h7]
          simp only [if_pos hsp]
          have hnil := (spaceWidth_lt_two_iff _).1 hsp
          rw [hnil] at h8
          have := (next_nil (w := 0) (p := p3) (by simpa [afterSpace] using h8)).2
          rw [this]
          simp
        · rw [if_neg hsp]
          simp only [runLine_ok, runItems_cons]
          congr 1; funext s
          rw [h7]
          simp only [if_neg hsp, amountItems, runItems_cons]
          obtain ⟨p4, w4, h9, h10⟩ := lexCommodity_spec (w := w3) h8
          rw [h9]
          simp only
          obtain ⟨p5, w5, h11, h12⟩ := consumeSpace_spec (w := w4) h10
          rw [h11]
          congr 1; funext s
          obtain ⟨p6, w6, h13, h14⟩ := takeToTab_spec (w := w5) h12
          rw [h13]
          simp
      · rw [if_neg hl, if_neg hl]
        simp

theorem spaceWidth_dropWhile (cs : Str) :
    spaceWidth (cs.dropWhile (· ≠ ' ')) = 0 ↔ cs.dropWhile (· ≠ ' ') = [] := by
  induction cs with
  | nil => simp [spaceWidth, blankWidth]
  | cons c cs ih =>
    by_cases hc : c = ' '
    · subst hc; simp [spaceWidth, isSpace_blank, blankWidth]
    · have h1 : List.dropWhile (fun x => decide (x ≠ ' ')) (c :: cs) =
          List.dropWhile (fun x => decide (x ≠ ' ')) cs := by
        rw [List.dropWhile_cons, if_pos (by simpa using hc)]
      rw [h1]; exact ih

theorem lexInclude_spec (cb : ItemParser S) (hint : Str) {inp : List UInt8} {cs : Str} {p w : Nat}
    (h : At inp p cs) (s : S) :
    lexIncludeDirective cb hint ⟨inp, p, w⟩ s = runLine cb (includeItems hint cs) s := by
  obtain ⟨p1, w1, h1, h2⟩ := takeUntilSpace_spec (w := w) h
  obtain ⟨p2, w2, h3, h4⟩ := consumeSpace_spec (w := w1) h2
  obtain ⟨p3, w3, h5, h6⟩ := takeToTab_spec (w := w2) h4
  simp only [lexIncludeDirective, h1, h3, h5, includeItems]
  split
  · simp
  · by_cases hz : spaceWidth (List.dropWhile (fun x => decide (x ≠ ' ')) cs) = 0
    · rw [if_pos hz, if_pos (Or.inl ((spaceWidth_dropWhile cs).1 hz))]
      simp
    · rw [if_neg hz]
      by_cases hf : (field (afterSpace (List.dropWhile (fun x => decide (x ≠ ' ')) cs))).1 = []
      · rw [if_pos (by rw [hf]; rfl), if_pos (Or.inr hf)]
        simp
      · rw [if_neg (by simpa using hf), if_neg (by rw [spaceWidth_dropWhile] at hz; tauto)]
        simp

theorem lexPeriod_spec (cb : ItemParser S) {inp : List UInt8} {cs : Str} {p w : Nat}
    (h : At inp p cs) (s : S) :
    lexPeriodTransactionHeader cb ⟨inp, p, w⟩ s = runLine cb (periodItems cs) s := by
  obtain ⟨p1, w1, h1, h2⟩ := consumeSpace_spec (w := w) h
  obtain ⟨p2, w2, h3, h4⟩ := takeToTab_spec (w := w1) h2
  simp only [lexPeriodTransactionHeader, h1, h3, periodItems]
  split <;> simp

/-- Refinement: the position-and-width lexer feeds the parser exactly the items determined by the
characters of the line. -/
theorem lexLine_eq [U : Unicode] (cb : ItemParser S) (hint : Str) (line : List UInt8) (s : S) :
    lexLine cb hint line s = runLine cb (lineItems hint (runes line)) s := by
  unfold lexLine
  have hat := At.start line
  cases hr : runes line with
  | nil =>
    have := runes_eq_nil hr
    subst this
    simp [lineItems]
  | cons c cs =>
    have hne : line.length ≠ 0 := by
      intro h0
      rw [List.length_eq_zero_iff] at h0
      subst h0
      simp at hr
    rw [if_neg hne]
    rw [hr] at hat
    obtain ⟨k, _, h1, h2, _⟩ := next_cons (w := 0) hat
    simp only [Lexer.ofLine, h1, isCommentIndicator, Option.some.injEq, Bool.or_eq_true, decide_eq_true_eq,
      reduceCtorEq, if_false, Option.elim_some, lineItems]
    by_cases hc : c = ';' ∨ c = '#'
    · rw [if_pos hc, if_pos hc]; simp
    rw [if_neg hc, if_neg hc]
    by_cases hi : c = 'i'
    · rw [if_pos hi, if_pos hi]
      exact lexInclude_spec cb hint (by simpa [Lexer.backup] using hat) s
    rw [if_neg hi, if_neg hi]
    by_cases ht : c = '~'
    · rw [if_pos ht, if_pos ht]
      exact lexPeriod_spec cb h2 s
    rw [if_neg ht, if_neg ht]
    by_cases hn : U.isNumber c = true
    · rw [if_pos hn, if_pos hn]
      exact lexHeader_spec cb (by simpa [Lexer.backup] using hat) s
    rw [if_neg hn, if_neg hn]
    by_cases htab : c = '\t'
    · rw [if_pos htab, if_pos (Or.inl htab)]
      exact lexPosting_spec cb h2 s
    · rw [if_neg htab]
      by_cases hb : c = ' '
      · rw [if_pos hb]
        obtain ⟨k', h5⟩ := peek_eq (w := k) h2
        rw [h5]
        by_cases hd : cs.head? = some ' '
        · simp only [if_pos hd, if_pos (show c = '\t' ∨ c = ' ' ∧ cs.head? = some ' ' from Or.inr ⟨hb, hd⟩)]
          exact lexPosting_spec cb h2 s
        · simp only [if_neg hd, if_neg (show ¬ (c = '\t' ∨ c = ' ' ∧ cs.head? = some ' ') by tauto)]
          simp
      · rw [if_neg hb, if_neg (by tauto)]
        simp

end Gledger
