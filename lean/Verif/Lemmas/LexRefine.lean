import Verif.Lemmas.Decode

namespace Gledger

/-- The characters of `inp` from byte position `p` on are `cs`. -/
def At (inp : List UInt8) (p : Nat) (cs : Str) : Prop := p ≤ inp.length ∧ runes (inp.drop p) = cs

theorem At.start (inp : List UInt8) : At inp 0 (runes inp) := ⟨Nat.zero_le _, by simp⟩

theorem At.length_lt {inp : List UInt8} {p : Nat} {cs : Str} (h : At inp p cs) : cs.length < inp.length + 1 := by
  have := runes_length_le (inp.drop p)
  rw [h.2] at this
  simp only [List.length_drop] at this
  omega

theorem next_nil {inp : List UInt8} {p w : Nat} (h : At inp p []) :
    Lexer.next ⟨inp, p, w⟩ = (none, ⟨inp, p, 0⟩) ∧ p = inp.length := by
  have := runes_eq_nil h.2
  have hp : inp.length ≤ p := by simpa using this
  exact ⟨by simp [Lexer.next, hp], le_antisymm h.1 hp⟩

theorem next_cons {inp : List UInt8} {p w : Nat} {c : Char} {cs : Str} (h : At inp p (c :: cs)) :
    ∃ k, 1 ≤ k ∧ Lexer.next ⟨inp, p, w⟩ = (some c, ⟨inp, p + k, k⟩) ∧ At inp (p + k) cs ∧
      (c.toNat < 0x80 → k = 1) := by
  obtain ⟨hp, hr⟩ := h
  cases hd : inp.drop p with
  | nil => rw [hd] at hr; cases hr
  | cons b bs =>
    have hlt : ¬ inp.length ≤ p := by
      intro hle
      have : inp.drop p = [] := List.drop_eq_nil_of_le hle
      rw [hd] at this; cases this
    have hw := decodeRune_width_pos b bs
    have hlen : (b :: bs).length = inp.length - p := by rw [← hd]; simp
    rw [hd, runes_cons] at hr
    injection hr with h1 h2
    refine ⟨(decodeRune (b :: bs)).2, hw.1, ?_, ⟨by omega, ?_⟩, ?_⟩
    · simp only [Lexer.next, if_neg hlt, hd]
      rw [← h1]
    · rw [← h2, ← hd, List.drop_drop]
    · intro hc
      rw [(decodeRune_eq_ascii hc h1).2]

theorem peek_nil {inp : List UInt8} {p w : Nat} (h : At inp p []) :
    Lexer.peek ⟨inp, p, w⟩ = (none, ⟨inp, p, 0⟩) := by
  simp [Lexer.peek, (next_nil h).1, Lexer.backup]

theorem peek_cons {inp : List UInt8} {p w : Nat} {c : Char} {cs : Str} (h : At inp p (c :: cs)) :
    ∃ k, Lexer.peek ⟨inp, p, w⟩ = (some c, ⟨inp, p, k⟩) ∧ (c.toNat < 0x80 → k = 1) := by
  obtain ⟨k, _, h1, _, h3⟩ := next_cons (w := w) h
  exact ⟨k, by simp [Lexer.peek, h1, Lexer.backup], h3⟩

theorem peek_eq {inp : List UInt8} {p w : Nat} {cs : Str} (h : At inp p cs) :
    ∃ k, Lexer.peek ⟨inp, p, w⟩ = (cs.head?, ⟨inp, p, k⟩) := by
  cases cs with
  | nil => exact ⟨0, peek_nil h⟩
  | cons c cs => obtain ⟨k, h1, _⟩ := peek_cons (w := w) h; exact ⟨k, h1⟩

theorem consumeSpaceLoop_spec {inp : List UInt8} : ∀ (n : Nat) (cs : Str) (p w count : Nat),
    At inp p cs → cs.length < n →
    ∃ p' w', Lexer.consumeSpaceLoop n count ⟨inp, p, w⟩ = (count + spaceWidth cs, ⟨inp, p', w'⟩) ∧
      At inp p' (afterSpace cs) := by
  intro n
  induction n with
  | zero => intro cs p w count _ h; omega
  | succ n ih =>
    intro cs p w count hat hlen
    cases cs with
    | nil =>
      refine ⟨p, 0, ?_, hat⟩
      simp [Lexer.consumeSpaceLoop, (next_nil hat).1, Lexer.backup, spaceWidth, blankWidth]
    | cons c cs =>
      obtain ⟨k, _, h1, h2, h3⟩ := next_cons (w := w) hat
      by_cases hs : isSpace c = true
      · simp only [List.length_cons] at hlen
        obtain ⟨p', w', h4, h5⟩ := ih cs (p + k) k
          (let count := if c = '\t' then count + tabWidth else count
           if c = ' ' then count + 1 else count) h2 (by omega)
        refine ⟨p', w', ?_, by simpa [afterSpace, hs] using h5⟩
        simp only [Lexer.consumeSpaceLoop, h1, hs, Bool.not_true, Bool.false_eq_true, if_false]
        rw [h4]
        simp only [spaceWidth, List.takeWhile_cons, hs, if_true, blankWidth]
        congr 1
        by_cases ht : c = '\t'
        · subst ht; simp [tabWidth]; omega
        · by_cases hb : c = ' '
          · subst hb; simp; omega
          · simp [ht, hb]
      · refine ⟨p, k, ?_, by simpa [afterSpace, hs] using hat⟩
        simp [Lexer.consumeSpaceLoop, h1, hs, Lexer.backup, spaceWidth, blankWidth]

theorem consumeSpace_spec {inp : List UInt8} {cs : Str} {p w : Nat} (h : At inp p cs) :
    ∃ p' w', Lexer.consumeSpace ⟨inp, p, w⟩ = (spaceWidth cs, ⟨inp, p', w'⟩) ∧ At inp p' (afterSpace cs) := by
  obtain ⟨p', w', h1, h2⟩ := consumeSpaceLoop_spec (inp.length + 1) cs p w 0 h h.length_lt
  exact ⟨p', w', by simpa [Lexer.consumeSpace, Lexer.fuel] using h1, h2⟩

theorem takeToNextLineLoop_spec {inp : List UInt8} : ∀ (n : Nat) (cs acc : Str) (p w : Nat),
    At inp p cs → cs.length < n →
    (Lexer.takeToNextLineLoop n acc ⟨inp, p, w⟩).1 = trimSpaceStart (acc ++ cs) := by
  intro n
  induction n with
  | zero => intro cs acc p w _ h; omega
  | succ n ih =>
    intro cs acc p w hat hlen
    cases cs with
    | nil => simp [Lexer.takeToNextLineLoop, (next_nil hat).1]
    | cons c cs =>
      obtain ⟨k, _, h1, h2, h3⟩ := next_cons (w := w) hat
      simp only [List.length_cons] at hlen
      simp only [Lexer.takeToNextLineLoop, h1]
      rw [ih cs _ _ _ h2 (by omega)]
      simp

theorem takeToNextLine_spec {inp : List UInt8} {cs : Str} {p w : Nat} (h : At inp p cs) :
    (Lexer.takeToNextLine ⟨inp, p, w⟩).1 = trimSpaceStart cs := by
  have := takeToNextLineLoop_spec (inp.length + 1) cs [] p w h h.length_lt
  simpa [Lexer.takeToNextLine, Lexer.fuel] using this

theorem takeToTabLoop_spec {inp : List UInt8} : ∀ (n : Nat) (cs acc : Str) (p w : Nat),
    At inp p cs → cs.length < n →
    ∃ p' w', Lexer.takeToTabLoop n acc ⟨inp, p, w⟩ = ((fieldLoop acc cs).1, ⟨inp, p', w'⟩) ∧
      At inp p' (fieldLoop acc cs).2 := by
  intro n
  induction n with
  | zero => intro cs acc p w _ h; omega
  | succ n ih =>
    intro cs acc p w hat hlen
    cases cs with
    | nil => exact ⟨p, 0, by simp [Lexer.takeToTabLoop, (next_nil hat).1, fieldLoop], by simpa [fieldLoop] using hat⟩
    | cons c cs =>
      obtain ⟨k, _, h1, h2, h3⟩ := next_cons (w := w) hat
      simp only [List.length_cons] at hlen
      simp only [Lexer.takeToTabLoop, h1, isCommentIndicator, fieldLoop]
      by_cases hc : c = ';' ∨ c = '#'
      · have : (decide (some c = some ';') || decide (some c = some '#')) = true := by
          simpa using hc
        rw [if_pos this, if_pos (by tauto)]
        exact ⟨_, _, rfl, h2⟩
      · have : ¬ (decide (some c = some ';') || decide (some c = some '#')) = true := by
          simpa using hc
        rw [if_neg this]
        by_cases ht : c = '\t'
        · rw [if_pos ht, if_pos (by tauto)]
          exact ⟨_, _, rfl, h2⟩
        · have hcond : ¬ (c = ';' ∨ c = '#' ∨ c = '\t') := by tauto
          rw [if_neg ht, if_neg hcond]
          by_cases hb : c = ' '
          · rw [if_pos hb]
            obtain ⟨k', h5⟩ := peek_eq (w := k) h2
            rw [h5]
            simp only
            by_cases hd : cs.head? = some ' '
            · rw [if_pos hd, if_pos ⟨hb, hd⟩]
              exact ⟨_, _, rfl, h2⟩
            · rw [if_neg hd, if_neg (by tauto)]
              exact ih cs _ _ _ h2 (by omega)
          · rw [if_neg hb, if_neg (by tauto)]
            exact ih cs _ _ _ h2 (by omega)

theorem takeToTab_spec {inp : List UInt8} {cs : Str} {p w : Nat} (h : At inp p cs) :
    ∃ p' w', Lexer.takeToTabOrNextLineOrComment ⟨inp, p, w⟩ = ((field cs).1, ⟨inp, p', w'⟩) ∧
      At inp p' (field cs).2 := by
  simpa [Lexer.takeToTabOrNextLineOrComment, Lexer.fuel, field] using
    takeToTabLoop_spec (inp.length + 1) cs [] p w h h.length_lt

theorem takeUntilSpaceLoop_spec {inp : List UInt8} : ∀ (n : Nat) (cs acc : Str) (p w : Nat),
    At inp p cs → cs.length < n →
    ∃ p' w', Lexer.takeUntilSpaceLoop n acc ⟨inp, p, w⟩ =
        (acc ++ cs.takeWhile (· ≠ ' '), ⟨inp, p', w'⟩) ∧
      At inp p' (cs.dropWhile (· ≠ ' ')) := by
  intro n
  induction n with
  | zero => intro cs acc p w _ h; omega
  | succ n ih =>
    intro cs acc p w hat hlen
    cases cs with
    | nil => exact ⟨p, 0, by simp [Lexer.takeUntilSpaceLoop, (next_nil hat).1, Lexer.backup], by simpa using hat⟩
    | cons c cs =>
      obtain ⟨k, _, h1, h2, h3⟩ := next_cons (w := w) hat
      simp only [List.length_cons] at hlen
      simp only [Lexer.takeUntilSpaceLoop, h1]
      by_cases hc : c = ' '
      · subst hc
        exact ⟨p, k, by simp [Lexer.backup], by simpa using hat⟩
      · obtain ⟨p', w', h4, h5⟩ := ih cs (acc ++ [c]) _ k h2 (by omega)
        refine ⟨p', w', ?_, by simpa [hc] using h5⟩
        rw [if_neg hc, h4]
        simp [hc]

theorem takeUntilSpace_spec {inp : List UInt8} {cs : Str} {p w : Nat} (h : At inp p cs) :
    ∃ p' w', Lexer.takeUntilSpace ⟨inp, p, w⟩ = (cs.takeWhile (· ≠ ' '), ⟨inp, p', w'⟩) ∧
      At inp p' (cs.dropWhile (· ≠ ' ')) := by
  simpa [Lexer.takeUntilSpace, Lexer.fuel] using
    takeUntilSpaceLoop_spec (inp.length + 1) cs [] p w h h.length_lt

theorem take_length_sub_one {α : Type} (l : List α) : l.take (l.length - 1) = l.dropLast :=
  (List.dropLast_eq_take).symm

theorem accountLoop_spec {inp : List UInt8} : ∀ (n : Nat) (cs acc : Str) (p w : Nat) (prev : Bool),
    At inp p cs → cs.length < n →
    (prev = true ↔ acc.getLast? = some ' ') → (prev = true → 1 ≤ p ∧ At inp (p - 1) (' ' :: cs)) →
    ∃ p' w', Lexer.takeUntilMoreThanOneSpaceLoop n prev acc ⟨inp, p, w⟩ =
        ((accountLoop acc cs).1, ⟨inp, p', w'⟩) ∧
      At inp p' (accountLoop acc cs).2 := by
  intro n
  induction n with
  | zero => intro cs acc p w prev _ h; omega
  | succ n ih =>
    intro cs acc p w prev hat hlen hprev hback
    cases cs with
    | nil =>
      simp only [Lexer.takeUntilMoreThanOneSpaceLoop, peek_nil hat, true_or, if_true, accountLoop]
      by_cases hp : prev = true
      · rw [if_pos hp, if_pos (hprev.1 hp), take_length_sub_one]; exact ⟨_, _, rfl, hat⟩
      · rw [if_neg hp, if_neg (fun h => hp (hprev.2 h))]; exact ⟨_, _, rfl, hat⟩
    | cons c cs =>
      obtain ⟨k, h1, h3⟩ := peek_cons (w := w) hat
      simp only [List.length_cons] at hlen
      simp only [Lexer.takeUntilMoreThanOneSpaceLoop, h1, accountLoop, reduceCtorEq, false_or,
        Option.some.injEq]
      by_cases ht : c = '\t'
      · rw [if_pos ht, if_pos ht]
        by_cases hp : prev = true
        · rw [if_pos hp, if_pos (hprev.1 hp), take_length_sub_one]; exact ⟨_, _, rfl, hat⟩
        · rw [if_neg hp, if_neg (fun h => hp (hprev.2 h))]; exact ⟨_, _, rfl, hat⟩
      · rw [if_neg ht, if_neg ht]
        obtain ⟨k', hk', h4, h5, h6⟩ := next_cons (w := k) hat
        by_cases hb : c = ' '
        · rw [if_pos hb]
          by_cases hp : prev = true
          · rw [if_pos hp, if_pos ⟨hb, hprev.1 hp⟩, take_length_sub_one]
            have hk : k = 1 := h3 (by rw [hb]; decide)
            obtain ⟨hp1, hat'⟩ := hback hp
            exact ⟨p - 1, k, by simp [Lexer.backup, hk], hat'⟩
          · rw [if_neg hp, if_neg (fun h => hp (hprev.2 h.2)), h4]
            have hk1 : k' = 1 := h6 (by rw [hb]; decide)
            refine ih cs _ _ _ true h5 (by omega) ?_ ?_
            · simp [hb]
            · intro _
              refine ⟨by omega, ?_⟩
              rw [hk1, Nat.add_sub_cancel]
              rw [hb] at hat; exact hat
        · rw [if_neg hb, if_neg (fun h => hb h.1), h4]
          refine ih cs _ _ _ false h5 (by omega) ?_ (by simp)
          simp [hb]

theorem accountName_spec {inp : List UInt8} {cs : Str} {p w : Nat} (h : At inp p cs) :
    ∃ p' w', Lexer.takeUntilMoreThanOneSpace ⟨inp, p, w⟩ = ((accountName cs).1, ⟨inp, p', w'⟩) ∧
      At inp p' (accountName cs).2 := by
  simpa [Lexer.takeUntilMoreThanOneSpace, Lexer.fuel, accountName] using
    accountLoop_spec (inp.length + 1) cs [] p w false h h.length_lt (by simp) (by simp)

theorem lexCommodityLoop_spec [U : Unicode] {inp : List UInt8} : ∀ (n : Nat) (cs acc : Str) (p w : Nat),
    At inp p cs → cs.length < n →
    ∃ p' w', Lexer.lexCommodityLoop n acc ⟨inp, p, w⟩ =
        (acc ++ cs.takeWhile isCommodityChar, ⟨inp, p', w'⟩) ∧
      At inp p' (cs.dropWhile isCommodityChar) := by
  intro n
  induction n with
  | zero => intro cs acc p w _ h; omega
  | succ n ih =>
    intro cs acc p w hat hlen
    cases cs with
    | nil => exact ⟨p, 0, by simp [Lexer.lexCommodityLoop, (next_nil hat).1], by simpa using hat⟩
    | cons c cs =>
      obtain ⟨k, _, h1, h2, h3⟩ := next_cons (w := w) hat
      simp only [List.length_cons] at hlen
      simp only [Lexer.lexCommodityLoop, h1]
      by_cases hc : isCommodityChar c = true
      · obtain ⟨p', w', h4, h5⟩ := ih cs (acc ++ [c]) _ k h2 (by omega)
        have hc' := hc
        simp only [isCommodityChar, Bool.not_eq_true', Bool.or_eq_false_iff, decide_eq_false_iff_not] at hc'
        refine ⟨p', w', ?_, by simpa [hc] using h5⟩
        rw [if_neg (by simp [hc']), if_neg (by simp [hc']), h4]
        simp [hc]
      · have hc' := hc
        simp only [isCommodityChar, Bool.not_eq_true', Bool.not_eq_false, Bool.or_eq_true,
          decide_eq_true_eq] at hc'
        refine ⟨p, k, ?_, by simpa [hc] using hat⟩
        by_cases h6 : (U.isNumber c || decide (c = '-') || decide (c = '+')) = true
        · rw [if_pos h6]; simp [Lexer.backup, hc]
        · have h7 : (decide (c = ' ') || decide (c = '\t')) = true := by
            simp only [Bool.or_eq_true, decide_eq_true_eq] at h6 ⊢
            tauto
          rw [if_neg h6, if_pos h7]; simp [Lexer.backup, hc]

theorem lexCommodity_spec [Unicode] {inp : List UInt8} {cs : Str} {p w : Nat} (h : At inp p cs) :
    ∃ p' w', Lexer.lexCommodity ⟨inp, p, w⟩ = (cs.takeWhile isCommodityChar, ⟨inp, p', w'⟩) ∧
      At inp p' (cs.dropWhile isCommodityChar) := by
  simpa [Lexer.lexCommodity, Lexer.fuel] using
    lexCommodityLoop_spec (inp.length + 1) cs [] p w h h.length_lt

/-- What follows an account name is empty, starts with a tab or with two blanks. -/
theorem accountLoop_rest (cs acc : Str) : (accountLoop acc cs).2 = [] ∨
    (∃ r, (accountLoop acc cs).2 = '\t' :: r) ∨ ∃ r, (accountLoop acc cs).2 = ' ' :: ' ' :: r := by
  induction cs generalizing acc with
  | nil => simp [accountLoop]
  | cons c cs ih =>
    simp only [accountLoop]
    by_cases ht : c = '\t'
    · rw [if_pos ht]; right; left; exact ⟨cs, by rw [ht]⟩
    · rw [if_neg ht]
      split
      · rename_i h; right; right; exact ⟨cs, by rw [h.1]⟩
      · exact ih _

theorem isSpace_blank : isSpace ' ' = true := by decide
theorem isSpace_tab : isSpace '\t' = true := by decide

theorem spaceWidth_lt_two_iff (cs : Str) :
    spaceWidth (accountName cs).2 < 2 ↔ (accountName cs).2 = [] := by
  unfold accountName
  rcases accountLoop_rest cs [] with h | ⟨r, h⟩ | ⟨r, h⟩
  · simp [h, spaceWidth, blankWidth]
  · rw [h]; simp [spaceWidth, isSpace_tab, blankWidth]
  · rw [h]; simp [spaceWidth, isSpace_blank, blankWidth]; omega

end Gledger
