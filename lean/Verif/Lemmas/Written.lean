import Verif.Spec.Written
import Verif.Lemmas.Fields

/-! The items of the lines of a written entry. -/

namespace Gledger

theorem firstNonBlank_replicate (n i : Nat) (c : Char) (cs : Str) (hc : c ≠ ' ') :
    firstNonBlank i (List.replicate n ' ' ++ c :: cs) = i + n := by
  induction n generalizing i with
  | zero => simp [firstNonBlank, hc]
  | succ n ih =>
    rw [List.replicate_succ, List.cons_append, firstNonBlank, if_neg (by simp), ih]
    omega

theorem trimSpaceStart_blanks {n : Nat} {s : Str} (h : s.head? ≠ some ' ') (h0 : s = [] → n = 0) :
    trimSpaceStart (List.replicate n ' ' ++ s) = s := by
  cases s with
  | nil => simp [h0 rfl, trimSpaceStart]
  | cons c cs =>
    have hc : c ≠ ' ' := by simpa using h
    unfold trimSpaceStart
    rw [if_neg (by simp), firstNonBlank_replicate n 0 c cs hc, Nat.zero_add, List.drop_append_of_le_length (by simp)]
    simp

theorem indent_items [U : Unicode] (hint : Str) {ws s : Str} (hw : Indent ws) (hs : StartsInk s) :
    ∃ cs, lineItems hint (ws ++ s) = postingItems cs ∧ afterSpace cs = s := by
  obtain ⟨h1, h2⟩ := hw
  cases ws with
  | nil => simp at h2
  | cons c cs =>
    refine ⟨cs ++ s, ?_, afterSpace_skip (fun x hx => h1 x (by simp [hx])) hs⟩
    rcases h2 with h2 | h2
    · simp only [List.head?_cons, Option.some.injEq] at h2
      subst h2
      have : U.isNumber '\t' = false := U.number_not_space _ (by decide)
      simp [lineItems, this]
    · cases cs with
      | nil => simp at h2
      | cons d ds =>
        simp only [List.take_succ_cons, List.take_zero, List.cons.injEq, and_true] at h2
        obtain ⟨rfl, rfl⟩ := h2
        have : U.isNumber ' ' = false := U.number_not_space _ (by decide)
        simp [lineItems, this]

theorem Comment.ink {c : Comment} (h : c.Ok) (rest : Str) : StartsInk (c.mark :: rest) := by
  intro x hx
  simp only [List.head?_cons, Option.some.injEq] at hx
  subst hx
  rcases h.1 with h | h <;> rw [h] <;> decide

theorem note_items [Unicode] (hint : Str) {n : Note} (h : n.Ok) :
    lineItems hint n.line = { items := [(.commentItem, n.comment.text)] } := by
  obtain ⟨cs, h1, h2⟩ := indent_items hint h.1 (Comment.ink h.2 _ : StartsInk n.comment.written)
  rw [Note.line, Comment.written, h1, postingItems, h2]
  simp only [h.2.1, if_true]
  rw [trimSpaceStart_blanks h.2.2.1 h.2.2.2]

theorem white_letter [U : Unicode] {s : Str} (h : ∃ c ∈ s.head?, U.isLetter c = true) : StartsInk s := by
  obtain ⟨c, hc, hl⟩ := h
  intro d hd
  rw [Option.mem_def, hd, Option.some.injEq] at hc
  subst hc
  by_contra hs
  rw [U.letter_not_space _ (by simpa using hs)] at hl
  cases hl

theorem StartsInk.append {s t : Str} (h : StartsInk s) (hne : s ≠ []) : StartsInk (s ++ t) := by
  cases s with
  | nil => exact absurd rfl hne
  | cons c cs => exact fun d hd => h d (by simpa using hd)

theorem number_ink [U : Unicode] {c : Char} (h : U.isNumber c = true ∨ c = '-' ∨ c = '+') : isSpace c = false := by
  rcases h with h | rfl | rfl
  · by_contra hs
    rw [U.number_not_space _ (by simpa using hs)] at h
    cases h
  · decide
  · decide

theorem field_trailer {s : Str} (h : FieldText s) {t : Str} (ht : Trailer t) : (field (s ++ t)).1 = s := by
  rcases ht with rfl | rfl | ht | ⟨c, hc, ht⟩ | ⟨h1, c, hc, ht⟩
  · rw [List.append_nil, field_end h]
  · rw [field_end_blank h]
  · match t, ht with
    | [], ht => simp at ht
    | [_], ht => simp at ht
    | c :: d :: t, ht =>
      simp only [List.take_succ_cons, List.take_zero, List.cons.injEq, and_true] at ht
      obtain ⟨rfl, rfl⟩ := ht
      rw [field_blanks h]
  · cases t with
    | nil => simp at hc
    | cons d t =>
      simp only [List.head?_cons, Option.mem_def, Option.some.injEq] at hc
      subst hc
      rw [field_stop h ht]
  · match t with
    | [] => simp at h1
    | [_] => simp at hc
    | d :: e :: t =>
      simp only [List.head?_cons, Option.some.injEq, List.tail_cons, Option.mem_def] at h1 hc
      subst h1 hc
      rw [field_blank_stop h ht]

theorem number_not_commodity [U : Unicode] {c : Char} (h : U.isNumber c = true ∨ c = '-' ∨ c = '+') : isCommodityChar c = false := by
  unfold isCommodityChar
  rcases h with h | rfl | rfl <;> simp [*]

theorem WrittenAmount.Ok.shape [Unicode] {a : WrittenAmount} (h : a.Ok) : a.Shape := by
  obtain ⟨h1, h2, h3, h4, h5, h6, h7, _, h8⟩ := h
  exact ⟨h1, h2, h3, h4, h5, h6, h7, h8⟩

/-- The items of the amount, after the gap. -/
theorem amount_items [U : Unicode] {a : WrittenAmount} (h : a.Shape) :
    amountItems (a.commodity ++ (a.blanks ++ (a.number ++ a.trailer))) =
      [(.commodityItem, a.meaning.commodity), (.amountItem, a.number)] := by
  obtain ⟨_, _, h3, h4, _, ⟨c, hc, hc'⟩, h6, h8⟩ := h
  obtain ⟨x, xs, hx⟩ : ∃ x xs, a.number = x :: xs := by
    cases hn : a.number with
    | nil => rw [hn] at hc; simp at hc
    | cons x xs => exact ⟨x, xs, rfl⟩
  have hcx : c = x := by rw [hx] at hc; simpa using hc.symm
  subst hcx
  have hstop : ∀ rest : Str, (a.blanks ++ (a.number ++ rest)).takeWhile isCommodityChar = [] ∧
      (a.blanks ++ (a.number ++ rest)).dropWhile isCommodityChar = a.blanks ++ (a.number ++ rest) := by
    intro rest
    cases hb : a.blanks with
    | nil => rw [hx]; simp [number_not_commodity hc']
    | cons b bs =>
      have hbc : isCommodityChar b = false := by
        rcases h4 b (by simp [hb]) with rfl | rfl <;> simp [isCommodityChar]
      simp [hbc]
  have hblank : White a.blanks := by
    intro b hb
    rcases h4 b hb with rfl | rfl <;> decide
  have hink : StartsInk (a.number ++ a.trailer) := by
    rw [hx]
    intro d hd
    simp only [List.cons_append, List.head?_cons, Option.some.injEq] at hd
    subst hd
    exact number_ink hc'
  unfold amountItems
  simp only
  rw [List.takeWhile_append_of_pos h3, List.dropWhile_append_of_pos h3, (hstop _).1, (hstop _).2, List.append_nil,
    spaceWidth_skip hblank hink, afterSpace_skip hblank hink, field_trailer h6 h8]
  have hw : 0 < blankWidth a.blanks ↔ a.blanks ≠ [] := by
    cases hb : a.blanks with
    | nil => simp [blankWidth]
    | cons b bs =>
      have : 0 < blankWidth (b :: bs) := by
        rcases h4 b (by simp [hb]) with rfl | rfl <;> simp [blankWidth] <;> omega
      simp [this]
  unfold WrittenAmount.meaning
  by_cases hb : a.blanks = []
  · simp [hb, blankWidth]
  · simp [hw.2 hb, hb]

theorem indent_cases {s : Str} (h : Indent s) : (∃ cs, s = '\t' :: cs) ∨ ∃ cs, s = ' ' :: ' ' :: cs := by
  rcases h.2 with h2 | h2
  · cases s with
    | nil => simp at h2
    | cons c cs => simp only [List.head?_cons, Option.some.injEq] at h2; subst h2; exact Or.inl ⟨cs, rfl⟩
  · match s, h2 with
    | [], h2 => simp at h2
    | [_], h2 => simp at h2
    | c :: d :: t, ht =>
      simp only [List.take_succ_cons, List.take_zero, List.cons.injEq, and_true] at ht
      obtain ⟨rfl, rfl⟩ := ht
      exact Or.inr ⟨t, rfl⟩

theorem indent_width {s : Str} (h : Indent s) : ¬ blankWidth s < 2 := by
  rcases indent_cases h with ⟨cs, rfl⟩ | ⟨cs, rfl⟩
  · rw [blankWidth, if_pos rfl]; omega
  · rw [blankWidth, blankWidth, if_neg (by decide), if_pos rfl]; omega

/-- The items an amount is read as. -/
def WrittenPosting.amountItems (p : WrittenPosting) : List (ItemType × Str) :=
  match p.amount with
  | none => []
  | some a => [(.commodityItem, a.meaning.commodity), (.amountItem, a.number)]

theorem posting_items_shape [U : Unicode] (hint : Str) {p : WrittenPosting} (h1 : Indent p.indent) (h : AccountText p.account)
    (h4 : ∀ a ∈ p.amount, a.Shape) :
    lineItems hint p.line = { items := (.accountItem, p.account) :: p.amountItems } := by
  obtain ⟨h2, h3⟩ := h
  obtain ⟨c, hc, hl⟩ := h2
  obtain ⟨cs, hcs⟩ : ∃ cs, p.account = c :: cs := by
    cases hn : p.account with
    | nil => rw [hn] at hc; simp at hc
    | cons x xs => rw [hn] at hc; exact ⟨xs, by simpa using hc⟩
  have hne : ¬ (c = ';' ∨ c = '#') := by
    rintro (rfl | rfl) <;> rw [U.letter_ascii _ (by decide)] at hl <;> exact absurd hl (by decide)
  obtain ⟨ds, e1, e2⟩ := indent_items hint h1
    (s := p.account ++ (p.amount.map WrittenAmount.written).getD []) ((white_letter ⟨c, hc, hl⟩).append (by simp [hcs]))
  rw [WrittenPosting.line, e1, postingItems, e2]
  cases ha : p.amount with
  | none =>
    simp only [Option.map_none, Option.getD_none, List.append_nil, WrittenPosting.amountItems, ha]
    rw [hcs] at h3 ⊢
    simp only [hne, hl, if_true, if_false, accountName_end h3, spaceWidth, List.takeWhile_nil, blankWidth]
    rw [if_pos (by omega)]
  | some a =>
    have hok := h4 a (by simp [ha])
    have hink : StartsInk (a.commodity ++ (a.blanks ++ (a.number ++ a.trailer))) := by
      obtain ⟨_, h2', _, _, h5', ⟨x, hx, hx'⟩, _⟩ := hok
      by_cases hcm : a.commodity = []
      · rw [hcm, h5' hcm]
        intro d hd
        cases hn : a.number with
        | nil => rw [hn] at hx; simp at hx
        | cons y ys =>
          rw [hn] at hx hd
          simp only [List.nil_append, List.cons_append, List.head?_cons, Option.mem_def, Option.some.injEq] at hd hx
          subst hd hx
          exact number_ink hx'
      · exact h2'.append hcm
    have hacc : accountName (p.account ++ a.written) = (p.account, a.written) := by
      unfold WrittenAmount.written
      rcases indent_cases hok.1 with ⟨cs, hg⟩ | ⟨cs, hg⟩ <;> rw [hg]
      · exact accountName_tab h3 _
      · exact accountName_blanks h3 _
    simp only [Option.map_some, Option.getD_some, WrittenPosting.amountItems, ha]
    rw [hcs, List.cons_append]
    simp only [hne, hl, if_true, if_false]
    rw [← List.cons_append, ← hcs, hacc]
    simp only
    unfold WrittenAmount.written
    rw [spaceWidth_skip hok.1.1 hink, if_neg (indent_width hok.1), afterSpace_skip hok.1.1 hink, amount_items hok]

theorem posting_items [U : Unicode] (hint : Str) {p : WrittenPosting} (h : p.Ok) :
    lineItems hint p.line = { items := (.accountItem, p.account) :: p.amountItems } :=
  posting_items_shape hint h.1 h.2.1 fun a ha => (h.2.2.1 a ha).shape

/-- The items a header note is read as. -/
def Header.noteItems (h : Header) : List (ItemType × Str) :=
  match h.note with
  | none => []
  | some n => [(.transactionHeaderCommentItem, n.2.text)]

/-- The items a state is read as. -/
def Header.stateItems (h : Header) : List (ItemType × Str) :=
  match h.state with
  | .noState => []
  | s => [(.stateItem, s.mark)]

theorem all_blank {s : Str} (h : ∀ c ∈ s, c = ' ') : s = List.replicate s.length ' ' := by
  exact List.eq_replicate_iff.2 ⟨rfl, h⟩

theorem payee_items [Unicode] {h : Header} (hh : h.Ok) :
    payeeItems (h.payee ++ (h.note.map fun n => n.1 ++ n.2.written).getD []) = (.payeeItem, h.payee) :: h.noteItems := by
  obtain ⟨_, _, _, _, _, _, _, hf, _, hn⟩ := hh
  unfold payeeItems Header.noteItems
  cases hnote : h.note with
  | none => simp [field_end hf, trimSpaceStart]
  | some n =>
    obtain ⟨hp, ⟨hm, ht1, ht2⟩, hg, hb⟩ := hn n (by simp [hnote])
    have hmark : n.2.mark ≠ ' ' := by rcases hm with hm | hm <;> rw [hm] <;> decide
    -- what is left after the payee
    have hrest : ∃ k, field (h.payee ++ (n.1 ++ n.2.written)) = (h.payee, List.replicate k ' ' ++ n.2.written) := by
      rcases hg with hg | hg
      · cases hg1 : n.1 with
        | nil => rw [hg1] at hg; simp at hg
        | cons c cs =>
          rw [hg1] at hg hb
          simp only [List.head?_cons, Option.some.injEq] at hg
          subst hg
          refine ⟨cs.length, ?_⟩
          rw [List.cons_append, field_stop hf (by simp), ← all_blank (by simpa using hb)]
      · match hg1 : n.1, hg with
        | [], hg => simp at hg
        | [_], hg => simp at hg
        | c :: d :: t, hg =>
          rw [hg1] at hb
          simp only [List.take_succ_cons, List.take_zero, List.cons.injEq, and_true] at hg
          obtain ⟨rfl, rfl⟩ := hg
          refine ⟨(' ' :: t).length, ?_⟩
          rw [List.cons_append, List.cons_append, field_blanks hf, ← all_blank (by simpa using hb)]
          rfl
    obtain ⟨k, hk⟩ := hrest
    simp only [Option.map_some, Option.getD_some, hk]
    rw [trimSpaceStart_blanks (by simp [Comment.written, hmark]) (by simp [Comment.written])]
    rw [if_neg (by simp [Comment.written])]
    simp only [Comment.written, List.tail_cons]
    rw [trimSpaceStart_blanks ht1 ht2]

theorem header_items [U : Unicode] (hint : Str) {h : Header} (hh : h.Ok) :
    lineItems hint h.line =
      { items := (.dateItem, h.date) :: (h.stateItems ++ (.payeeItem, h.payee) :: h.noteItems) } := by
  have hpay := payee_items hh
  obtain ⟨⟨c, hc, hnum⟩, hd, _, hg1, hg2, hg3, hst, hf, hink, hn⟩ := hh
  obtain ⟨cs, hcs⟩ : ∃ cs, h.date = c :: cs := by
    cases hn : h.date with
    | nil => rw [hn] at hc; simp at hc
    | cons x xs => rw [hn] at hc; exact ⟨xs, by simpa using hc⟩
  have hne : ∀ d : Char, d.toNat < 128 → isDigit d = false → c ≠ d := by
    rintro d hd1 hd2 rfl
    rw [U.number_ascii c hd1, hd2] at hnum
    cases hnum
  have e1 := hne ';' (by decide) (by decide)
  have e2 := hne '#' (by decide) (by decide)
  have e3 := hne 'i' (by decide) (by decide)
  have e4 := hne '~' (by decide) (by decide)
  generalize htl : (h.note.map fun n => n.1 ++ n.2.written).getD [] = tl at hpay
  have htlink : StartsInk (h.payee ++ tl) := by
    by_cases hp : h.payee = []
    · cases hnote : h.note with
      | none =>
        rw [hnote] at htl
        simp only [Option.map_none, Option.getD_none] at htl
        subst htl
        rw [hp]
        intro d hd
        simp at hd
      | some n => exact absurd hp (hn n (by simp [hnote])).1
    · exact hink.append hp
  have hline : h.line = c :: (cs ++ (h.gap ++ (h.state.mark ++ (h.gap2 ++ (h.payee ++ tl))))) := by
    rw [Header.line, htl, hcs]; rfl
  have htake : ∀ r : Str, (r = [] ∨ r.head? = some ' ') →
      (h.date ++ r).takeWhile (· ≠ ' ') = h.date ∧ (h.date ++ r).dropWhile (· ≠ ' ') = r := by
    intro r hr
    have hall : ∀ x ∈ h.date, (decide (x ≠ ' ')) = true := by
      intro x hx
      simp only [ne_eq, decide_eq_true_eq]
      rintro rfl
      exact hd hx
    rw [List.takeWhile_append_of_pos hall, List.dropWhile_append_of_pos hall]
    rcases hr with rfl | hr
    · simp
    · cases r with
      | nil => simp at hr
      | cons y ys =>
        simp only [List.head?_cons, Option.some.injEq] at hr
        subst hr
        constructor
        · rw [List.takeWhile_cons, if_neg (by simp), List.append_nil]
        · rw [List.dropWhile_cons, if_neg (by simp)]
  rw [hline]
  simp only [lineItems, e1, e2, e3, e4, or_self, if_false, hnum, if_true, headerItems]
  rw [← List.cons_append, ← hcs]
  obtain ⟨t1, t2⟩ := htake (h.gap ++ (h.state.mark ++ (h.gap2 ++ (h.payee ++ tl)))) (by
    rcases hg2 with hg2 | ⟨hg2, hs, hp⟩
    · right
      cases hgap : h.gap with
      | nil => rw [hgap] at hg2; simp at hg2
      | cons x xs => rw [hgap] at hg2; simpa using hg2
    · left
      have : tl = [] := by
        cases hnote : h.note with
        | none => rw [hnote] at htl; simpa using htl.symm
        | some n => exact absurd hp (hn n (by simp [hnote])).1
      rw [hg2, hs, (hst hs).1, hp, this]
      rfl)
  rw [t1, t2]
  congr 2
  unfold Gledger.stateItems Header.stateItems
  have hmark2 : StartsInk (h.state.mark ++ (h.gap2 ++ (h.payee ++ tl))) := by
    cases hs : h.state with
    | noState => rw [(hst hs).1]; exact htlink
    | uncleared => intro d hd; simp [TransactionState.mark] at hd; subst hd; decide
    | cleared => intro d hd; simp [TransactionState.mark] at hd; subst hd; decide
  rw [afterSpace_skip hg1 hmark2]
  cases hs : h.state with
  | noState =>
    rw [(hst hs).1]
    simp only [TransactionState.mark, List.nil_append]
    obtain ⟨_, n1, n2⟩ := hst hs
    rw [← hpay]
    -- the payee does not begin with a state mark
    have m1 : ∀ rest, h.payee ++ tl ≠ '!' :: rest := by
      intro rest he
      cases hp : h.payee with
      | nil =>
        cases hnote : h.note with
        | none =>
          rw [hnote] at htl
          simp only [Option.map_none, Option.getD_none] at htl
          subst htl
          rw [hp] at he
          simp at he
        | some n => exact absurd hp (hn n (by simp [hnote])).1
      | cons x xs => rw [hp] at he n1; simp only [List.cons_append, List.cons.injEq] at he; exact n1 (by simp [he.1])
    have m2 : ∀ rest, h.payee ++ tl ≠ '*' :: rest := by
      intro rest he
      cases hp : h.payee with
      | nil =>
        cases hnote : h.note with
        | none =>
          rw [hnote] at htl
          simp only [Option.map_none, Option.getD_none] at htl
          subst htl
          rw [hp] at he
          simp at he
        | some n => exact absurd hp (hn n (by simp [hnote])).1
      | cons x xs => rw [hp] at he n2; simp only [List.cons_append, List.cons.injEq] at he; exact n2 (by simp [he.1])
    split
    · rename_i rest he; exact absurd he (m1 rest)
    · rename_i rest he; exact absurd he (m2 rest)
    · rfl
  | uncleared =>
    simp only [TransactionState.mark, List.cons_append, List.nil_append]
    rw [afterSpace_skip hg3 htlink, hpay]
  | cleared =>
    simp only [TransactionState.mark, List.cons_append, List.nil_append]
    rw [afterSpace_skip hg3 htlink, hpay]

end Gledger
