/-
C50: what print writes parses back.
-/
import Verif.Spec.Printed
import Verif.Props.Entries
import Verif.Props.Amounts
import Verif.Props.Dates
import Verif.Props.Lists

set_option maxRecDepth 100000

namespace Gledger

variable {σ : Type}

theorem foldl_join (sep : Str) (l : List Str) : ∀ rs : Str, l.foldl (fun rs c => rs ++ sep ++ c) rs = rs ++ l.flatMap fun c => sep ++ c := by
  induction l with
  | nil => intro rs; simp
  | cons c l ih => intro rs; rw [List.foldl_cons, ih]; simp

theorem split_commodity (s : Str) : (if s.getLast? = some ' ' then s.dropLast else s) ++ (if s.getLast? = some ' ' then [' '] else []) = s := by
  by_cases h : s.getLast? = some ' '
  · rw [if_pos h, if_pos h, List.dropLast_append_getLast?]
    exact h
  · simp [h]

theorem amount_written (a : Amount) : a.written.written = str "    " ++ a.display true := by
  unfold Amount.written WrittenAmount.written Amount.display
  simp only [List.append_nil, if_true]
  rw [← List.append_assoc (if a.commodity.getLast? = some ' ' then _ else _), split_commodity]

theorem amount_meaning (a : Amount) : a.written.meaning = a := by
  unfold Amount.written WrittenAmount.meaning
  have := split_commodity a.commodity
  by_cases h : a.commodity.getLast? = some ' '
  · simp only [h, if_true] at this ⊢
    simp [this]
  · simp [h]

/-- The text of a posting. -/
theorem posting_format {p : Posting} {a : Amount} (h : p.amount = some a) :
    p.format = (p.written.line.drop 4) ++ p.written.notes.flatMap fun n => '\n' :: n.line := by
  unfold Posting.format
  rw [h]
  simp only
  rw [foldl_join]
  have h1 : p.written.line.drop 4 = p.accountPath ++ str "    " ++ a.display true := by
    unfold Posting.written WrittenPosting.line
    simp only [h, Option.map_some, Option.getD_some, amount_written, List.append_assoc]
    rfl
  rw [h1]
  congr 1
  unfold Posting.written
  simp only [List.flatMap_map]
  rfl

theorem posting_lines {p : Posting} {a : Amount} (h : p.amount = some a) :
    str "\n    " ++ p.format = p.written.lines.flatMap fun l => '\n' :: l := by
  rw [posting_format h]
  unfold WrittenPosting.lines
  rw [List.flatMap_cons, List.flatMap_map]
  have h1 : p.written.line = str "    " ++ p.written.line.drop 4 := by
    unfold Posting.written WrittenPosting.line; rfl
  conv_rhs => rw [h1]
  simp only [List.append_assoc, List.cons_append]
  rfl

theorem header_line (t : Transaction) : t.written.header.line =
    (if 0 < t.headerNote.length then t.date.format ++ str " " ++ stateToString t.state ++ str " " ++ t.payee ++ str "    ; " ++ t.headerNote
      else t.date.format ++ str " " ++ stateToString t.state ++ str " " ++ t.payee) := by
  unfold Transaction.written Header.line
  cases hs : t.state <;> by_cases hn : t.headerNote = [] <;>
    simp [hn, stateToString, TransactionState.mark, Comment.written, List.length_pos_iff] <;> rfl

/-- The text of a transaction is its lines. -/
theorem transaction_format {t : Transaction} (h : ∀ p ∈ t.postings, p.amount ≠ none) :
    t.format = t.written.lines.flatMap fun l => l ++ ['\n'] := by
  have hsh : ∀ (l : Str) (ls : List Str), l ++ (ls.flatMap fun l => '\n' :: l) ++ ['\n'] = (l :: ls).flatMap fun l => l ++ ['\n'] := by
    intro l ls
    induction ls generalizing l with
    | nil => simp
    | cons a ls ih =>
      rw [List.flatMap_cons, List.flatMap_cons (x := l), ← ih a]
      simp
  unfold Transaction.format
  simp only
  rw [← header_line, foldl_join]
  unfold Entry.lines
  rw [← hsh, List.flatMap_append]
  have h1 : (t.written.notes.map Note.line).flatMap (fun l => '\n' :: l) = t.notes.flatMap fun c => str "\n    ; " ++ c := by
    unfold Transaction.written
    simp only [List.map_map, List.flatMap_map]
    rfl
  have h2 : ∀ (ps : List Posting) (rs : Str), (∀ p ∈ ps, p.amount ≠ none) → ps.foldl (fun rs p => rs ++ str "\n    " ++ p.format) rs =
      rs ++ ((ps.map Posting.written).flatMap WrittenPosting.lines).flatMap fun l => '\n' :: l := by
    intro ps
    induction ps with
    | nil => intro rs _; simp
    | cons p ps ih =>
      intro rs hp
      obtain ⟨a, ha⟩ := Option.ne_none_iff_exists'.1 (hp p (by simp))
      rw [List.foldl_cons, ih _ (fun q hq => hp q (by simp [hq])), List.append_assoc rs, posting_lines ha]
      simp
  rw [h1, h2 _ _ h]
  simp [Transaction.written]
  rfl

theorem encode_append (a b : Str) : encode (a ++ b) = encode a ++ encode b := by simp [encode]

/-- Print's output as a journal. -/
theorem printed_journal {ts : List Transaction} (h : ∀ t ∈ ts, ∀ p ∈ t.postings, p.amount ≠ none) :
    encode (printReport ts) = journalText (ts.map fun t => (.entry t.written, 0)) := by
  have key : ∀ ls : List Str, encode (ls.flatMap fun l => l ++ ['\n']) = textOf [10] (ls.map encode) := by
    intro ls
    induction ls with
    | nil => rfl
    | cons l ls ih =>
      rw [List.flatMap_cons, encode_append, ih, encode_append]
      simp only [textOf, List.map_cons, List.flatMap_cons]
      rfl
  unfold journalText
  rw [← key]
  congr 1
  unfold printReport journalLines
  rw [List.flatMap_map, List.flatMap_assoc]
  have : ∀ t ∈ ts, (t.format ++ str "\n") = (t.written.lines ++ List.replicate (0 + 1) []).flatMap fun l => l ++ ['\n'] := by
    intro t ht
    rw [transaction_format (h t ht), List.flatMap_append]
    rfl
  induction ts with
  | nil => rfl
  | cons t ts ih =>
    rw [List.flatMap_cons, List.flatMap_cons, ih (fun t ht => h t (by simp [ht])) (fun t ht => this t (by simp [ht])), this t (by simp)]
    rfl

theorem digit_number [U : Unicode] {c : Char} (h : Digit c) : U.isNumber c = true := by
  have h1 : c.toNat < 128 := by have := h.2; have : '9'.toNat = 57 := rfl; omega
  rw [U.number_ascii c h1]
  exact (isDigit_iff c).2 h

theorem digit_plain {c : Char} (h : Digit c) : c ≠ ';' ∧ c ≠ '#' ∧ c ≠ '\t' ∧ c ≠ ' ' := by
  refine ⟨?_, ?_, ?_, ?_⟩ <;> rintro rfl <;> exact absurd h (by decide)

theorem fieldText_of_plain {s : Str} (h : ∀ c ∈ s, c ≠ ';' ∧ c ≠ '#' ∧ c ≠ '\t' ∧ c ≠ ' ') : FieldText s := by
  refine ⟨fun hc => (h _ hc).1 rfl, fun hc => (h _ hc).2.1 rfl, fun hc => (h _ hc).2.2.1 rfl, ?_, ?_⟩
  · rintro ⟨a, b, rfl⟩
    exact (h ' ' (by simp)).2.2.2 rfl
  · intro hl
    exact (h ' ' (List.mem_of_getLast? hl)).2.2.2 rfl

theorem number_ok [U : Unicode] {q : I64} (h : q.toInt.natAbs < 100 * 2 ^ 46) :
    (∃ c ∈ (displayQuantity q).head?, U.isNumber c = true ∨ c = '-' ∨ c = '+') ∧ FieldText (displayQuantity q) := by
  rw [display_numeral h]
  have hw := natDigits_digits (q.toInt.natAbs / 100)
  have hf := pad2_digits (q.toInt.natAbs % 100)
  constructor
  · unfold Numeral.text
    by_cases hq : q.toInt < 0
    · simp [hq, Sign.text]
    · obtain ⟨c, cs, hc⟩ := List.exists_cons_of_ne_nil hw.1
      simp only [hq, if_false, Sign.text, hc]
      refine ⟨c, rfl, Or.inl (digit_number (hw.2 c (by simp [hc])))⟩
  · apply fieldText_of_plain
    intro c hc
    unfold Numeral.text at hc
    simp only [List.mem_append, List.mem_cons] at hc
    rcases hc with (hc | hc) | hc | hc
    · by_cases hq : q.toInt < 0
      · simp only [hq, if_true, Sign.text, List.mem_singleton] at hc; subst hc; decide
      · simp [hq, Sign.text] at hc
    · exact digit_plain (hw.2 c hc)
    · subst hc; decide
    · exact digit_plain (hf.2 c hc)

theorem amount_ok [Unicode] {a : Amount} (h1 : CommodityText a.commodity) (h2 : a.quantity.toInt.natAbs < 100 * 2 ^ 46) : a.written.Ok := by
  obtain ⟨s1, s2, s3⟩ := h1
  obtain ⟨n1, n2⟩ := number_ok h2
  refine ⟨show Indent (str "    ") by decide, ?_, ?_, ?_, ?_, n1, n2, C08_display_parses_back _ h2, show Trailer [] by decide⟩
  · unfold Amount.written
    simp only
    split
    · rename_i hl
      intro c hc
      apply s1 c
      cases hs : a.commodity with
      | nil => rw [hs] at hc; cases hc
      | cons x xs =>
        rw [hs] at hc
        cases xs with
        | nil => cases hc
        | cons y ys => simpa using hc
    · exact s1
  · unfold Amount.written
    simp only
    split
    · exact s2
    · rename_i hl
      intro c hc
      have hne : a.commodity ≠ [] := List.ne_nil_of_mem hc
      rw [← List.dropLast_append_getLast hne, List.mem_append, List.mem_singleton] at hc
      rcases hc with hc | hc
      · exact s2 c hc
      · subst hc
        rcases s3 _ (by rw [List.getLast?_eq_getLast_of_ne_nil hne]; rfl) with h | h
        · exact h
        · exact absurd (by rw [List.getLast?_eq_getLast_of_ne_nil hne, h]) hl
  · unfold Amount.written
    simp only
    split <;> simp
  · unfold Amount.written
    simp only
    split
    · rename_i hl
      intro hd
      exfalso
      cases hs : a.commodity with
      | nil => rw [hs] at hl; cases hl
      | cons x xs =>
        rw [hs] at hl hd
        cases xs with
        | nil =>
          simp at hl
          have := s1 x (by rw [hs]; rfl)
          rw [hl] at this
          exact absurd this (by decide)
        | cons y ys => simp at hd
    · simp

theorem note_ok {ind s : Str} (hi : Indent ind) (h : NoteText s) : Note.Ok { indent := ind, comment := { text := s } } :=
  ⟨hi, Or.inl rfl, h.2, fun h0 => absurd h0 h.1⟩

theorem posting_ok [Unicode] {p : Posting} (h : p.Tidy) : p.written.Ok ∧ p.written.meaning = p := by
  obtain ⟨h1, h2, h3, a, ha, h4, h5⟩ := h
  rw [Option.mem_def] at ha
  refine ⟨⟨show Indent (str "    ") by decide, h2, ?_, ?_⟩, ?_⟩
  · intro w hw
    simp only [Posting.written, ha, Option.map_some, Option.mem_def, Option.some.injEq] at hw
    subst hw
    exact amount_ok h4 h5
  · intro n hn
    obtain ⟨c, hc, rfl⟩ := List.mem_map.1 hn
    exact note_ok (by decide) (h3 c hc)
  · unfold Posting.written WrittenPosting.meaning
    simp only [ha, Option.map_some, amount_meaning a, List.map_map]
    rw [← h1, ← ha]
    have : p.comments.map ((fun n : Note => n.comment.text) ∘ fun c => { indent := str "      ", comment := { text := c } }) = p.comments := by
      conv_rhs => rw [← List.map_id p.comments]
      rfl
    rw [this]

theorem transaction_ok [U : Unicode] {t : Transaction} (h : t.Tidy) :
    t.written.Ok ∧ Closes t.written.body ∧ t.written.heading.complete t.written.body = t.plain := by
  obtain ⟨h1, h2, h3, h4, h5, h6, h7, h8, h9, h10, h11⟩ := h
  have hbody : t.written.body = t.postings := by
    unfold Transaction.written Entry.body
    rw [List.map_map]
    conv_rhs => rw [← List.map_id t.postings]
    exact List.map_congr_left fun p hp => (posting_ok (h10 p hp)).2
  have hsome : ∀ p ∈ t.postings, p.amount ≠ none := by
    intro p hp
    obtain ⟨_, _, _, a, ha, _⟩ := h10 p hp
    rw [Option.mem_def] at ha
    simp [ha]
  refine ⟨⟨?_, ?_, ?_⟩, ?_, ?_⟩
  · have hd := digit_ofNat (n := t.date.year.toNat / 1000 % 10) (by omega)
    refine ⟨⟨_, rfl, digit_number hd⟩, ?_, C11_format_parses_back t.date h1 h2 h3, ?_, ?_, ?_, ?_, h4, h5, ?_⟩
    · intro hc
      unfold Transaction.written Date.format pad4 pad2 at hc
      simp only [List.cons_append, List.nil_append, List.mem_cons, List.not_mem_nil, or_false] at hc
      have hdig : ∀ n, ' ' ≠ Char.ofNat (48 + n % 10) := fun n e => (digit_plain (digit_ofNat (Nat.mod_lt n (by omega)))).2.2.2 e.symm
      rcases hc with h | h | h | h | h | h | h | h | h | h
      all_goals first | exact hdig _ h | exact absurd h (by decide)
    · unfold Transaction.written; simp only; split <;> decide
    · left; unfold Transaction.written; simp only; split <;> rfl
    · unfold Transaction.written; simp only; split <;> decide
    · intro hs
      refine ⟨?_, h6 hs⟩
      unfold Transaction.written at hs ⊢
      simp only at hs ⊢
      rw [if_pos hs]
    · intro n hn
      unfold Transaction.written at hn
      simp only at hn
      split at hn
      · cases hn
      · rename_i hne
        cases hn
        obtain ⟨k1, k2⟩ := h7 hne
        exact ⟨k1, ⟨Or.inl rfl, k2.2, fun h0 => absurd h0 k2.1⟩, Or.inr rfl, show ∀ c ∈ (str "    ").tail, c = ' ' by decide⟩
  · intro n hn
    obtain ⟨c, hc, rfl⟩ := List.mem_map.1 hn
    exact note_ok (by decide) (h8 c hc)
  · intro p hp
    obtain ⟨q, hq, rfl⟩ := List.mem_map.1 hp
    exact (posting_ok (h10 q hq)).1
  · rw [hbody]
    refine ⟨h9, ?_, fun _ => h11⟩
    rw [List.filter_eq_nil_iff.2]
    · simp
    · intro p hp; simpa using hsome p hp
  · rw [hbody]
    have hnone : t.postings.findIdx? (fun p => p.amount = none) = none := by
      rw [List.findIdx?_eq_none_iff]
      intro p hp
      simpa using hsome p hp
    have hinf : inferred t.postings = t.postings := if_pos h11
    unfold Transaction.complete
    rw [hnone, hinf]
    unfold Entry.heading Header.meaning Transaction.written Transaction.plain
    simp only [List.map_map]
    have hn : (t.notes.map ((fun n : Note => n.comment.text) ∘ fun c => { indent := str "    ", comment := { text := c } })) = t.notes := by
      conv_rhs => rw [← List.map_id t.notes]
      rfl
    rw [hn]
    cases t with
    | mk date state payee postings elided headerNote notes =>
      by_cases h0 : headerNote = [] <;> simp [h0]

/-- Parsing the text that print writes for tidy transactions delivers them again, in the same order. -/
theorem C50_print_parses_back [Unicode] (fs : FileSystem) (H : Handlers σ) (hH : Attends H) (maxOpen : Nat) (file : Str) (u : σ)
    (ts : List Transaction) (hts : ∀ t ∈ ts, t.Tidy) (hfit : ∀ t ∈ ts, Fits t.written.lines) :
    callsOf fs H maxOpen (encode (printReport ts)) file u = ts.map (fun t => .normal t.plain file) ∧
      failureOf fs H maxOpen (encode (printReport ts)) file u = none := by
  have hsome : ∀ t ∈ ts, ∀ p ∈ t.postings, p.amount ≠ none := by
    intro t ht p hp
    obtain ⟨_, _, _, a, ha, _⟩ := (hts t ht).2.2.2.2.2.2.2.2.2.1 p hp
    rw [Option.mem_def] at ha
    simp [ha]
  rw [printed_journal hsome]
  have := written_journal fs H hH maxOpen file u (ts.map fun t => (Paragraph.entry t.written, 0)) ?_ ?_
  · rw [this.1, this.2]
    refine ⟨?_, rfl⟩
    rw [List.map_map]
    refine List.map_congr_left fun t ht => ?_
    simp only [Function.comp_apply, Paragraph.call, (transaction_ok (hts t ht)).2.2]
  · intro p hp
    obtain ⟨t, ht, rfl⟩ := List.mem_map.1 hp
    exact ⟨(transaction_ok (hts t ht)).1, (transaction_ok (hts t ht)).2.1⟩
  · intro l hl
    unfold journalLines at hl
    rw [List.mem_flatMap] at hl
    obtain ⟨p, hp, hl⟩ := hl
    obtain ⟨t, ht, rfl⟩ := List.mem_map.1 hp
    rw [List.mem_append] at hl
    rcases hl with hl | hl
    · exact hfit t ht l hl
    · rw [List.eq_of_mem_replicate hl]
      decide

/-- Tidy transactions, and what print writes for them. -/
example :
    letI := asciiUnicode
    let t1 : Transaction :=
      { date := ⟨2020, 2, 29⟩, state := .cleared, payee := str "Big shop", headerNote := str "receipt", notes := [str "a note"],
        postings := [{ linked := true, accountPath := str "Expenses:Food", amount := some ⟨str "£", 1234⟩, comments := [str "milk", str "eggs"] },
          { linked := true, accountPath := str "Assets:My bank", amount := some ⟨str "GBP ", -1234⟩ }] }
    let t2 : Transaction :=
      { date := ⟨2020, 3, 1⟩, postings := [{ linked := true, accountPath := str "A", amount := some ⟨[], 0⟩ }] }
    (∀ t ∈ [t1, t2], t.Tidy) ∧ (∀ t ∈ [t1, t2], Fits t.written.lines) ∧
    printReport [t1, t2] = str "2020-02-29 * Big shop    ; receipt\n    ; a note\n    Expenses:Food    £12.34\n      ; milk\n      ; eggs\n    Assets:My bank    GBP -12.34\n\n2020-03-01   \n    A    0.00\n\n" := by
  decide +kernel

end Gledger
