import Verif.Props.Includes
import Verif.Lemmas.Encode

set_option maxRecDepth 100000

namespace Gledger

variable {σ : Type}

/-! ### C19 Errors name the line where parsing stopped -/

/-- How reading lines can stop: at a line of which an item or the lexer fails, or at a line that is too long;
the lines before it were processed without failure. -/
theorem feedLines_stop [Unicode] {S : Type} (cb : ItemParser S) (hint : Str) (lines : List RawLine) :
    ∀ (n : Nat) (s s' : S) (f : Failure), feedLines cb hint n lines s = (s', some f) →
      ∃ k s₀, feedLines cb hint n (lines.take k) s = (s₀, none) ∧
        ((∃ l f', lines[k]? = some (.line l) ∧ lexLine cb hint l s₀ = (s', some f') ∧ f = f'.wrap (.atLine hint (n + k))) ∨
          (lines[k]? = some .tooLong ∧ s' = s₀ ∧ f = .fatal)) := by
  induction lines with
  | nil => intro n s s' f h; simp [feedLines] at h
  | cons x xs ih =>
    intro n s s' f h
    cases x with
    | tooLong =>
      simp only [feedLines, Prod.mk.injEq, Option.some.injEq] at h
      exact ⟨0, s, rfl, Or.inr ⟨rfl, h.1.symm, h.2.symm⟩⟩
    | line b =>
      rw [feedLines] at h
      cases hr : runLine cb (lineItems hint (runes b)) s with
      | mk s1 o =>
        rw [hr] at h
        cases o with
        | none =>
          simp only [Step.wrap, Option.map_none, andThen_ok] at h
          obtain ⟨k, s₀, h1, h2⟩ := ih (n + 1) s1 s' f h
          refine ⟨k + 1, s₀, ?_, ?_⟩
          · simp only [List.take_succ_cons, feedLines, hr, Step.wrap, Option.map_none, andThen_ok]
            exact h1
          · simpa [Nat.add_assoc, Nat.add_comm 1 k] using h2
        | some f' =>
          simp only [Step.wrap, Option.map_some, Step.andThen, Prod.mk.injEq, Option.some.injEq] at h
          exact ⟨0, s, rfl, Or.inl ⟨b, f', rfl, by rw [lexLine_eq, hr, h.1], by rw [← h.2]; rfl⟩⟩

/-- How parsing a file can fail: at some line, all previous lines having been processed without failure, in which
case an error names the file and the number of the line (counted from 1); or when the end of the file closes the last
transaction, in which case nothing is added to the error but the words "error at". -/
theorem C19_errors_name_line [Unicode] (fs : FileSystem) (H : Handlers σ) (maxOpen : Nat) (path : Str) (u : σ)
    (bytes : List UInt8) (f : Failure) (hf : failureOf fs H maxOpen bytes path u = some f) :
    (∃ k s₀, feedLines (parseItem fs (logged H) maxOpen) path 1 ((readLines bytes).take k) (rootStart (u, []) path) = (s₀, none) ∧
      ((∃ l f', (readLines bytes)[k]? = some (.line l) ∧
          (lexLine (parseItem fs (logged H) maxOpen) path l s₀).2 = some f' ∧
          f = (f'.wrap (.atLine path (k + 1))).wrap .errorAt ∧
          callsOf fs H maxOpen bytes path u = (lexLine (parseItem fs (logged H) maxOpen) path l s₀).1.user.2) ∨
        ((readLines bytes)[k]? = some .tooLong ∧ f = .fatal ∧ callsOf fs H maxOpen bytes path u = s₀.user.2))) ∨
    (∃ s₀ f', feedLines (parseItem fs (logged H) maxOpen) path 1 (readLines bytes) (rootStart (u, []) path) = (s₀, none) ∧
      (endTransaction (logged H) s₀).2 = some f' ∧ f = f'.wrap .errorAt ∧
      callsOf fs H maxOpen bytes path u = (endTransaction (logged H) s₀).1.user.2) := by
  unfold failureOf at hf
  unfold callsOf
  rw [parse_new] at hf ⊢
  cases hr : feedLines (parseItem fs (logged H) maxOpen) path 1 (readLines bytes) (rootStart (u, []) path) with
  | mk s o =>
    rw [hr] at hf
    cases o with
    | none =>
      right
      simp only [andThen_ok, parseItem_eof, Step.wrap, Option.map_eq_some_iff] at hf ⊢
      obtain ⟨f', h1, h2⟩ := hf
      exact ⟨s, f', rfl, h1, h2.symm, rfl⟩
    | some f' =>
      left
      simp only [Step.andThen, Step.wrap, Option.map_some, Option.some.injEq] at hf ⊢
      obtain ⟨k, s₀, h1, h2⟩ := feedLines_stop _ _ _ _ _ _ _ hr
      refine ⟨k, s₀, h1, ?_⟩
      rcases h2 with ⟨l, f'', h2, h3, h4⟩ | ⟨h2, h3, h4⟩
      · left
        refine ⟨l, f'', h2, by rw [h3], ?_, by rw [h3]⟩
        rw [← hf, h4, Nat.add_comm]
      · right
        exact ⟨h2, by rw [← hf, h4]; rfl, by rw [h3]⟩

/-- Handlers that do not fail. -/
def NeverFails (H : Handlers σ) : Prop :=
  (∀ h, H.th = some h → ∀ s t f, (h s t f).2 = none) ∧ (∀ h, H.ph = some h → ∀ s t f, (h s t f).2 = none)

theorem addPosting_err (t : Transaction) (p : Posting) : (t.addPosting p).2 = none ∨ (t.addPosting p).2 = some .tooManyElided := by
  unfold Transaction.addPosting
  repeat' split
  all_goals simp

theorem close_err (t : Transaction) : t.close.2 = none ∨ t.close.2 = some .unbalanced := by
  rw [close_eq]
  repeat' split
  all_goals simp

theorem endNormal_err (cur : Option Posting) (budget : Bool) (t : Transaction) :
    (endNormalTransaction cur budget t).2 = none ∨ (endNormalTransaction cur budget t).2 = some .unbalanced ∨
      (endNormalTransaction cur budget t).2 = some .tooManyElided := by
  rw [endNormal_eq]
  have h1 : (addLast cur t).2 = none ∨ (addLast cur t).2 = some .tooManyElided := by
    cases cur with
    | none => exact Or.inl rfl
    | some p => exact addPosting_err t p
  generalize addLast cur t = r at h1
  obtain ⟨t', _ | e⟩ := r
  · simp only
    generalize (if budget && !(t'.postings.any fun p => p.accountPath = budgetRootID) then
          (t'.addPosting { linked := true, accountPath := budgetRootID }).1 else t') = x
    rcases close_err x with h | h <;> simp [h]
  · simp only [reduceCtorEq, false_or] at h1
    simp [h1]

/-- Errors raised when a transaction ends. -/
theorem endTransaction_err (H : Handlers σ) (hH : NeverFails H) (st : PState σ) (hfiles : st.files ≠ []) :
    (endTransaction H st).2 = none ∨ (endTransaction H st).2 = some (.err .unbalanced) ∨
      (endTransaction H st).2 = some (.err .tooManyElided) := by
  have hcall : ∀ {α : Type} (h : Option (σ → α → Str → Step σ)) (a : α) (st : PState σ) (k : PState σ → PState σ), st.files ≠ [] →
      (∀ h', h = some h' → ∀ s t f, (h' s t f).2 = none) → ((callHandler h a st).andThen fun s => (k s, none)).2 = none := by
    intro α h a st k hf hh
    unfold callHandler
    cases h with
    | none => rfl
    | some h =>
      simp only [List.getLast?_eq_getLast_of_ne_nil hf, hh h rfl, andThen_ok]
  unfold endTransaction
  cases st.builder.ttype with
  | normal =>
    cases st.builder.transaction with
    | none => exact Or.inl rfl
    | some t =>
      simp only
      split
      · rename_i e he
        have := endNormal_err st.builder.current false t
        rw [he] at this
        simpa using this
      · left
        exact hcall H.th _ _ _ (by exact hfiles) hH.1
  | periodic =>
    cases st.builder.periodic with
    | none => exact Or.inl rfl
    | some pt =>
      simp only
      split
      · rename_i e he
        have := endNormal_err st.builder.current (pt.period.interval = .none) pt.transaction
        rw [he] at this
        simpa using this
      · left
        exact hcall H.ph _ _ _ (by exact hfiles) hH.2

theorem NeverFails.logged {H : Handlers σ} (h : NeverFails H) : NeverFails (logged H) := by
  constructor
  · intro h' hh s t f
    simp only [Gledger.logged, Option.map_eq_some_iff] at hh
    obtain ⟨g, hg, rfl⟩ := hh
    exact h.1 g hg _ _ _
  · intro h' hh s t f
    simp only [Gledger.logged, Option.map_eq_some_iff] at hh
    obtain ⟨g, hg, rfl⟩ := hh
    exact h.2 g hg _ _ _

/-- With handlers that do not fail, an error carries the file and a line number of the file, except "does not
balance" and "more than one elided" raised at the end of the file, which carry none. -/
theorem C19_line_number_or_end [Unicode] (fs : FileSystem) (H : Handlers σ) (hH : NeverFails H) (maxOpen : Nat) (path : Str) (u : σ)
    (bytes : List UInt8) (e : Err) (hf : failureOf fs H maxOpen bytes path u = some (.err e)) :
    (∃ k e', k < (readLines bytes).length ∧ e = .errorAt (.atLine path (k + 1) e')) ∨
      e = .errorAt .unbalanced ∨ e = .errorAt .tooManyElided := by
  rcases C19_errors_name_line fs H maxOpen path u bytes _ hf with ⟨k, s₀, h1, h2 | h2⟩ | ⟨s₀, f', h1, h2, h3, _⟩
  · obtain ⟨l, f', h3, h4, h5, _⟩ := h2
    left
    have hk : k < (readLines bytes).length := by
      by_contra hk
      rw [List.getElem?_eq_none (by omega)] at h3
      cases h3
    cases f' with
    | err e' =>
      simp only [Failure.wrap, Failure.err.injEq] at h5
      exact ⟨k, e', hk, h5⟩
    | panic p => simp [Failure.wrap] at h5
    | fatal => simp [Failure.wrap] at h5
  · cases h2.2.1
  · right
    have hfiles : s₀.files ≠ [] := by
      have := (feedLines_root (logged H) fs maxOpen path (readLines bytes) 1 (rootStart (u, []) path) rfl (rootStart_shape _ _)).2
      rw [h1] at this
      rw [(this rfl).1]
      simp
    have := endTransaction_err (logged H) hH.logged s₀ hfiles
    rw [h2] at this
    simp only [reduceCtorEq, false_or, Option.some.injEq] at this
    rcases this with rfl | rfl
    · left; exact Failure.err.inj h3
    · right; exact Failure.err.inj h3

/-- Both kinds occur: an unbalanced transaction closed by a blank line (line 4) and by the end of the file. -/
example :
    letI := asciiUnicode
    failureOf noFiles recorder 1 (utf8 "; c\n2020-01-01 x\n  A  1\n\n") (str "f") [] =
      some (.err (.errorAt (.atLine (str "f") 4 .unbalanced))) ∧
    failureOf noFiles recorder 1 (utf8 "; c\n2020-01-01 x\n  A  1\n") (str "f") [] = some (.err (.errorAt .unbalanced)) ∧
    NeverFails recorder := by
  refine ⟨by decide, by decide, ?_, ?_⟩
  · intro h hh s t f; cases hh; rfl
  · intro h hh s t f; cases hh; rfl

/-! ### C21 Over-long lines are never truncated silently -/

/-- A line of 4096 bytes or more, ended by a newline or by the end of the file, ends the program at that line:
what precedes it has been processed exactly as before, nothing of the line or of what follows is. -/
theorem C21_long_line_is_fatal [Unicode] (fs : FileSystem) (H : Handlers σ) (maxOpen : Nat) (path : Str) (u : σ)
    (a c rest : List UInt8) (ha : WholeLines a) (hc : (10 : UInt8) ∉ c) (hlen : 4096 ≤ c.length)
    (hrest : rest = [] ∨ rest.head? = some 10) :
    let before := feedLines (parseItem fs (logged H) maxOpen) path 1 (readLines a) (rootStart (u, []) path)
    callsOf fs H maxOpen (a ++ (c ++ rest)) path u = before.1.user.2 ∧
      failureOf fs H maxOpen (a ++ (c ++ rest)) path u =
        (match before.2 with
          | none => some .fatal
          | some f => some (f.wrap .errorAt)) := by
  intro before
  have h1 : ∃ more, readLines (a ++ (c ++ rest)) = readLines a ++ .tooLong :: more := by
    rw [readLines_append ha]
    rcases hrest with rfl | hr
    · refine ⟨[], ?_⟩
      rw [List.append_nil, readLines_last c hc, if_neg (by rintro rfl; simp at hlen), unterminatedLine, bufSize, if_pos hlen]
    · cases rest with
      | nil => simp at hr
      | cons x xs =>
        simp only [List.head?_cons, Option.some.injEq] at hr
        subst hr
        refine ⟨readLines xs, ?_⟩
        rw [readLines_line c xs hc, terminatedLine, bufSize, if_pos (by omega)]
  obtain ⟨more, h1⟩ := h1
  unfold callsOf failureOf
  rw [parse_new_lexLoop, h1, lexLoop_append]
  change _ ∧ ((Step.andThen before _).wrap Err.errorAt).2 = _
  change ((Step.andThen before _).wrap Err.errorAt).1.user.2 = _ ∧ _
  obtain ⟨s, _ | f⟩ := before
  · exact ⟨rfl, rfl⟩
  · exact ⟨rfl, rfl⟩

/-- The bytes of a line without one final carriage return. -/
def dropCR (c : List UInt8) : List UInt8 := if c.getLast? = some 13 then c.dropLast else c

/-- A line that fits is delivered whole: all its bytes, except a carriage return before the newline. -/
theorem C21_fitting_line_is_whole (a c b : List UInt8) (ha : WholeLines a) (hc : (10 : UInt8) ∉ c) (hlen : c.length < 4096) :
    readLines (a ++ (c ++ 10 :: b)) = readLines a ++ .line (dropCR c) :: readLines b := by
  rw [readLines_append ha, readLines_line c b hc, terminatedLine, bufSize, if_neg (by omega), dropCR]
  split <;> rfl

theorem readLinesFrom_whole (bytes : List UInt8) (hcr : (13 : UInt8) ∉ bytes) : ∀ seg, (13 : UInt8) ∉ seg → (10 : UInt8) ∉ seg →
    RawLine.tooLong ∉ readLinesFrom seg bytes →
    ∃ ls : List (List UInt8), readLinesFrom seg bytes = ls.map .line ∧
      (textOf [10] ls = seg ++ bytes ∨ textOf [10] ls = seg ++ bytes ++ [10]) := by
  induction bytes with
  | nil =>
    intro seg h13 h10 hno
    simp only [readLinesFrom] at hno ⊢
    split
    · rename_i h
      subst h
      exact ⟨[], rfl, Or.inl rfl⟩
    · rename_i h
      rw [if_neg h] at hno
      unfold unterminatedLine at hno ⊢
      split
      · rename_i h2
        rw [if_pos h2] at hno
        simp at hno
      · exact ⟨[seg], rfl, Or.inr (by simp [textOf])⟩
  | cons x xs ih =>
    intro seg h13 h10 hno
    simp only [List.mem_cons, not_or] at hcr
    simp only [readLinesFrom] at hno ⊢
    by_cases hx : x = 10
    · rw [if_pos hx] at hno ⊢
      simp only [List.mem_cons, not_or] at hno
      obtain ⟨ls, h1, h2⟩ := ih hcr.2 [] (by simp) (by simp) hno.2
      have ht : terminatedLine seg = .line seg := by
        have := hno.1
        unfold terminatedLine at this ⊢
        split
        · rename_i h3
          rw [if_pos h3] at this
          exact absurd rfl this
        · rw [if_neg]
          intro h3
          exact h13 (List.mem_of_getLast? h3)
      refine ⟨seg :: ls, by rw [h1, ht]; rfl, ?_⟩
      subst hx
      rcases h2 with h2 | h2
      · left; simp only [textOf, List.flatMap_cons] at h2 ⊢; rw [h2]; simp
      · right; simp only [textOf, List.flatMap_cons] at h2 ⊢; rw [h2]; simp
    · rw [if_neg hx] at hno ⊢
      obtain ⟨ls, h1, h2⟩ := ih hcr.2 (seg ++ [x]) (by simp [h13, hcr.1]) (by simp [h10, Ne.symm hx]) hno
      exact ⟨ls, h1, by simpa using h2⟩

/-- If no line is too long, the lines delivered spell the whole file (without carriage returns, for simplicity):
putting a newline after each gives the file back, up to a final newline. -/
theorem C21_no_byte_lost (bytes : List UInt8) (hcr : (13 : UInt8) ∉ bytes) (hno : RawLine.tooLong ∉ readLines bytes) :
    ∃ ls : List (List UInt8), readLines bytes = ls.map .line ∧ (textOf [10] ls = bytes ∨ textOf [10] ls = bytes ++ [10]) := by
  have := readLinesFrom_whole bytes hcr [] (by simp) (by simp) hno
  simpa [readLines] using this

/-- The hypotheses are met by a line of 4096 letters. -/
example : (10 : UInt8) ∉ List.replicate 4096 (65 : UInt8) ∧ 4096 ≤ (List.replicate 4096 (65 : UInt8)).length ∧
    WholeLines (utf8 "2020-01-01 x\n") ∧ (13 : UInt8) ∉ utf8 "2020-01-01 x\n" ∧ RawLine.tooLong ∉ readLines (utf8 "2020-01-01 x\n") := by
  refine ⟨by simp, by simp, by decide, by decide, by decide⟩

/-! ### C22 Text is read as UTF-8 without loss -/

/-- A line that is the UTF-8 encoding of a text is lexed as exactly the characters of the text. -/
theorem C22_valid_text [Unicode] {S : Type} (cb : ItemParser S) (hint : Str) (cs : Str) (s : S) :
    runes (encode cs) = cs ∧ lexLine cb hint (encode cs) s = runLine cb (lineItems hint cs) s := by
  have h := runes_encode cs
  exact ⟨h, by rw [lexLine_eq, h]⟩

/-- What the lexer does with a line depends only on its characters: positions, widths and backing up have no
influence. -/
theorem C22_only_characters_matter [Unicode] {S : Type} (cb : ItemParser S) (hint : Str) (l l' : List UInt8) (h : runes l = runes l')
    (s : S) : lexLine cb hint l s = lexLine cb hint l' s := by
  rw [lexLine_eq, lexLine_eq, h]

/-- `bytes` is divided into consecutive pieces, one per character: the encoding of the character, or, for U+FFFD, a
single byte at which no encoding of a character begins. -/
def Divided : List UInt8 → Str → Prop
  | bytes, [] => bytes = []
  | bytes, c :: cs => ∃ piece rest, bytes = piece ++ rest ∧ Divided rest cs ∧
      (piece = String.utf8EncodeChar c ∨
        (c = Char.ofNat 0xFFFD ∧ piece.length = 1 ∧ ∀ c' rest', bytes ≠ String.utf8EncodeChar c' ++ rest'))

/-- Every line, valid or not, is divided into its characters: no byte is skipped or read twice. -/
theorem C22_every_byte_once (bytes : List UInt8) : Divided bytes (runes bytes) := by
  induction hn : bytes.length using Nat.strong_induction_on generalizing bytes with
  | _ n ih =>
    cases bytes with
    | nil => simp [Divided]
    | cons b bs =>
      rw [runes_cons]
      have hw := decodeRune_width_pos b bs
      refine ⟨(b :: bs).take (decodeRune (b :: bs)).2, (b :: bs).drop (decodeRune (b :: bs)).2,
        (List.take_append_drop _ _).symm, ih _ ?_ _ rfl, ?_⟩
      · rw [List.length_drop]; omega
      · rcases decodeRune_sound b bs with ⟨rest, h1, h2⟩ | ⟨h1, h2⟩
        · left
          rw [h2] at h1
          exact (List.append_cancel_right (as := (b :: bs).take (decodeRune (b :: bs)).2)
            (by rw [List.take_append_drop]; exact h1))
        · right
          exact ⟨by rw [h1]; rfl, by rw [h1]; simp, h2⟩

/-- A text with characters of one to four bytes, and a line with stray bytes. -/
example : runes (encode (str "aé€😀")) = str "aé€😀" ∧ (encode (str "aé€😀")).length = 10 ∧
    runes [0x41, 0xE2, 0x82, 0x42, 0xFF] = ['A', Char.ofNat 0xFFFD, Char.ofNat 0xFFFD, 'B', Char.ofNat 0xFFFD] := by decide

end Gledger
