import Verif.Lemmas.Parse

set_option maxRecDepth 100000

namespace Gledger

variable {σ : Type}

/-! ### C12 Comment lines are transparent -/

/-- A comment line consists of nothing. -/
theorem comment_line [Unicode] {c : List UInt8} (hc : c.head? = some 59 ∨ c.head? = some 35) (hlen : c.length < 4096) :
    ∃ l, terminatedLine c = .line l ∧ ∀ path, lineItems path (runes l) = { items := [] } := by
  have hline : ∃ l, terminatedLine c = .line l ∧ ∃ x xs, l = x :: xs ∧ (x = 59 ∨ x = 35) := by
    unfold terminatedLine bufSize
    rw [if_neg (by omega)]
    cases c with
    | nil => simp at hc
    | cons x xs =>
      simp only [List.head?_cons, Option.some.injEq] at hc
      split
      · rename_i hl
        cases xs with
        | nil =>
          simp only [List.getLast?_singleton, Option.some.injEq] at hl
          subst hl
          exact absurd hc (by decide)
        | cons y ys => exact ⟨_, rfl, x, (y :: ys).dropLast, rfl, hc⟩
      · exact ⟨_, rfl, x, xs, rfl, hc⟩
  obtain ⟨l, hl1, x, xs, rfl, hx⟩ := hline
  refine ⟨_, hl1, fun path => ?_⟩
  rw [runes_cons]
  rcases hx with rfl | rfl
  · have : (decodeRune (59 :: xs)).1 = ';' := by rw [decodeRune_of_ascii _ _ (by decide)]; decide
    simp [lineItems, this]
  · have : (decodeRune (35 :: xs)).1 = '#' := by rw [decodeRune_of_ascii _ _ (by decide)]; decide
    simp [lineItems, this]

theorem comment_rel [Unicode] (fs : FileSystem) (H : Handlers σ) (maxOpen : Nat) (path : Str) (st : PState σ) (hst : st.builder.Shape)
    (a c b : List UInt8) (ha : WholeLines a) (hc : c.head? = some 59 ∨ c.head? = some 35)
    (hnl : (10 : UInt8) ∉ c) (hlen : c.length < 4096) :
    StepRel Eq Eq (fun f g => f.unnumbered = g.unnumbered) (parse fs H maxOpen (a ++ (c ++ 10 :: b)) path st) (parse fs H maxOpen (a ++ b) path st) := by
  obtain ⟨l, hl1, hitems⟩ := comment_line hc hlen
  have key := parse_parts FailRel.unnumbered fs H maxOpen path st hst
    (readLines a) (.line l :: readLines b) (readLines b) (a ++ (c ++ 10 :: b)) (a ++ b)
    (by rw [readLines_append ha, readLines_line c b hnl, hl1]) (readLines_append ha b)
    (by
      intro s _
      rw [lexLoop_line, hitems]
      exact lexLoop_shift FailRel.unnumbered _ _ _ _ _ s)
  exact key

/-- A line starting with `;` (59) or `#` (35), between two parts of a file: parsing ends in the same state and
with the same failure, if any, up to line numbers. -/
theorem C12_comment_lines [Unicode] (fs : FileSystem) (H : Handlers σ) (maxOpen : Nat) (path : Str) (u : σ)
    (a c b : List UInt8) (ha : WholeLines a) (hc : c.head? = some 59 ∨ c.head? = some 35)
    (hnl : (10 : UInt8) ∉ c) (hlen : c.length < 4096) :
    let withComment := parse fs H maxOpen (a ++ (c ++ 10 :: b)) path (newParser u)
    let without := parse fs H maxOpen (a ++ b) path (newParser u)
    withComment.1 = without.1 ∧ withComment.2.map Failure.unnumbered = without.2.map Failure.unnumbered := by
  have key := comment_rel fs H maxOpen path (newParser u) (newParser_shape u) a c b ha hc hnl hlen
  exact ⟨key.eq_user.1, key.unnumbered⟩

/-- A comment in the middle of a transaction that parses. -/
example :
    letI := asciiUnicode
    callsOf noFiles recorder 1 (utf8 "2020-01-01 x\n  A  1\n" ++ (utf8 "; no" ++ 10 :: utf8 "  B\n")) (str "f") [] =
      callsOf noFiles recorder 1 (utf8 "2020-01-01 x\n  A  1\n" ++ utf8 "  B\n") (str "f") [] ∧
    (callsOf noFiles recorder 1 (utf8 "2020-01-01 x\n  A  1\n" ++ utf8 "  B\n") (str "f") []).length = 1 := by decide

/-! ### C13 Extra blank lines are transparent -/

/-- A blank line, ended by LF or CRLF. -/
def BlankLine (nl : List UInt8) : Prop := nl = [10] ∨ nl = [13, 10]

theorem blanks_rel [Unicode] (fs : FileSystem) (H : Handlers σ) (maxOpen : Nat) (path : Str) (st : PState σ) (hst : st.builder.Shape)
    (a nl nl' b : List UInt8) (ha : WholeLines a) (h1 : BlankLine nl) (h2 : BlankLine nl') :
    StepRel Eq Eq (fun f g => f.unnumbered = g.unnumbered) (parse fs H maxOpen (a ++ (nl ++ (nl' ++ b))) path st) (parse fs H maxOpen (a ++ (nl ++ b)) path st) := by
  have key := parse_parts FailRel.unnumbered fs H maxOpen path st hst
    (readLines a) (.line [] :: .line [] :: readLines b) (.line [] :: readLines b) _ _
    (by rw [readLines_append ha, readLines_blank _ _ h1, readLines_blank _ _ h2])
    (by rw [readLines_append ha, readLines_blank _ _ h1])
    (by
      intro s hs
      rw [lexLoop_line, lexLoop_line]
      simp only [runes_nil, lineItems_nil, runLine_ok, runItems_cons, andThen_runItems_nil, parseItem_empty]
      have hi := (endTransaction_idle H s hs).2
      generalize endTransaction H s = r at hi
      obtain ⟨s', _ | e⟩ := r
      · simp only [Step.wrap, Option.map_none, andThen_ok]
        rw [lexLoop_line]
        simp only [runes_nil, lineItems_nil, runLine_ok, runItems_cons, andThen_runItems_nil, parseItem_empty]
        rw [endTransaction_of_idle H s' (hi rfl)]
        exact lexLoop_shift FailRel.unnumbered _ _ _ _ _ s'
      · exact StepRel.refl FailRel.unnumbered.refl)
  exact key

/-- Repeating a blank line changes nothing (up to line numbers). -/
theorem C13_repeated_blank [Unicode] (fs : FileSystem) (H : Handlers σ) (maxOpen : Nat) (path : Str) (u : σ)
    (a nl nl' b : List UInt8) (ha : WholeLines a) (h1 : BlankLine nl) (h2 : BlankLine nl') :
    let twice := parse fs H maxOpen (a ++ (nl ++ (nl' ++ b))) path (newParser u)
    let once := parse fs H maxOpen (a ++ (nl ++ b)) path (newParser u)
    twice.1 = once.1 ∧ twice.2.map Failure.unnumbered = once.2.map Failure.unnumbered := by
  have key := blanks_rel fs H maxOpen path (newParser u) (newParser_shape u) a nl nl' b ha h1 h2
  exact ⟨key.eq_user.1, key.unnumbered⟩

/-- A line that begins a transaction or a periodic transaction: it starts with a number character, or with `~`
followed by a blank or a tab. -/
def HeaderLine [U : Unicode] (l : List UInt8) : Prop :=
  ∃ c cs, runes l = c :: cs ∧ (U.isNumber c = true ∨ (c = '~' ∧ (cs.head? = some ' ' ∨ cs.head? = some '\t')))

/-- Reading a header begins by ending the open transaction. -/
theorem headerLine_start [U : Unicode] (fs : FileSystem) (H : Handlers σ) (maxOpen : Nat) (path : Str) (l : List UInt8) (hl : HeaderLine l) :
    ∃ k : PState σ → Step (PState σ), ∀ s, runLine (parseItem fs H maxOpen) (lineItems path (runes l)) s =
      (endTransaction H s).andThen k := by
  -- the items of a header begin with the date or the period
  have hitems : ∃ content is, lineItems path (runes l) = { items := (.dateItem, content) :: is } ∨
      lineItems path (runes l) = { items := (.periodItem, content) :: is } := by
    obtain ⟨c, cs, hr, hc⟩ := hl
    rw [hr]
    rcases hc with hc | ⟨rfl, hc⟩
    · have hne : ∀ d : Char, d.toNat < 128 → isDigit d = false → c ≠ d := by
        rintro d hd1 hd2 rfl
        rw [U.number_ascii c hd1, hd2] at hc
        cases hc
      have e1 := hne ';' (by decide) (by decide)
      have e2 := hne '#' (by decide) (by decide)
      have e3 := hne 'i' (by decide) (by decide)
      have e4 := hne '~' (by decide) (by decide)
      refine ⟨(c :: cs).takeWhile (· ≠ ' '), stateItems ((c :: cs).dropWhile (· ≠ ' ')), Or.inl ?_⟩
      simp only [lineItems, e1, e2, e3, e4, or_self, if_false, hc, if_true, headerItems]
    · refine ⟨(field (afterSpace cs)).1, [], Or.inr ?_⟩
      have hw : ¬ spaceWidth cs = 0 := by
        cases cs with
        | nil => simp at hc
        | cons d ds =>
          simp only [List.head?_cons, Option.some.injEq] at hc
          rcases hc with rfl | rfl <;> simp [spaceWidth, isSpace, blankWidth]
      simp [lineItems, periodItems, hw]
  obtain ⟨content, is, hitems⟩ := hitems
  rcases hitems with h | h <;> rw [h] <;> simp only [runLine_ok, runItems_cons]
  · exact ⟨fun st => ((liftBuilder { st with builder := st.builder.begin .normal }
      ((st.builder.begin .normal).build .dateItem content)).wrap .parsingDate).andThen (runItems (parseItem fs H maxOpen) is),
      fun s => by rw [parseItem_date, andThen_assoc]⟩
  · exact ⟨fun st => ((liftBuilder { st with builder := st.builder.begin .periodic }
      ((st.builder.begin .periodic).build .periodItem content)).wrap .parsingPeriod).andThen (runItems (parseItem fs H maxOpen) is),
      fun s => by rw [parseItem_period, andThen_assoc]⟩

theorem blankHeader_rel [U : Unicode] (fs : FileSystem) (H : Handlers σ) (maxOpen : Nat) (path : Str) (st : PState σ) (hst : st.builder.Shape)
    (a nl b l : List UInt8) (rest : List RawLine) (ha : WholeLines a) (h1 : BlankLine nl)
    (hb : readLines b = .line l :: rest) (hl : HeaderLine l) :
    StepRel Eq Eq (fun f g => f.unnumbered = g.unnumbered) (parse fs H maxOpen (a ++ (nl ++ b)) path st) (parse fs H maxOpen (a ++ b) path st) := by
  obtain ⟨k, hk⟩ := headerLine_start fs H maxOpen path l hl
  have key := parse_parts FailRel.unnumbered fs H maxOpen path st hst
    (readLines a) (.line [] :: .line l :: rest) (.line l :: rest) _ _
    (by rw [readLines_append ha, readLines_blank _ _ h1, hb]) (by rw [readLines_append ha, hb])
    (by
      intro s hs
      rw [lexLoop_line, lexLoop_line, hk]
      simp only [runes_nil, lineItems_nil, runLine_ok, runItems_cons, andThen_runItems_nil, parseItem_empty]
      have hi := (endTransaction_idle H s hs).2
      generalize endTransaction H s = r at hi
      obtain ⟨s', _ | e⟩ := r
      · simp only [Step.wrap, Option.map_none, andThen_ok]
        rw [lexLoop_line, hk, endTransaction_of_idle H s' (hi rfl)]
        simp only [andThen_ok]
        refine StepRel.andThen (R := Eq) (StepRel.wrap (StepRel.refl FailRel.unnumbered.refl)
          fun f g h => FailRel.unnumbered.atLine f g _ _ _ h) fun s t h => ?_
        subst h
        exact lexLoop_shift FailRel.unnumbered _ _ _ _ _ s
      · exact StepRel.fail rfl rfl)
  exact key

/-- A blank line inserted before a header changes nothing (up to line numbers). -/
theorem C13_blank_before_header [U : Unicode] (fs : FileSystem) (H : Handlers σ) (maxOpen : Nat) (path : Str) (u : σ)
    (a nl b l : List UInt8) (rest : List RawLine) (ha : WholeLines a) (h1 : BlankLine nl)
    (hb : readLines b = .line l :: rest) (hl : HeaderLine l) :
    let more := parse fs H maxOpen (a ++ (nl ++ b)) path (newParser u)
    let less := parse fs H maxOpen (a ++ b) path (newParser u)
    more.1 = less.1 ∧ more.2.map Failure.unnumbered = less.2.map Failure.unnumbered := by
  have key := blankHeader_rel fs H maxOpen path (newParser u) (newParser_shape u) _ _ _ _ _ ha h1 hb hl
  exact ⟨key.eq_user.1, key.unnumbered⟩

theorem atEnd_rel [Unicode] (fs : FileSystem) (H : Handlers σ) (maxOpen : Nat) (path : Str) (st : PState σ) (hst : st.builder.Shape)
    (a nl : List UInt8) (ha : WholeLines a) (h1 : BlankLine nl) :
    StepRel Eq Eq (fun f g => f.core = g.core) (parse fs H maxOpen (a ++ nl) path st) (parse fs H maxOpen a path st) := by
  have key := parse_parts FailRel.core fs H maxOpen path st hst
    (readLines a) [.line []] [] (a ++ nl) a
    (by rw [readLines_append ha]; have := readLines_blank nl [] h1; rw [List.append_nil] at this; rw [this]; rfl)
    (by simp)
    (by
      intro s hs
      rw [lexLoop_line]
      simp only [runes_nil, lineItems_nil, runLine_ok, runItems_cons, andThen_runItems_nil, parseItem_empty, lexLoop,
        parseItem_eof]
      have hi := (endTransaction_idle H s hs).2
      generalize endTransaction H s = r at hi
      obtain ⟨s', _ | e⟩ := r
      · simp only [Step.wrap, Option.map_none, andThen_ok]
        rw [endTransaction_of_idle H s' (hi rfl)]
        exact StepRel.ok rfl
      · refine StepRel.fail rfl ?_
        cases e <;> rfl)
  exact key

/-- A blank line at the end of the file changes nothing, except that an error of the last transaction then has
a line number. -/
theorem C13_blank_at_end [Unicode] (fs : FileSystem) (H : Handlers σ) (maxOpen : Nat) (path : Str) (u : σ)
    (a nl : List UInt8) (ha : WholeLines a) (h1 : BlankLine nl) :
    let more := parse fs H maxOpen (a ++ nl) path (newParser u)
    let less := parse fs H maxOpen a path (newParser u)
    more.1 = less.1 ∧ more.2.map Failure.core = less.2.map Failure.core := by
  have key := atEnd_rel fs H maxOpen path (newParser u) (newParser_shape u) _ _ ha h1
  refine ⟨key.eq_user.1, ?_⟩
  rcases key with ⟨k1, k2, _⟩ | ⟨f, g, k1, k2, _, k4⟩ <;> simp_all

/-- Instances: the hypotheses hold for this text, and the transaction is delivered. -/
example :
    letI := asciiUnicode
    WholeLines (utf8 "2020-01-01 x\n  A  1\n  B\n") ∧
    readLines (utf8 "~ 2020-02\n  E  1\n") = [.line (utf8 "~ 2020-02"), .line (utf8 "  E  1")] ∧
    HeaderLine (utf8 "~ 2020-02") ∧
    (callsOf noFiles recorder 1 (utf8 "2020-01-01 x\n  A  1\n  B\n" ++ ([10] ++ utf8 "~ 2020-02\n  E  1\n")) (str "f") []).length = 2 := by
  refine ⟨by decide, by decide, ⟨'~', str " 2020-02", by decide, by decide⟩, by decide⟩

/-! ### C14 Line endings and the final newline do not matter -/

theorem readLines_textOf_lf (ls : List (List UInt8)) (h : ∀ l ∈ ls, PlainLine l) (b : List UInt8) :
    readLines (textOf [10] ls ++ b) = ls.map .line ++ readLines b := by
  induction ls with
  | nil => rfl
  | cons l ls ih =>
    obtain ⟨h1, h2, h3⟩ := h l (by simp)
    have : textOf [10] (l :: ls) ++ b = l ++ 10 :: (textOf [10] ls ++ b) := by simp [textOf]
    rw [this, readLines_line l _ h1, terminatedLine_plain (by omega) h2, ih fun l hl => h l (by simp [hl])]
    rfl

theorem readLines_textOf_crlf (ls : List (List UInt8)) (h : ∀ l ∈ ls, PlainLine l) (b : List UInt8) :
    readLines (textOf [13, 10] ls ++ b) = ls.map .line ++ readLines b := by
  induction ls with
  | nil => rfl
  | cons l ls ih =>
    obtain ⟨h1, h2, h3⟩ := h l (by simp)
    have : textOf [13, 10] (l :: ls) ++ b = (l ++ [13]) ++ 10 :: (textOf [13, 10] ls ++ b) := by simp [textOf]
    rw [this, readLines_line _ _ (by simp [h1]), terminatedLine_cr h3, ih fun l hl => h l (by simp [hl])]
    rfl

/-- CRLF or LF line endings, with or without the final newline: the same parse, exactly. -/
theorem C14_line_endings [Unicode] (fs : FileSystem) (H : Handlers σ) (maxOpen : Nat) (path : Str) (st : PState σ)
    (ls : List (List UInt8)) (last : List UInt8) (h : ∀ l ∈ ls, PlainLine l) (hl : PlainLine last) (hne : last ≠ []) :
    parse fs H maxOpen (textOf [13, 10] ls) path st = parse fs H maxOpen (textOf [10] ls) path st ∧
    parse fs H maxOpen (textOf [10] ls ++ last) path st = parse fs H maxOpen (textOf [10] (ls ++ [last])) path st ∧
    parse fs H maxOpen (textOf [13, 10] ls ++ last) path st =
      parse fs H maxOpen (textOf [13, 10] (ls ++ [last])) path st := by
  have e1 := readLines_textOf_lf ls h []
  have e2 := readLines_textOf_crlf ls h []
  simp only [List.append_nil] at e1 e2
  have e3 := readLines_textOf_lf ls h last
  have e4 := readLines_textOf_crlf ls h last
  have h' : ∀ l ∈ ls ++ [last], PlainLine l := by
    intro l hm
    rcases List.mem_append.1 hm with hm | hm
    · exact h l hm
    · rw [List.mem_singleton.1 hm]; exact hl
  have e5 := readLines_textOf_lf (ls ++ [last]) h' []
  have e6 := readLines_textOf_crlf (ls ++ [last]) h' []
  simp only [List.append_nil] at e5 e6
  have hlast : readLines last = [.line last] := by
    rw [readLines_last last hl.1, if_neg hne, unterminatedLine, if_neg (by unfold bufSize; have := hl.2.2; omega)]
  have h0 : readLines [] = [] := rfl
  simp only [parse, lex, e1, e2, e3, e4, e5, e6, hlast, h0, List.map_append, List.map_cons, List.map_nil,
    List.append_nil, and_self]

/-- The hypotheses hold for these lines, and the file parses. -/
example :
    letI := asciiUnicode
    (∀ l ∈ [utf8 "2020-01-01 x", utf8 "  A  1"], PlainLine l) ∧ PlainLine (utf8 "  B") ∧
    (callsOf noFiles recorder 1 (textOf [13, 10] [utf8 "2020-01-01 x", utf8 "  A  1"] ++ utf8 "  B") (str "f") []).length = 1 := by
  refine ⟨?_, ?_, by decide⟩
  · intro l hl
    simp only [List.mem_cons, List.not_mem_nil, or_false] at hl
    rcases hl with rfl | rfl <;> exact ⟨by decide, by decide, by decide⟩
  · exact ⟨by decide, by decide, by decide⟩

/-! ### C15 Files compose -/

theorem logged_parse_prefix [Unicode] (fs : FileSystem) (H : Handlers σ) (n : Nat) (path : Str) (b : List UInt8)
    (u : σ) (log : List Call) :
    StepRel (fun s t => s.user.1 = t.user.1 ∧ s.user.2 = log ++ t.user.2)
      (fun s t => s.user.1 = t.user.1 ∧ s.user.2 = log ++ t.user.2) (fun f g => f.unnumbered = g.unnumbered)
      (parse fs (logged H) n b path (newParser (u, log))) (parse fs (logged H) n b path (newParser (u, []))) := by
  have hu := UserSim.prefix H _ FailRel.unnumbered log
  rw [parse_new_lexLoop, parse_new_lexLoop]
  refine StepRel.wrap (StepRel.mono (lexLoop_rel (R := SimShape False _) FailRel.unnumbered (fun s t h => hu.weak _ _ h.1.1) path _
    (fun i c s t h => parseItem_rel FailRel.unnumbered (fun h => h.elim) hu fs n n i (Or.inl ⟨trivial, rfl⟩) c s t h) 1 1 _ _ ?_)
    (fun s t h => ⟨h.1.1.2.1, h.1.1.2.2⟩) (fun _ _ h => h) (fun _ _ h => h)) FailRel.unnumbered.errorAt
  exact ⟨⟨⟨rfl, rfl, by simp [rootStart]⟩, Or.inl rfl⟩, rootStart_shape _ _⟩

/-- A file made of two parts separated by a blank line: if the first part parses on its own, the calls are
those of the first part followed by those of the second part (started in the handlers' state after the first),
and the whole parses iff the second part does. -/
theorem C15_files_compose [Unicode] (fs : FileSystem) (H : Handlers σ) (maxOpen : Nat) (path : Str) (u : σ)
    (a nl b : List UInt8) (ha : WholeLines a) (hnl : BlankLine nl)
    (hok : failureOf fs H maxOpen a path u = none) :
    callsOf fs H maxOpen (a ++ (nl ++ b)) path u =
        callsOf fs H maxOpen a path u ++ callsOf fs H maxOpen b path (endStateOf fs H maxOpen a path u) ∧
      endStateOf fs H maxOpen (a ++ (nl ++ b)) path u =
        endStateOf fs H maxOpen b path (endStateOf fs H maxOpen a path u) ∧
      (failureOf fs H maxOpen (a ++ (nl ++ b)) path u = none ↔
        failureOf fs H maxOpen b path (endStateOf fs H maxOpen a path u) = none) := by
  unfold callsOf endStateOf failureOf at *
  -- the state after the first part
  have hA : ∃ s : PState (σ × List Call), s.builder.Idle ∧ s.files = [path] ∧
      (parse fs (logged H) maxOpen a path (newParser (u, []))).1 = s ∧
      parse fs (logged H) maxOpen (a ++ (nl ++ b)) path (newParser (u, [])) =
        (lexLoop (parseItem fs (logged H) maxOpen) path (1 + (readLines a).length + 1) (readLines b) s).wrap .errorAt := by
    rw [parse_new] at hok
    have e : parse fs (logged H) maxOpen (a ++ (nl ++ b)) path (newParser (u, [])) =
        ((feedLines (parseItem fs (logged H) maxOpen) path 1 (readLines a)
          (rootStart (u, []) path)).andThen
          (lexLoop (parseItem fs (logged H) maxOpen) path (1 + (readLines a).length) (.line [] :: readLines b))).wrap .errorAt := by
      rw [parse_new_lexLoop, readLines_append ha, readLines_blank _ _ hnl, lexLoop_append]
    rw [e, parse_new]
    have hk := feedLines_root (logged H) fs maxOpen path (readLines a) 1
      (rootStart (u, []) path) rfl (rootStart_shape _ _)
    generalize feedLines (parseItem fs (logged H) maxOpen) path 1 (readLines a)
      (rootStart (u, []) path) = r at hk hok
    obtain ⟨s0, _ | f⟩ := r
    · simp only [andThen_ok, parseItem_eof, wrap_none] at hok ⊢
      obtain ⟨hf, hsh⟩ := hk.2 rfl
      have hidle := (endTransaction_idle (logged H) s0 hsh).2 hok
      have hfiles := endTransaction_files (logged H) s0
      refine ⟨(endTransaction (logged H) s0).1, hidle, by rw [hfiles]; exact hf, rfl, ?_⟩
      rw [lexLoop_line]
      simp only [runes_nil, lineItems_nil, runLine_ok, runItems_cons, andThen_runItems_nil, parseItem_empty]
      generalize endTransaction (logged H) s0 = r2 at hok
      obtain ⟨s1, _ | f⟩ := r2
      · rfl
      · cases hok
    · simp [Step.wrap] at hok
  obtain ⟨s, hidle, hfiles, hs, hcomb⟩ := hA
  rw [hs, hcomb]
  -- the second part, from `s` and from a new parser
  have h1 : StepRel (fun s t : PState (σ × List Call) => s.user = t.user) (fun s t => s.user = t.user) (fun _ _ => True)
      ((lexLoop (parseItem fs (logged H) maxOpen) path (1 + (readLines a).length + 1) (readLines b) s).wrap .errorAt)
      (parse fs (logged H) maxOpen b path (newParser s.user)) := by
    have hu := UserSim.eq (logged H) FailRel.trivial
    rw [parse_new_lexLoop]
    refine StepRel.wrap (StepRel.mono (lexLoop_rel (R := SimShape True Eq) FailRel.trivial (fun s t h => hu.weak _ _ h.1.1) path _
      (fun i c s t h => parseItem_rel FailRel.trivial (fun _ _ _ => trivial) hu fs maxOpen maxOpen i (Or.inl ⟨trivial, rfl⟩) c s t h) _ 1 _ _ ?_)
      (fun s t h => ?_) (fun _ _ h => h) (fun _ _ h => h)) (fun _ _ _ => trivial)
    · refine ⟨⟨?_, Or.inr ⟨trivial, hidle, ⟨rfl, rfl, rfl⟩⟩⟩, Or.inl hidle⟩
      simp [hfiles, rootStart]
    · have := h.1.1
      simp only [Prod.mk.injEq] at this
      exact this.2
  have h2 := logged_parse_prefix fs H maxOpen path b s.user.1 s.user.2
  generalize hX : (lexLoop (parseItem fs (logged H) maxOpen) path (1 + (readLines a).length + 1) (readLines b) s).wrap Err.errorAt = X at h1
  simp only [Prod.mk.eta] at h2
  generalize parse fs (logged H) maxOpen b path (newParser s.user) = Y at h1 h2
  generalize parse fs (logged H) maxOpen b path (newParser (s.user.1, [])) = Z at h2
  rcases h1 with ⟨a1, a2, a3⟩ | ⟨f, g, a1, a2, a3, _⟩ <;> rcases h2 with ⟨b1, b2, b3⟩ | ⟨f', g', b1, b2, b3, _⟩
  · exact ⟨by rw [a3, b3.2], by rw [a3, b3.1], by simp [a1, b2]⟩
  · rw [a2] at b1; cases b1
  · rw [a2] at b1; cases b1
  · exact ⟨by rw [a3, b3.2], by rw [a3, b3.1], by simp [a1, b2]⟩

/-- If the first part does not parse on its own, nothing of the second part is delivered. -/
theorem C15_first_part_fails [Unicode] (fs : FileSystem) (H : Handlers σ) (maxOpen : Nat) (path : Str) (u : σ)
    (a nl b : List UInt8) (ha : WholeLines a) (hnl : BlankLine nl)
    (hfail : failureOf fs H maxOpen a path u ≠ none) :
    callsOf fs H maxOpen (a ++ (nl ++ b)) path u = callsOf fs H maxOpen a path u ∧
      endStateOf fs H maxOpen (a ++ (nl ++ b)) path u = endStateOf fs H maxOpen a path u ∧
      failureOf fs H maxOpen (a ++ (nl ++ b)) path u ≠ none := by
  unfold callsOf endStateOf failureOf at *
  have e : parse fs (logged H) maxOpen (a ++ (nl ++ b)) path (newParser (u, [])) =
      ((feedLines (parseItem fs (logged H) maxOpen) path 1 (readLines a)
        (rootStart (u, []) path)).andThen
        (lexLoop (parseItem fs (logged H) maxOpen) path (1 + (readLines a).length) (.line [] :: readLines b))).wrap .errorAt := by
    rw [parse_new_lexLoop, readLines_append ha, readLines_blank _ _ hnl, lexLoop_append]
  rw [parse_new] at hfail
  rw [e, parse_new]
  generalize feedLines (parseItem fs (logged H) maxOpen) path 1 (readLines a)
    (rootStart (u, []) path) = r at hfail ⊢
  obtain ⟨s0, _ | f⟩ := r
  · simp only [andThen_ok, parseItem_eof] at hfail ⊢
    rw [lexLoop_line]
    simp only [runes_nil, lineItems_nil, runLine_ok, runItems_cons, andThen_runItems_nil, parseItem_empty]
    generalize endTransaction (logged H) s0 = r2 at hfail
    obtain ⟨s1, _ | f⟩ := r2
    · simp [Step.wrap] at hfail
    · simp [Step.wrap]
  · simp [Step.wrap]

/-- Two parts, the first left open and closed by the blank line. -/
example :
    letI := asciiUnicode
    failureOf noFiles recorder 1 (utf8 "2020-01-01 x\n  A  1\n  B\n") (str "f") [] = none ∧
    (callsOf noFiles recorder 1 (utf8 "2020-01-01 x\n  A  1\n  B\n" ++ ([10] ++ utf8 "2020-01-02 y\n  A  1\n  B\n"))
      (str "f") []).map (fun c => c.transaction.payee) = [str "x", str "y"] := by decide

end Gledger
