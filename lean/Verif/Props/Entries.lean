import Verif.Lemmas.Closing
import Verif.Props.Errors
import Verif.Props.Amounts
import Verif.Props.Dates

set_option maxRecDepth 100000

namespace Gledger

variable {σ : Type}

/-! ### C23, C24, C25: a journal is read as written -/

/-- Handlers for both kinds of transactions that do not fail. -/
def Attends (H : Handlers σ) : Prop :=
  (∃ h, H.th = some h ∧ ∀ s t f, (h s t f).2 = none) ∧ ∃ h, H.ph = some h ∧ ∀ s t f, (h s t f).2 = none

theorem period_line [U : Unicode] (hint : Str) {b : BudgetEntry} (h : b.Ok) :
    lineItems hint ('~' :: (b.gap ++ b.period)) = { items := [(.periodItem, b.period)] } := by
  obtain ⟨h1, h2, h3, h4, _⟩ := h
  simp only [lineItems, periodItems]
  rw [spaceWidth_skip h1 h4, if_neg (Nat.ne_of_gt h2), afterSpace_skip h1 h4, field_end h3]
  simp

theorem meaning_account [Unicode] {ps : List WrittenPosting} (h : ∀ p ∈ ps, p.Ok) :
    ∀ q ∈ ps.map WrittenPosting.meaning, q.accountPath ≠ [] := by
  intro q hq
  obtain ⟨p, hp, rfl⟩ := List.mem_map.1 hq
  exact account_ne_nil (h p hp).2.1

/-- The lines of a paragraph followed by a blank line. -/
theorem feed_paragraph_may [Unicode] (fs : FileSystem) (H : Handlers σ) (hH : Attends H) (m : Nat) (file label : Str) (rest : List RawLine) (k : Nat)
    (st : PState (σ × List Call)) (hst : st.builder.Idle) (hf : st.files.getLast? = some label) (p : Paragraph) (hp : p.Ok) :
    ∃ k' st', feedLines (parseItem fs (logged H) m) file k (rawLines p.lines ++ .line [] :: rest) st =
        feedLines (parseItem fs (logged H) m) file k' rest st' ∧
      st'.builder.Idle ∧ st'.files = st.files ∧ st'.user.2 = st.user.2 ++ [p.call label] ∧ MayFollow st'.builder.prev := by
  obtain ⟨⟨th, hth, hth'⟩, ph, hph, hph'⟩ := hH
  have hend : ∀ k s s', endTransaction (logged H) s = (s', none) →
      feedLines (parseItem fs (logged H) m) file k (.line [] :: rest) s = feedLines (parseItem fs (logged H) m) file (k + 1) rest s' := by
    intro k s s' h
    rw [feedLines, runes_nil, lineItems_nil]
    simp [runLine, runItems, h, Step.andThen, Step.wrap]
  cases p with
  | entry e =>
    obtain ⟨he, hc⟩ := hp
    obtain ⟨k1, prev, hprev, e1⟩ := feed_entry_may fs (logged H) m file k (.line [] :: rest) st hst e he
    have e2 := endNormal_entry (t := e.heading) rfl rfl (ps := e.body) (meaning_account he.2.2) hc
    refine ⟨k1 + 1, ⟨⟨.normal, none, none, none, prev⟩, st.files, ((th st.user.1 (e.heading.complete e.body) label).1,
      st.user.2 ++ [.normal (e.heading.complete e.body) label])⟩, ?_, ⟨rfl, rfl, rfl⟩, rfl, rfl, hprev⟩
    rw [Paragraph.lines, e1]
    refine hend _ _ _ ?_
    simp only [building, endTransaction]
    rw [e2]
    simp [callHandler, logged, hth, hf, hth', Step.andThen]
  | budget b =>
    have hb := hp
    obtain ⟨_, _, _, _, h0, hps, ha⟩ := hb
    obtain ⟨bd, fl, us⟩ := st
    obtain ⟨i1, i2, i3⟩ := hst
    obtain ⟨tt, tr, pe, cu, pv⟩ := bd
    simp only at i1 i2 i3 hf
    subst i1 i2 i3
    -- the header
    have hline : ∀ k rest, feedLines (parseItem fs (logged H) m) file k (.line (encode ('~' :: (b.gap ++ b.period))) :: rest)
        ⟨⟨tt, none, none, none, pv⟩, fl, us⟩ =
        feedLines (parseItem fs (logged H) m) file (k + 1) rest
          ⟨building (some (parsePeriod b.period)) {} { linked := false } (some .periodItem), fl, us⟩ := by
      intro k rest
      refine feedLines_one _ _ _ _ _ _ _ _ (period_line file hp) ?_
      simp only [runItems, parseItem_period]
      rw [endTransaction_of_idle _ _ ⟨rfl, rfl, rfl⟩]
      simp [Step.andThen, Builder.begin, Builder.build, Builder.buildPeriodic, liftBuilder, Step.wrap, building]
    obtain ⟨k1, prev, hprev, e1⟩ := feed_postings fs (logged H) m file (.line [] :: rest) (some (parsePeriod b.period)) fl us b.postings hps
      (k + 1) {} { linked := false } (fun _ => ⟨rfl, rfl⟩) (some .periodItem) (by simp [MayFollow])
    have e2 := endNormal_budget (ps := b.postings.map WrittenPosting.meaning) (by simpa using h0) (meaning_account hps)
      (by
        intro q hq
        obtain ⟨p, hp', rfl⟩ := List.mem_map.1 hq
        simpa [WrittenPosting.meaning] using (ha p hp').1)
      (by
        intro q hq
        obtain ⟨p, hp', rfl⟩ := List.mem_map.1 hq
        exact (ha p hp').2) false
    have hint : (parsePeriod b.period).interval = .none := by
      unfold parsePeriod
      split <;> rfl
    refine ⟨k1 + 1, ⟨⟨.periodic, none, none, none, prev⟩, fl,
      ((ph us.1 ⟨parsePeriod b.period, Transaction.complete {} b.body⟩ label).1,
      us.2 ++ [.periodic ⟨parsePeriod b.period, Transaction.complete {} b.body⟩ label])⟩, ?_, ⟨rfl, rfl, rfl⟩, rfl, rfl, hprev⟩
    rw [Paragraph.lines, BudgetEntry.lines, rawLines_cons, List.cons_append, hline, e1]
    refine hend _ _ _ ?_
    simp only [building, endTransaction, hint, decide_true]
    rw [e2]
    simp [callHandler, logged, hph, hf, hph', Step.andThen, BudgetEntry.body]

theorem feed_blanks [Unicode] (fs : FileSystem) (H : Handlers σ) (m : Nat) (file : Str) (rest : List RawLine) (n : Nat) :
    ∀ (k : Nat) (st : PState σ) (_ : st.builder.Idle),
      feedLines (parseItem fs H m) file k (List.replicate n (.line []) ++ rest) st = feedLines (parseItem fs H m) file (k + n) rest st := by
  induction n with
  | zero => intro k st _; simp
  | succ n ih =>
    intro k st h
    rw [List.replicate_succ, List.cons_append, feedLines, runes_nil, lineItems_nil]
    simp only [runLine, runItems, parseItem_empty, endTransaction_of_idle H st h, Step.andThen, Step.wrap, Option.map_none]
    rw [ih _ _ h, Nat.add_right_comm, Nat.add_assoc]

theorem feed_journal_may [Unicode] (fs : FileSystem) (H : Handlers σ) (hH : Attends H) (m : Nat) (file : Str) (rest : List RawLine)
    (ps : List (Paragraph × Nat)) (hps : ∀ p ∈ ps, p.1.Ok) : ∀ (k : Nat) (st : PState (σ × List Call)) (_ : st.builder.Idle) (_ : st.files = [file]),
    ∃ k' st', feedLines (parseItem fs (logged H) m) file k (rawLines (journalLines ps) ++ rest) st =
        feedLines (parseItem fs (logged H) m) file k' rest st' ∧
      st'.builder.Idle ∧ st'.files = [file] ∧ st'.user.2 = st.user.2 ++ ps.map (·.1.call file) ∧
      (ps = [] → st' = st) ∧ (ps ≠ [] ∨ MayFollow st.builder.prev → MayFollow st'.builder.prev) := by
  induction ps with
  | nil => intro k st h1 h2; exact ⟨k, st, rfl, h1, h2, by simp, fun _ => rfl, by simp⟩
  | cons p ps ih =>
    intro k st h1 h2
    obtain ⟨k1, st1, e1, i1, f1, u1, v1⟩ := feed_paragraph_may fs H hH m file file (List.replicate p.2 (.line []) ++ (rawLines (journalLines ps) ++ rest)) k
      st h1 (by rw [h2]; rfl) p.1 (hps p (by simp))
    obtain ⟨k2, st2, e2, i2, f2, u2, _, v2⟩ := ih (fun q hq => hps q (by simp [hq])) (k1 + p.2) st1 i1 (f1.trans h2)
    refine ⟨k2, st2, ?_, i2, f2, ?_, by simp, fun _ => v2 (Or.inr v1)⟩
    · have hl : rawLines (journalLines (p :: ps)) ++ rest =
          rawLines p.1.lines ++ .line [] :: (List.replicate p.2 (.line []) ++ (rawLines (journalLines ps) ++ rest)) := by
        simp [journalLines, rawLines, encode, List.replicate_succ]
      rw [hl, e1, feed_blanks _ _ _ _ _ _ _ _ i1, e2]
    · rw [u2, u1]; simp

theorem feed_journal [Unicode] (fs : FileSystem) (H : Handlers σ) (hH : Attends H) (m : Nat) (file : Str) (rest : List RawLine)
    (ps : List (Paragraph × Nat)) (hps : ∀ p ∈ ps, p.1.Ok) (k : Nat) (st : PState (σ × List Call)) (h1 : st.builder.Idle) (h2 : st.files = [file]) :
    ∃ k' st', feedLines (parseItem fs (logged H) m) file k (rawLines (journalLines ps) ++ rest) st =
        feedLines (parseItem fs (logged H) m) file k' rest st' ∧
      st'.builder.Idle ∧ st'.files = [file] ∧ st'.user.2 = st.user.2 ++ ps.map (·.1.call file) := by
  obtain ⟨k', st', e, i, f, u, _⟩ := feed_journal_may fs H hH m file rest ps hps k st h1 h2
  exact ⟨k', st', e, i, f, u⟩

/-- The lines fit the read buffer and contain no line ends. -/
def Fits (ls : List Str) : Prop := ∀ l ∈ ls, PlainLine (encode l)

instance (ls : List Str) : Decidable (Fits ls) := by unfold Fits; infer_instance

theorem journalText_lines {ps : List (Paragraph × Nat)} (hfit : Fits (journalLines ps)) (b : List UInt8) :
    readLines (journalText ps ++ b) = rawLines (journalLines ps) ++ readLines b := by
  rw [journalText, readLines_textOf_lf]
  · simp [rawLines]
  · intro l hl
    obtain ⟨x, hx, rfl⟩ := List.mem_map.1 hl
    exact hfit x hx

/-- A journal made of well-formed paragraphs is delivered exactly as written: one call per paragraph, in order, with
the date, state, payee, notes, postings, comments, commodities and quantities written (and the missing amount filled in). -/
theorem written_journal [Unicode] (fs : FileSystem) (H : Handlers σ) (hH : Attends H) (maxOpen : Nat) (file : Str) (u : σ)
    (ps : List (Paragraph × Nat)) (hps : ∀ p ∈ ps, p.1.Ok) (hfit : Fits (journalLines ps)) :
    callsOf fs H maxOpen (journalText ps) file u = ps.map (·.1.call file) ∧
      failureOf fs H maxOpen (journalText ps) file u = none := by
  have hr := journalText_lines hfit []
  rw [List.append_nil] at hr
  obtain ⟨k, st, e, hi, hf, hu⟩ := feed_journal fs H hH maxOpen file [] ps hps 1 (rootStart (u, []) file) ⟨rfl, rfl, rfl⟩ rfl
  have hp : parse fs (logged H) maxOpen (journalText ps) file (newParser (u, [])) = (st, none) := by
    rw [parse_new, hr]
    have e' : feedLines (parseItem fs (logged H) maxOpen) file 1 (rawLines (journalLines ps) ++ readLines []) (rootStart (u, []) file) =
        (st, none) := e
    rw [e', andThen_ok, parseItem_eof, endTransaction_of_idle _ _ hi]
    rfl
  constructor
  · rw [callsOf, hp, hu]; rfl
  · rw [failureOf, hp]

theorem entries_ok [Unicode] {es : List (Entry × Nat)} (h : ∀ e ∈ es, e.1.Ok ∧ Closes e.1.body) :
    ∀ p ∈ es.map (fun e => (Paragraph.entry e.1, e.2)), p.1.Ok := by
  intro p hp
  obtain ⟨e, he, rfl⟩ := List.mem_map.1 hp
  exact h e he

/-- The header of a call. -/
def Call.heading (c : Call) : Date × TransactionState × Str × Str :=
  (c.transaction.date, c.transaction.state, c.transaction.payee, c.transaction.headerNote)

/-- The date, state, payee and note of every header line are delivered as written (the note being set off by two blanks
or a tab). -/
theorem C23_header_line_partial [Unicode] (fs : FileSystem) (H : Handlers σ) (hH : Attends H) (maxOpen : Nat) (file : Str) (u : σ)
    (es : List (Entry × Nat)) (hes : ∀ e ∈ es, e.1.Ok ∧ Closes e.1.body)
    (hfit : Fits (journalLines (es.map fun e => (.entry e.1, e.2)))) :
    (callsOf fs H maxOpen (journalText (es.map fun e => (.entry e.1, e.2))) file u).map Call.heading =
      es.map fun e => (e.1.header.day, e.1.header.state, e.1.header.payee, (e.1.header.note.map (·.2.text)).getD []) := by
  rw [(written_journal fs H hH maxOpen file u _ (entries_ok hes) hfit).1]
  simp [Paragraph.call, Call.heading, Call.transaction, Transaction.complete, Entry.heading, Header.meaning]

/-- The date of a header line is the day it spells. -/
theorem C23_date_partial [Unicode] (fs : FileSystem) (H : Handlers σ) (hH : Attends H) (maxOpen : Nat) (file : Str) (u : σ)
    (es : List (Entry × Nat)) (hes : ∀ e ∈ es, e.1.Ok ∧ Closes e.1.body)
    (hfit : Fits (journalLines (es.map fun e => (.entry e.1, e.2)))) (i : Nat) (e : Entry × Nat) (c : Call) (he : es[i]? = some e)
    (hc : (callsOf fs H maxOpen (journalText (es.map fun e => (.entry e.1, e.2))) file u)[i]? = some c) :
    c.transaction.date.Real ∧ (∃ sep, Separator sep ∧ WrittenYMD sep e.1.header.date c.transaction.date) ∧
      ∀ sep d, Separator sep → WrittenYMD sep e.1.header.date d → d.Real → c.transaction.date = d := by
  have hok := (hes e (List.mem_of_getElem? he)).1.1.2.2.1
  rw [(written_journal fs H hH maxOpen file u _ (entries_ok hes) hfit).1] at hc
  simp only [List.map_map, List.getElem?_map, he, Option.map_some, Function.comp_apply, Option.some.injEq] at hc
  subst hc
  have hd : (Paragraph.call file (.entry e.1)).transaction.date = e.1.header.day := rfl
  rw [hd]
  obtain ⟨sep, h1, h2, h3⟩ := ((C10_dates_accepted e.1.header.date).1 _).1 hok
  refine ⟨h3, ⟨sep, h1, h2⟩, ?_⟩
  intro sep' d hs hw hr
  have := ((C10_dates_accepted e.1.header.date).1 d).2 ⟨sep', hs, hw, hr⟩
  rw [hok] at this
  cases this
  rfl

/-- With a single blank before the `;` the first character of the note is lost. -/
theorem C23_header_note_false :
    ¬ ∀ (U : Unicode) (payee note : Str), payee = str "x" → note = str "note" →
      (@callsOf _ U noFiles recorder 1 (encode (str "2020-01-01 " ++ payee ++ str " ; " ++ note ++ str "\n  A  1\n  B\n")) (str "f") []).map
        (fun c => (c.transaction.payee, c.transaction.headerNote)) = [(payee, note)] := by
  intro h
  have h1 := h asciiUnicode (str "x") (str "note") rfl rfl
  revert h1
  decide

/-- Instances of header lines: every field present, and no more than a date. -/
example :
    letI := asciiUnicode
    Header.Ok
      { date := str "2020/02/29", day := ⟨2020, 2, 29⟩, state := .cleared, gap2 := str " ", payee := str "Big shop: no 1",
        note := some (str "   ", { text := str "a note; more  " }) } ∧
    Header.line
      { date := str "2020/02/29", day := ⟨2020, 2, 29⟩, state := .cleared, gap2 := str " ", payee := str "Big shop: no 1",
        note := some (str "   ", { text := str "a note; more  " }) } = str "2020/02/29 * Big shop: no 1   ; a note; more  " ∧
    Header.Ok { date := str "2020-01-01", day := ⟨2020, 1, 1⟩, gap := [] } := by decide

/-- What a written posting should be delivered as, given the others. -/
theorem C24_posting_line [Unicode] (fs : FileSystem) (H : Handlers σ) (hH : Attends H) (maxOpen : Nat) (file : Str) (u : σ)
    (es : List (Entry × Nat)) (hes : ∀ e ∈ es, e.1.Ok ∧ Closes e.1.body)
    (hfit : Fits (journalLines (es.map fun e => (.entry e.1, e.2)))) :
    -- accounts as written
    (callsOf fs H maxOpen (journalText (es.map fun e => (.entry e.1, e.2))) file u).map
        (fun c => c.transaction.postings.map Posting.accountPath) = es.map (fun e => e.1.postings.map WrittenPosting.account) ∧
    -- amounts as written, where written
    ∀ (i j : Nat) (e : Entry × Nat) (c : Call) (w : WrittenPosting) (a : WrittenAmount), es[i]? = some e →
      (callsOf fs H maxOpen (journalText (es.map fun e => (.entry e.1, e.2))) file u)[i]? = some c →
      e.1.postings[j]? = some w → w.amount = some a → ∃ p, c.transaction.postings[j]? = some p ∧ p.amount = some a.meaning := by
  rw [(written_journal fs H hH maxOpen file u _ (entries_ok hes) hfit).1]
  have hacc : ∀ ps : List Posting, (inferred ps).map Posting.accountPath = ps.map Posting.accountPath := by
    intro ps
    unfold inferred
    split
    · rfl
    · rw [List.map_map]
      refine List.map_congr_left fun p _ => ?_
      simp only [Function.comp_apply]
      split <;> rfl
  constructor
  · simp only [List.map_map]
    refine List.map_congr_left fun e _ => ?_
    simp only [Function.comp_apply, Paragraph.call, Call.transaction, Transaction.complete, hacc, Entry.body, List.map_map]
    rfl
  · intro i j e c w a he hc hw ha
    simp only [List.map_map, List.getElem?_map, he, Option.map_some, Function.comp_apply, Option.some.injEq] at hc
    subst hc
    have hw' : e.1.body[j]? = some w.meaning := by simp [Entry.body, hw]
    refine ⟨w.meaning, ?_, by simp [WrittenPosting.meaning, ha]⟩
    simp only [Paragraph.call, Call.transaction, Transaction.complete, inferred]
    by_cases hs : (e.1.body.map Posting.value).sum = 0
    · rw [if_pos hs, hw']
    · rw [if_neg hs, List.getElem?_map, hw']
      simp [WrittenPosting.meaning, ha]

/-- The amount of a posting line is the commodity and the number it spells: if the text of the number is a signed decimal numeral without
fraction or with two places, the quantity is that number of hundredths. -/
theorem C24_amount_value [Unicode] (fs : FileSystem) (H : Handlers σ) (hH : Attends H) (maxOpen : Nat) (file : Str) (u : σ)
    (es : List (Entry × Nat)) (hes : ∀ e ∈ es, e.1.Ok ∧ Closes e.1.body)
    (hfit : Fits (journalLines (es.map fun e => (.entry e.1, e.2))))
    (i j : Nat) (e : Entry × Nat) (c : Call) (w : WrittenPosting) (a : WrittenAmount) (n : Numeral) (he : es[i]? = some e)
    (hc : (callsOf fs H maxOpen (journalText (es.map fun e => (.entry e.1, e.2))) file u)[i]? = some c)
    (hw : e.1.postings[j]? = some w) (ha : w.amount = some a) (hn : a.number = n.text) (hok : n.Ok) (hm : n.Money)
    (hr : Int64Range n.hundredths) :
    ∃ p b, c.transaction.postings[j]? = some p ∧ p.accountPath = w.account ∧ p.amount = some b ∧
      b.commodity = (if a.blanks = [] then a.commodity else a.commodity ++ [' ']) ∧ b.quantity.toInt = n.hundredths := by
  obtain ⟨h1, h2⟩ := C24_posting_line fs H hH maxOpen file u es hes hfit
  obtain ⟨p, hp, hpa⟩ := h2 i j e c w a he hc hw ha
  have hacc := congrArg (fun l => (l[i]?).bind fun x => x[j]?) h1
  simp only [List.getElem?_map, hc, he, Option.map_some, Option.bind_some, hp, hw, Option.some.injEq] at hacc
  refine ⟨p, a.meaning, hp, hacc, hpa, rfl, ?_⟩
  have hw' := (hes e (List.mem_of_getElem? he)).1.2.2 w (List.mem_of_getElem? hw)
  obtain ⟨_, _, _, _, _, _, _, hq, _⟩ := hw'.2.2.1 a ha
  obtain ⟨q, q1, q2, _⟩ := C06_decimal_value_partial n hok hm hr
  rw [hn, q1] at hq
  cases hq
  exact q2

/-- Posting lines: a spaced commodity, a tab, an inline comment, an elided amount. -/
example :
    letI := asciiUnicode
    let a1 : WrittenAmount :=
      { gap := str "   ", commodity := str "GBP", blanks := str " ", number := str "-12.34", quantity := -1234, trailer := str " ; paid" }
    let a2 : WrittenAmount := { gap := str "\t", commodity := str "$", number := str "3", quantity := 300 }
    let ps : List WrittenPosting :=
      [{ account := str "Assets:My bank", amount := some a1 }, { indent := str "\t", account := str "Food", amount := some a2 },
       { account := str "Other" }]
    (∀ p ∈ ps, p.Ok) ∧ ps.map WrittenPosting.line = [str "  Assets:My bank   GBP -12.34 ; paid", str "\tFood\t$3", str "  Other"] ∧
    Closes (ps.map WrittenPosting.meaning) := by decide

/-- Notes between the header and the first posting belong to the transaction, notes after a posting to that posting,
in order; nothing else is delivered as a note. -/
theorem C25_notes_attach [Unicode] (fs : FileSystem) (H : Handlers σ) (hH : Attends H) (maxOpen : Nat) (file : Str) (u : σ)
    (es : List (Entry × Nat)) (hes : ∀ e ∈ es, e.1.Ok ∧ Closes e.1.body)
    (hfit : Fits (journalLines (es.map fun e => (.entry e.1, e.2)))) :
    (callsOf fs H maxOpen (journalText (es.map fun e => (.entry e.1, e.2))) file u).map
        (fun c => (c.transaction.notes, c.transaction.postings.map Posting.comments)) =
      es.map fun e => (e.1.notes.map (·.comment.text), e.1.postings.map fun p => p.notes.map (·.comment.text)) := by
  rw [(written_journal fs H hH maxOpen file u _ (entries_ok hes) hfit).1]
  have hcom : ∀ ps : List Posting, (inferred ps).map Posting.comments = ps.map Posting.comments := by
    intro ps
    unfold inferred
    split
    · rfl
    · rw [List.map_map]
      refine List.map_congr_left fun p _ => ?_
      simp only [Function.comp_apply]
      split <;> rfl
  simp only [List.map_map]
  refine List.map_congr_left fun e _ => ?_
  simp only [Function.comp_apply, Paragraph.call, Call.transaction, Transaction.complete, hcom, Entry.body, List.map_map]
  rfl

/-- A journal with an entry and a budget entry that meets the hypotheses. -/
example :
    letI := asciiUnicode
    let n1 : Note := { comment := { text := str "n1" } }
    let n2 : Note := { comment := { mark := '#', text := str "n2" } }
    let c1 : Note := { indent := str "\t", comment := { text := str "c" } }
    let a : WrittenPosting := { account := str "A", amount := some { number := str "1", quantity := 100 }, notes := [c1] }
    let h : Header := { date := str "2020-01-01", day := ⟨2020, 1, 1⟩, payee := str "x" }
    let e : Entry := { header := h, notes := [n1, n2], postings := [a, { account := str "B" }] }
    let b : BudgetEntry := { period := str "2020-01", postings := [{ account := str "E", amount := some { number := str "2", quantity := 200 } }] }
    let j : List (Paragraph × Nat) := [(.entry e, 0), (.budget b, 2)]
    (∀ p ∈ j, p.1.Ok) ∧ Fits (journalLines j) ∧
    journalText j = utf8 "2020-01-01 x\n  ; n1\n  # n2\n  A  1\n\t; c\n  B\n\n~ 2020-01\n  E  2\n\n\n\n" ∧
    ((Paragraph.entry e).call (str "f")).transaction.notes = [str "n1", str "n2"] := by decide

end Gledger
