import Verif.Props.Entries

set_option maxRecDepth 100000

namespace Gledger

variable {σ : Type}

/-- What ends a transaction: the end of the file, a blank line, or the next header. -/
def Ends [Unicode] (r : List RawLine) : Prop := r = [] ∨ ∃ l rest, r = .line l :: rest ∧ (l = [] ∨ HeaderLine l)

/-- When the transaction open at the end of some lines cannot be closed, whatever ends it fails. -/
theorem ends_fail [Unicode] (fs : FileSystem) (H : Handlers σ) (m : Nat) (path : Str) (k : Nat) (r : List RawLine) (hr : Ends r)
    (s s' : PState σ) (e : Err) (h : endTransaction H s = (s', some (.err e))) :
    ∃ f, (feedLines (parseItem fs H m) path k r s).andThen (parseItem fs H m .eofItem []) = (s', some f) ∧ f.core = .err e.core := by
  rcases hr with rfl | ⟨l, rest, rfl, rfl | hl⟩
  · exact ⟨.err e, by simp [feedLines, Step.andThen, h], rfl⟩
  · refine ⟨.err (.atLine path k e), ?_, rfl⟩
    rw [feedLines, runes_nil, lineItems_nil]
    simp [runLine, runItems, h, Step.andThen, Step.wrap, Failure.wrap]
  · obtain ⟨kk, hk⟩ := headerLine_start fs H m path l hl
    refine ⟨.err (.atLine path k e), ?_, rfl⟩
    rw [feedLines, hk, h]
    simp [Step.andThen, Step.wrap, Failure.wrap]

/-- An entry, after anything that parses and a blank line, whose end fails: parsing fails there and nothing more is
delivered. -/
theorem entry_rejected [Unicode] (fs : FileSystem) (H : Handlers σ) (maxOpen : Nat) (path : Str) (u : σ)
    (a nl r : List UInt8) (ha : WholeLines a) (hok : failureOf fs H maxOpen a path u = none) (hnl : BlankLine nl)
    (e : Entry) (he : e.Ok) (hfit : Fits e.lines) (hr : Ends (readLines r)) (err : Err)
    (hbad : (endNormalTransaction (some (settle e.heading { linked := true } e.body).2) false
      (settle e.heading { linked := true } e.body).1).2 = some err) :
    let bytes := a ++ (nl ++ (textOf [10] (e.lines.map encode) ++ r))
    (∃ f, failureOf fs H maxOpen bytes path u = some f ∧ f.core = .err err.core) ∧
      callsOf fs H maxOpen bytes path u = callsOf fs H maxOpen a path u := by
  intro bytes
  have hlines : readLines bytes = readLines a ++ .line [] :: (rawLines e.lines ++ readLines r) := by
    rw [readLines_append ha, readLines_blank _ _ hnl, readLines_textOf_lf]
    · simp [rawLines]
    · intro l hl
      obtain ⟨x, hx, rfl⟩ := List.mem_map.1 hl
      exact hfit x hx
  have hk := feedLines_keeps (fun _ _ => trivial) (fun i c s hs => parseItem_keeps (shape_inv (logged H)) fs maxOpen i c s hs)
    path (readLines a) 1 (rootStart (u, []) path) (rootStart_shape _ _)
  unfold failureOf callsOf at *
  rw [parse_new] at hok
  rw [parse_new, parse_new, hlines, feedLines_append]
  generalize feedLines (parseItem fs (logged H) maxOpen) path 1 (readLines a) (rootStart (u, []) path) = x at hok hk ⊢
  obtain ⟨s, _ | f⟩ := x
  · simp only [andThen_ok, parseItem_eof, wrap_none] at hok ⊢
    have hi := (endTransaction_idle (logged H) s (hk.2 rfl)).2 hok
    generalize hx : endTransaction (logged H) s = y at hok hi ⊢
    obtain ⟨s', _ | f⟩ := y
    · rw [feedLines, runes_nil, lineItems_nil]
      simp only [runLine, runItems, parseItem_empty, hx, andThen_ok, Step.wrap, Option.map_none]
      obtain ⟨k', prev, e1⟩ := feed_entry fs (logged H) maxOpen path (1 + (readLines a).length + 1) (readLines r) s' hi e he
      rw [e1]
      generalize hy : endNormalTransaction (some (settle e.heading { linked := true } e.body).2) false
        (settle e.heading { linked := true } e.body).1 = y at hbad
      obtain ⟨t', err'⟩ := y
      simp only at hbad
      subst hbad
      obtain ⟨f, e2, e3⟩ := ends_fail fs (logged H) maxOpen path k' (readLines r) hr
        ⟨building none (settle e.heading { linked := true } e.body).1 (settle e.heading { linked := true } e.body).2 prev, s'.files, s'.user⟩
        ⟨⟨.normal, some t', none, some (settle e.heading { linked := true } e.body).2, prev⟩, s'.files, s'.user⟩ err
        (by simp [endTransaction, building, hy])
      rw [e2]
      refine ⟨⟨f.wrap .errorAt, rfl, ?_⟩, rfl⟩
      rw [core_errorAt, e3]
    · cases hok
  · simp [Step.andThen, Step.wrap] at hok

/-- Closing an entry whose amounts are all written and do not sum to zero fails. -/
theorem unbalanced_end [Unicode] {e : Entry} (he : e.Ok) (hall : ∀ p ∈ e.postings, p.amount ≠ none) (hsum : (e.body.map Posting.value).sum ≠ 0) :
    (endNormalTransaction (some (settle e.heading { linked := true } e.body).2) false (settle e.heading { linked := true } e.body).1).2 =
      some .unbalanced := by
  have hall' : ∀ p ∈ e.body, p.amount ≠ none := by
    intro q hq
    obtain ⟨p, hp, rfl⟩ := List.mem_map.1 hq
    simpa [WrittenPosting.meaning] using hall p hp
  have h0 : e.body ≠ [] := by
    intro h; rw [h] at hsum; exact hsum rfl
  have hacc : ∀ q ∈ e.body, q.accountPath ≠ [] := meaning_account he.2.2
  generalize e.body = ps at *
  obtain ⟨qs, q, rfl⟩ : ∃ qs q, ps = qs ++ [q] := ⟨ps.dropLast, ps.getLast h0, (List.dropLast_append_getLast h0).symm⟩
  have hf : (qs ++ [q]).filter (fun p => decide (p.amount = none)) = [] := by
    rw [List.filter_eq_nil_iff]
    intro p hp'
    simpa using hall' p hp'
  rw [settle_fresh _ qs q fun r hr => hacc r (by simp [hr])]
  have e2 := addPosting_last (t := e.heading) rfl (ps := qs) (q := q) (by rw [hf]; simp)
  simp only [endNormalTransaction, e2, Bool.false_and, Bool.false_eq_true, if_false]
  rw [addAll_amounted _ _ hall', close_eq, foldl_closeStep_sum]
  simp only [zero_add, show e.heading.postings = [] from rfl, List.nil_append, show e.heading.elided = none from rfl]
  rw [if_pos hsum]

/-! ### C03 Unbalanced transactions are rejected and never delivered -/

/-- An entry all of whose postings carry amounts that do not sum to zero, anywhere in a file (after any part that parses,
and a blank line), ended by the end of the file, a blank line or another header: parsing fails with "transaction does not
balance", whatever follows, and the calls made are those of the part before. -/
theorem C03_unbalanced_rejected [Unicode] (fs : FileSystem) (H : Handlers σ) (maxOpen : Nat) (path : Str) (u : σ)
    (a nl r : List UInt8) (ha : WholeLines a) (hok : failureOf fs H maxOpen a path u = none) (hnl : BlankLine nl)
    (e : Entry) (he : e.Ok) (hfit : Fits e.lines) (hr : Ends (readLines r))
    (hall : ∀ p ∈ e.postings, p.amount ≠ none) (hsum : (e.body.map Posting.value).sum ≠ 0) :
    let bytes := a ++ (nl ++ (textOf [10] (e.lines.map encode) ++ r))
    (∃ f, failureOf fs H maxOpen bytes path u = some f ∧ f.core = .err .unbalanced) ∧
      callsOf fs H maxOpen bytes path u = callsOf fs H maxOpen a path u := by
  exact entry_rejected fs H maxOpen path u a nl r ha hok hnl e he hfit hr .unbalanced (unbalanced_end he hall hsum)

/-- The same for the first entry of a file. -/
theorem C03_first_entry [Unicode] (fs : FileSystem) (H : Handlers σ) (maxOpen : Nat) (path : Str) (u : σ)
    (r : List UInt8) (e : Entry) (he : e.Ok) (hfit : Fits e.lines) (hr : Ends (readLines r))
    (hall : ∀ p ∈ e.postings, p.amount ≠ none) (hsum : (e.body.map Posting.value).sum ≠ 0) :
    let bytes := 10 :: (textOf [10] (e.lines.map encode) ++ r)
    (∃ f, failureOf fs H maxOpen bytes path u = some f ∧ f.core = .err .unbalanced) ∧
      callsOf fs H maxOpen bytes path u = [] := by
  have hnil : parse fs (logged H) maxOpen [] path (newParser (u, [])) = (rootStart (u, []) path, none) := by
    rw [parse_new]
    simp [show readLines [] = [] from rfl, feedLines, Step.andThen, Step.wrap, endTransaction, rootStart]
  have := C03_unbalanced_rejected fs H maxOpen path u [] [10] r (Or.inl rfl) (by unfold failureOf; rw [hnil]) (Or.inl rfl) e he hfit hr hall hsum
  simpa [callsOf, hnil, rootStart] using this

/-- An unbalanced entry after a good one and before another. -/
example :
    letI := asciiUnicode
    let h : Header := { date := str "2020-01-01", day := ⟨2020, 1, 1⟩, payee := str "x" }
    let a : WrittenPosting := { account := str "A", amount := some { number := str "1", quantity := 100 } }
    let b : WrittenPosting := { account := str "B", amount := some { number := str "-0.99", quantity := -99 } }
    let e : Entry := { header := h, postings := [a, b] }
    e.Ok ∧ Fits e.lines ∧ (∀ p ∈ e.postings, p.amount ≠ none) ∧ (e.body.map Posting.value).sum ≠ 0 ∧
    textOf [10] (e.lines.map encode) = utf8 "2020-01-01 x\n  A  1\n  B  -0.99\n" ∧
    failureOf noFiles recorder 1 (utf8 "2020-01-01 x\n  A  1\n  B\n") (str "f") [] = none ∧
    readLines (utf8 "2020-01-02 y\n") = [.line (utf8 "2020-01-02 y")] := by decide

/-! ### C05 More than one elided posting is rejected (false) -/

/-- The posting to B disappears: parsing succeeds and the transaction is delivered without it. -/
theorem C05_elided_rejected_false :
    ¬ ∀ (U : Unicode) (e : Entry), e.Ok → 2 ≤ (e.postings.filter fun p => p.amount = none).length →
      @failureOf _ U noFiles recorder 1 (textOf [10] (e.lines.map encode)) (str "f") [] ≠ none := by
  intro h
  have h1 := h asciiUnicode
    { header := { date := str "2020-01-01", day := ⟨2020, 1, 1⟩, payee := str "x" },
      postings := [{ account := str "A" }, { account := str "B" }, { account := str "C", amount := some { number := str "1", quantity := 100 } }] }
    (by decide) (by decide)
  revert h1
  decide

/-- What is delivered for that file. -/
example :
    letI := asciiUnicode
    (callsOf noFiles recorder 1 (utf8 "2020-01-01 x\n  A\n  B\n  C  1\n") (str "f") []).map
      (fun c => c.transaction.postings.map fun p => (p.accountPath, p.value)) = [[(str "A", -100), (str "C", 100)]] := by decide

/-- Closing an entry whose last posting and another one lack an amount fails. -/
theorem last_elided_end [Unicode] {e : Entry} (he : e.Ok) {ps : List WrittenPosting} {last p : WrittenPosting}
    (hps : e.postings = ps ++ [last]) (hlast : last.amount = none) (hp : p ∈ ps) (hpa : p.amount = none) :
    (endNormalTransaction (some (settle e.heading { linked := true } e.body).2) false (settle e.heading { linked := true } e.body).1).2 =
      some .tooManyElided := by
  have hacc : ∀ q ∈ e.body, q.accountPath ≠ [] := meaning_account he.2.2
  have hb : e.body = ps.map WrittenPosting.meaning ++ [last.meaning] := by simp [Entry.body, hps]
  rw [hb] at hacc ⊢
  rw [settle_fresh _ _ _ fun r hr => hacc r (by simp [hr])]
  -- an elided posting has been recorded
  have hel : ∀ (qs : List Posting) (t : Transaction), (t.elided ≠ none ∨ ∃ q ∈ qs, q.amount = none) → (t.addAll qs).elided ≠ none := by
    intro qs
    induction qs with
    | nil => intro t h; rcases h with h | ⟨q, hq, _⟩; exact h; simp at hq
    | cons q qs ih =>
      intro t h
      refine ih (t.addPosting q).1 ?_
      by_cases hq : ∃ r ∈ qs, r.amount = none
      · exact Or.inr hq
      · left
        unfold Transaction.addPosting
        rcases h with h | ⟨r, hr, hra⟩
        · repeat' split
          all_goals simp_all
        · rcases List.mem_cons.1 hr with rfl | hr
          · rw [if_pos hra]
            split
            · assumption
            · simp
          · exact absurd ⟨r, hr, hra⟩ hq
  have h1 : (e.heading.addAll (ps.map WrittenPosting.meaning)).elided ≠ none :=
    hel _ _ (Or.inr ⟨p.meaning, List.mem_map_of_mem hp, by simp [WrittenPosting.meaning, hpa]⟩)
  have h2 : last.meaning.amount = none := by simp [WrittenPosting.meaning, hlast]
  simp only [endNormalTransaction, Transaction.addPosting, if_pos h2, if_pos h1]

/-- What holds: if the last posting has no amount and an earlier one has none either, parsing fails with "more than one
elided", whatever ends the entry and whatever follows, and the calls made are those of the part before. Missing: the entries
whose last posting has an amount, for which it is false; see `C05_surplus_dropped_partial`. -/
theorem C05_last_elided_partial [Unicode] (fs : FileSystem) (H : Handlers σ) (maxOpen : Nat) (path : Str) (u : σ)
    (a nl r : List UInt8) (ha : WholeLines a) (hok : failureOf fs H maxOpen a path u = none) (hnl : BlankLine nl)
    (e : Entry) (he : e.Ok) (hfit : Fits e.lines) (hr : Ends (readLines r)) (ps : List WrittenPosting) (last p : WrittenPosting)
    (hps : e.postings = ps ++ [last]) (hlast : last.amount = none) (hp : p ∈ ps) (hpa : p.amount = none) :
    let bytes := a ++ (nl ++ (textOf [10] (e.lines.map encode) ++ r))
    (∃ f, failureOf fs H maxOpen bytes path u = some f ∧ f.core = .err .tooManyElided) ∧
      callsOf fs H maxOpen bytes path u = callsOf fs H maxOpen a path u := by
  exact entry_rejected fs H maxOpen path u a nl r ha hok hnl e he hfit hr .tooManyElided (last_elided_end he hps hlast hp hpa)

/-- An entry with two elided postings, the last one among them. -/
example :
    letI := asciiUnicode
    let h : Header := { date := str "2020-01-01", day := ⟨2020, 1, 1⟩, payee := str "x" }
    let e : Entry := { header := h, postings := [{ account := str "A" }, { account := str "C", amount := some { number := str "1", quantity := 100 } }] ++ [{ account := str "B" }] }
    e.Ok ∧ Fits e.lines ∧
    failureOf noFiles recorder 1 (textOf [10] (e.lines.map encode)) (str "f") [] = some (.err (.errorAt .tooManyElided)) := by decide

/-- What is delivered for an entry: if two or more postings lack an amount, only the first of them is kept. -/
def Entry.delivered (e : Entry) : Transaction := e.heading.complete (kept e.body)

/-- Two or more postings lack an amount, the last posting has one. -/
def Entry.Surplus (e : Entry) : Prop :=
  2 ≤ (e.body.filter fun p => p.amount = none).length ∧ ∀ p ∈ e.body.getLast?, p.amount ≠ none

instance (e : Entry) : Decidable e.Surplus := by unfold Entry.Surplus; infer_instance

theorem endNormal_delivered [Unicode] {e : Entry} (he : e.Ok) (h : Closes e.body ∨ e.Surplus) :
    endNormalTransaction (some (settle e.heading { linked := true } e.body).2) false (settle e.heading { linked := true } e.body).1 =
      (e.delivered, none) := by
  rcases h with hc | ⟨h2, hl⟩
  · rw [endNormal_entry (t := e.heading) rfl rfl (ps := e.body) (meaning_account he.2.2) hc, Entry.delivered, kept_of_few hc.2.1]
  · have hacc := meaning_account he.2.2
    rw [Entry.delivered]
    rw [show e.postings.map WrittenPosting.meaning = e.body from rfl] at hacc
    generalize e.body = ps at *
    have h0 : ps ≠ [] := by rintro rfl; simp at h2
    obtain ⟨qs, q, rfl⟩ : ∃ qs q, ps = qs ++ [q] := ⟨ps.dropLast, ps.getLast h0, (List.dropLast_append_getLast h0).symm⟩
    have hq : q.amount ≠ none := hl q (by simp)
    refine endNormal_surplus rfl rfl (fun p hp => hacc p (by simp [hp])) hq ?_
    rw [List.filter_append, List.filter_cons_of_neg (by simpa using hq)] at h2
    have : 0 < (qs.filter fun p => decide (p.amount = none)).length := by
      simp only [List.filter_nil, List.append_nil] at h2; omega
    obtain ⟨p, hp⟩ := List.exists_mem_of_length_pos this
    exact ⟨p, (List.mem_filter.1 hp).1, by simpa using (List.mem_filter.1 hp).2⟩

/-- An entry that can be ended, in the middle of a file. -/
theorem feed_delivered [Unicode] (fs : FileSystem) (H : Handlers σ) (hH : Attends H) (m : Nat) (file : Str) (rest : List RawLine) (k : Nat)
    (st : PState (σ × List Call)) (hst : st.builder.Idle) (hf : st.files = [file]) (e : Entry) (he : e.Ok) (hc : Closes e.body ∨ e.Surplus) :
    ∃ k' st', feedLines (parseItem fs (logged H) m) file k (rawLines e.lines ++ .line [] :: rest) st =
        feedLines (parseItem fs (logged H) m) file k' rest st' ∧
      st'.builder.Idle ∧ st'.files = [file] ∧ st'.user.2 = st.user.2 ++ [.normal e.delivered file] := by
  obtain ⟨⟨th, hth, hth'⟩, -⟩ := hH
  obtain ⟨k1, prev, e1⟩ := feed_entry fs (logged H) m file k (.line [] :: rest) st hst e he
  have e2 := endNormal_delivered he hc
  refine ⟨k1 + 1, ⟨⟨.normal, none, none, none, prev⟩, [file], ((th st.user.1 e.delivered file).1,
    st.user.2 ++ [.normal e.delivered file])⟩, ?_, ⟨rfl, rfl, rfl⟩, rfl, rfl⟩
  rw [e1, feedLines, runes_nil, lineItems_nil]
  have e3 : endTransaction (logged H) ⟨building none (settle e.heading { linked := true } e.body).1
      (settle e.heading { linked := true } e.body).2 prev, st.files, st.user⟩ = (⟨⟨.normal, none, none, none, prev⟩, [file],
        ((th st.user.1 e.delivered file).1, st.user.2 ++ [.normal e.delivered file])⟩, none) := by
    simp only [building, endTransaction]
    rw [e2]
    simp [callHandler, logged, hth, hf, hth', Step.andThen]
  simp [runLine, runItems, e3, Step.andThen, Step.wrap]

/-- What happens instead when the last posting has an amount: the file parses, and the transaction is delivered without the
second and further postings that lack an amount (and without their comments); the first of them gets minus the sum of the
rest. Together with `C05_last_elided_partial`: an entry with two or more missing amounts is rejected iff its last posting
is one of them. -/
theorem C05_surplus_dropped_partial [Unicode] (fs : FileSystem) (H : Handlers σ) (hH : Attends H) (maxOpen : Nat) (file : Str) (u : σ)
    (es : List (Entry × Nat)) (hes : ∀ e ∈ es, e.1.Ok ∧ (Closes e.1.body ∨ e.1.Surplus))
    (hfit : Fits (journalLines (es.map fun e => (.entry e.1, e.2)))) :
    let bytes := journalText (es.map fun e => (.entry e.1, e.2))
    failureOf fs H maxOpen bytes file u = none ∧
      callsOf fs H maxOpen bytes file u = es.map fun e => .normal (e.1.heading.complete (kept e.1.body)) file := by
  intro bytes
  have hfeed : ∀ (es : List (Entry × Nat)), (∀ e ∈ es, e.1.Ok ∧ (Closes e.1.body ∨ e.1.Surplus)) →
      ∀ (rest : List RawLine) (k : Nat) (st : PState (σ × List Call)), st.builder.Idle → st.files = [file] →
      ∃ k' st', feedLines (parseItem fs (logged H) maxOpen) file k (rawLines (journalLines (es.map fun e => (.entry e.1, e.2))) ++ rest) st =
          feedLines (parseItem fs (logged H) maxOpen) file k' rest st' ∧
        st'.builder.Idle ∧ st'.files = [file] ∧ st'.user.2 = st.user.2 ++ es.map fun e => .normal e.1.delivered file := by
    intro es
    induction es with
    | nil => intro _ rest k st h1 h2; exact ⟨k, st, rfl, h1, h2, by simp⟩
    | cons e es ih =>
      intro hes rest k st h1 h2
      obtain ⟨k1, st1, e1, i1, f1, u1⟩ := feed_delivered fs H hH maxOpen file
        (List.replicate e.2 (.line []) ++ (rawLines (journalLines (es.map fun e => (.entry e.1, e.2))) ++ rest)) k st h1 h2 e.1
        (hes e (by simp)).1 (hes e (by simp)).2
      obtain ⟨k2, st2, e2, i2, f2, u2⟩ := ih (fun x hx => hes x (by simp [hx])) rest (k1 + e.2) st1 i1 f1
      refine ⟨k2, st2, ?_, i2, f2, ?_⟩
      · rw [← e2, ← feed_blanks fs (logged H) maxOpen file _ e.2 k1 st1 i1, ← e1]
        congr 1
        simp [journalLines, rawLines, Paragraph.lines, List.replicate_succ, encode]
      · rw [u2, u1]; simp
  have hr := journalText_lines hfit []
  rw [List.append_nil, show readLines [] = [] from rfl, List.append_nil] at hr
  obtain ⟨k, st, e, hi, hf, hu⟩ := hfeed es hes [] 1 (rootStart (u, []) file) ⟨rfl, rfl, rfl⟩ rfl
  rw [List.append_nil] at e
  have hp : parse fs (logged H) maxOpen bytes file (newParser (u, [])) = (st, none) := by
    rw [parse_new]
    show ((feedLines _ _ _ (readLines (journalText _)) _).andThen _).wrap _ = _
    rw [hr]
    rw [e]
    simp [feedLines, Step.andThen, endTransaction_of_idle _ _ hi, Step.wrap]
  unfold failureOf callsOf
  rw [hp]
  exact ⟨rfl, by simpa [rootStart, Entry.delivered] using hu⟩

/-- Three missing amounts, the last posting has one. -/
example :
    letI := asciiUnicode
    let h : Header := { date := str "2020-01-01", day := ⟨2020, 1, 1⟩, payee := str "x" }
    let e : Entry := { header := h, postings := [{ account := str "A" }, { account := str "B" },
      { account := str "D", notes := [{ comment := { text := str "n" } }] }, { account := str "C", amount := some { number := str "1", quantity := 100 } }] }
    e.Ok ∧ e.Surplus ∧ Fits (journalLines [(.entry e, 0)]) ∧
    e.delivered.postings.map (fun p => (p.accountPath, p.value)) = [(str "A", -100), (str "C", 100)] := by decide

/-! ### C26 No posting line is ignored (false) -/

/-- An indented line that is neither blank nor a comment. -/
def PostingLike (s : Str) : Prop :=
  ∃ ws c cs, s = ws ++ c :: cs ∧ Indent ws ∧ isSpace c = false ∧ c ≠ ';' ∧ c ≠ '#'

/-- The line "  1bank  5" disappears without an error: the file parses like the one without it. -/
theorem C26_no_line_ignored_false :
    ¬ ∀ (U : Unicode) (s : Str), PostingLike s →
      @callsOf _ U noFiles recorder 1 (utf8 "2020-01-01 x\n  A  1\n" ++ (encode s ++ 10 :: utf8 "  B\n")) (str "f") [] ≠
        @callsOf _ U noFiles recorder 1 (utf8 "2020-01-01 x\n  A  1\n" ++ utf8 "  B\n") (str "f") [] := by
  intro h
  refine h asciiUnicode (str "  1bank  5") ⟨str "  ", '1', str "bank  5", by decide, by decide, by decide, by decide, by decide⟩ ?_
  decide

/-- What holds: an indented line whose first character is a letter either makes parsing fail at that line, or makes the
posting it names the current posting of the open transaction (the previous one having been added). Missing: lines beginning
with other characters, which are ignored; and what follows an amount is dropped. -/
theorem C26_letter_line_partial [U : Unicode] (fs : FileSystem) (H : Handlers σ) (maxOpen : Nat) (path : Str)
    (ws cs : Str) (c : Char) (hw : Indent ws) (hc : U.isLetter c = true)
    (t : Transaction) (p : Posting) (prev : Option ItemType) (fl : List Str) (u : σ) :
    let before : PState σ := ⟨⟨.normal, some t, none, some p, prev⟩, fl, u⟩
    let after := runLine (parseItem fs H maxOpen) (lineItems path (ws ++ c :: cs)) before
    after.2 ≠ none ∨
      ∃ p', after.1.builder.current = some p' ∧ p'.accountPath = (accountName (c :: cs)).1 ∧
        after.1.builder.transaction = some (if p.accountPath = [] then t else (t.addPosting p).1) := by
  have hink : StartsInk (c :: cs) := white_letter ⟨c, by simp, hc⟩
  have hne : ¬ (c = ';' ∨ c = '#') := by
    rintro (rfl | rfl) <;> rw [U.letter_ascii _ (by decide)] at hc <;> exact absurd hc (by decide)
  obtain ⟨ds, e1, e2⟩ := indent_items path hw hink
  -- the account item
  have hacct : ∀ a : Str, (parseItem fs H maxOpen .accountItem a (⟨⟨.normal, some t, none, some p, prev⟩, fl, u⟩ : PState σ)).2 ≠ none ∨
      ∃ p', parseItem fs H maxOpen .accountItem a (⟨⟨.normal, some t, none, some p, prev⟩, fl, u⟩ : PState σ) =
        (⟨⟨.normal, some (pend t p), none, some p', some .accountItem⟩, fl, u⟩, none) ∧ p'.accountPath = a := by
    intro a
    rw [parseItem_build fs H maxOpen .accountItem rfl]
    by_cases hm : prev ≠ some .commentItem ∧ prev ≠ some .transactionHeaderCommentItem ∧
       prev ≠ some .payeeItem ∧ prev ≠ some .amountItem ∧ prev ≠ some .accountItem ∧ prev ≠ some .periodItem
    · left
      simp only [Builder.build, Builder.buildNormal]
      rw [if_pos hm]
      simp [Step.andThen, liftBuilder]
    · right
      by_cases hpa : p.accountPath = []
      · refine ⟨{ p with linked := true, accountPath := a }, ?_, rfl⟩
        simp only [Builder.build, Builder.buildNormal]
        rw [if_neg hm]
        simp [hpa, Step.andThen, liftBuilder, pend, Builder.target]
      · refine ⟨{ linked := true, accountPath := a }, ?_, rfl⟩
        simp only [Builder.build, Builder.buildNormal]
        rw [if_neg hm]
        have hl : p.accountPath.length ≠ 0 := by simpa using hpa
        simp [hpa, Step.andThen, liftBuilder, pend, Builder.target, Builder.setTarget]
  intro before after
  have hafter : after = runLine (parseItem fs H maxOpen) (lineItems path (ws ++ c :: cs)) before := rfl
  clear_value after
  rw [e1, postingItems, e2] at hafter
  simp only [hne, hc, if_true, if_false] at hafter
  rcases hacct (accountName (c :: cs)).1 with hfail | ⟨p', hok, hp'⟩
  · left
    rw [hafter]
    have hgen : ∀ is : List (ItemType × Str), (runLine (parseItem fs H maxOpen) { items := (.accountItem, (accountName (c :: cs)).1) :: is } before).2 ≠ none := by
      intro is
      simp only [runLine, runItems]
      generalize parseItem fs H maxOpen .accountItem (accountName (c :: cs)).1 before = x at hfail
      obtain ⟨s, _ | f⟩ := x
      · exact absurd rfl hfail
      · simp [Step.andThen]
    by_cases hsp : spaceWidth (accountName (c :: cs)).2 < 2
    · rw [if_pos hsp]; exact hgen _
    · rw [if_neg hsp]; exact hgen _
  · by_cases hsp : spaceWidth (accountName (c :: cs)).2 < 2
    · right
      rw [if_pos hsp] at hafter
      rw [hafter]
      simp only [runLine, runItems, before, hok, Step.andThen]
      exact ⟨p', rfl, hp', rfl⟩
    · rw [if_neg hsp] at hafter
      -- commodity and amount change neither the account nor the transaction
      simp only [amountItems, runLine, runItems, before, hok, andThen_ok] at hafter
      generalize (if 0 < spaceWidth (List.dropWhile isCommodityChar (afterSpace (accountName (c :: cs)).2)) then
        List.takeWhile isCommodityChar (afterSpace (accountName (c :: cs)).2) ++ [' ']
        else List.takeWhile isCommodityChar (afterSpace (accountName (c :: cs)).2)) = com at hafter
      generalize (field (afterSpace (List.dropWhile isCommodityChar (afterSpace (accountName (c :: cs)).2)))).1 = num at hafter
      by_cases hfin : after.2 = none
      · right
        rw [parseItem_build fs H maxOpen .commodityItem rfl] at hafter
        simp only [Builder.build, Builder.buildNormal, ne_eq, not_true_eq_false, if_false, andThen_ok, liftBuilder] at hafter
        rw [parseItem_build fs H maxOpen .amountItem rfl] at hafter
        simp only [Builder.build, Builder.buildNormal, ne_eq, not_true_eq_false, false_and, if_false, liftBuilder] at hafter
        cases hq : parseAmount num with
        | error f =>
          exfalso
          rw [hq] at hafter
          cases f <;> (rw [hafter] at hfin; simp [Step.andThen] at hfin)
        | ok q =>
          rw [hq] at hafter
          simp only [andThen_ok, Option.map_none] at hafter
          rw [hafter]
          exact ⟨_, rfl, hp', rfl⟩
      · exact Or.inl hfin

/-- The hypotheses hold for an ordinary posting line. -/
example : letI := asciiUnicode; Indent (str "  ") ∧ Unicode.isLetter 'E' = true ∧
    (accountName (str "Expenses:Food  12 ; x")).1 = str "Expenses:Food" := by decide

/-- The complement: an indented line whose first character (after the indentation) is neither a letter nor a comment
character, and an indented line without any such character, changes nothing, wherever it stands: parsing ends in the same
state and with the same failure, if any, up to line numbers. With `C26_letter_line_partial` this says exactly which lines
are ignored. -/
theorem C26_ignored_partial [U : Unicode] (fs : FileSystem) (H : Handlers σ) (maxOpen : Nat) (path : Str) (u : σ)
    (a b : List UInt8) (ha : WholeLines a) (ws s : Str) (hw : Indent ws)
    (hs : ∀ c ∈ s.head?, isSpace c = false ∧ c ≠ ';' ∧ c ≠ '#' ∧ U.isLetter c = false) (hfit : PlainLine (encode (ws ++ s))) :
    let withLine := parse fs H maxOpen (a ++ (encode (ws ++ s) ++ 10 :: b)) path (newParser u)
    let without := parse fs H maxOpen (a ++ b) path (newParser u)
    withLine.1 = without.1 ∧ withLine.2.map Failure.unnumbered = without.2.map Failure.unnumbered := by
  have hitems : lineItems path (runes (encode (ws ++ s))) = { items := [] } := by
    rw [runes_encode]
    obtain ⟨cs, e1, e2⟩ := indent_items path hw (s := s) (fun c hc => (hs c hc).1)
    rw [e1, postingItems, e2]
    cases s with
    | nil => rfl
    | cons c cs =>
      obtain ⟨_, h1, h2, h3⟩ := hs c (by simp)
      simp [h1, h2, h3]
  have key := parse_parts FailRel.unnumbered fs H maxOpen path (newParser u) (newParser_shape u)
    (readLines a) (.line (encode (ws ++ s)) :: readLines b) (readLines b) (a ++ (encode (ws ++ s) ++ 10 :: b)) (a ++ b)
    (by
      rw [readLines_append ha, readLines_line _ b hfit.1]
      unfold terminatedLine bufSize
      rw [if_neg (by have := hfit.2.2; omega), if_neg hfit.2.1]) (readLines_append ha b)
    (by
      intro s _
      rw [lexLoop_line, hitems]
      exact lexLoop_shift FailRel.unnumbered _ _ _ _ _ s)
  exact ⟨key.eq_user.1, key.unnumbered⟩

/-- Lines that are ignored: an account beginning with a digit, a line of blanks. -/
example : letI := asciiUnicode
    (∀ c ∈ (str "1bank  5").head?, isSpace c = false ∧ c ≠ ';' ∧ c ≠ '#' ∧ Unicode.isLetter c = false) ∧
    Indent (str "  ") ∧ PlainLine (encode (str "  " ++ str "1bank  5")) ∧ PlainLine (encode (str "  " ++ str "")) := by decide

end Gledger
