/-
C65, C66: what the handlers are given, and printing it.
-/
import Verif.Lemmas.Sound
import Verif.Props.Print
import Verif.Props.Balances
import Verif.Props.Transactions

set_option maxRecDepth 100000

namespace Gledger

variable {σ : Type}

/-! ### C65 Every transaction a handler is given is well formed -/

/-- Every transaction given to the handler of normal transactions has a real date with a year of at most four digits, a payee
without separators or leading blanks that cannot be taken for a state mark unless there is one, trimmed notes, at least one posting, and postings that
know their transaction, whose accounts and commodities can be written. -/
theorem C65_delivered_sound [Unicode] (fs : FileSystem) (H : Handlers σ) (maxOpen : Nat) (bytes : List UInt8) (path : Str) (u : σ)
    (t : Transaction) (file : Str) (h : .normal t file ∈ callsOf fs H maxOpen bytes path u) : t.Sound ∧ t.postings ≠ [] :=
  delivery_sound.calls lexed_items fs H maxOpen bytes path u _ h

/-- Every transaction given to the handler of periodic transactions has the period of the first of a month and no interval, and
its postings with an account know their transaction. -/
theorem C65_delivered_period [Unicode] (fs : FileSystem) (H : Handlers σ) (maxOpen : Nat) (bytes : List UInt8) (path : Str) (u : σ)
    (pt : PeriodicTransaction) (file : Str) (h : .periodic pt file ∈ callsOf fs H maxOpen bytes path u) :
    pt.period.Sound ∧ ∀ p ∈ pt.transaction.postings, p.accountPath ≠ [] → p.linked = true :=
  delivery_sound.calls lexed_items fs H maxOpen bytes path u _ h

/-- A journal with a header note, notes, comments, and a period that cannot be read. -/
example :
    letI := asciiUnicode
    let text := utf8 "2020-02-29 ! ! x  ;  n\n  ;  a\n  A b:c    GBP  1.20\n  ; d\n  B\n\n~ monthly\n  E  3\n\n"
    let t : Transaction :=
      { date := ⟨2020, 2, 29⟩, state := .uncleared, payee := str "! x", headerNote := str "n", notes := [str "a"], elided := some 1,
        postings := [{ linked := true, accountPath := str "A b:c", amount := some ⟨str "GBP ", 120⟩, comments := [str "d"] },
          { linked := true, accountPath := str "B", amount := some ⟨str "GBP ", -120⟩ }] }
    let b : Transaction :=
      { elided := some 1,
        postings := [{ linked := true, accountPath := str "E", amount := some ⟨[], 300⟩ },
          { linked := true, accountPath := budgetRootID, amount := some ⟨[], -300⟩ }] }
    callsOf noFiles recorder 1 text (str "f") [] = [.normal t (str "f"), .periodic { period := {}, transaction := b } (str "f")] := by
  decide +kernel

/-! ### C66 Printing a journal and parsing the output -/

theorem trimmed_note {s : Str} (h : Trimmed s) (hx : ∃ x ∈ s, x ≠ ' ') : NoteText s := by
  obtain ⟨x, hx, hn⟩ := hx
  refine ⟨List.ne_nil_of_mem hx, ?_⟩
  rcases h with h | h
  · exact h
  · exact absurd (h x hx) hn

/-- A delivered transaction that print can write is tidy. -/
theorem sound_tidy [Unicode] {t : Transaction} (hs : t.Sound) (hne : t.postings ≠ []) (hb : t.Balanced) (hp : t.Printable) : t.Tidy := by
  obtain ⟨h1, h2, h3, h4, h5, h6, h7, h8, h9⟩ := hs
  obtain ⟨p1, p2, p3⟩ := hp
  refine ⟨h1, h2, h3, h4, h5, h6, ?_, ?_, hne, ?_, hb⟩
  · intro h
    exact ⟨(p3 h).1, trimmed_note h7 (p3 h).2⟩
  · intro n hn
    exact trimmed_note (h8 n hn) (p2 n hn)
  · intro p hpp
    obtain ⟨q1, q2, q3, q4⟩ := h9 p hpp
    obtain ⟨r1, ⟨a, ha, hq⟩, r3⟩ := p1 p hpp
    refine ⟨q1, ?_, fun c hc => trimmed_note (q4 c hc) (r3 c hc), a, ha, q3 a ha, hq⟩
    rcases q2 with q2 | q2
    · exact absurd q2 r1
    · exact q2

theorem rejection_failure [Unicode] (fs : FileSystem) (maxOpen : Nat) (bytes : List UInt8) (path : Str) :
    rejection fs maxOpen bytes path = failureOf fs recorder maxOpen bytes path [] := by
  have key : ∀ (cs : List Call) (u : List Call × List Call), ((logged recorder).replay cs u).2 = none := by
    intro cs
    induction cs with
    | nil => intro u; rfl
    | cons c cs ih =>
      intro u
      rw [Handlers.replay]
      have hc : (logged recorder).call u c = ((u.1 ++ [c], u.2 ++ [c]), none) := by cases c <;> rfl
      rw [hc]
      exact ih _
  exact ((parse_replay fs (logged recorder) maxOpen bytes path ([], [])).2.1 (key _ _)).symm

theorem recorder_attends : Attends recorder := ⟨⟨_, rfl, fun _ _ _ => rfl⟩, ⟨_, rfl, fun _ _ _ => rfl⟩⟩

/-- The transactions that print shows are tidy, if print can write them. -/
theorem picked_tidy [Unicode] (e : Env) {fs : FileSystem} {maxOpen : Nat} {bytes : List UInt8} {path : Str} {t : Transaction}
    (ht : t ∈ (e.picked (delivered fs maxOpen bytes path)).map Prod.fst) (hp : t.Printable) : t.Tidy := by
  obtain ⟨⟨t, file⟩, htf, rfl⟩ := List.mem_map.1 ht
  have hm : .normal t file ∈ callsOf fs recorder maxOpen bytes path [] := by
    rw [← delivered_calls]
    have := List.mem_of_mem_filter htf
    unfold normals at this
    obtain ⟨c, hc, hcs⟩ := List.mem_filterMap.1 this
    cases c with
    | normal t' f' => cases hcs; exact hc
    | periodic pt f' => cases hcs
  obtain ⟨h1, h2⟩ := C65_delivered_sound fs recorder maxOpen bytes path [] t file hm
  exact sound_tidy h1 h2 (C01_delivered_balance fs recorder maxOpen bytes path [] _ hm) hp

/-- What the print command prints for a journal is itself a journal, with the transactions that it shows: provided that print
can write them (every posting has an account and an amount below the limit, notes are not blank, a note on the header line
follows a payee), and that the printed lines fit the read buffer. -/
theorem C66_printed_is_journal [Unicode] (e : Env) (ho : ∀ l, (e.mapOrder l).Perm l) (sort : List Transaction → List Transaction) (hs : SortsByDate sort)
    (fs fs' : FileSystem) (maxOpen maxOpen' : Nat) (bytes : List UInt8) (path path' text : Str) (h : printCmd e sort fs maxOpen bytes path = .ok text)
    (hp : ∀ t ∈ (e.picked (delivered fs maxOpen bytes path)).map Prod.fst, t.Printable ∧ Fits t.written.lines) :
    ∃ ts : List Transaction, ts.Perm ((e.picked (delivered fs maxOpen bytes path)).map Prod.fst) ∧ ts.Pairwise (fun a b => a.date.dayNumber ≤ b.date.dayNumber) ∧
      text = (ts.map fun t => t.format ++ str "\n").flatten ∧
      delivered fs' maxOpen' (encode text) path' = ts.map (fun t => .normal t.plain path') ∧ rejection fs' maxOpen' (encode text) path' = none := by
  obtain ⟨ts, h1, h2, h3⟩ := C49_print e ho sort hs fs maxOpen bytes path text h
  refine ⟨ts, h1, h2, h3, ?_⟩
  have := C50_print_parses_back fs' recorder recorder_attends maxOpen' path' [] ts
    (fun t ht => picked_tidy e (h1.mem_iff.1 ht) (hp t (h1.mem_iff.1 ht)).1) (fun t ht => (hp t (h1.mem_iff.1 ht)).2)
  rw [show printReport ts = text by rw [h3, printReport, List.flatMap_def]] at this
  rw [delivered_calls, rejection_failure]
  exact this

theorem range_uniform {e : Env} {t : Transaction} (h : e.InRange t) : ∀ u, ∃ b, e.withinDateRange u = .ok b := by
  intro u
  unfold Env.InRange Env.withinDateRange at h
  unfold Env.withinDateRange
  cases h1 : e.bound e.beginDate with
  | error err => simp [h1] at h
  | ok a =>
    cases h2 : e.bound e.endDate with
    | error err => simp [h1, h2] at h
    | ok b => exact ⟨_, rfl⟩

/-- Printing the output of print again, with flags and filters that let through all of it, gives the same text; the sort has to
leave what is in order as it is. -/
theorem C66_print_idempotent [Unicode] (e e' : Env) (ho : ∀ l, (e.mapOrder l).Perm l) (ho' : ∀ l, (e'.mapOrder l).Perm l)
    (sort sort' : List Transaction → List Transaction) (hs : SortsByDate sort)
    (hs' : ∀ ts, ts.Pairwise (fun a b => a.date.dayNumber ≤ b.date.dayNumber) → sort' ts = ts)
    (fs fs' : FileSystem) (maxOpen maxOpen' : Nat) (bytes : List UInt8) (path path' text : Str) (h : printCmd e sort fs maxOpen bytes path = .ok text)
    (hp : ∀ t ∈ (e.picked (delivered fs maxOpen bytes path)).map Prod.fst, t.Printable ∧ Fits t.written.lines)
    (hall : ∀ t ∈ (e.picked (delivered fs maxOpen bytes path)).map Prod.fst, e'.InRange t ∧ e'.Wanted t) :
    printCmd e' sort' fs' maxOpen' (encode text) path' = .ok text := by
  obtain ⟨ts, h1, h2, h0, h3, h4⟩ := C66_printed_is_journal e ho sort hs fs fs' maxOpen maxOpen' bytes path path' text h hp
  obtain ⟨text2, ht2⟩ : ∃ out, printCmd e' sort' fs' maxOpen' (encode text) path' = .ok out := by
    cases hts : ts with
    | nil =>
      subst hts
      refine ⟨printReport (sort' []), ?_⟩
      unfold printCmd
      rw [runParse_replay.2 ⟨h4, by rw [h3]; rfl⟩]
      rfl
    | cons t _ =>
      exact C49_runs e' sort' fs' maxOpen' (encode text) path' h4 (range_uniform (hall t (h1.mem_iff.1 (by simp [hts]))).1)
  rw [ht2]
  unfold printCmd at ht2
  cases hj : runParse fs' maxOpen' (encode text) path' e'.printHandlers [] with
  | error f => rw [hj] at ht2; cases ht2
  | ok vs =>
    rw [hj] at ht2
    cases ht2
    have hv := print_replay e' ho' _ [] vs (runParse_replay.1 hj).2
    have hn : ∀ l : List Transaction, normals (l.map fun t => .normal t.plain path') = l.map fun t => (t.plain, path') := by
      intro l
      unfold normals
      rw [List.filterMap_map]
      exact List.filterMap_eq_map_iff_forall_eq_some.2 (fun t _ => rfl)
    have hvs : vs = ts.map Transaction.plain := by
      rw [hv, h3]
      unfold Env.picked
      rw [hn, List.filter_eq_self.2 (fun tf htf => by
        obtain ⟨t, ht, rfl⟩ := List.mem_map.1 htf
        have : e'.InRange t.plain ∧ e'.Wanted t.plain := hall t (h1.mem_iff.1 ht)
        simpa using this)]
      simp [Function.comp_def]
    rw [hvs]
    show Except.ok (printReport (sort' (ts.map Transaction.plain))) = _
    rw [hs' (ts.map Transaction.plain) (List.pairwise_map.2 h2), h0]
    unfold printReport
    rw [List.flatMap_map, List.flatMap_def]
    rfl

/-- The same command on its own output gives the same output. -/
theorem C66_print_again [Unicode] (e : Env) (ho : ∀ l, (e.mapOrder l).Perm l) (sort : List Transaction → List Transaction) (hs : SortsByDate sort)
    (hs' : ∀ ts, ts.Pairwise (fun a b => a.date.dayNumber ≤ b.date.dayNumber) → sort ts = ts)
    (fs fs' : FileSystem) (maxOpen maxOpen' : Nat) (bytes : List UInt8) (path path' text : Str) (h : printCmd e sort fs maxOpen bytes path = .ok text)
    (hp : ∀ t ∈ (e.picked (delivered fs maxOpen bytes path)).map Prod.fst, t.Printable ∧ Fits t.written.lines) :
    printCmd e sort fs' maxOpen' (encode text) path' = .ok text := by
  refine C66_print_idempotent e e ho ho sort sort hs hs' fs fs' maxOpen maxOpen' bytes path path' text h hp ?_
  intro t ht
  obtain ⟨tf, htf, rfl⟩ := List.mem_map.1 ht
  simpa using List.of_mem_filter htf

/-- The hypotheses hold for a journal out of order, and print gives its transactions by date, in its own layout. -/
example :
    letI := asciiUnicode
    let text := utf8 "2020-03-01 * b  ; n\n\tB   1\n\tA\n2020-02-29 a\n  A  £1000.50\n  ; c\n  B  £ -1000.50\n"
    let e : Env := {}
    let sort := List.insertionSort fun (a b : Transaction) => a.date.dayNumber ≤ b.date.dayNumber
    printCmd e sort noFiles 1 text (str "f") =
      .ok (str "2020-02-29   a\n    A    £1000.50\n      ; c\n    B    £ -1000.50\n\n2020-03-01 * b    ; n\n    B    1.00\n    A    -1.00\n\n") ∧
    ∀ t ∈ (e.picked (delivered noFiles 1 text (str "f"))).map Prod.fst, t.Printable ∧ Fits t.written.lines := by
  decide +kernel

end Gledger
