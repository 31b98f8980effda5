/-
C65: no text of what the handlers are given runs over the end of a line.
-/
import Verif.Props.Journals

set_option maxRecDepth 100000

namespace Gledger

theorem runes_newline {l : List UInt8} (h : (10 : UInt8) ∉ l) : '\n' ∉ runes l := by
  have key : ∀ (cs : Str) (bytes : List UInt8), Divided bytes cs → '\n' ∈ cs → (10 : UInt8) ∈ bytes := by
    intro cs
    induction cs with
    | nil => intro _ _ h; cases h
    | cons c cs ih =>
      rintro bytes ⟨piece, rest, rfl, hr, hp⟩ hm
      rw [List.mem_append]
      rcases List.mem_cons.1 hm with rfl | hm
      · rcases hp with rfl | ⟨hc, _⟩
        · left; decide
        · exact absurd hc (by decide)
      · exact Or.inr (ih rest hr hm)
  exact fun hm => h (key _ _ (C22_every_byte_once l) hm)

theorem firstLine_newline {bytes rest : List UInt8} {l : Str} (h : FirstLine bytes (some l) rest) : '\n' ∉ l := by
  cases h with
  | lf h1 => exact runes_newline h1
  | crlf h1 => exact runes_newline h1
  | last _ h1 => exact runes_newline h1

/-- All texts of the posting are on one line. -/
def Posting.OnLines (p : Posting) : Prop := '\n' ∉ p.accountPath ∧ (∀ a ∈ p.amount, '\n' ∉ a.commodity) ∧ ∀ c ∈ p.comments, '\n' ∉ c

instance (p : Posting) : Decidable p.OnLines := by unfold Posting.OnLines; infer_instance

/-- All texts of the transaction are on one line. -/
def Transaction.OnLines (t : Transaction) : Prop :=
  '\n' ∉ t.payee ∧ '\n' ∉ t.headerNote ∧ (∀ n ∈ t.notes, '\n' ∉ n) ∧ ∀ p ∈ t.postings, p.OnLines

instance (t : Transaction) : Decidable t.OnLines := by unfold Transaction.OnLines; infer_instance

/-- All texts of the paragraph are on one line. -/
def Meant.OnLines : Meant → Prop
  | .transaction t => t.OnLines
  | .budget _ ps => ∀ p ∈ ps, p.OnLines

/-- So far. -/
def Page.OnLines : Page → Prop
  | .closed _ => True
  | .entry h ps => ('\n' ∉ h.payee ∧ '\n' ∉ h.headerNote ∧ ∀ n ∈ h.notes, '\n' ∉ n) ∧ ∀ p ∈ ps, p.OnLines
  | .budget _ ps => ∀ p ∈ ps, p.OnLines

/-- The texts taken from a line are on it. -/
def Line.OnLine : Line → Prop
  | .header _ _ payee comment => '\n' ∉ payee ∧ '\n' ∉ comment
  | .note text => '\n' ∉ text
  | .posting account amount => '\n' ∉ account ∧ ∀ a ∈ amount, '\n' ∉ a.1
  | _ => True

theorem commentText_mem {w t : Str} (h : CommentText w t) {c : Char} (hc : c ∈ t) : c ∈ w := by
  rcases h with ⟨n, rfl, _⟩ | ⟨rfl, _⟩
  · simp [hc]
  · exact hc

theorem headerRest_mem {r note : Str} (h : HeaderRest r note) {c : Char} (hc : c ∈ note) : c ∈ r := by
  cases h with
  | none => exact hc
  | blank => cases hc
  | ended => cases hc
  | blanks _ =>
    have := List.eq_of_mem_replicate hc
    subst this
    simp
  | note _ _ hw => simp [commentText_mem hw hc]

theorem lineIs_onLine [Unicode] {l : Str} {L : Line} (h : LineIs l L) (hl : '\n' ∉ l) : L.OnLine := by
  cases h with
  | note _ _ hw => exact fun hc => hl (by simp [commentText_mem hw hc])
  | posting _ _ _ => exact ⟨fun hc => hl (by simp [hc]), by simp⟩
  | amount =>
    refine ⟨fun hc => hl (by simp [hc]), fun a ha hc => hl ?_⟩
    cases ha
    simp only at hc
    split at hc
    · simp [hc]
    · rw [List.mem_append] at hc
      rcases hc with hc | hc
      · simp [hc]
      · exact absurd hc (by decide)
  | header _ _ _ _ _ _ _ _ hr => exact ⟨fun hc => hl (by simp [hc]), fun hc => hl (by simp [headerRest_mem hr hc])⟩
  | _ => trivial

theorem kept_subset : ∀ {ps : List Posting} {p : Posting}, p ∈ kept ps → p ∈ ps := by
  intro ps
  induction ps with
  | nil => intro p h; exact h
  | cons q ps ih =>
    intro p h
    rw [kept] at h
    split at h
    · rcases List.mem_cons.1 h with rfl | h
      · simp
      · exact List.mem_cons_of_mem _ (List.mem_filter.1 h).1
    · rcases List.mem_cons.1 h with rfl | h
      · simp
      · exact List.mem_cons_of_mem _ (ih h)

theorem inferred_onLines {ps : List Posting} (h : ∀ p ∈ ps, p.OnLines) : ∀ p ∈ inferred ps, p.OnLines := by
  unfold inferred
  split
  · exact h
  · intro p hp
    obtain ⟨q, hq, rfl⟩ := List.mem_map.1 hp
    split
    · refine ⟨(h q hq).1, fun a ha => ?_, (h q hq).2.2⟩
      rw [Option.mem_def, Option.some.injEq] at ha
      subst ha
      show '\n' ∉ lastCommodity ps
      unfold lastCommodity
      cases hc : (writtenCommodities ps).getLast? with
      | none => simp
      | some c =>
        have := List.mem_of_getLast? hc
        unfold writtenCommodities at this
        simp only [List.mem_filter, List.mem_filterMap, Option.map_eq_some_iff] at this
        obtain ⟨⟨r, hr, b, hb, rfl⟩, _⟩ := this
        exact (h r hr).2.1 b hb
    · exact h q hq

theorem page_postings_onLines {pg : Page} (h : pg.OnLines) : ∀ p ∈ pg.postings, p.OnLines := by
  cases pg with
  | closed b => intro p hp; cases hp
  | entry t ps =>
    intro p hp
    rw [Page.postings] at hp
    split at hp
    · rw [List.mem_singleton] at hp; subst hp; exact ⟨by simp, by simp, by simp⟩
    · exact h.2 p hp
  | budget m ps =>
    intro p hp
    rw [Page.postings] at hp
    split at hp
    · rw [List.mem_singleton] at hp; subst hp; exact ⟨by simp, by simp, by simp⟩
    · exact h p hp

theorem page_kept_onLines {pg : Page} (h : pg.OnLines) : ∀ p ∈ pg.kept, p.OnLines := by
  intro p hp
  cases pg with
  | closed b => cases hp
  | entry t ps => exact page_postings_onLines h p (kept_subset hp)
  | budget m ps =>
    rw [Page.kept] at hp
    split at hp
    · exact page_postings_onLines h p (kept_subset hp)
    · have := kept_subset hp
      rw [List.mem_append, List.mem_singleton] at this
      rcases this with hq | rfl
      · exact page_postings_onLines h p hq
      · exact ⟨by decide, by simp, by simp⟩

theorem page_meaning_onLines {pg : Page} (h : pg.OnLines) : ∀ x ∈ pg.meaning, x.OnLines := by
  intro x hx
  cases pg with
  | closed b => cases hx
  | entry t ps =>
    rw [Page.meaning, List.mem_singleton] at hx
    subst hx
    exact ⟨h.1.1, h.1.2.1, h.1.2.2, inferred_onLines (page_kept_onLines h)⟩
  | budget m ps =>
    rw [Page.meaning, List.mem_singleton] at hx
    subst hx
    exact inferred_onLines (page_kept_onLines h)

theorem ends_onLines {pg : Page} {ms : List Meant} (he : pg.Ends (.ok ms)) (h : pg.OnLines) : ∀ x ∈ ms, x.OnLines := by
  cases he with
  | complete _ _ => exact page_meaning_onLines h

theorem add_onLines {pg : Page} {p : Posting} (h : pg.OnLines) (hp : p.OnLines) : (pg.add p).OnLines := by
  cases pg with
  | closed b => trivial
  | entry t ps =>
    refine ⟨h.1, fun q hq => ?_⟩
    rw [List.mem_append, List.mem_singleton] at hq
    rcases hq with hq | rfl
    · exact h.2 q hq
    · exact hp
  | budget m ps =>
    intro q hq
    rw [List.mem_append, List.mem_singleton] at hq
    rcases hq with hq | rfl
    · exact h q hq
    · exact hp

theorem noted_onLines {ps : List Posting} {p : Posting} {text : Str} (h : ∀ q ∈ ps ++ [p], q.OnLines) (ht : '\n' ∉ text) :
    ∀ q ∈ ps ++ [{ p with comments := p.comments ++ [text] }], q.OnLines := by
  intro q hq
  rw [List.mem_append, List.mem_singleton] at hq
  rcases hq with hq | rfl
  · exact h q (by simp [hq])
  · have hp := h p (by simp)
    refine ⟨hp.1, hp.2.1, fun c hc => ?_⟩
    rcases List.mem_append.1 hc with hc | hc
    · exact hp.2.2 c hc
    · rw [List.mem_singleton] at hc; subst hc; exact ht

theorem shut_onLines (pg : Page) : pg.shut.OnLines := by cases pg <;> trivial

theorem effect_onLines {pg : Page} {L : Line} {ms : List Meant} {out : Except Fault Page} (he : Effect pg L ms out) (h : pg.OnLines) (hL : L.OnLine) :
    (∀ x ∈ ms, x.OnLines) ∧ ∀ pg', out = .ok pg' → pg'.OnLines := by
  cases he with
  | passed => exact ⟨by simp, fun _ e => by cases e; exact h⟩
  | blank he => exact ⟨ends_onLines he h, fun _ e => by cases e; exact shut_onLines _⟩
  | header he => exact ⟨ends_onLines he h, fun _ e => by cases e; exact ⟨⟨hL.1, hL.2, by simp⟩, by simp⟩⟩
  | badDate he => exact ⟨ends_onLines he h, fun _ e => by cases e⟩
  | shortDate he => exact ⟨ends_onLines he h, fun _ e => by cases e⟩
  | budget he => exact ⟨ends_onLines he h, fun _ e => by cases e; intro p hp; cases hp⟩
  | badPeriod he => exact ⟨ends_onLines he h, fun _ e => by cases e; intro p hp; cases hp⟩
  | entryNote =>
    refine ⟨by simp, fun _ e => ?_⟩
    cases e
    refine ⟨⟨h.1.1, h.1.2.1, fun n hn => ?_⟩, h.2⟩
    rcases List.mem_append.1 hn with hn | hn
    · exact h.1.2.2 n hn
    · rw [List.mem_singleton] at hn; subst hn; exact hL
  | postingNote => exact ⟨by simp, fun _ e => by cases e; exact ⟨h.1, noted_onLines h.2 hL⟩⟩
  | budgetNote => exact ⟨by simp, fun _ e => by cases e; exact noted_onLines h hL⟩
  | posting => exact ⟨by simp, fun _ e => by cases e; exact add_onLines h ⟨hL.1, by simp, by simp⟩⟩
  | amount =>
    refine ⟨by simp, fun _ e => ?_⟩
    cases e
    refine add_onLines h ⟨hL.1, fun a ha => ?_, by simp⟩
    rw [Option.mem_def, Option.some.injEq] at ha
    subst ha
    exact hL.2 _ rfl
  | _ => exact ⟨by simp, fun _ e => by cases e⟩

theorem labelled_onLines {label : Str} {ms : List Meant} (h : ∀ x ∈ ms, x.OnLines) : ∀ x ∈ labelled label ms, x.1.OnLines := by
  intro x hx
  obtain ⟨y, hy, rfl⟩ := List.mem_map.1 hx
  exact h y hy

theorem course_onLines [Unicode] {fs : FileSystem} {lib : Err → Str} {root : Str} {k : Nat} {path label : Str} {n : Nat} {pg : Page} {bytes : List UInt8}
    {js : List (Meant × Str)} {out : Except Report Page} (h : Course fs lib root k path label n pg bytes js out) (hp : pg.OnLines) :
    (∀ x ∈ js, x.1.OnLines) ∧ ∀ pg', out = .ok pg' → pg'.OnLines := by
  induction h with
  | done he => exact ⟨labelled_onLines (ends_onLines he hp), fun _ e => by cases e; exact shut_onLines _⟩
  | line hf hl he _ ih =>
    obtain ⟨h1, h2⟩ := effect_onLines he hp (lineIs_onLine hl (firstLine_newline hf))
    obtain ⟨h3, h4⟩ := ih (h2 _ rfl)
    refine ⟨fun x hx => ?_, h4⟩
    rcases List.mem_append.1 hx with hx | hx
    · exact labelled_onLines h1 x hx
    · exact h3 x hx
  | fault hf hl he => exact ⟨labelled_onLines (effect_onLines he hp (lineIs_onLine hl (firstLine_newline hf))).1, fun _ e => by cases e⟩
  | includes _ _ _ _ _ ih1 ih2 =>
    obtain ⟨h1, h2⟩ := ih1 hp
    obtain ⟨h3, h4⟩ := ih2 (h2 _ rfl)
    refine ⟨fun x hx => ?_, h4⟩
    rcases List.mem_append.1 hx with hx | hx
    · exact h1 x hx
    · exact h3 x hx
  | within _ _ _ _ ih => exact ⟨(ih hp).1, fun _ e => by cases e⟩
  | _ => exact ⟨by simp, fun _ e => by cases e⟩

/-- The texts of a paragraph, whatever bytes the journal is made of, are each on one line. -/
theorem C65_one_line [Unicode] {fs : FileSystem} {lib : Err → Str} {opens : Nat} {path : Str} {bytes : List UInt8} {js : List (Meant × Str)}
    {out : Except Report Page} (h : Reading fs lib opens path bytes js out) : ∀ x ∈ js, x.1.OnLines :=
  (course_onLines h trivial).1

/-- So are those of every transaction a handler is given. -/
theorem C65_delivered_one_line [Unicode] (fs : FileSystem) (opens : Nat) (bytes : List UInt8) (path : Str) (t : Transaction) (file : Str)
    (h : .normal t file ∈ delivered fs opens bytes path) : t.OnLines := by
  obtain ⟨js, out, hr, hu⟩ := C99_one_reading fs (fun _ => []) opens path bytes
  have hc := (C99_parsed hr).1
  have hj := C65_one_line hr
  generalize delivered fs opens bytes path = l at h hc
  clear hr hu
  induction hc with
  | nil => cases h
  | @cons x c _ _ h1 _ ih =>
    rcases List.mem_cons.1 h with rfl | h
    · have hx := hj x (by simp)
      obtain ⟨m, f⟩ := x
      cases m with
      | transaction t' =>
        obtain ⟨rfl, _⟩ := h1
        exact hx
      | budget => simp [Meant.Call] at h1
    · exact ih (fun y hy => hj y (by simp [hy])) h

/-- A carriage return alone does not end a line: payees and accounts can have one. -/
example :
    letI := asciiUnicode
    ∃ t, delivered (fun _ => none) 5 (utf8 "2020-01-02 a\x0db\n  A  1\n  B\x0dC  -1\n") (str "f") = [.normal t (str "f")] ∧
      t.payee = str "a\x0db" ∧ t.OnLines ∧ t.postings.map Posting.accountPath = [str "A", str "B\x0dC"] := by
  let := asciiUnicode
  refine ⟨{ date := ⟨2020, 1, 2⟩, payee := str "a\x0db", postings := [{ linked := true, accountPath := str "A", amount := some ⟨[], 100⟩ },
    { linked := true, accountPath := str "B\x0dC", amount := some ⟨[], -100⟩ }] }, ?_⟩
  decide +kernel

end Gledger
