/-
C99: every journal, whatever bytes it is made of.
-/
import Verif.Lemmas.Journals

namespace Gledger

/-! ### C99 Every journal has one reading, and the program follows it -/

/-- Every line is of exactly one kind, whatever is written in it. -/
theorem C99_lines [Unicode] (l : Str) : ∃! L, LineIs l L := by
  obtain ⟨L, h⟩ := lineIs_exists l
  exact ⟨L, h, fun L' h' => lineIs_unique h' h⟩

/-- Every file, whatever bytes it is made of and whatever it includes, has exactly one reading. -/
theorem C99_one_reading [Unicode] (fs : FileSystem) (lib : Err → Str) (opens : Nat) (path : Str) (bytes : List UInt8) :
    ∃ js out, Reading fs lib opens path bytes js out ∧ ∀ js' out', Reading fs lib opens path bytes js' out' → js' = js ∧ out' = out := by
  obtain ⟨js, out, h⟩ := course_exists fs lib path opens bytes path path 1 (.closed false)
  exact ⟨js, out, h, fun _ _ h' => course_unique h' h⟩

theorem replay_recorder (calls log : List Call) : recorder.replay calls log = (log ++ calls, none) := by
  induction calls generalizing log with
  | nil => rw [List.append_nil]; rfl
  | cons c cs ih =>
    have hc : recorder.call log c = (log ++ [c], none) := by cases c <;> rfl
    rw [Handlers.replay, hc]
    simp only [Step.andThen]
    rw [ih, List.append_assoc]
    rfl

/-- The handlers are called for the paragraphs of the reading, in order, and parsing ends as the reading does. -/
theorem C99_parsed [Unicode] {fs : FileSystem} {lib : Err → Str} {opens : Nat} {path : Str} {bytes : List UInt8} {js : List (Meant × Str)}
    {out : Except Report Page} (h : Reading fs lib opens path bytes js out) :
    List.Forall₂ (fun x c => x.1.Call x.2 c) js (delivered fs opens bytes path) ∧
    (∀ pg, out = .ok pg → rejection fs opens bytes path = none) ∧
    ∀ rep, out = .error rep → ∃ f, rejection fs opens bytes path = some (f.wrap .errorAt) ∧ rep.IsOf lib f := by
  obtain ⟨calls, e1, e2⟩ := course_runs recorder h (rootStart [] path) rfl rfl rfl
  obtain ⟨e2, e3, e4⟩ := e2 calls (replay_recorder calls [])
  rw [delivered, rejection, parse_new]
  generalize (feedLines (parseItem fs recorder opens) path 1 (readLines bytes) (rootStart [] path)).andThen (parseItem fs recorder opens .eofItem []) = r at e2 e3 e4
  obtain ⟨st, o⟩ := r
  have e2 : st.user = calls := e2
  have hu : (Step.wrap Err.errorAt (st, o)).1 = st := by
    cases o <;> rfl
  refine ⟨by rw [hu, e2]; exact e1, ?_, ?_⟩
  · intro pg hpg
    obtain ⟨rfl, _⟩ := e3 pg hpg
    rfl
  · intro rep hrep
    obtain ⟨f, rfl, hf⟩ := e4 rep hrep
    exact ⟨f, rfl, hf⟩

section
variable [Unicode] {m : Machine} {o : Options} {args : List Str} {bytes : List UInt8} {js : List (Meant × Str)} {filters : List Filter}
  {admits : Date → Bool} {path : Str} {out : Except Report Page}

/-- Whatever bytes the journal is made of: a command that needs an amount missing in a paragraph of its reading crashes. Otherwise it prints its
answer if the journal can be read, and if not, its warnings about the paragraphs that can be read and what is wrong with the next. -/
theorem C99_answers (g : Setting m o args bytes filters admits path) (h : Reading m.fs m.lib m.maxOpen path bytes js out) {c : Command} (hc : c ≠ .version) :
    (c.Short filters admits (meanings js) → (m.run o c args).ending = .panic .unusablePosting) ∧
    (¬ c.Short filters admits (meanings js) →
      (∀ pg, out = .ok pg → c.Answers m o args js filters admits (m.run o c args)) ∧
      ∀ rep, out = .error rep → ∃ w, c.Warned filters admits (meanings js) w ∧ rep.Shown w (m.run o c args)) := by
  obtain ⟨d1, d2, d3⟩ := C99_parsed h
  have hh : Heard m o args bytes js filters admits path := ⟨g, d1⟩
  rcases out with rep | pg
  · obtain ⟨f, e1, e2⟩ := d3 rep rfl
    have := hh.reported e1 e2 hc
    refine ⟨this.1, fun hs => ⟨by simp, ?_⟩⟩
    rintro _ ⟨⟩
    exact this.2 hs
  · have := hh.answers (d2 pg rfl) (c := c)
    refine ⟨this.1, fun hs => ⟨?_, by simp⟩⟩
    rintro _ ⟨⟩
    exact this.2 hs

omit [Unicode] in
theorem call_inj {x y : Meant} {a b : Str} {c : Call} (h1 : x.Call a c) (h2 : y.Call b c) : (x, a) = (y, b) := by
  cases c with
  | normal t f =>
    cases x with
    | budget => exact h1.elim
    | transaction t1 =>
      cases y with
      | budget => exact h2.elim
      | transaction t2 =>
        obtain ⟨rfl, rfl, _⟩ := h1
        obtain ⟨rfl, rfl, _⟩ := h2
        rfl
  | periodic p f =>
    cases x with
    | transaction => exact h1.elim
    | budget m1 p1 =>
      cases y with
      | transaction => exact h2.elim
      | budget m2 p2 =>
        obtain ⟨rfl, rfl, _, rfl⟩ := h1
        obtain ⟨rfl, rfl, _, rfl⟩ := h2
        rfl

omit [Unicode] in
theorem calls_inj {js js' : List (Meant × Str)} {calls : List Call} (h : List.Forall₂ (fun x c => x.1.Call x.2 c) js calls)
    (h' : List.Forall₂ (fun x c => x.1.Call x.2 c) js' calls) : js = js' := by
  induction h generalizing js' with
  | nil => cases h'; rfl
  | cons h1 _ ih =>
    cases h' with
    | cons h2 h3 =>
      rw [ih h3]
      congr 1
      exact call_inj h1 h2

/-- A journal of well-formed paragraphs is read as these. -/
theorem C99_well_formed (g : Given m o args bytes js filters admits path) : ∃ pg, Reading m.fs m.lib m.maxOpen path bytes js (.ok pg) := by
  obtain ⟨js', out, h, _⟩ := C99_one_reading m.fs m.lib m.maxOpen path bytes
  obtain ⟨d1, d2, d3⟩ := C99_parsed h
  obtain ⟨e1, e2⟩ := g.means_delivered
  obtain rfl := calls_inj e2 d1
  rcases out with rep | pg
  · obtain ⟨f, e, _⟩ := d3 rep rfl
    rw [e1] at e
    cases e
  · exact ⟨pg, h⟩

end

/-! A journal that is not made of complete paragraphs: an entry goes on in an included file, at the end of which it is complete, and a budget entry
is for a month that cannot be read. -/

instance (ps : List Posting) : Decidable (TwoMissing ps) :=
  decidable_of_iff (∃ q ∈ ps.getLast?, q.amount = none ∧ ∃ p ∈ ps.dropLast, p.amount = none) (by
    constructor
    · rintro ⟨q, h1, h2, h3⟩
      obtain ⟨qs, rfl⟩ := List.getLast?_eq_some_iff.1 h1
      rw [List.dropLast_concat] at h3
      exact ⟨qs, q, rfl, h2, h3⟩
    · rintro ⟨qs, q, rfl, h2, h3⟩
      exact ⟨q, by simp, h2, by rw [List.dropLast_concat]; exact h3⟩)

instance (ps : List Posting) : Decidable (Unbalanced ps) := by unfold Unbalanced; infer_instance

theorem firstLine_text {s : Str} (r : List UInt8) (h : PlainLine (encode s)) : FirstLine (encode s ++ 10 :: r) (some s) r := by
  have := FirstLine.lf (r := r) h.1 (by have := h.2.2; omega) h.2.1
  rwa [runes_encode] at this

def oddText : List UInt8 := utf8 "2020-01-02 x ; yes\ninclude g\n~ soon\n  C  3\n"

def oddInner : List UInt8 := utf8 "  A  £5.00\n  B"

def oddFiles : FileSystem := fun p => if p = str "f" then some oddText else if p = str "g" then some oddInner else none

/-- The entry belongs to the included file; the first letter of the note is lost. -/
def oddEntry : Transaction :=
  { date := ⟨2020, 1, 2⟩, payee := str "x", headerNote := str "es", elided := some 1
    postings := [{ linked := true, accountPath := str "A", amount := some ⟨str "£", 500⟩ },
                 { linked := true, accountPath := str "B", amount := some ⟨str "£", -500⟩ }] }

/-- The budget entry is for the first month there is. -/
def oddBudget : List Posting :=
  [{ linked := true, accountPath := str "C", amount := some ⟨[], 300⟩ }, { linked := true, accountPath := budgetRootID, amount := some ⟨[], -300⟩ }]

set_option maxRecDepth 100000 in
/-- Its reading. -/
theorem oddReading (lib : Err → Str) :
    letI := asciiUnicode
    Reading oddFiles lib 1 (str "f") oddText [(.transaction oddEntry, str "g"), (.budget ⟨1, 1, 1⟩ oddBudget, str "f")] (.ok (.closed true)) := by
  let := asciiUnicode
  have hq : ∀ (s : Str) (q : I64), parseAmount s = .ok q → NumberMeans s q := fun s q => (number_iff s q).1
  have l1 : LineIs (str "2020-01-02 x ; yes") (.header (str "2020-01-02") .noState (str "x") (str "es")) :=
    .header (date := str "2020-01-02") (gap := [' ']) (state := .noState) (gap2 := []) (payee := str "x") (r := str " ; yes") ⟨'2', by decide, by decide⟩ (by decide) (by decide) (.inl rfl) (by decide) (by decide) (by decide) (by decide)
      (.note (e := [' ', ';']) (n := 1) (c := 'y') (written := str "es") (.inl ⟨';', .inl rfl, .inr rfl⟩) (by decide) (.inl ⟨0, rfl, by decide, by decide⟩))
  have l2 : LineIs (str "include g") (.inclusion (str "g")) :=
    .inclusion (ws := [' ']) (name := str "g") (t := []) (by decide) rfl (by decide) (by decide) (by decide) (by decide)
  have l3 : LineIs (str "~ soon") (.budget (str "soon")) := .budget (gap := [' ']) (period := str "soon") (t := []) (by decide) (by decide) (by decide) (by decide) (by decide)
  have l4 : LineIs (str "  C  3") (.posting (str "C") (some ([], str "3"))) :=
    .amount (ws := str "  ") (account := str "C") (gap := str "  ") (commodity := []) (ws2 := []) (number := str "3") (t := []) (by decide) (by decide) ⟨by decide, by decide⟩ (by decide) (by decide) (by decide)
      (by decide) (by decide) (by decide) (by decide) (by decide)
  have l5 : LineIs (str "  A  £5.00") (.posting (str "A") (some (str "£", str "5.00"))) :=
    .amount (ws := str "  ") (account := str "A") (gap := str "  ") (commodity := str "£") (ws2 := []) (number := str "5.00") (t := []) (by decide) (by decide) ⟨by decide, by decide⟩ (by decide) (by decide) (by decide)
      (by decide) (by decide) (by decide) (by decide) (by decide)
  have l6 : LineIs (str "  B") (.posting (str "B") none) := .posting (ws := str "  ") (account := str "B") (t := []) (by decide) (by decide) (.inl rfl)
  have hsoon : ∀ month : Date, month.Real → ¬ WrittenYM '-' (str "soon") month := by
    rintro month _ ⟨y, m, n, h, _⟩
    have : '-' ∈ str "soon" := by rw [h]; simp
    exact absurd this (by decide)
  have ends : ∀ pg : Page, ¬ TwoMissing pg.postings → ¬ Unbalanced pg.kept → pg.Ends (.ok pg.meaning) := fun pg h1 h2 => .complete h1 h2
  let h : Transaction := { date := ⟨2020, 1, 2⟩, payee := str "x", headerNote := str "es" }
  let p1 : Posting := { linked := true, accountPath := str "A", amount := some ⟨str "£", 500⟩ }
  let p2 : Posting := { linked := true, accountPath := str "B" }
  let p3 : Posting := { linked := true, accountPath := str "C", amount := some ⟨[], 300⟩ }
  have hg : Course oddFiles lib (str "f") 0 (str "g") (str "g") 1 (.entry h []) oddInner [(.transaction oddEntry, str "g")] (.ok (.closed true)) := by
    have e : oddInner = encode (str "  A  £5.00") ++ 10 :: encode (str "  B") := by decide +kernel
    have e6 : FirstLine (encode (str "  B")) (some (str "  B")) [] := by
      have := FirstLine.last (l := encode (str "  B")) (by decide) (by decide) (by decide)
      rwa [runes_encode] at this
    have hend : Course oddFiles lib (str "f") 0 (str "g") (str "g") 3 (.entry h [p1, p2]) [] (labelled (str "g") [.transaction oddEntry]) (.ok (.closed true)) :=
      .done (pg := .entry h [p1, p2]) (ends (.entry h [p1, p2]) (by decide) (by decide))
    rw [e]
    exact .line (firstLine_text _ (by decide)) l5 (.amount (pg := .entry h []) (by rintro ⟨b, e⟩; cases e) (hq _ 500 (by decide)))
      (.line e6 l6 (.posting (pg := .entry h [p1]) (by rintro ⟨b, e⟩; cases e)) hend)
  have e : oddText = encode (str "2020-01-02 x ; yes") ++ 10 :: (encode (str "include g") ++ 10 :: (encode (str "~ soon") ++ 10 ::
      (encode (str "  C  3") ++ 10 :: []))) := by decide +kernel
  have hend : Course oddFiles lib (str "f") 1 (str "f") (str "f") 5 (.budget ⟨1, 1, 1⟩ [p3]) [] (labelled (str "f") [.budget ⟨1, 1, 1⟩ oddBudget]) (.ok (.closed true)) :=
    .done (pg := .budget ⟨1, 1, 1⟩ [p3]) (ends (.budget ⟨1, 1, 1⟩ [p3]) (by decide) (by decide))
  rw [Reading, e]
  exact .line (firstLine_text _ (by decide)) l1 (.header (ends (.closed false) (by decide) (by decide)) (sep := '-') (day := ⟨2020, 1, 2⟩) (by decide)
      ⟨str "2020", str "01", str "02", 2020, by decide, by decide, by decide, by decide, by decide⟩ (by decide))
    (.includes (firstLine_text _ (by decide)) l2 rfl hg
      (.line (firstLine_text _ (by decide)) l3 (.badPeriod (ends (.closed true) (by decide) (by decide)) hsoon)
        (.line (firstLine_text _ (by decide)) l4 (.amount (pg := .budget ⟨1, 1, 1⟩ []) (by rintro ⟨b, e⟩; cases e) (hq _ 300 (by decide))) hend)))

set_option maxRecDepth 100000 in
/-- What is printed. -/
example :
    letI := asciiUnicode
    let m := { wholeMachine with fs := oddFiles }
    m.run { file := str "f" } .print [] = ⟨str "2020-01-02   x    ; es\n    A    £5.00\n    B    £-5.00\n\n", .exit 0⟩ ∧
    m.run { file := str "f" } .accounts [] = ⟨str "A\nB\n", .exit 0⟩ := by
  decide +kernel

/-- The circumstances. -/
theorem oddSetting :
    letI := asciiUnicode
    Setting { wholeMachine with fs := oddFiles } wholeOptions [str "Food"] oddText [wholeFilter] wholeDays (str "f") := by
  let := asciiUnicode
  obtain ⟨⟨g1, g2, _, g6, g7⟩, _⟩ := wholeGiven
  exact ⟨⟨g1.1, g1.2, g1.3, g1.4⟩, g2, rfl, g6, g7⟩

/-! An entry that begins in one file and does not balance at the end of another. -/

def tornText : List UInt8 := utf8 "2020-01-02 x\ninclude g\n"

def tornFiles : FileSystem := fun p => if p = str "f" then some tornText else if p = str "g" then some (utf8 "  A  £5.00") else none

set_option maxRecDepth 100000 in
theorem tornReading (lib : Err → Str) :
    letI := asciiUnicode
    Reading tornFiles lib 1 (str "f") tornText [] (.error (.message [(str "f", 2)] none (· = str "transaction does not balance"))) := by
  let := asciiUnicode
  have l1 : LineIs (str "2020-01-02 x") (.header (str "2020-01-02") .noState (str "x") []) :=
    .header (date := str "2020-01-02") (gap := [' ']) (state := .noState) (gap2 := []) (payee := str "x") (r := [])
      ⟨'2', by decide, by decide⟩ (by decide) (by decide) (.inl rfl) (by decide) (by decide) (by decide) (by decide) .none
  have l2 : LineIs (str "include g") (.inclusion (str "g")) :=
    .inclusion (ws := [' ']) (name := str "g") (t := []) (by decide) rfl (by decide) (by decide) (by decide) (by decide)
  have l5 : LineIs (str "  A  £5.00") (.posting (str "A") (some (str "£", str "5.00"))) :=
    .amount (ws := str "  ") (account := str "A") (gap := str "  ") (commodity := str "£") (ws2 := []) (number := str "5.00") (t := [])
      (by decide) (by decide) ⟨by decide, by decide⟩ (by decide) (by decide) (by decide) (by decide) (by decide) (by decide) (by decide) (by decide)
  let h : Transaction := { date := ⟨2020, 1, 2⟩, payee := str "x" }
  let p1 : Posting := { linked := true, accountPath := str "A", amount := some ⟨str "£", 500⟩ }
  have e5 : FirstLine (utf8 "  A  £5.00") (some (str "  A  £5.00")) [] := by
    have := FirstLine.last (l := encode (str "  A  £5.00")) (by decide) (by decide) (by decide)
    rwa [runes_encode] at this
  have hg : Course tornFiles lib (str "f") 0 (str "g") (str "g") 1 (.entry h []) (utf8 "  A  £5.00") (labelled (str "g") [] ++ [])
      (.error (.message [] none (· = str "transaction does not balance"))) :=
    .line e5 l5 (.amount (pg := .entry h []) (by rintro ⟨b, e⟩; cases e) ((number_iff _ 500).1 (by decide)))
      (.wrong (pg := .entry h [p1]) (.unbalanced (pg := .entry h [p1]) (by decide) (by decide)))
  have e : tornText = encode (str "2020-01-02 x") ++ 10 :: (encode (str "include g") ++ 10 :: []) := by decide +kernel
  rw [Reading, e]
  exact .line (firstLine_text _ (by decide)) l1 (.header (ms := []) (.complete (pg := .closed false) (by decide) (by decide)) (sep := '-') (day := ⟨2020, 1, 2⟩) (by decide)
      ⟨str "2020", str "01", str "02", 2020, by decide, by decide, by decide, by decide, by decide⟩ (by decide))
    (.within (rep := .message [] none (· = str "transaction does not balance")) (firstLine_text _ (by decide)) l2 rfl hg)

set_option maxRecDepth 100000 in
example :
    letI := asciiUnicode
    ({ wholeMachine with fs := tornFiles } : Machine).run wholeOptions .balance [] = ⟨str "error at f:2\nerror at transaction does not balance\n", .exit 0⟩ := by
  decide +kernel

end Gledger
