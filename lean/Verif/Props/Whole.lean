/-
C97: from the bytes of the journal to the text printed.
-/
import Verif.Spec.Whole

namespace Gledger

set_option maxRecDepth 100000

/-! ### What is spelled is read -/

theorem WrittenAmount.Spelled.ok [Unicode] {a : WrittenAmount} (h : a.Spelled) : a.Ok := by
  obtain ⟨⟨s1, s2, s3, s4, s5, s6, s7, s8⟩, n, h1, h2, h3, h4, h5⟩ := h
  obtain ⟨q, q1, q2, _⟩ := C06_decimal_value_partial n h2 h3 h4
  refine ⟨s1, s2, s3, s4, s5, s6, s7, ?_, s8⟩
  rw [h1, q1, BitVec.eq_of_toInt_eq (h5.trans q2.symm)]

theorem WrittenPosting.Spelled.ok [Unicode] {p : WrittenPosting} (h : p.Spelled) : p.Ok :=
  ⟨h.1, h.2.1, fun a ha => (h.2.2.1 a ha).ok, h.2.2.2⟩

theorem written_digits {k n : Nat} {s : Str} (h : WrittenIn k s n) : s.length = k ∧ ∀ c ∈ s, Digit c := ⟨h.1, h.2.1⟩

theorem Header.Spelled.ok [U : Unicode] {h : Header} (hs : h.Spelled) : h.Ok := by
  obtain ⟨⟨sep, h1, h2⟩, h3, rest⟩ := hs
  have hp := ((C10_dates_accepted h.date).1 h.day).2 ⟨sep, h1, h2, h3⟩
  obtain ⟨y, m, d, n, e, _, w1, w2, w3⟩ := h2
  refine ⟨?_, ?_, hp, rest⟩
  · have hl := (written_digits w1).1
    cases y with
    | nil => cases hl
    | cons c cs => exact ⟨c, by rw [e]; rfl, digit_number ((written_digits w1).2 c (by simp))⟩
  · rw [e]
    have hd : ¬ Digit ' ' := by decide
    have hsep : ' ' ≠ sep := by rcases h1 with rfl | rfl | rfl <;> decide
    have : ∀ {k n : Nat} {s : Str}, WrittenIn k s n → ' ' ∉ s := fun w hm => hd ((written_digits w).2 _ hm)
    simp [this w1, this w2, this w3, hsep]

theorem ym_field {s : Str} {d : Date} (h : WrittenYM '-' s d) : FieldText s ∧ StartsInk s := by
  obtain ⟨y, m, n, rfl, _, w1, w2, _⟩ := h
  have hc : ∀ c ∈ y ++ '-' :: m, Digit c ∨ c = '-' := by
    intro c hc
    rcases List.mem_append.1 hc with hc | hc
    · exact Or.inl ((written_digits w1).2 c hc)
    · rcases List.mem_cons.1 hc with hc | hc
      · exact Or.inr hc
      · exact Or.inl ((written_digits w2).2 c hc)
  have no : ∀ c, ¬ (Digit c ∨ c = '-') → c ∉ y ++ '-' :: m := fun c hn hm => hn (hc c hm)
  refine ⟨⟨no _ (by decide), no _ (by decide), no _ (by decide), fun hi => no ' ' (by decide) (hi.subset (by simp)), fun hl => ?_⟩, ?_⟩
  · exact no ' ' (by decide) (List.mem_of_getLast? hl)
  · intro c hh
    rcases hc c (List.mem_of_mem_head? hh) with h1 | rfl
    · have e0 : '0'.toNat = 48 := rfl
      have e9 : '9'.toNat = 57 := rfl
      unfold Digit at h1
      simp [isSpace]
      omega
    · decide

theorem means_ok [Unicode] {p : Paragraph} {x : Meant} (h : p.Means x) : p.Ok := by
  cases p with
  | entry e =>
    cases x with
    | transaction t => exact ⟨⟨h.1.ok, h.2.1, fun p hp => (h.2.2.1 p hp).ok⟩, h.2.2.2.1⟩
    | budget _ _ => exact h.elim
  | budget b =>
    cases x with
    | transaction t => exact h.elim
    | budget d ps =>
      obtain ⟨h1, h2, h3, h4, h5, h6, h7, h8⟩ := h
      obtain ⟨f1, f2⟩ := ym_field h3
      exact ⟨h1, h2, f1, f2, h5, fun p hp => (h6 p hp).ok, h7⟩

/-- The handler call for a paragraph of this meaning. -/
def Meant.Call (file : Str) : Meant → Gledger.Call → Prop
  | .transaction t, .normal t' f => t' = t ∧ f = file ∧ t.date.Real
  | .budget d ps, .periodic pt f => f = file ∧ pt.period.startDate = d ∧ pt.period.interval = .none ∧ pt.transaction.postings = ps
  | _, _ => False

theorem means_call [Unicode] {p : Paragraph} {x : Meant} (file : Str) (h : p.Means x) : x.Call file (p.call file) := by
  cases p with
  | entry e =>
    cases x with
    | transaction t =>
      obtain ⟨h1, _, _, _, rfl⟩ := h
      exact ⟨rfl, rfl, h1.2.1⟩
    | budget _ _ => exact h.elim
  | budget b =>
    cases x with
    | transaction t => exact h.elim
    | budget d ps =>
      obtain ⟨h1, h2, h3, h4, h5, h6, h7, rfl⟩ := h
      have := (C60_period_read_partial b.period).1 d h3 h4
      refine ⟨rfl, ?_, ?_, rfl⟩ <;> rw [this]

theorem forall₂_map_right {α β γ : Type} {R : α → β → Prop} {S : β → γ → Prop} {f : α → γ} (h : ∀ a b, R a b → S b (f a)) {l : List α} {l' : List β}
    (H : List.Forall₂ R l l') : List.Forall₂ S l' (l.map f) := by
  induction H with
  | nil => exact .nil
  | cons h1 _ ih => exact .cons (h _ _ h1) ih

/-! ### The days asked for -/

theorem flagSpells_flag (e : Env) {flag : Str} {d : Option Date} (h : FlagSpells e.nowYear flag d) : e.Flag flag d := by
  rcases h with h | ⟨⟨h0, h1⟩, x, rfl, hs⟩
  · exact Or.inl h
  · refine Or.inr ⟨?_, x, rfl, hs.elim And.left signedYear_real, (C48_accepted e.nowYear h0 h1 flag x).2 hs⟩
    rintro rfl
    have := (C48_accepted e.nowYear h0 h1 [] x).2 hs
    rw [show parseSmartDate e.nowYear [] = .error (.badYear []) from rfl] at this
    cases this

theorem days_range {m : Machine} {o : Options} {admits : Date → Bool} (h : DaysAsked m o admits) (filters : List Filter) (t : Transaction)
    (ht : t.date.Real) : (m.env o filters).withinDateRange t = .ok (admits t.date) := by
  have key : ∀ x P, (m.env o filters).withinDateRange t = .ok x → (x = true ↔ P) → (admits t.date = true ↔ P) →
      (m.env o filters).withinDateRange t = .ok (admits t.date) := by
    intro x P h1 h2 h3
    rw [h1, Bool.eq_iff_iff.2 (h2.trans h3.symm)]
  rcases h with ⟨hc, ho, b, n, hb, hn, ha⟩ | ⟨hc, h0, day, h1, h2, h3, h4, ha⟩
  · obtain ⟨x, k1, k2⟩ := C46_days_partial (m.env o filters) b n t hc (flagSpells_flag _ hb) (flagSpells_flag _ hn) ht ho
    exact key x _ k1 k2 (ha _)
  · obtain ⟨x, k1, k2⟩ := C47_current_partial (m.env o filters) day t hc h1 h2 ht h0 h3 h4
    exact key x _ k1 k2 (ha _)

theorem days_no_error {m : Machine} {o : Options} {admits : Date → Bool} (h : DaysAsked m o admits) (filters : List Filter) :
    (m.env o filters).dateError = none := by
  cases hd : (m.env o filters).dateError with
  | none => rfl
  | some x =>
    have h1 := (withinDateRange_dateError (m.env o filters) { date := ⟨2020, 1, 1⟩ }).1 x hd
    rw [days_range h filters _ (by decide)] at h1
    cases h1

/-! ### The meaning of a journal is delivered -/

theorem textOf_lines {nl : List UInt8} (hnl : BlankLine nl) {ls : List Str} (h : Fits ls) (b : List UInt8) :
    readLines (textOf nl (ls.map encode) ++ b) = rawLines ls ++ readLines b := by
  have hp : ∀ l ∈ ls.map encode, PlainLine l := by
    intro l hl
    obtain ⟨x, hx, rfl⟩ := List.mem_map.1 hl
    exact h x hx
  rcases hnl with rfl | rfl
  · rw [readLines_textOf_lf _ hp]; simp [rawLines]
  · rw [readLines_textOf_crlf _ hp]; simp [rawLines]

theorem textOf_count {nl : List UInt8} (hnl : BlankLine nl) {ls : List Str} (h : Fits ls) : (textOf nl (ls.map encode)).count 10 = ls.length := by
  have hn : nl.count 10 = 1 := by rcases hnl with rfl | rfl <;> rfl
  induction ls with
  | nil => rfl
  | cons l ls ih =>
    have h0 : (encode l).count 10 = 0 := List.count_eq_zero.2 (h l (by simp)).1
    have := ih fun x hx => h x (by simp [hx])
    simp only [textOf, List.map_cons, List.flatMap_cons, List.count_append] at this ⊢
    rw [this, h0, hn, List.length_cons]
    omega

/-- Reading: the calls for the paragraphs are made, and the parser is ready for more. -/
theorem reads_feed [Unicode] {fs : FileSystem} {root : Str} {n : Nat} {path label : Str} {a : List UInt8} {js : List (Meant × Str)} {label' : Str}
    (h : Reads fs root n path label a js label') :
    ∀ (k : Nat) (st : PState (List Call × List Call)), st.builder.Idle → st.files.head? = some root → st.files.getLast? = some label →
      ∃ (st' : PState (List Call × List Call)) (calls : List Call), st'.builder.Idle ∧ st'.files.head? = some root ∧ st'.files.getLast? = some label' ∧
        List.Forall₂ (fun x c => x.1.Call x.2 c) js calls ∧ st'.user.2 = st.user.2 ++ calls ∧
        (js = [] → st'.builder = st.builder) ∧ (js ≠ [] ∨ MayFollow st.builder.prev → MayFollow st'.builder.prev) ∧
        ∀ rest, feedLines (parseItem fs (logged recorder) n) path k (readLines (a ++ rest)) st =
          feedLines (parseItem fs (logged recorder) n) path (k + a.count 10) (readLines rest) st' := by
  induction h with
  | done =>
    intro k st h1 h2 h3
    exact ⟨st, [], h1, h2, h3, .nil, by simp, fun _ => rfl, by simp, fun rest => rfl⟩
  | @blank n path label nl a js label' hnl _ ih =>
    intro k st h1 h2 h3
    obtain ⟨st', calls, i1, i2, i3, i4, i5, i6, i7, i8⟩ := ih (k + 1) st h1 h2 h3
    refine ⟨st', calls, i1, i2, i3, i4, i5, i6, i7, fun rest => ?_⟩
    have hn : nl.count 10 = 1 := by rcases hnl with rfl | rfl <;> rfl
    rw [List.append_assoc, readLines_blank _ _ hnl, List.count_append, hn, ← Nat.add_assoc, ← i8]
    exact feed_blanks fs (logged recorder) n path (readLines (a ++ rest)) 1 k st h1
  | @comment n path label c a js label' hc hn hl _ ih =>
    intro k st h1 h2 h3
    obtain ⟨st', calls, i1, i2, i3, i4, i5, i6, i7, i8⟩ := ih (k + 1) st h1 h2 h3
    refine ⟨st', calls, i1, i2, i3, i4, i5, i6, i7, fun rest => ?_⟩
    obtain ⟨l, l1, l2⟩ := comment_line hc hl
    rw [List.append_assoc, List.cons_append, readLines_line _ _ hn, l1, feedLines, l2, List.count_append, List.count_eq_zero.2 hn, Nat.zero_add,
      List.count_cons_self, show k + (List.count 10 a + 1) = k + 1 + List.count 10 a by omega, ← i8]
    rfl
  | @paragraph n path label p x nl nl' a js label' hp hf hnl hnl' _ ih =>
    intro k st h1 h2 h3
    obtain ⟨k', st₁, e, p1, p2, p3, p4⟩ := feed_paragraph_may fs recorder recorder_attends n path label [] k st h1 h3 p (means_ok hp)
    obtain ⟨st', calls, i1, i2, i3, i4, i5, i6, i7, i8⟩ := ih (k + p.lines.length + 1) st₁ p1 (by rw [p2]; exact h2) (by rw [p2]; exact h3)
    refine ⟨st', _ :: calls, i1, i2, i3, .cons (means_call label hp) i4, by rw [i5, p3]; simp, by simp, fun _ => i7 (Or.inr p4), fun rest => ?_⟩
    have hn : nl'.count 10 = 1 := by rcases hnl' with rfl | rfl <;> rfl
    rw [List.append_assoc, List.append_assoc, textOf_lines hnl hf, readLines_blank _ _ hnl', List.count_append, List.count_append, textOf_count hnl hf, hn,
      show k + (p.lines.length + (1 + List.count 10 a)) = k + p.lines.length + 1 + List.count 10 a by omega, ← i8,
      show rawLines p.lines ++ .line [] :: readLines (a ++ rest) = (rawLines p.lines ++ [.line []]) ++ readLines (a ++ rest) by simp, feedLines_append, e]
    simp [rawLines_length, feedLines, Step.andThen, Nat.add_assoc]
  | @includes n path label l name b js₁ last a js₂ label' hl hb _ _ ih₁ ih₂ =>
    intro k st h1 h2 h3
    obtain ⟨st₁, calls₁, i1, i2, i3, i4, i5, i6, i7, i8⟩ := ih₁ 1 { st with files := st.files ++ [splitDir path ++ name] } h1
      (by
        show (st.files ++ _).head? = _
        rw [List.head?_append, h2]
        rfl) (by simp)
    obtain ⟨st', calls, j1, j2, j3, j4, j5, j6, j7, j8⟩ := ih₂ (k + 1) { st₁ with files := st₁.files.take 1 } i1
      (by
        show (st₁.files.take 1).head? = _
        cases hf : st₁.files with
        | nil => rw [hf] at i2; cases i2
        | cons x xs => rw [hf] at i2; exact i2)
      (by
        show (st₁.files.take 1).getLast? = _
        cases hf : st₁.files with
        | nil => rw [hf] at i2; cases i2
        | cons x xs => rw [hf] at i2; exact i2)
    refine ⟨st', calls₁ ++ calls, j1, j2, j3, List.rel_append i4 j4, by rw [j5]; show st₁.user.2 ++ _ = _; rw [i5]; simp, ?_, ?_, fun rest => ?_⟩
    · intro h0
      obtain ⟨rfl, rfl⟩ := List.append_eq_nil_iff.1 h0
      rw [j6 rfl]
      exact i6 rfl
    · intro h0
      refine j7 ?_
      by_cases hj : js₂ = []
      · refine Or.inr (i7 ?_)
        subst hj
        simpa using h0
      · exact Or.inl hj
    · have h8 := i8 []
      rw [List.append_nil] at h8
      have e1 : parseItem fs (logged recorder) (n + 1) .includeItem (splitDir path ++ name) st = ({ st₁ with files := st₁.files.take 1 }, none) := by
        simp only [parseItem, hb, lex, lexLoop_eq]
        rw [h8]
        show ((Step.andThen (st₁, none) _).wrap _).andThen _ = _
        rw [andThen_ok, parseItem_eof, endTransaction_of_idle _ _ i1]
        rfl
      have hc : (l ++ 10 :: a).count 10 = 1 + a.count 10 := by
        rw [List.count_append, List.count_eq_zero.2 hl.1.1, List.count_cons_self]
        omega
      rw [List.append_assoc, List.cons_append, readLines_line _ _ hl.1.1, terminatedLine_plain (by have := hl.1.2.2; omega) hl.1.2.1, feedLines,
        includeLine_items hl, runLine_ok, runItems_cons, e1, hc, ← Nat.add_assoc, ← j8]
      rfl

/-- The whole of the journal. -/
theorem reads_delivered [Unicode] {fs : FileSystem} {n : Nat} {path : Str} {bytes : List UInt8} {js : List (Meant × Str)} {last : Str}
    (h : Reads fs path n path path bytes js last) :
    rejection fs n bytes path = none ∧ List.Forall₂ (fun x c => x.1.Call x.2 c) js (delivered fs n bytes path) := by
  obtain ⟨st', calls, i1, i2, i3, i4, i5, i6, i7, i8⟩ := reads_feed h 1 (rootStart ([], []) path) ⟨rfl, rfl, rfl⟩ rfl rfl
  have h8 := i8 []
  rw [List.append_nil] at h8
  have hp : parse fs (logged recorder) n bytes path (newParser ([], [])) = (st', none) := by
    rw [parse_new, h8]
    show ((Step.andThen (st', none) _).wrap _) = _
    rw [andThen_ok, parseItem_eof, endTransaction_of_idle _ _ i1]
    rfl
  rw [delivered_calls, rejection_failureOf]
  unfold callsOf failureOf
  rw [hp]
  refine ⟨rfl, ?_⟩
  show List.Forall₂ _ _ st'.user.2
  rw [i5]
  exact i4

section
variable [Unicode] {m : Machine} {o : Options} {args : List Str} {bytes : List UInt8} {js : List (Meant × Str)} {filters : List Filter}
  {admits : Date → Bool} {path : Str}

/-- The circumstances of a run, and that the handlers are called for these paragraphs. -/
structure Heard [Unicode] (m : Machine) (o : Options) (args : List Str) (bytes : List UInt8) (js : List (Meant × Str)) (filters : List Filter)
    (admits : Date → Bool) (path : Str) : Prop extends Setting m o args bytes filters admits path where
  calls : List.Forall₂ (fun x c => x.1.Call x.2 c) js (Gledger.delivered m.fs m.maxOpen bytes path)

theorem Given.means_delivered (g : Given m o args bytes js filters admits path) :
    rejection m.fs m.maxOpen bytes path = none ∧ List.Forall₂ (fun x c => x.1.Call x.2 c) js (delivered m.fs m.maxOpen bytes path) := by
  obtain ⟨fs, bytes', last, h1, h2, h3⟩ := g.means
  obtain ⟨d1, d2⟩ := reads_delivered h3
  rcases h1 path with ⟨h4, _⟩ | ⟨a, b, h4, h5, h6⟩
  · rw [g.text] at h4; cases h4
  · rw [g.text] at h4
    rw [h2] at h5
    cases h4
    cases h5
    obtain ⟨k1, k2⟩ := layouts_parse h1 m.maxOpen path h6
    rw [k1]
    rw [d1] at k2
    refine ⟨?_, d2⟩
    cases hr : rejection m.fs m.maxOpen bytes path with
    | none => rfl
    | some f => rw [hr] at k2; cases k2

end

theorem attributed_fst (P : Transaction → Bool) (admits : Date → Bool) (js : List (Meant × Str)) :
    ((attributed js).filter fun tf => admits tf.1.date ∧ P tf.1 = true).map Prod.fst = (asked admits (meanings js)).filter P := by
  induction js with
  | nil => rfl
  | cons x js ih =>
    obtain ⟨t | ⟨d, ps⟩, f⟩ := x
    · have e1 : attributed ((.transaction t, f) :: js) = (t, f) :: attributed js := rfl
      have e2 : transactionsOf (meanings ((.transaction t, f) :: js)) = t :: transactionsOf (meanings js) := rfl
      rw [asked] at ih ⊢
      rw [e1, e2, List.filter_cons, List.filter_cons]
      cases admits t.date <;> cases h2 : P t <;> simp [h2] <;> simpa using ih
    · exact ih

/-- What the commands are about is what is asked for. -/
theorem calls_asked {e : Env} {admits : Date → Bool}
    (hr : ∀ t : Transaction, t.date.Real → e.withinDateRange t = .ok (admits t.date)) {js : List (Meant × Str)} {calls : List Call}
    (h : List.Forall₂ (fun x c => x.1.Call x.2 c) js calls) :
    e.ranged calls = asked admits (meanings js) ∧
    e.picked calls = wantedIn e.filters admits js ∧
    e.selected calls = askedPostings e.filters admits (meanings js) ∧
    e.filed calls = (meanings js).flatMap (Meant.filed e.filters admits) ∧
    (∀ qss, List.Forall₂ e.Gives qss calls → ∃ qss', List.Forall₂ (Taken e.filters) qss' (asked admits (meanings js)) ∧ qss'.flatten = qss.flatten) ∧
    (∀ xss, List.Forall₂ e.FiledAs xss calls → List.Forall₂ (Meant.FiledAs e.filters admits) xss (meanings js)) := by
  induction h with
  | nil =>
    refine ⟨rfl, rfl, rfl, rfl, ?_, ?_⟩
    · rintro _ ⟨⟩; exact ⟨[], .nil, rfl⟩
    · rintro _ ⟨⟩; exact .nil
  | @cons xl c js calls h1 _ ih =>
    obtain ⟨i1, i2, i3, i4, i5, i6⟩ := ih
    obtain ⟨x, lab⟩ := xl
    cases x with
    | transaction t =>
      cases c with
      | periodic pt f => exact h1.elim
      | normal t' f =>
        obtain ⟨rfl, rfl, hd⟩ := h1
        have hw := hr t' hd
        cases ha : admits t'.date with
        | false =>
          rw [ha] at hw
          have hask : asked admits (meanings ((.transaction t', f) :: js)) = asked admits (meanings js) := by simp [meanings, asked, transactionsOf, ha]
          have hsel : e.selectedOf (.normal t' f) = [] := by simp [Env.selectedOf, hw]
          have hfil : e.filedOf (.normal t' f) = [] := by simp [Env.filedOf, hsel]
          have hfil' : (Meant.transaction t').filed e.filters admits = [] := by simp [Meant.filed, ha]
          refine ⟨?_, ?_, ?_, ?_, ?_, ?_⟩
          · rw [hask, ← i1]; simp [Env.ranged, normals, Env.InRange, hw]
          · simp only [wantedIn, attributed, List.filterMap_cons, List.filter_cons, ha]
            rw [← attributed, if_neg (by simp), ← wantedIn, ← i2]; simp [Env.picked, normals, Env.InRange, hw]
          · rw [askedPostings, hask, ← askedPostings, ← i3]; simp [Env.selected, hsel]
          · rw [meanings, List.map_cons, List.flatMap_cons, ← meanings, hfil', ← i4]; simp [Env.filed, hfil]
          · intro qss hq
            cases hq with
            | @cons qs _ qss _ q1 q2 =>
              obtain ⟨qss', r1, r2⟩ := i5 qss q2
              refine ⟨qss', by rw [hask]; exact r1, ?_⟩
              have : qs = [] := by have := q1.1; rw [hsel] at this; exact this.eq_nil
              rw [r2, this]; rfl
          · intro xss hx
            cases hx with
            | @cons xs _ xss _ x1 x2 =>
              refine .cons ?_ (i6 xss x2)
              have := x1.1
              rw [hfil] at this
              rw [this.eq_nil]
              exact ⟨by rw [hfil'], fun _ => hfil'.symm⟩
        | true =>
          rw [ha] at hw
          have hask : asked admits (meanings ((.transaction t', f) :: js)) = t' :: asked admits (meanings js) := by simp [meanings, asked, transactionsOf, ha]
          have hsel : e.selectedOf (.normal t' f) = selection e.filters t' := by simp [Env.selectedOf, hw]
          have hfil : e.filedOf (.normal t' f) = (Meant.transaction t').filed e.filters admits := by simp [Env.filedOf, hsel, Meant.filed, ha]
          refine ⟨?_, ?_, ?_, ?_, ?_, ?_⟩
          · rw [hask, ← i1]; simp [Env.ranged, normals, Env.InRange, hw]
          · simp only [wantedIn, attributed, List.filterMap_cons, List.filter_cons, ha]
            rw [← attributed, ← wantedIn]
            have hwant : e.Wanted t' ↔ WantedBy e.filters t' := Iff.rfl
            by_cases hwb : WantedBy e.filters t'
            · rw [if_pos (by simpa using hwb), ← i2]
              simp [Env.picked, normals, Env.InRange, hw, hwant, hwb]
            · rw [if_neg (by simpa using hwb), ← i2]
              simp [Env.picked, normals, Env.InRange, hw, hwant, hwb]
          · rw [askedPostings, hask, List.flatMap_cons, ← askedPostings, ← i3]; simp [Env.selected, hsel]
          · rw [meanings, List.map_cons, List.flatMap_cons, ← meanings, ← i4, ← hfil]; simp [Env.filed]
          · intro qss hq
            cases hq with
            | @cons qs _ qss _ q1 q2 =>
              obtain ⟨qss', r1, r2⟩ := i5 qss q2
              refine ⟨qs :: qss', ?_, by rw [List.flatten_cons, List.flatten_cons, r2]⟩
              rw [hask]
              refine .cons ⟨by rw [← hsel]; exact q1.1, fun hwh => ?_⟩ r1
              rw [q1.2 hwh, hsel, selection, if_pos hwh]
          · intro xss hx
            cases hx with
            | @cons xs _ xss _ x1 x2 =>
              refine .cons ⟨by rw [← hfil]; exact x1.1, fun hwh => ?_⟩ (i6 xss x2)
              rw [← hfil]
              exact x1.2 hwh
    | budget d ps =>
      cases c with
      | normal t f => exact h1.elim
      | periodic pt f =>
        obtain ⟨rfl, rfl, hi, rfl⟩ := h1
        have hask : asked admits (meanings ((.budget pt.period.startDate pt.transaction.postings, f) :: js)) = asked admits (meanings js) := by simp [meanings, asked, transactionsOf]
        have hfil : e.filedOf (.periodic pt f) = (Meant.budget pt.period.startDate pt.transaction.postings).filed e.filters admits := by
          simp [Env.filedOf, Meant.filed, hi]
        refine ⟨?_, ?_, ?_, ?_, ?_, ?_⟩
        · rw [hask, ← i1]; simp [Env.ranged, normals]
        · simp only [wantedIn, attributed, List.filterMap_cons]
          rw [← attributed, ← wantedIn, ← i2]; simp [Env.picked, normals]
        · rw [askedPostings, hask, ← askedPostings, ← i3]; simp [Env.selected, Env.selectedOf]
        · rw [meanings, List.map_cons, List.flatMap_cons, ← meanings, ← i4, ← hfil]; simp [Env.filed]
        · intro qss hq
          cases hq with
          | @cons qs _ qss _ q1 q2 =>
            obtain ⟨qss', r1, r2⟩ := i5 qss q2
            refine ⟨qss', by rw [hask]; exact r1, ?_⟩
            rw [r2, show qs = [] from q1]; rfl
        · intro xss hx
          cases hx with
          | @cons xs _ xss _ x1 x2 =>
            refine .cons ?_ (i6 xss x2)
            exact (show xs = _ from x1).trans hfil

/-! ### C97 From the journal to the answer -/

section
variable [Unicode] {m : Machine} {o : Options} {args : List Str} {bytes : List UInt8} {js : List (Meant × Str)} {filters : List Filter}
  {admits : Date → Bool} {path : Str}

/-- What is known about a run: it is a run on the calls that stand for the meaning of the journal. -/
theorem Setting.run (g : Setting m o args bytes filters admits path) {c : Command} (hc : c ≠ .version) :
    m.run o c args = m.runOn (m.env o filters) o args bytes path c := by
  have hp : m.rootPath o = some path := by
    unfold Machine.rootPath
    rcases g.file with ⟨h1, h2⟩ | ⟨h1, h2⟩
    · rw [if_neg (by rw [h1]; simpa using h2), h1]
    · rw [if_pos (by rw [h1]; rfl), h2]
  exact (C95_filters m o hc g.filters hp g.text).1

theorem Heard.asks (g : Heard m o args bytes js filters admits path) :
    let e := m.env o filters
    let calls := Gledger.delivered m.fs m.maxOpen bytes path
    e.ranged calls = asked admits (meanings js) ∧
    e.picked calls = wantedIn filters admits js ∧
    e.selected calls = askedPostings filters admits (meanings js) ∧
    e.filed calls = (meanings js).flatMap (Meant.filed filters admits) ∧
    (∀ qss, List.Forall₂ e.Gives qss calls → ∃ qss', List.Forall₂ (Taken filters) qss' (asked admits (meanings js)) ∧ qss'.flatten = qss.flatten) ∧
    (∀ xss, List.Forall₂ e.FiledAs xss calls → List.Forall₂ (Meant.FiledAs filters admits) xss (meanings js)) :=
  calls_asked (e := m.env o filters) (fun t => days_range g.days filters t) g.calls

theorem Heard.lacks (g : Heard m o args bytes js filters admits path) (c : Command) :
    c.Lacks (m.env o filters) (Gledger.delivered m.fs m.maxOpen bytes path) ↔ c.Short filters admits (meanings js) := by
  obtain ⟨_, _, a3, a4, _⟩ := g.asks
  cases c <;> simp only [Command.Lacks, Command.Short, a3, a4]

theorem Heard.stopped (g : Heard m o args bytes js filters admits path) {c : Command} (hs : ¬ c.Short filters admits (meanings js)) :
    c.stopped (m.env o filters) (Gledger.delivered m.fs m.maxOpen bytes path) = none := by
  rw [C96_stopped _ g.fair.postings (days_no_error g.days filters), if_neg (mt (g.lacks c).1 hs)]

theorem Heard.crash (g : Heard m o args bytes js filters admits path) (ha : rejection m.fs m.maxOpen bytes path = none) {c : Command} (hs : c.Short filters admits (meanings js)) :
    (m.run o c args).ending = .panic .unusablePosting := by
  have hc : c ≠ .version := by rintro rfl; exact hs
  rw [g.run hc, C96_crash m _ g.fair.postings (days_no_error g.days filters) o args _ path c ha, if_pos ((g.lacks c).2 hs)]

theorem Heard.accounts (g : Heard m o args bytes js filters admits path) (ha : rejection m.fs m.maxOpen bytes path = none) :
    ∃ text, m.run o .accounts args = ⟨text, .exit 0⟩ ∧
      Lists (fun a => (∃ t ∈ asked admits (meanings js), ∃ p ∈ t.postings, p.accountPath = a) ∧ (filters = [] ∨ ∃ f ∈ filters, f.regex a = true)) text := by
  have hst := g.stopped (c := .accounts) id
  have hp := (runParse_cases m.fs m.maxOpen bytes path (m.env o filters).accountsHandlers []).2.1 hst ha
  have ht : ∃ text, accountsCmd (m.env o filters) m.stringOrder m.fs m.maxOpen bytes path = .ok text := by
    unfold accountsCmd
    rw [hp]
    exact ⟨_, rfl⟩
  obtain ⟨text, ht⟩ := ht
  obtain ⟨L, l1, l2, l3⟩ := C51_accounts _ _ g.fair.strings _ _ _ _ _ ht
  rw [g.asks.1] at l3
  exact ⟨text, by rw [g.run (by decide), Machine.runOn, ht]; rfl, L, l1, l3, l2⟩

theorem Heard.payees (g : Heard m o args bytes js filters admits path) (ha : rejection m.fs m.maxOpen bytes path = none)
    (hargs : ∀ a ∈ args, ∃ r, m.engine.compile (wholePattern a) = some r) :
    ∃ text, m.run o .payees args = ⟨text, .exit 0⟩ ∧
      Lists (fun a => (∃ t ∈ asked admits (meanings js), t.payee = a) ∧ (args = [] ∨ PayeeMatch m.engine args a)) text := by
  have hst := g.stopped (c := .payees) id
  have hp := (runParse_cases m.fs m.maxOpen bytes path (m.env o filters).payeesHandlers []).2.1 hst ha
  have ht : ∃ text, payeesCmd (m.env o filters) m.engine args m.stringOrder m.fs m.maxOpen bytes path = .ok text := by
    unfold payeesCmd
    rw [hp]
    simp only [payeesPrepare]
    split
    · exact ⟨_, rfl⟩
    · rcases compileArgs_spec m.engine args with ⟨rs, h1, _⟩ | ⟨a, h1, h2, _⟩
      · rw [h1]; exact ⟨_, rfl⟩
      · obtain ⟨r, hr⟩ := hargs a h1
        rw [wholePattern, ← smartCase_eq, h2] at hr
        cases hr
  obtain ⟨text, ht⟩ := ht
  obtain ⟨L, l1, l2, l3⟩ := C52_payees _ _ _ _ g.fair.strings _ _ _ _ _ ht
  rw [g.asks.1] at l3
  exact ⟨text, by rw [g.run (by decide), Machine.runOn, ht]; rfl, L, l1, l3, l2⟩

theorem compileArgs_bad (R : RegexEngine) {good : List Str} {bad : Str} (rest : List Str) (hg : ∀ a ∈ good, ∃ r, R.compile (wholePattern a) = some r)
    (hb : R.compile (wholePattern bad) = none) : compileArgs R (good ++ bad :: rest) = .error (.err (.regexp (wholePattern bad))) := by
  induction good with
  | nil =>
    rw [List.nil_append, compileArgs, smartCase_eq]
    unfold wholePattern at hb ⊢
    rw [hb]
  | cons a good ih =>
    obtain ⟨r, hr⟩ := hg a (by simp)
    unfold wholePattern at hr
    rw [List.cons_append, compileArgs, smartCase_eq, hr, ih fun b hb' => hg b (by simp [hb'])]
    rfl

theorem Heard.payees_bad (g : Heard m o args bytes js filters admits path) (ha : rejection m.fs m.maxOpen bytes path = none) {good rest : List Str}
    {bad : Str} (he : args = good ++ bad :: rest) (hg : ∀ a ∈ good, ∃ r, m.engine.compile (wholePattern a) = some r)
    (hb : m.engine.compile (wholePattern bad) = none) : m.run o .payees args = ⟨m.lib (.regexp (wholePattern bad)) ++ str "\n", .exit 0⟩ := by
  have hst := g.stopped (c := .payees) id
  have hp := (runParse_cases m.fs m.maxOpen bytes path (m.env o filters).payeesHandlers []).2.1 hst ha
  have hc : compileArgs m.engine args = .error (.err (.regexp (wholePattern bad))) := by
    rw [he]
    exact compileArgs_bad m.engine rest hg hb
  rw [g.run (by decide), Machine.runOn, payeesCmd, hp]
  simp only [payeesPrepare]
  rw [if_neg (by simp [he]), hc]
  rfl

theorem Heard.print (g : Heard m o args bytes js filters admits path) (ha : rejection m.fs m.maxOpen bytes path = none) :
    ∃ ts : List Transaction, ts.Perm ((asked admits (meanings js)).filter fun t => WantedBy filters t) ∧
      ts.Pairwise (fun a b => a.date.dayNumber ≤ b.date.dayNumber) ∧
      m.run o .print args = ⟨(ts.map fun t => t.format ++ str "\n").flatten, .exit 0⟩ := by
  have hst := g.stopped (c := .print) id
  have hp := (runParse_cases m.fs m.maxOpen bytes path (m.env o filters).printHandlers []).2.1 hst ha
  have ht : ∃ text, printCmd (m.env o filters) m.sortTransactions m.fs m.maxOpen bytes path = .ok text := by
    unfold printCmd
    rw [hp]
    exact ⟨_, rfl⟩
  obtain ⟨text, ht⟩ := ht
  obtain ⟨ts, l1, l2, l3⟩ := C49_print _ g.fair.postings _ g.fair.byDate _ _ _ _ _ ht
  rw [g.asks.2.1] at l1
  have hfst := attributed_fst (fun t => decide (WantedBy filters t)) admits js
  simp only [decide_eq_true_eq] at hfst
  rw [wantedIn, hfst] at l1
  exact ⟨ts, l1, l2, by rw [g.run (by decide), Machine.runOn, ht, l3]; rfl⟩

theorem Heard.balance (g : Heard m o args bytes js filters admits path) (ha : rejection m.fs m.maxOpen bytes path = none) (hs : ¬ Command.balance.Short filters admits (meanings js)) :
    ∃ (qss : List (List Posting)) (text : Str), List.Forall₂ (Taken filters) qss (asked admits (meanings js)) ∧
      BalanceReport o.showZero o.flatten o.collapse qss.flatten text ∧
      m.run o .balance args = ⟨balanceMixes [] qss.flatten ++ text, .exit 0⟩ := by
  have hst := g.stopped (c := .balance) hs
  have hp := (runParse_cases m.fs m.maxOpen bytes path (m.env o filters).balanceHandlers newJournal).2.1 hst ha
  have ht : ∃ text, balanceCmd (m.env o filters) o.showZero o.flatten o.collapse m.fs m.maxOpen bytes path = .ok text := by
    unfold balanceCmd
    rw [hp]
    exact ⟨_, rfl⟩
  obtain ⟨text, ht⟩ := ht
  obtain ⟨qss, q1, q2, q3⟩ := C73_balance_output m (m.env o filters) g.fair.postings o args _ _ _ ht
  obtain ⟨_, _, a3, _, a5, _⟩ := g.asks
  obtain ⟨qss', r1, r2⟩ := a5 qss q1
  refine ⟨qss', text, r1, ?_, ?_⟩
  · rw [r2]
    exact q3
  · rw [r2, g.run (by decide), q2]

omit [Unicode] in
theorem sortsMonths {sort : List Date → List Date} (h : SortsDates sort) : SortsMonths sort :=
  fun ms => ⟨(h ms).1, (h ms).2.imp fun hab => by simpa [Date.before] using hab⟩

theorem Heard.budget (g : Heard m o args bytes js filters admits path) (ha : rejection m.fs m.maxOpen bytes path = none) (hs : ¬ Command.budget.Short filters admits (meanings js)) :
    ∃ (xss : List (List Filed)) (text : Str), List.Forall₂ (Meant.FiledAs filters admits) xss (meanings js) ∧ BudgetReport xss.flatten text ∧
      m.run o .budget args = ⟨budgetMixes [] xss.flatten ++ text, .exit 0⟩ := by
  have hst := g.stopped (c := .budget) hs
  have hp := (runParse_cases m.fs m.maxOpen bytes path (m.env o filters).budgetHandlers []).2.1 hst ha
  have ht : ∃ text, budgetCmd (m.env o filters) m.sortDates m.fs m.maxOpen bytes path = .ok text := by
    unfold budgetCmd
    rw [hp]
    exact ⟨_, rfl⟩
  obtain ⟨text, ht⟩ := ht
  obtain ⟨xss, q1, q2, q3⟩ := C75_budget_output m (sortsMonths g.fair.dates) (m.env o filters) g.fair.postings o args _ _ _ ht
  exact ⟨xss, text, g.asks.2.2.2.2.2 xss q1, q3, by rw [g.run (by decide), q2]⟩

theorem Heard.statistics (g : Heard m o args bytes js filters admits path) (ha : rejection m.fs m.maxOpen bytes path = none) (hs : ¬ Command.statistics.Short filters admits (meanings js)) :
    let ts := wantedIn filters admits js
    ∃ text, m.run o .statistics args = ⟨text, .exit 0⟩ ∧
      if ts = [] then text = str "No transactions matched arguments.\n"
      else ∃ f, FiguresOf filters ts f ∧ text = (f.lines m.humanize).flatMap (· ++ str "\n") := by
  have hst := g.stopped (c := .statistics) hs
  have hp := (runParse_cases m.fs m.maxOpen bytes path (m.env o filters).statsHandlers {}).2.1 hst ha
  have ht : ∃ text, statsCmd (m.env o filters) m.humanize m.stringOrder m.sortDates m.fs m.maxOpen bytes path = .ok text := by
    unfold statsCmd
    rw [hp]
    exact ⟨_, rfl⟩
  obtain ⟨text, ht⟩ := ht
  have := C72_statistics_report _ g.fair.postings m.humanize _ g.fair.strings _ g.fair.dates _ _ _ _ _ ht
  rw [g.asks.2.1] at this
  exact ⟨text, by rw [g.run (by decide), Machine.runOn, ht]; rfl, this⟩

/-- The circumstances and the paragraphs of an accepted journal determine the answers. -/
theorem Heard.answers (g : Heard m o args bytes js filters admits path) (ha : rejection m.fs m.maxOpen bytes path = none) {c : Command} :
    (c.Short filters admits (meanings js) → (m.run o c args).ending = .panic .unusablePosting) ∧
    (¬ c.Short filters admits (meanings js) → c.Answers m o args js filters admits (m.run o c args)) := by
  refine ⟨g.crash ha, fun hs => ?_⟩
  cases c with
  | accounts => exact g.accounts ha
  | payees => exact ⟨g.payees ha, fun _ _ _ => g.payees_bad ha⟩
  | print => exact g.print ha
  | balance => exact g.balance ha hs
  | budget => exact g.budget ha hs
  | statistics => exact g.statistics ha hs
  | version => trivial

/-! For well-formed journals: -/

theorem Given.heard (g : Given m o args bytes js filters admits path) :
    Heard m o args bytes js filters admits path ∧ rejection m.fs m.maxOpen bytes path = none :=
  ⟨⟨g.toSetting, g.means_delivered.2⟩, g.means_delivered.1⟩

/-- A command that needs an amount that is missing crashes. -/
theorem C97_crash (g : Given m o args bytes js filters admits path) {c : Command} (hs : c.Short filters admits (meanings js)) :
    (m.run o c args).ending = .panic .unusablePosting :=
  g.heard.1.crash g.heard.2 hs

/-- `accounts`: the accounts of the transactions on the days asked for that some argument matches, sorted. -/
theorem C97_accounts (g : Given m o args bytes js filters admits path) :
    ∃ text, m.run o .accounts args = ⟨text, .exit 0⟩ ∧
      Lists (fun a => (∃ t ∈ asked admits (meanings js), ∃ p ∈ t.postings, p.accountPath = a) ∧ (filters = [] ∨ ∃ f ∈ filters, f.regex a = true)) text :=
  g.heard.1.accounts g.heard.2

/-- `payees`: the payees of the transactions on the days asked for that some argument matches, sorted. (The arguments are taken whole.) -/
theorem C97_payees (g : Given m o args bytes js filters admits path)
    (hargs : ∀ a ∈ args, ∃ r, m.engine.compile (wholePattern a) = some r) :
    ∃ text, m.run o .payees args = ⟨text, .exit 0⟩ ∧
      Lists (fun a => (∃ t ∈ asked admits (meanings js), t.payee = a) ∧ (args = [] ∨ PayeeMatch m.engine args a)) text :=
  g.heard.1.payees g.heard.2 hargs

/-- `print`: the transactions on the days asked for that some filter lets through, sorted by date. -/
theorem C97_print (g : Given m o args bytes js filters admits path) :
    ∃ ts : List Transaction, ts.Perm ((asked admits (meanings js)).filter fun t => WantedBy filters t) ∧
      ts.Pairwise (fun a b => a.date.dayNumber ≤ b.date.dayNumber) ∧
      m.run o .print args = ⟨(ts.map fun t => t.format ++ str "\n").flatten, .exit 0⟩ :=
  g.heard.1.print g.heard.2

/-- `balance`: first the warnings about mixed commodities, then the report on the postings asked for, in the form asked for. -/
theorem C97_balance (g : Given m o args bytes js filters admits path) (hs : ¬ Command.balance.Short filters admits (meanings js)) :
    ∃ (qss : List (List Posting)) (text : Str), List.Forall₂ (Taken filters) qss (asked admits (meanings js)) ∧
      BalanceReport o.showZero o.flatten o.collapse qss.flatten text ∧
      m.run o .balance args = ⟨balanceMixes [] qss.flatten ++ text, .exit 0⟩ :=
  g.heard.1.balance g.heard.2 hs

/-- `budget`: first the warnings about mixed commodities, then the report, month by month. -/
theorem C97_budget (g : Given m o args bytes js filters admits path) (hs : ¬ Command.budget.Short filters admits (meanings js)) :
    ∃ (xss : List (List Filed)) (text : Str), List.Forall₂ (Meant.FiledAs filters admits) xss (meanings js) ∧ BudgetReport xss.flatten text ∧
      m.run o .budget args = ⟨budgetMixes [] xss.flatten ++ text, .exit 0⟩ :=
  g.heard.1.budget g.heard.2 hs

/-- `statistics`: the figures of the transactions on the days asked for that some filter lets through. -/
theorem C97_statistics (g : Given m o args bytes js filters admits path) (hs : ¬ Command.statistics.Short filters admits (meanings js)) :
    let ts := wantedIn filters admits js
    ∃ text, m.run o .statistics args = ⟨text, .exit 0⟩ ∧
      if ts = [] then text = str "No transactions matched arguments.\n"
      else ∃ f, FiguresOf filters ts f ∧ text = (f.lines m.humanize).flatMap (· ++ str "\n") :=
  g.heard.1.statistics g.heard.2 hs

end

/-! A journal of two entries and a budget entry, a filter and an end date, on a machine with fair orders. -/

def wholeJournal : List (Paragraph × Nat) :=
  let food : WrittenPosting := { account := str "Expenses:Food", amount := some { commodity := str "£", number := str "2.50", quantity := 250 } }
  let bank : WrittenPosting := { account := str "Assets:Bank" }
  let pay : WrittenPosting := { account := str "Income:Job", amount := some { commodity := str "£", number := str "-50", quantity := -5000 } }
  [(.entry { header := { date := str "2020-01-02", day := ⟨2020, 1, 2⟩, payee := str "shop" }, postings := [food, bank] }, 0),
   (.entry { header := { date := str "2020/02/01", day := ⟨2020, 2, 1⟩, state := .cleared, payee := str "pay" }, postings := [pay, bank] }, 0),
   (.budget { period := str "2020-01", postings := [{ account := str "Food", amount := some { commodity := str "£", number := str "10", quantity := 1000 } }] }, 1)]

def wholeText : String := "2020-01-02 shop\n  Expenses:Food  £2.50\n  Assets:Bank\n\n2020/02/01 *pay\n  Income:Job  £-50\n  Assets:Bank\n\n~ 2020-01\n  Food  £10\n\n\n"

def wholeMeaning : List Meant :=
  let food : Posting := { linked := true, accountPath := str "Expenses:Food", amount := some ⟨str "£", 250⟩ }
  let paid : Posting := { linked := true, accountPath := str "Assets:Bank", amount := some ⟨str "£", -250⟩ }
  let pay : Posting := { linked := true, accountPath := str "Income:Job", amount := some ⟨str "£", -5000⟩ }
  let got : Posting := { linked := true, accountPath := str "Assets:Bank", amount := some ⟨str "£", 5000⟩ }
  [.transaction { date := ⟨2020, 1, 2⟩, payee := str "shop", postings := [food, paid], elided := some 1 },
   .transaction { date := ⟨2020, 2, 1⟩, state := .cleared, payee := str "pay", postings := [pay, got], elided := some 1 },
   .budget ⟨2020, 1, 1⟩ [{ linked := true, accountPath := str "Food", amount := some ⟨str "£", 1000⟩ },
     { linked := true, accountPath := budgetRootID, amount := some ⟨str "£", -1000⟩ }]]

def wholeMachine : Machine :=
  { machineWith (str "f") wholeText with
    engine := ⟨fun p => some fun s => p.isSuffixOf s⟩
    postingOrder := List.reverse
    stringOrder := List.reverse
    sortTransactions := List.mergeSort (le := fun (a b : Transaction) => !b.date.before a.date)
    sortDates := List.insertionSort fun a b => a.dayNumber ≤ b.dayNumber }

def wholeOptions : Options := { file := str "f", endDate := str "2020-02" }

/-- The days up to January 2020. -/
def wholeDays (d : Date) : Bool := 1 ≤ d.year ∧ d.Earlier ⟨2020, 2, 1⟩

def wholeFilter : Filter := { regex := fun s => (str "Food").isSuffixOf s, ftype := .accountName }

theorem wholeFair : wholeMachine.Fair where
  postings := List.reverse_perm
  strings := List.reverse_perm
  byDate := sortsByDate_mergeSort
  dates := by
    intro l
    have t : Std.Total fun a b : Date => a.dayNumber ≤ b.dayNumber := ⟨fun a b => le_total _ _⟩
    have r : IsTrans Date fun a b : Date => a.dayNumber ≤ b.dayNumber := ⟨fun a b c => le_trans⟩
    exact ⟨List.perm_insertionSort _ l, List.pairwise_insertionSort _ l⟩

theorem wholeMeans :
    letI := asciiUnicode
    List.Forall₂ (fun p x => p.1.Means x) wholeJournal wholeMeaning := by
  let := asciiUnicode
  have hbank : ({ account := str "Assets:Bank" } : WrittenPosting).Spelled := ⟨by decide, by decide, by simp, by simp⟩
  refine .cons ⟨⟨⟨'-', by decide, str "2020", str "01", str "02", 2020, by decide, by decide, by decide, by decide, by decide⟩, by decide,
      by decide, by decide, by decide, by decide, by decide, by decide, by decide⟩, by decide, ?_, by decide, by decide⟩
    (.cons ⟨⟨⟨'/', by decide, str "2020", str "02", str "01", 2020, by decide, by decide, by decide, by decide, by decide⟩, by decide,
      by decide, by decide, by decide, by decide, by decide, by decide, by decide⟩, by decide, ?_, by decide, by decide⟩
    (.cons ⟨by decide, by decide, ⟨str "2020", str "01", 2020, by decide, by decide, by decide, by decide, by decide⟩, by decide, by decide, ?_,
      by decide, by decide⟩ .nil))
  · intro p hp
    simp only [List.mem_cons, List.not_mem_nil, or_false] at hp
    rcases hp with rfl | rfl
    · refine ⟨by decide, by decide, ?_, by simp⟩
      rintro a ⟨⟩
      exact ⟨by decide, { whole := str "2", fraction := some (str "50") }, by decide, by decide, by decide, by decide, by decide⟩
    · exact hbank
  · intro p hp
    simp only [List.mem_cons, List.not_mem_nil, or_false] at hp
    rcases hp with rfl | rfl
    · refine ⟨by decide, by decide, ?_, by simp⟩
      rintro a ⟨⟩
      exact ⟨by decide, { sign := .minus, whole := str "50" }, by decide, by decide, by decide, by decide, by decide⟩
    · exact hbank
  · intro p hp
    simp only [List.mem_cons, List.not_mem_nil, or_false] at hp
    subst hp
    refine ⟨by decide, by decide, ?_, by simp⟩
    rintro a ⟨⟩
    exact ⟨by decide, { whole := str "10" }, by decide, by decide, by decide, by decide, by decide⟩

/-- A journal in one file. -/
theorem reads_journal [Unicode] (fs : FileSystem) (root : Str) (n : Nat) (path label : Str) {ps : List (Paragraph × Nat)} {ms : List Meant}
    (h : List.Forall₂ (fun p x => p.1.Means x) ps ms) (hf : Fits (journalLines ps)) :
    Reads fs root n path label (journalText ps) (ms.map fun x => (x, label)) label := by
  induction h with
  | nil => exact .done
  | @cons p x ps ms h1 _ ih =>
    have hb : ∀ {a js} (k : Nat), Reads fs root n path label a js label → Reads fs root n path label (textOf [10] (List.replicate k []) ++ a) js label := by
      intro a js k ha
      induction k with
      | zero => exact ha
      | succ k ik => exact .blank (nl := [10]) (.inl rfl) ik
    have hl : journalText (p :: ps) = textOf [10] (p.1.lines.map encode) ++ ([10] ++ (textOf [10] (List.replicate p.2 []) ++ journalText ps)) := by
      simp [journalText, journalLines, textOf, List.replicate_succ, encode]
    rw [hl]
    exact .paragraph h1 (fun l hl => hf l (by simp [journalLines, hl])) (.inl rfl) (.inl rfl)
      (hb p.2 (ih fun l hl => hf l (by simp only [journalLines, List.flatMap_cons, List.mem_append]; exact Or.inr hl)))

/-- It meets the hypotheses. -/
theorem wholeGiven :
    letI := asciiUnicode
    Given wholeMachine wholeOptions [str "Food"] (journalText wholeJournal) (wholeMeaning.map fun x => (x, str "f")) [wholeFilter]
      wholeDays (str "f") := by
  let := asciiUnicode
  refine ⟨⟨wholeFair, .inl ⟨rfl, by decide⟩, by decide +kernel, .cons ⟨by decide, by decide, ?_⟩ .nil,
    .inl ⟨rfl, fun _ => (by decide : -nsPerDay < (0 : Int) ∧ (0 : Int) < nsPerDay), none,
    some ⟨2020, 2, 1⟩, .inl ⟨rfl, rfl⟩, .inr ⟨by decide, _, rfl, .inl <| .intro (by decide) <| .inr ⟨'-', by decide, .inl ⟨str "2020", str "02", 2020, by decide, by decide,
      by decide, by decide, by decide⟩⟩⟩, fun d => ?_⟩⟩, ⟨wholeMachine.fs, journalText wholeJournal, str "f", fun p => ?_, by decide +kernel,
    reads_journal _ _ _ _ _ wholeMeans (by decide +kernel)⟩⟩
  · rw [if_pos (by decide)]
    rfl
  · have : wholeMachine.offset ⟨2020, 2, 1⟩ = 0 := rfl
    simp [wholeDays, this]
  · cases h : wholeMachine.fs p with
    | none => exact .inl ⟨rfl, rfl⟩
    | some a => exact .inr ⟨a, a, rfl, rfl, .refl a⟩

set_option maxRecDepth 100000 in
/-- What the commands answer. -/
example :
    letI := asciiUnicode
    wholeMachine.run wholeOptions .accounts [str "Food"] = ⟨str "Expenses:Food\n", .exit 0⟩ ∧
    wholeMachine.run wholeOptions .payees [] = ⟨str "shop\n", .exit 0⟩ ∧
    wholeMachine.run wholeOptions .print [str "Food"] =
      ⟨str "2020-01-02   shop\n    Expenses:Food    £2.50\n    Assets:Bank    £-2.50\n\n", .exit 0⟩ ∧
    wholeMachine.run wholeOptions .balance [str "Food"] =
      ⟨str "               £2.50  Expenses\n               £2.50    Food\n--------------------\n                2.50\n", .exit 0⟩ ∧
    (wholeMachine.run wholeOptions .budget [str "Food"]).ending = .exit 0 ∧
    wholeMachine.run wholeOptions .statistics [str "Food"] =
      ⟨str "Transactions found in 1 files:\n  f\nFirst transaction:\t2020-01-02 ()\nLast transaction:\t2020-01-02 ()\nTime period:\t\t0 days\nTransactions:\t\t1 (+Inf per day)\nUnique accounts:\t1\nUnique payees:\t\t1\nAge of money:\t\t0 days\n", .exit 0⟩ := by
  decide +kernel

/-- No amount is missing. -/
example : ∀ c : Command, ¬ c.Short [wholeFilter] wholeDays wholeMeaning := by
  intro c
  cases c
  case balance =>
    have : ∀ p ∈ askedPostings [wholeFilter] wholeDays wholeMeaning, p.amount ≠ none := by decide +kernel
    rintro ⟨p, hp, h⟩
    exact this p hp h
  case statistics =>
    have : ∀ p ∈ askedPostings [wholeFilter] wholeDays wholeMeaning, p.amount ≠ none := by decide +kernel
    rintro ⟨p, hp, h, _⟩
    exact this p hp h
  case budget =>
    have : ∀ x ∈ wholeMeaning.flatMap (Meant.filed [wholeFilter] wholeDays), x.Fileable := by decide +kernel
    rintro ⟨x, hx, h⟩
    exact h (this x hx)
  all_goals exact id

/-! The same journal in two files, with a comment, other line ends, and without a line end at the end of the second file. -/

def splitRoot : String := "# money\n2020-01-02 shop\r\n  Expenses:Food  £2.50\r\n  Assets:Bank\r\n\ninclude g\n~ 2020-01\n  Food  £10\n\n"

def splitOther : String := "2020/02/01 *pay\n  Income:Job  £-50\n  Assets:Bank"

def splitMachine : Machine :=
  { wholeMachine with fs := fun p => if p = str "f" then some (utf8 splitRoot) else if p = str "g" then some (utf8 splitOther) else none }

def splitMeaning : List (Meant × Str) := List.zip wholeMeaning [str "f", str "g", str "f"]

theorem splitGiven :
    letI := asciiUnicode
    Given splitMachine { file := str "f" } [] (utf8 splitRoot) splitMeaning [] (fun d => 1 ≤ d.year) (str "f") := by
  let := asciiUnicode
  let fs : FileSystem := fun p => if p = str "f" then some (utf8 splitRoot) else if p = str "g" then some (utf8 (splitOther ++ "\n\n")) else none
  have hm := wholeMeans
  obtain ⟨t1, t2, t3, hw⟩ : ∃ t1 t2 t3, wholeMeaning = [t1, t2, t3] := ⟨_, _, _, rfl⟩
  obtain ⟨p1, p2, p3, hj⟩ : ∃ p1 p2 p3, wholeJournal = [p1, p2, p3] := ⟨_, _, _, rfl⟩
  have hs : splitMeaning = [(t1, str "f")] ++ ([(t2, str "g")] ++ [(t3, str "f")]) := by rw [splitMeaning, hw]; rfl
  have hf : ∀ p ∈ wholeJournal, Fits p.1.lines := by decide +kernel
  have e1 : utf8 splitRoot = utf8 "# money" ++ 10 :: (textOf [13, 10] ((wholeJournal.map (·.1.lines.map encode)).headD []) ++
      ([10] ++ (utf8 "include g" ++ 10 :: (textOf [10] ((wholeJournal.map (·.1.lines.map encode)).getLastD []) ++ ([10] ++ []))))) := by decide +kernel
  have e2 : utf8 (splitOther ++ "\n\n") = textOf [10] ((wholeJournal.map (·.1.lines.map encode)).tail.headD []) ++ ([10] ++ []) := by decide +kernel
  rw [hj, hw] at hm
  rw [hj] at hf e1 e2
  obtain _ | ⟨m1, _ | ⟨m2, _ | ⟨m3, _⟩⟩⟩ := hm
  refine ⟨⟨⟨wholeFair.1, wholeFair.2, wholeFair.3, wholeFair.4⟩, .inl ⟨rfl, by decide⟩, rfl, .nil,
    .inl ⟨rfl, fun _ => (by decide : -nsPerDay < (0 : Int) ∧ (0 : Int) < nsPerDay), none, none, .inl ⟨rfl, rfl⟩, .inl ⟨rfl, rfl⟩, fun d => by simp⟩⟩,
    ⟨fs, utf8 splitRoot, str "f", fun p => ?_, rfl, ?_⟩⟩
  · by_cases h1 : p = str "f"
    · subst h1
      exact .inr ⟨_, _, rfl, rfl, .refl _⟩
    · by_cases h2 : p = str "g"
      · subst h2
        refine .inr ⟨_, _, rfl, rfl, ?_⟩
        have k1 := SameLayout.unterminated (ls := [utf8 "2020/02/01 *pay", utf8 "  Income:Job  £-50"]) (last := utf8 "  Assets:Bank") (by decide +kernel) (by decide +kernel)
          (by decide +kernel)
        have k2 := SameLayout.atEnd (a := utf8 (splitOther ++ "\n")) (nl := [10]) (by decide +kernel) (.inl rfl)
        rw [show textOf [10] [utf8 "2020/02/01 *pay", utf8 "  Income:Job  £-50"] ++ utf8 "  Assets:Bank" = utf8 splitOther by decide +kernel,
          show textOf [10] ([utf8 "2020/02/01 *pay", utf8 "  Income:Job  £-50"] ++ [utf8 "  Assets:Bank"]) = utf8 (splitOther ++ "\n") by decide +kernel] at k1
        rw [show utf8 (splitOther ++ "\n") ++ [10] = utf8 (splitOther ++ "\n\n") by decide +kernel] at k2
        exact k1.trans k2.symm
      · exact .inl ⟨by simp [splitMachine, h1, h2], by simp [fs, h1, h2]⟩
  · rw [hs, e1]
    refine .comment (by decide) (by decide) (by decide) (.paragraph m1 (hf p1 (by simp)) (.inr rfl) (.inl rfl)
      (.includes (l := utf8 "include g") (name := str "g") (b := utf8 (splitOther ++ "\n\n")) (ms₁ := [(t2, str "g")]) (ms₂ := [(t3, str "f")]) (last := str "g") (n := 0)
        ⟨by decide, 1, by decide, by decide +kernel, by decide, by decide, by decide⟩ rfl ?_
        (.paragraph m3 (hf p3 (by simp)) (.inl rfl) (.inl rfl) .done)))
    rw [e2]
    exact .paragraph m2 (hf p2 (by simp)) (.inl rfl) (.inl rfl) .done

example :
    letI := asciiUnicode
    splitMachine.run { file := str "f" } .balance [] = wholeMachine.run { file := str "f" } .balance [] ∧
    splitMachine.run { file := str "f" } .statistics [] =
      ⟨str "Transactions found in 2 files:\n  g\n  f\nFirst transaction:\t2020-01-02 ()\nLast transaction:\t2020-02-01 ()\nTime period:\t\t30 days\nTransactions:\t\t2 (0.1 per day)\nUnique accounts:\t3\nUnique payees:\t\t2\nAge of money:\t\t0 days\n", .exit 0⟩ := by
  decide +kernel

end Gledger
