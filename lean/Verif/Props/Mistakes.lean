/-
C98: mistakes in a journal are reported with their place.
-/
import Verif.Spec.Mistakes

namespace Gledger

set_option maxRecDepth 100000

variable {σ : Type}

/-- An error with its place, if there is one. -/
def placed (x : Err) : Option (Str × Nat) → Err
  | none => x
  | some p => .atLine p.1 p.2 x

/-- An error below include directives. -/
def nested (x : Err) : List (Str × Nat) → Err
  | [] => x
  | p :: via => .atLine p.1 p.2 (.errorAt (nested x via))

/-- The failure of the parser that a report is about (without "error at"). -/
def Report.IsOf (lib : Err → Str) (f : Failure) : Report → Prop
  | .message via place reason => ∃ e, reason (Err.text lib e) ∧ f = .err (nested (placed e place) via)
  | .crashes p => f = .panic p
  | .quits => f = .fatal

theorem Entry.Spelled.ok [Unicode] {e : Entry} (h : e.Spelled) : e.Ok := ⟨h.1.ok, h.2.1, fun p hp => (h.2.2 p hp).ok⟩

/-- A line at which the parser fails. -/
theorem line_fails [Unicode] (fs : FileSystem) (H : Handlers σ) (n : Nat) (path : Str) (k : Nat) {l r : List UInt8} (hl : PlainLine l) {st s' : PState σ}
    {f : Failure} (h : runLine (parseItem fs H n) (lineItems path (runes l)) st = (s', some f)) :
    (feedLines (parseItem fs H n) path k (readLines (l ++ 10 :: r)) st).andThen (parseItem fs H n .eofItem []) = (s', some (f.wrap (.atLine path k))) := by
  rw [readLines_line _ _ hl.1, terminatedLine_plain (by have := hl.2.2; omega) hl.2.1, feedLines, h]
  rfl

theorem runLine_one {S : Type} (cb : ItemParser S) (i : ItemType) (c : Str) (s : S) : runLine cb { items := [(i, c)] } s = cb i c s := by
  rw [runLine_ok, runItems_cons]
  obtain ⟨s', _ | f⟩ := cb i c s <;> rfl

/-- The header line of an entry with an unreadable date. -/
theorem date_fails [U : Unicode] (fs : FileSystem) (H : Handlers σ) (n : Nat) (path : Str) {d t : Str} (h1 : ∃ c ∈ d.head?, U.isNumber c = true)
    (h2 : ' ' ∉ d) (h3 : t = [] ∨ t.head? = some ' ') {st : PState σ} (hst : st.builder.Idle) {f : Failure} (hf : parseDate d = .error f) :
    ∃ s', runLine (parseItem fs H n) (lineItems path (d ++ t)) st = (s', some (f.wrap .parsingDate)) ∧ s'.user = st.user := by
  obtain ⟨c, hc, hn⟩ := h1
  obtain ⟨k1, k2⟩ := takeWhile_word h2 h3
  cases d with
  | nil => simp at hc
  | cons x xs =>
    simp only [List.head?_cons, Option.mem_def, Option.some.injEq] at hc
    subst hc
    obtain ⟨n1, n2, n3, n4⟩ := number_not_special hn
    rw [List.cons_append] at k1 k2 ⊢
    rw [lineItems, if_neg (by tauto), if_neg n3, if_neg n4, if_pos hn, headerItems, k1, runLine_ok, runItems_cons]
    rw [parseItem_date, endTransaction_of_idle H _ hst]
    simp only [Step.andThen]
    have hb : (st.builder.begin .normal).build .dateItem (x :: xs) = (st.builder.begin .normal, some f) := by
      simp [Builder.begin, Builder.build, Builder.buildNormal, hf, Step.andThen]
    rw [hb]
    exact ⟨_, rfl, rfl⟩

theorem fresh_settle [Unicode] {e : Entry} (he : e.Ok) : (settle e.heading { linked := true } e.body).2.Fresh := by
  have key : ∀ (ps : List Posting) (t : Transaction) (p : Posting), (∀ q ∈ ps, q.accountPath ≠ []) → p.Fresh → (settle t p ps).2.Fresh := by
    intro ps
    induction ps with
    | nil => intro t p _ h; exact h
    | cons q ps ih => intro t p h _; exact ih _ _ (fun x hx => h x (by simp [hx])) (fun h0 => absurd h0 (h q (by simp)))
  exact key _ _ _ (meaning_account he.2.2) (fun _ => ⟨rfl, rfl⟩)

theorem amount_error {s : Str} (h : ¬ ReadableNumber s) (hs : s ≠ []) : ∃ e, parseAmount s = .error (.err e) := by
  have hno : ∀ q, parseAmount s ≠ .ok q := by
    intro q hq
    obtain ⟨g, g', w, k1, k2, k3, k4⟩ := (C06_accepted_texts_partial _ q).1 hq
    refine h ⟨g, g', w, k1, k2, k3, ?_⟩
    rcases k4 with ⟨k4, _⟩ | ⟨g'', f, k4, k5, k6, _⟩
    · exact Or.inl k4
    · exact Or.inr ⟨g'', f, k4, k5, k6⟩
  unfold parseAmount at hno ⊢
  cases s with
  | nil => exact absurd rfl hs
  | cons c cs =>
    simp only at hno ⊢
    generalize (if c = '+' then ((1 : I64), cs) else if c = '-' then (-1, cs) else (1, c :: cs)) = y at hno ⊢
    obtain ⟨k, t⟩ := y
    simp only at hno ⊢
    split at hno
    · cases hp : parseInt t with
      | none => exact ⟨_, rfl⟩
      | some w => exact absurd (by rw [hp]) (hno (k * (w * 100 + 0)))
    · rename_i i _
      cases hp : parseInt (t.take i) with
      | none => exact ⟨_, rfl⟩
      | some w =>
        cases hq : parseInt (t.drop (i + 1)) with
        | none => exact ⟨_, rfl⟩
        | some d => exact absurd (by simp only [hp, hq]) (hno (k * (w * 100 + d)))

/-- The state after the lines of an entry, whatever follows. -/
theorem entry_then [Unicode] (fs : FileSystem) (H : Handlers σ) (n : Nat) (path : Str) (k : Nat) {st : PState σ} (hst : st.builder.Idle) {e : Entry}
    (he : e.Ok) (hfit : Fits e.lines) : ∃ prev, MayFollow prev ∧ ∀ r,
      feedLines (parseItem fs H n) path k (readLines (textOf [10] (e.lines.map encode) ++ r)) st =
        feedLines (parseItem fs H n) path (k + e.lines.length) (readLines r)
          ⟨building none (settle e.heading { linked := true } e.body).1 (settle e.heading { linked := true } e.body).2 prev, st.files, st.user⟩ := by
  obtain ⟨k', prev, hp, h⟩ := feed_entry_may fs H n path k [] st hst e he
  refine ⟨prev, hp, fun r => ?_⟩
  rw [List.append_nil] at h
  have hl : readLines (textOf [10] (e.lines.map encode) ++ r) = rawLines e.lines ++ readLines r := by
    rw [readLines_textOf_lf]
    · simp [rawLines]
    · intro l hl
      obtain ⟨x, hx, rfl⟩ := List.mem_map.1 hl
      exact hfit x hx
  rw [hl, feedLines_append, h, rawLines_length]
  rfl

/-- Closing an entry that cannot be closed. -/
theorem entry_end_fails [Unicode] (fs : FileSystem) (H : Handlers σ) (n : Nat) (path : Str) (k : Nat) {r : List UInt8} {line : Option Nat}
    (hr : EntryEnd r line k) {s s' : PState σ} {x : Err} (h : endTransaction H s = (s', some (.err x))) :
    (feedLines (parseItem fs H n) path k (readLines r) s).andThen (parseItem fs H n .eofItem []) =
      (s', some (.err (placed x (line.map (path, ·))))) := by
  cases hr with
  | file => simp [placed, readLines, readLinesFrom, feedLines, Step.andThen, h]
  | blank hb =>
    rw [readLines_blank _ _ hb, feedLines, runes_nil, lineItems_nil]
    simp [runLine, runItems, h, Step.andThen, Step.wrap, Failure.wrap, placed]
  | header hl hh =>
    obtain ⟨kk, hk⟩ := headerLine_start fs H n path _ hh
    rw [readLines_line _ _ hl.1, terminatedLine_plain (by have := hl.2.2; omega) hl.2.1, feedLines, hk, h]
    simp [Step.andThen, Step.wrap, Failure.wrap, placed]

theorem message_end (lib : Err → Str) (path : Str) {line : Option Nat} {reason : Str → Prop} {x : Err} (h : reason (x.text lib)) :
    (Report.message [] (line.map (path, ·)) reason).IsOf lib (.err (placed x (line.map (path, ·)))) := ⟨x, h, rfl⟩

theorem text_expected (lib : Err → Str) : (Err.expected .accountItem).text lib = str "expected account but got accountItem" := by
  show str "expected " ++ str "account" ++ str " but got " ++ str "accountItem" = _
  decide +kernel

/-- What the parser does at a mistake. -/
theorem mistake_fails [Unicode] (fs : FileSystem) (lib : Err → Str) (H : Handlers σ) (maxOpen : Nat) (path : Str) {n : Nat} {rest : List UInt8} {rep : Report}
    {before : List (Meant × Str)} (h : Mistake fs lib maxOpen path before n rest rep) {st : PState σ} (hst : st.builder.Idle) (h0 : before = [] → st.builder = {})
    (h1 : before ≠ [] → MayFollow st.builder.prev) :
    ∃ s' f, (feedLines (parseItem fs H maxOpen) path (n + 1) (readLines rest) st).andThen (parseItem fs H maxOpen .eofItem []) = (s', some f) ∧
      s'.user = st.user ∧ rep.IsOf lib f := by
  cases h with
  | @unknown l e r hl hp =>
    have hr : runLine (parseItem fs H maxOpen) (lineItems path (runes (encode l))) st = (st, some (.err e)) := by
      rw [runes_encode, unknown_items path hl, runLine_err]
    refine ⟨_, _, line_fails fs H maxOpen path _ hp hr, rfl, e, ?_, rfl⟩
    cases hl <;> rfl
  | @date d t r k1 k2 k3 k4 k5 hp =>
    rcases (C10_dates_accepted d).2.1 k5 with ⟨x, hx⟩ | ⟨x, hx⟩
    · obtain ⟨sep, hs⟩ := ((C10_dates_accepted d).1 x).1 hx
      exact absurd ⟨sep, x, hs⟩ k4
    · obtain ⟨s', e1, e2⟩ := date_fails fs H maxOpen path k1 k2 k3 hst hx
      exact ⟨_, _, line_fails fs H maxOpen path _ hp (by rw [runes_encode]; exact e1), e2, _, List.prefix_append _ _, rfl⟩
  | @shortDate d t r k1 k2 k3 k4 hp =>
    obtain ⟨s', e1, e2⟩ := date_fails fs H maxOpen path k1 k2 k3 hst ((C10_dates_accepted d).2.2 k4)
    exact ⟨_, _, line_fails fs H maxOpen path _ hp (by rw [runes_encode]; exact e1), e2, (rfl : Failure.wrap _ _ = Failure.panic .indexOutOfRange)⟩
  | @amount e ws account r a k1 k2 k3 k4 k5 k6 hp =>
    obtain ⟨prev, hprev, he⟩ := entry_then fs H maxOpen path (n + 1) hst k1.ok k2
    obtain ⟨x, hx⟩ := amount_error k6 (by
      obtain ⟨c, hc, _⟩ := k5.2.2.2.2.2.1
      rintro h0
      rw [h0] at hc
      cases hc)
    rw [he]
    have hitems := posting_items_shape path (p := { indent := ws, account := account, amount := some a }) k3 k4 (by simpa using k5)
    simp only [WrittenPosting.line, Option.map_some, Option.getD_some, WrittenPosting.amountItems] at hitems
    have hr : ∃ s', runLine (parseItem fs H maxOpen) (lineItems path (runes (encode (ws ++ (account ++ a.written)))))
        ⟨building none (settle e.heading { linked := true } e.body).1 (settle e.heading { linked := true } e.body).2 prev, st.files, st.user⟩ =
        (s', some (.err (.parsingAmount x))) ∧ s'.user = st.user := by
      rw [runes_encode, hitems, runLine_ok]
      simp only [runItems, parseItem_build fs H maxOpen .accountItem rfl, parseItem_build fs H maxOpen .commodityItem rfl,
        parseItem_build fs H maxOpen .amountItem rfl, build_account none _ _ (fresh_settle k1.ok) prev hprev, liftBuilder, Step.andThen]
      rw [build_commodity none _ _ rfl]
      simp only
      have hb : ∀ (t : Transaction) (p : Posting), ((building none t p (some .commodityItem)).build .amountItem a.number).2 = some (.err (.parsingAmount x)) := by
        intro t p
        simp [building, Builder.build, Builder.buildNormal, Step.andThen, hx]
      generalize hg : (building none _ _ (some ItemType.commodityItem)).build .amountItem a.number = y
      have hy : y.2 = some (.err (.parsingAmount x)) := by rw [← hg]; exact hb _ _
      obtain ⟨y1, y2⟩ := y
      simp only at hy
      subst hy
      exact ⟨_, rfl, rfl⟩
    obtain ⟨s', e1, e2⟩ := hr
    refine ⟨_, _, line_fails fs H maxOpen path _ hp e1, e2, .parsingAmount x, List.prefix_append _ _, ?_⟩
    rw [show n + 1 + e.lines.length = n + e.lines.length + 1 by omega]
    rfl
  | @unbalanced e r line k1 k2 k3 k4 k5 =>
    obtain ⟨prev, hprev, he⟩ := entry_then fs H maxOpen path (n + 1) hst k1.ok k2
    have hbad := unbalanced_end k1.ok k4 k5
    rw [he, show n + 1 + e.lines.length = n + e.lines.length + 1 by omega]
    refine ⟨_, _, entry_end_fails fs H maxOpen path _ k3 (s' := ⟨⟨.normal, some (endNormalTransaction (some (settle e.heading { linked := true } e.body).2) false
      (settle e.heading { linked := true } e.body).1).1, none, some (settle e.heading { linked := true } e.body).2, prev⟩, st.files, st.user⟩) (x := .unbalanced)
      (by simp [endTransaction, building, hbad]), rfl, message_end lib path (line := line) (reason := (· = _)) (x := .unbalanced) rfl⟩
  | @elided e r line ps last p k1 k2 k3 k4 k5 k6 k7 =>
    obtain ⟨prev, hprev, he⟩ := entry_then fs H maxOpen path (n + 1) hst k1.ok k2
    have hbad := last_elided_end k1.ok k4 k5 k6 k7
    rw [he, show n + 1 + e.lines.length = n + e.lines.length + 1 by omega]
    refine ⟨_, _, entry_end_fails fs H maxOpen path _ k3 (s' := ⟨⟨.normal, some (endNormalTransaction (some (settle e.heading { linked := true } e.body).2) false
      (settle e.heading { linked := true } e.body).1).1, none, some (settle e.heading { linked := true } e.body).2, prev⟩, st.files, st.user⟩) (x := .tooManyElided)
      (by simp [endTransaction, building, hbad]), rfl, message_end lib path (line := line) (reason := (· = _)) (x := .tooManyElided) rfl⟩
  | @missing l r name k1 k2 =>
    have hr : ∃ s', runLine (parseItem fs H maxOpen) (lineItems path (runes l)) st = (s', some (.err (.openFile (splitDir path ++ name)))) ∧ s'.user = st.user := by
      rw [includeLine_items k1, runLine_one]
      cases maxOpen with
      | zero => exact ⟨_, rfl, rfl⟩
      | succ m => simp only [parseItem, k2.resolve_right (by omega)]; exact ⟨_, rfl, rfl⟩
    obtain ⟨s', e1, e2⟩ := hr
    exact ⟨_, _, line_fails fs H maxOpen path _ k1.1 e1, e2, _, rfl, rfl⟩
  | @note c r k1 hp =>
    have hr : runLine (parseItem fs H maxOpen) (lineItems path (runes (encode c.line))) st = (st, some (.panic .nilDereference)) := by
      rw [runes_encode, note_items path k1, runLine_one, parseItem_build fs H maxOpen .commentItem rfl]
      obtain ⟨⟨tt, tr, pe, cu, pv⟩, fl, us⟩ := st
      obtain ⟨i1, i2, i3⟩ := hst
      simp only at i1 i2 i3
      subst i1 i2 i3
      cases tt <;> simp [liftBuilder, Builder.build, Builder.buildNormal, Builder.buildPeriodic, Step.andThen]
    exact ⟨_, _, line_fails fs H maxOpen path _ hp hr, rfl, rfl⟩
  | @firstPosting p r k0 k1 hp =>
    have hr : runLine (parseItem fs H maxOpen) (lineItems path (runes (encode p.line))) st = (st, some (.err (.expected .accountItem))) := by
      rw [runes_encode, posting_items path k1.ok, runLine_ok, runItems_cons, parseItem_build fs H maxOpen .accountItem rfl]
      obtain ⟨b, fl, us⟩ := st
      have hb : b = {} := h0 k0
      subst hb
      simp [liftBuilder, Builder.build, Builder.buildNormal, Step.andThen]
    exact ⟨_, _, line_fails fs H maxOpen path _ hp hr, rfl, .expected .accountItem, text_expected lib, rfl⟩
  | @posting p r k0 k1 hp =>
    have hr : runLine (parseItem fs H maxOpen) (lineItems path (runes (encode p.line))) st = (st, some (.panic .nilDereference)) := by
      rw [runes_encode, posting_items path k1.ok, runLine_ok, runItems_cons, parseItem_build fs H maxOpen .accountItem rfl]
      have hm := h1 k0
      obtain ⟨⟨tt, tr, pe, cu, pv⟩, fl, us⟩ := st
      obtain ⟨i1, i2, i3⟩ := hst
      simp only at i1 i2 i3 hm
      subst i1 i2 i3
      have hm : ¬ (pv ≠ some .commentItem ∧ pv ≠ some .transactionHeaderCommentItem ∧
          pv ≠ some .payeeItem ∧ pv ≠ some .amountItem ∧ pv ≠ some .accountItem ∧ pv ≠ some .periodItem) := by
        unfold MayFollow at hm
        tauto
      cases tt <;> simp only [liftBuilder, Builder.build, Builder.buildNormal, Builder.buildPeriodic, Step.andThen, if_neg hm]
    exact ⟨_, _, line_fails fs H maxOpen path _ hp hr, rfl, rfl⟩
  | @long l r k1 k2 =>
    refine ⟨st, .fatal, ?_, rfl, rfl⟩
    rw [readLines_line _ _ k1, terminatedLine, if_pos (by unfold bufSize; omega)]
    rfl

/-- Reading a journal up to the mistake: the calls for the paragraphs before it are made. -/
theorem broken_fails [Unicode] {fs : FileSystem} {lib : Err → Str} {root : Str} {n : Nat} {path : Str} {before : List (Meant × Str)} {bytes : List UInt8}
    {js : List (Meant × Str)} {rep : Report} (h : Broken fs lib root n path before bytes js rep) :
    ∀ (st : PState (List Call × List Call)), st.builder.Idle → st.files.head? = some root → st.files.getLast? = some path →
      (before = [] → st.builder = {}) → (before ≠ [] → MayFollow st.builder.prev) →
      ∃ s' f calls, (feedLines (parseItem fs (logged recorder) n) path 1 (readLines bytes) st).andThen (parseItem fs (logged recorder) n .eofItem []) =
        (s', some f) ∧ List.Forall₂ (fun x c => x.1.Call x.2 c) js calls ∧ s'.user.2 = st.user.2 ++ calls ∧ rep.IsOf lib f := by
  have next : ∀ {before js : List (Meant × Str)} {st st' : PState (List Call × List Call)}, (before = [] → st.builder = {}) →
      (before ≠ [] → MayFollow st.builder.prev) → (js = [] → st'.builder = st.builder) →
      (js ≠ [] ∨ MayFollow st.builder.prev → MayFollow st'.builder.prev) →
      (before ++ js = [] → st'.builder = {}) ∧ (before ++ js ≠ [] → MayFollow st'.builder.prev) := by
    intro before js st st' h1 h2 h3 h4
    constructor
    · intro h
      obtain ⟨hb, hj⟩ := List.append_eq_nil_iff.1 h
      rw [h3 hj, h1 hb]
    · intro h
      refine h4 ?_
      by_cases hj : js = []
      · exact Or.inr (h2 fun hb => h (by rw [hb, hj]; rfl))
      · exact Or.inl hj
  induction h with
  | @here n path before a js label' rest rep hr hm =>
    intro st h1 h2 h3 h4 h5
    obtain ⟨st', calls, i1, i2, i3, i4, i5, i6, i7, i8⟩ := reads_feed hr 1 st h1 h2 h3
    obtain ⟨n1, n2⟩ := next h4 h5 i6 i7
    obtain ⟨s', f, e1, e2, e3⟩ := mistake_fails fs lib (logged recorder) n path hm i1 n1 n2
    refine ⟨s', f, calls, ?_, i4, by rw [e2, i5], e3⟩
    rw [i8, Nat.add_comm 1, e1]
  | @inside n path before a js label' l name b js' rep r hr hl hb _ ih =>
    intro st h1 h2 h3 h4 h5
    obtain ⟨st', calls, i1, i2, i3, i4, i5, i6, i7, i8⟩ := reads_feed hr 1 st h1 h2 h3
    obtain ⟨n1, n2⟩ := next h4 h5 i6 i7
    obtain ⟨s', f, calls', e1, e2, e3, e4⟩ := ih { st' with files := st'.files ++ [splitDir path ++ name] } i1
      (by
        show (st'.files ++ _).head? = _
        rw [List.head?_append, i2]
        rfl) (by simp) n1 n2
    refine ⟨s', (f.wrap .errorAt).wrap (.atLine path (a.count 10 + 1)), calls ++ calls', ?_, List.rel_append i4 e2, ?_, ?_⟩
    · rw [i8, Nat.add_comm 1]
      refine line_fails fs (logged recorder) (n + 1) path _ hl.1 ?_
      rw [includeLine_items hl, runLine_one]
      simp only [parseItem, hb, lex, lexLoop_eq]
      rw [e1]
      rfl
    · rw [e3]
      show st'.user.2 ++ _ = _
      rw [i5, List.append_assoc]
    · cases rep with
      | message via place reason =>
        obtain ⟨e, e5, rfl⟩ := e4
        exact ⟨e, e5, rfl⟩
      | crashes p =>
        have e4 : f = .panic p := e4
        subst e4
        exact (rfl : ((Failure.panic p).wrap .errorAt).wrap _ = Failure.panic p)
      | quits =>
        have e4 : f = .fatal := e4
        subst e4
        exact (rfl : (Failure.fatal.wrap .errorAt).wrap _ = Failure.fatal)

theorem nested_text (lib : Err → Str) (e : Err) (place : Option (Str × Nat)) (via : List (Str × Nat)) :
    (Err.errorAt (nested (placed e place) via)).text lib =
      via.flatMap (fun p => str "error at " ++ placeText p) ++ (str "error at " ++ ((place.map placeText).getD [] ++ e.text lib)) := by
  induction via with
  | nil =>
    show str "error at " ++ Err.text lib (placed e place) = str "error at " ++ _
    congr 1
    cases place <;> rfl
  | cons p via ih =>
    rw [nested, text_atLine, ih, List.flatMap_cons, placeText]
    simp only [List.append_assoc]

section
variable [Unicode] {m : Machine} {o : Options} {args : List Str} {bytes : List UInt8} {js : List (Meant × Str)} {filters : List Filter}
  {admits : Date → Bool} {path : Str} {rep : Report}

/-- The paragraphs before the mistake are delivered, and reading fails there. -/
theorem Begun.delivered (g : Begun m o args bytes js filters admits path rep) :
    List.Forall₂ (fun x c => x.1.Call x.2 c) js (Gledger.delivered m.fs m.maxOpen bytes path) ∧
    ∃ f, rejection m.fs m.maxOpen bytes path = some (f.wrap .errorAt) ∧ rep.IsOf m.lib f := by
  obtain ⟨s', f, calls, e1, e2, e3, e4⟩ := broken_fails g.means (rootStart ([], []) path) ⟨rfl, rfl, rfl⟩ rfl rfl (fun _ => rfl) (fun h => absurd rfl h)
  have hp : parse m.fs (logged recorder) m.maxOpen bytes path (newParser ([], [])) = (s', some (f.wrap .errorAt)) := by
    rw [parse_new, e1]
    rfl
  rw [delivered_calls, rejection_failureOf]
  unfold callsOf failureOf
  rw [hp]
  refine ⟨?_, f, rfl, e4⟩
  change List.Forall₂ _ _ s'.user.2
  rw [e3]
  exact e2

/-- Circumstances, paragraphs and failure determine what is printed. -/
theorem Heard.reported (g : Heard m o args bytes js filters admits path) {f : Failure}
    (d2 : rejection m.fs m.maxOpen bytes path = some (f.wrap .errorAt)) (d3 : rep.IsOf m.lib f)
    {c : Command} (hc : c ≠ .version) :
    (c.Short filters admits (meanings js) → (m.run o c args).ending = .panic .unusablePosting) ∧
    (¬ c.Short filters admits (meanings js) → ∃ w, c.Warned filters admits (meanings js) w ∧ rep.Shown w (m.run o c args)) := by
  rw [g.run hc]
  obtain ⟨_, _, a3, a4, a5, a6⟩ := g.asks
  have hl := g.lacks c
  have hs := C96_stopped (m.env o filters) g.fair.postings (days_no_error g.days filters) m.fs m.maxOpen bytes path c
  obtain ⟨r1, r2⟩ := runOn_error m (m.env o filters) o args bytes path hc
  constructor
  · intro hsh
    rw [if_pos (hl.2 hsh)] at hs
    obtain ⟨f', f1, f2⟩ := r2 _ hs
    rw [f2]
    cases f' with
    | err e => cases f1
    | fatal => cases f1
    | panic p => cases f1; rfl
  · intro hsh
    rw [if_neg (mt hl.1 hsh)] at hs
    rw [r1 hs _ d2]
    refine ⟨m.warnings (m.env o filters) bytes path c, ?_, ?_⟩
    · cases c with
      | balance =>
        obtain ⟨qss, q1, q2, _⟩ := C73_warnings (m.env o filters) g.fair.postings m.fs m.maxOpen bytes path hs
        obtain ⟨qss', q3, q4⟩ := a5 qss q1
        exact ⟨qss', q3, by rw [q4]; exact q2⟩
      | budget =>
        obtain ⟨xss, x1, x2, _⟩ := C75_warnings (m.env o filters) g.fair.postings m.fs m.maxOpen bytes path hs
        exact ⟨xss, a6 xss x1, x2⟩
      | version => exact absurd rfl hc
      | _ => rfl
    · cases rep with
      | message via place reason =>
        obtain ⟨e, e1, rfl⟩ := d3
        refine ⟨_, e1, ?_⟩
        rw [← nested_text]
        rfl
      | crashes p =>
        have d3 : f = .panic p := d3
        subst d3
        rfl
      | quits =>
        have d3 : f = .fatal := d3
        subst d3
        rfl

/-- A mistake in a journal, or in a file it includes: a command that needs an amount missing before it crashes; every other command prints its
warnings about what comes before, and then reports the mistake. No report is printed. -/
theorem C98_reported (g : Begun m o args bytes js filters admits path rep)
    {c : Command} (hc : c ≠ .version) :
    (c.Short filters admits (meanings js) → (m.run o c args).ending = .panic .unusablePosting) ∧
    (¬ c.Short filters admits (meanings js) → ∃ w, c.Warned filters admits (meanings js) w ∧ rep.Shown w (m.run o c args)) := by
  obtain ⟨d1, f, d2, d3⟩ := g.delivered
  exact Heard.reported ⟨g.toSetting, d1⟩ d2 d3 hc

end

/-! The journal of the example for C97 followed by mistakes. -/

def mistaken (t : String) : Machine :=
  { wholeMachine with fs := fun p => if p = str "f" then some (journalText wholeJournal ++ utf8 t) else none }

def wholeIn : List (Meant × Str) := wholeMeaning.map fun x => (x, str "f")

theorem mistakenBegun (t : String) {rep : Report}
    (h : letI := asciiUnicode; Mistake (mistaken t).fs (mistaken t).lib 1 (str "f") wholeIn 12 (utf8 t) rep) :
    letI := asciiUnicode
    Begun (mistaken t) wholeOptions [str "Food"] (journalText wholeJournal ++ utf8 t) wholeIn [wholeFilter] wholeDays (str "f") rep := by
  let := asciiUnicode
  obtain ⟨⟨g1, g2, _, g6, g7⟩, _⟩ := wholeGiven
  refine ⟨⟨⟨g1.1, g1.2, g1.3, g1.4⟩, g2, rfl, g6, g7⟩, .here (reads_journal _ _ _ _ _ wholeMeans (by decide +kernel)) ?_⟩
  rw [show (journalText wholeJournal).count 10 = 12 by decide +kernel]
  exact h

/-- What they are. -/
example (lib : Err → Str) :
    letI := asciiUnicode
    let Mis := fun t => Mistake noFiles lib 1 (str "f") wholeIn 12 (utf8 t)
    Mis "Assets  5\n" (.message [] (some (str "f", 13)) (· = str "unexpected line type during lexing")) ∧
    Mis "2020-02-30 x\n  A  1\n  B\n" (.message [] (some (str "f", 13)) (str "error parsing date\n" <+: ·)) ∧
    Mis "2020 x\n" (.crashes .indexOutOfRange) ∧
    Mis "2020-03-01 x\n  A  1\n  B  2\n  C  £1,000\n" (.message [] (some (str "f", 16)) (str "error parsing amount: " <+: ·)) ∧
    Mis "2020-03-01 x\n  A  1\n  B  2\n" (.message [] none (· = str "transaction does not balance")) ∧
    Mis "2020-03-01 x\n  A  1\n  B  2\n2020-03-02 y\n" (.message [] (some (str "f", 16)) (· = str "transaction does not balance")) ∧
    Mis "2020-03-01 x\n  A\n  B\n\n" (.message [] (some (str "f", 16)) (· = str "cannot have more than one posting with an elided amount")) ∧
    Mis "include other.txt\n" (.message [] (some (str "f", 13)) (· = lib (.openFile (str "other.txt")))) ∧
    Mis "  ; note\n" (.crashes .nilDereference) ∧
    Mis "  A  5\n" (.crashes .nilDereference) := by
  let := asciiUnicode
  intro Mis
  let entry : Entry := { header := { date := str "2020-03-01", day := ⟨2020, 3, 1⟩, payee := str "x" },
                         postings := [{ account := str "A", amount := some { number := str "1", quantity := 100 } },
                                      { account := str "B", amount := some { number := str "2", quantity := 200 } }] }
  let bare : Entry := { entry with postings := [{ account := str "A" }, { account := str "B" }] }
  have hh : entry.header.Spelled :=
    ⟨⟨'-', by decide, str "2020", str "03", str "01", 2020, by decide, by decide, by decide, by decide, by decide⟩, by decide,
      by decide, by decide, by decide, by decide, by decide, by decide, by decide⟩
  have he : entry.Spelled := by
    refine ⟨hh, by decide, ?_⟩
    intro p hp
    simp only [entry, List.mem_cons, List.not_mem_nil, or_false] at hp
    rcases hp with rfl | rfl
    · refine ⟨by decide, by decide, ?_, by decide⟩
      rintro a ⟨⟩
      exact ⟨by decide, { whole := str "1" }, by decide, by decide, by decide, by decide, by decide⟩
    · refine ⟨by decide, by decide, ?_, by decide⟩
      rintro a ⟨⟩
      exact ⟨by decide, { whole := str "2" }, by decide, by decide, by decide, by decide, by decide⟩
  have hb : bare.Spelled := by
    refine ⟨hh, by decide, ?_⟩
    intro p hp
    simp only [bare, List.mem_cons, List.not_mem_nil, or_false] at hp
    rcases hp with rfl | rfl <;> exact ⟨by decide, by decide, by simp, by decide⟩
  have e13 : ∀ {a b : List UInt8} {r : Report}, a = b → Mistake noFiles lib 1 (str "f") wholeIn 12 a r → Mistake noFiles lib 1 (str "f") wholeIn 12 b r := by
    rintro a b r rfl h
    exact h
  refine ⟨e13 (by decide +kernel) (.unknown (l := str "Assets  5") (r := []) (.other (by decide) (by decide) (by decide) (by decide) (by decide) (by decide) (by decide)) (by decide)),
    e13 (by decide +kernel) (.date (d := str "2020-02-30") (t := str " x") (r := utf8 "  A  1\n  B\n") ⟨'2', by decide, by decide⟩ (by decide) (by decide) ?_ (by decide) (by decide)),
    e13 (by decide +kernel) (.shortDate (d := str "2020") (t := str " x") (r := []) ⟨'2', by decide, by decide⟩ (by decide) (by decide) (by decide) (by decide)),
    e13 (by decide +kernel) (.amount (e := entry) (ws := str "  ") (account := str "C") (a := { commodity := str "£", number := str "1,000", quantity := 0 }) (r := [])
      he (by decide) (by decide) (by decide) (by decide) ?_ (by decide)),
    e13 (by decide +kernel) (.unbalanced (e := entry) (r := []) he (by decide) .file (by decide) (by decide)),
    e13 (by decide +kernel) (.unbalanced (e := entry) he (by decide) (.header (l := utf8 "2020-03-02 y") (r := []) (by decide)
      ⟨'2', str "020-03-02 y", by decide +kernel, .inl (by decide)⟩) (by decide) (by decide)),
    e13 (by decide +kernel) (.elided (e := bare) (ps := [{ account := str "A" }]) (last := { account := str "B" }) (p := { account := str "A" }) hb (by decide)
      (.blank (nl := [10]) (r := []) (.inl rfl)) rfl rfl (by decide) rfl),
    e13 (by decide +kernel) (.missing (l := utf8 "include other.txt") (r := []) (name := str "other.txt") ⟨by decide, 1, by decide, by decide +kernel, by decide, by decide, by decide⟩
      (.inl rfl)),
    e13 (by decide +kernel) (.note (c := { comment := { text := str "note" } }) (r := []) (by decide) (by decide)),
    e13 (by decide +kernel) (.posting (p := { account := str "A", amount := some { number := str "5", quantity := 500 } }) (r := []) (by decide)
      ⟨by decide, by decide, ?_, by decide⟩ (by decide))⟩
  · rintro ⟨sep, d, h⟩
    have := ((C10_dates_accepted (str "2020-02-30")).1 d).2 ⟨sep, h⟩
    rw [show parseDate (str "2020-02-30") = .error (.err (.timeParse (str "2020-02-30"))) by decide] at this
    cases this
  · rintro ⟨g, g', w, k1, k2, k3, k4⟩
    have : ∃ q, parseAmount (str "1,000") = .ok q := by
      rcases k4 with k4 | ⟨g'', f, k4, k5, k6⟩
      · exact ⟨_, (C06_accepted_texts_partial _ _).2 ⟨g, g', w, k1, k2, k3, Or.inl ⟨k4, rfl⟩⟩⟩
      · exact ⟨_, (C06_accepted_texts_partial _ _).2 ⟨g, g', w, k1, k2, k3, Or.inr ⟨g'', f, k4, k5, k6, rfl⟩⟩⟩
    obtain ⟨q, hq⟩ := this
    rw [show parseAmount (str "1,000") = .error (.err (.number (str "1,000"))) by decide] at hq
    cases hq
  · rintro a ⟨⟩
    exact ⟨by decide, { whole := str "5" }, by decide, by decide, by decide, by decide, by decide⟩

/-- A line that is too long, and the text of the runs on some of these journals. -/
example (lib : Err → Str) (r : List UInt8) :
    letI := asciiUnicode
    Mistake noFiles lib 1 (str "f") wholeIn 12 (List.replicate 4096 97 ++ 10 :: r) .quits := by
  let := asciiUnicode
  exact .long (by rw [List.mem_replicate]; decide) (by rw [List.length_replicate])

example :
    letI := asciiUnicode
    (mistaken "Assets  5\n").run wholeOptions .balance [str "Food"] = ⟨str "error at f:13\nunexpected line type during lexing\n", .exit 0⟩ ∧
    (mistaken "2020-03-01 x\n  A  1\n  B  2\n").run wholeOptions .accounts [] = ⟨str "error at transaction does not balance\n", .exit 0⟩ ∧
    (mistaken "2020-03-01 x\n  A  1\n  B  2\n2020-03-02 y\n").run wholeOptions .print [] = ⟨str "error at f:16\ntransaction does not balance\n", .exit 0⟩ ∧
    (mistaken "  A  5\n").run wholeOptions .budget [] = ⟨[], .panic .nilDereference⟩ := by
  decide +kernel

/-! A mistake in a file that is included. -/

def mistakenDeep : Machine :=
  { mistaken "include g\n" with
    fs := fun p => if p = str "f" then some (journalText wholeJournal ++ utf8 "include g\n") else if p = str "g" then some (utf8 "; here\n\nAssets  5\n") else none }

theorem deepBegun :
    letI := asciiUnicode
    Begun mistakenDeep wholeOptions [str "Food"] (journalText wholeJournal ++ utf8 "include g\n") wholeIn [wholeFilter] wholeDays (str "f")
      (.message [(str "f", 13)] (some (str "g", 3)) (· = str "unexpected line type during lexing")) := by
  let := asciiUnicode
  obtain ⟨⟨g1, g2, _, g6, g7⟩, _⟩ := wholeGiven
  refine ⟨⟨⟨g1.1, g1.2, g1.3, g1.4⟩, g2, rfl, g6, g7⟩, ?_⟩
  have hr := reads_journal mistakenDeep.fs (str "f") 1 (str "f") (str "f") wholeMeans (by decide +kernel)
  have e : utf8 "; here\n\nAssets  5\n" = (utf8 "; here" ++ 10 :: ([10] ++ [])) ++ (encode (str "Assets  5") ++ 10 :: []) := by decide +kernel
  have hd : Broken mistakenDeep.fs mistakenDeep.lib (str "f") 0 (str "g") ([] ++ wholeIn) (utf8 "; here\n\nAssets  5\n") []
      (.message [] (some (str "g", 3)) (· = str "unexpected line type during lexing")) := by
    rw [e]
    exact .here (.comment (by decide) (by decide) (by decide) (.blank (.inl rfl) .done))
      (.unknown (.other (by decide) (by decide) (by decide) (by decide) (by decide) (by decide) (by decide)) (by decide))
  have := Broken.inside (before := []) (l := utf8 "include g") (name := str "g") (r := []) hr
    ⟨by decide, 1, by decide, by decide +kernel, by decide, by decide, by decide⟩ rfl hd
  rw [List.append_nil, show (journalText wholeJournal).count 10 = 12 by decide +kernel] at this
  exact this

example :
    letI := asciiUnicode
    mistakenDeep.run wholeOptions .balance [str "Food"] = ⟨str "error at f:13\nerror at g:3\nunexpected line type during lexing\n", .exit 0⟩ := by
  decide +kernel

end Gledger
