/-
C94: lines that cannot be read are never passed over.
-/
import Verif.Spec.Malformed
import Verif.Props.Program
import Verif.Props.Dates

namespace Gledger

set_option maxRecDepth 100000

variable {σ : Type}

theorem number_not_special [U : Unicode] {c : Char} (h : U.isNumber c = true) : c ≠ ';' ∧ c ≠ '#' ∧ c ≠ 'i' ∧ c ≠ '~' := by
  refine ⟨?_, ?_, ?_, ?_⟩ <;> rintro rfl <;> rw [U.number_ascii _ (by decide)] at h <;> exact absurd h (by decide)

theorem takeWhile_word {w rest : Str} (hw : ' ' ∉ w) (hr : rest = [] ∨ rest.head? = some ' ') :
    (w ++ rest).takeWhile (· ≠ ' ') = w ∧ (w ++ rest).dropWhile (· ≠ ' ') = rest := by
  have h : ∀ c ∈ w, decide (c ≠ ' ') = true := fun c hc => by simp; rintro rfl; exact hw hc
  rw [List.takeWhile_append_of_pos h, List.dropWhile_append_of_pos h]
  rcases hr with rfl | hr
  · simp
  · cases rest with
    | nil => simp at hr
    | cons x xs => simp only [List.head?_cons, Option.some.injEq] at hr; subst hr; simp

/-- The lexer gives nothing to the parser for a line of no known kind, and stops. -/
theorem unknown_items [U : Unicode] (hint : Str) {l : Str} {e : Err} (h : UnknownLine l e) : lineItems hint l = { items := [], err := some e } := by
  cases h with
  | other h1 h2 h3 h4 h5 h6 h7 =>
    rw [lineItems, if_neg (by tauto), if_neg h3, if_neg h4, if_neg (by simp [h5]), if_neg (by tauto)]
  | @directive word rest h1 h2 h3 h4 =>
    obtain ⟨k1, _⟩ := takeWhile_word h2 h4
    cases word with
    | nil => simp at h1
    | cons c cs =>
      simp only [List.head?_cons, Option.some.injEq] at h1
      subst h1
      rw [List.cons_append] at k1 ⊢
      rw [lineItems, if_neg (by decide), if_pos rfl, includeItems, k1, if_pos h3]
  | @noFile ws t h1 h2 h3 =>
    have hr : ws ++ t = [] ∨ (ws ++ t).head? = some ' ' := by
      rcases h2 with h2 | ⟨rfl, rfl⟩
      · right
        cases ws with
        | nil => simp at h2
        | cons x xs => simpa using h2
      · left; rfl
    obtain ⟨k1, k2⟩ := takeWhile_word (w := str "include") (by decide) hr
    have hf : (field (afterSpace (ws ++ t))).1 = [] := by
      have hink : StartsInk t := fun c hc => by
        rcases h3 c hc with rfl | rfl <;> decide
      rw [afterSpace_skip h1 hink]
      cases t with
      | nil => rfl
      | cons x xs =>
        have : x = ';' ∨ x = '#' ∨ x = '\t' := by rcases h3 x (by simp) with h | h <;> simp [h]
        rw [field, fieldLoop, if_pos this]
        rfl
    have : str "include" ++ (ws ++ t) = 'i' :: (str "nclude" ++ (ws ++ t)) := rfl
    rw [this, lineItems, if_neg (by decide), if_pos rfl, includeItems, ← this, k1, k2, if_neg (by simp)]
    simp only [hf, or_true, if_true]
  | @tilde ws cs h1 h2 h3 =>
    rw [lineItems, if_neg (by decide), if_neg (by decide), if_pos rfl, periodItems, if_pos]
    rw [spaceWidth_skip h1 h3, h2]

/-- What is read of a file with a line of no known kind: everything before it, as if nothing followed. -/
theorem C94_unknown_line [Unicode] (fs : FileSystem) (H : Handlers σ) (maxOpen : Nat) (path : Str) (u : σ)
    (a b : List UInt8) (ha : WholeLines a) {l : Str} {e : Err} (hl : UnknownLine l e) (hfit : PlainLine (encode l)) :
    let before := feedLines (parseItem fs (logged H) maxOpen) path 1 (readLines a) (rootStart (u, []) path)
    callsOf fs H maxOpen (a ++ (encode l ++ 10 :: b)) path u = before.1.user.2 ∧
      failureOf fs H maxOpen (a ++ (encode l ++ 10 :: b)) path u =
        (match before.2 with
          | none => some (.err (.errorAt (.atLine path (lineCount a + 1) e)))
          | some f => some (f.wrap .errorAt)) := by
  intro before
  have h1 : readLines (a ++ (encode l ++ 10 :: b)) = readLines a ++ .line (encode l) :: readLines b := by
    rw [readLines_append ha, readLines_line _ _ hfit.1, terminatedLine_plain (by have := hfit.2.2; omega) hfit.2.1]
  have h2 : ∀ (s : PState (σ × List Call)), lexLine (parseItem fs (logged H) maxOpen) path (encode l) s = (s, some (.err e)) := by
    intro s
    rw [lexLine_eq, runes_encode, unknown_items path hl, runLine_err]
  unfold callsOf failureOf
  rw [parse_new_lexLoop, h1, lexLoop_append]
  change _ ∧ ((Step.andThen before _).wrap Err.errorAt).2 = _
  change ((Step.andThen before _).wrap Err.errorAt).1.user.2 = _ ∧ _
  obtain ⟨s, _ | f⟩ := before
  · simp only [andThen_ok, lexLoop, h2]
    refine ⟨rfl, ?_⟩
    rw [Nat.add_comm 1]
    rfl
  · exact ⟨rfl, rfl⟩

theorem build_amount_fails (b : Builder) {s : Str} (h : ∀ q, parseAmount s ≠ .ok q) : (b.build .amountItem s).2 ≠ none := by
  have hn : (b.buildNormal .amountItem s).2 ≠ none := by
    simp only [Builder.buildNormal]
    split_ifs with h1
    · simp
    · cases hc : b.current with
      | none => simp
      | some p =>
        simp only
        cases hp : parseAmount s with
        | ok q => exact absurd hp (h q)
        | error f => cases f <;> simp
  have key : ∀ {r : Step Builder} {k : Builder → Step Builder}, r.2 ≠ none → (r.andThen k).2 ≠ none := by
    rintro ⟨x, _ | f⟩ k h
    · exact absurd rfl h
    · simp
  unfold Builder.build
  apply key
  cases b.ttype with
  | normal => exact hn
  | periodic =>
    simp only [Builder.buildPeriodic]
    cases b.periodic with
    | none => simp
    | some pt => exact hn

theorem build_date_fails (b : Builder) {s : Str} (h : ∀ d, parseDate s ≠ .ok d) : ((b.begin .normal).build .dateItem s).2 ≠ none := by
  unfold Builder.build
  have ht : (b.begin .normal).ttype = .normal := rfl
  simp only [ht, Builder.buildNormal]
  cases hp : parseDate s with
  | ok d => exact absurd hp (h d)
  | error f => simp

theorem andThen_ne_none {S : Type} {r : Step S} {k : S → Step S} (h : ∀ s, (k s).2 ≠ none) : (r.andThen k).2 ≠ none := by
  obtain ⟨s, _ | f⟩ := r
  · exact h s
  · simp

/-- No state of the parser accepts an unreadable line. -/
theorem unreadable_fails [Unicode] (fs : FileSystem) (H : Handlers σ) (maxOpen : Nat) (path : Str) {l : Str} (h : Unreadable l) (s : PState σ) :
    (runLine (parseItem fs H maxOpen) (lineItems path l) s).2 ≠ none := by
  cases h with
  | unknown h => rw [unknown_items path h]; simp
  | @date d rest h1 h2 h3 h4 =>
    obtain ⟨c, hc, hn⟩ := h1
    obtain ⟨k1, k2⟩ := takeWhile_word h2 h3
    cases d with
    | nil => simp at hc
    | cons x xs =>
      simp only [List.head?_cons, Option.mem_def, Option.some.injEq] at hc
      subst hc
      obtain ⟨n1, n2, n3, n4⟩ := number_not_special hn
      rw [List.cons_append] at k1 k2 ⊢
      rw [lineItems, if_neg (by tauto), if_neg n3, if_neg n4, if_pos hn, headerItems, k1, runLine_ok, runItems_cons]
      have hp : ∀ day, parseDate (x :: xs) ≠ .ok day := by
        intro day hd
        obtain ⟨sep, hs⟩ := ((C10_dates_accepted (x :: xs)).1 day).1 hd
        exact h4 ⟨sep, day, hs⟩
      have : (parseItem fs H maxOpen .dateItem (x :: xs) s).2 ≠ none := by
        rw [parseItem]
        apply andThen_ne_none
        intro s
        simp only [liftBuilder, Step.wrap, ne_eq, Option.map_eq_none_iff]
        exact build_date_fails _ hp
      generalize parseItem fs H maxOpen .dateItem (x :: xs) s = r at this
      obtain ⟨s, _ | f⟩ := r
      · exact absurd rfl this
      · simp
  | @amount ws account a h1 h2 h3 h4 =>
    have := posting_items_shape path (p := { indent := ws, account := account, amount := some a }) h1 h2 (by simpa using h3)
    simp only [WrittenPosting.line, Option.map_some, Option.getD_some, WrittenPosting.amountItems] at this
    rw [this, runLine_ok, runItems_cons]
    apply andThen_ne_none
    intro s
    rw [runItems_cons]
    apply andThen_ne_none
    intro s
    rw [runItems_cons]
    have hp : ∀ q, parseAmount a.number ≠ .ok q := by
      intro q hq
      obtain ⟨g, g', w, k1, k2, k3, k4⟩ := (C06_accepted_texts_partial _ q).1 hq
      refine h4 ⟨g, g', w, k1, k2, k3, ?_⟩
      rcases k4 with ⟨k4, _⟩ | ⟨g'', f, k4, k5, k6, _⟩
      · exact Or.inl k4
      · exact Or.inr ⟨g'', f, k4, k5, k6⟩
    have : (parseItem fs H maxOpen .amountItem a.number s).2 ≠ none := by
      rw [parseItem]
      · exact build_amount_fails _ hp
      all_goals simp
    generalize parseItem fs H maxOpen .amountItem a.number s = r at this
    obtain ⟨s, _ | f⟩ := r
    · exact absurd rfl this
    · simp

/-- A file with an unreadable line is never accepted, and what is read of it does not depend on what follows that line: reading
ends there, or before. -/
theorem C94_never_accepted [Unicode] (fs : FileSystem) (H : Handlers σ) (maxOpen : Nat) (path : Str) (u : σ)
    (a b b' : List UInt8) (ha : WholeLines a) {l : Str} (hl : Unreadable l) (hfit : PlainLine (encode l)) :
    failureOf fs H maxOpen (a ++ (encode l ++ 10 :: b)) path u ≠ none ∧
    failureOf fs H maxOpen (a ++ (encode l ++ 10 :: b)) path u = failureOf fs H maxOpen (a ++ (encode l ++ 10 :: b')) path u ∧
    callsOf fs H maxOpen (a ++ (encode l ++ 10 :: b)) path u = callsOf fs H maxOpen (a ++ (encode l ++ 10 :: b')) path u := by
  have h1 : ∀ b, readLines (a ++ (encode l ++ 10 :: b)) = readLines a ++ .line (encode l) :: readLines b := by
    intro b
    rw [readLines_append ha, readLines_line _ _ hfit.1, terminatedLine_plain (by have := hfit.2.2; omega) hfit.2.1]
  have h2 : ∀ (s : PState (σ × List Call)), (lexLine (parseItem fs (logged H) maxOpen) path (encode l) s).2 ≠ none := by
    intro s
    rw [lexLine_eq, runes_encode]
    exact unreadable_fails fs _ maxOpen path hl s
  unfold callsOf failureOf
  simp only [parse_new_lexLoop, h1, lexLoop_append]
  generalize feedLines (parseItem fs (logged H) maxOpen) path 1 (readLines a) (rootStart (u, []) path) = before
  obtain ⟨s, _ | f⟩ := before
  · simp only [andThen_ok, lexLoop]
    have := h2 s
    generalize lexLine (parseItem fs (logged H) maxOpen) path (encode l) s = r at this
    obtain ⟨s', _ | f⟩ := r
    · exact absurd rfl this
    · simp [Step.wrap]
  · simp [Step.wrap]

/-- A line of no known kind, before which reading did not stop: every command prints its warnings and then the place and the reason. -/
theorem C94_run [Unicode] (m : Machine) (e : Env) (o : Options) (args : List Str) (a b : List UInt8) (path : Str) {c : Command} (hc : c ≠ .version)
    (ha : WholeLines a) {l : Str} {x : Err} (hl : UnknownLine l x) (hfit : PlainLine (encode l))
    (hb : (feedLines (parseItem m.fs (logged recorder) m.maxOpen) path 1 (readLines a) (rootStart ([], []) path)).2 = none)
    (hs : c.stopped e (delivered m.fs m.maxOpen (a ++ (encode l ++ 10 :: b)) path) = none) :
    m.runOn e o args (a ++ (encode l ++ 10 :: b)) path c =
      ⟨m.warnings e (a ++ (encode l ++ 10 :: b)) path c ++
        (str "error at " ++ path ++ str ":" ++ natDigits (lineCount a + 1) ++ str "\n" ++ x.text m.lib) ++ str "\n", .exit 0⟩ := by
  have hr := (C94_unknown_line m.fs recorder m.maxOpen path [] a b ha hl hfit).2
  rw [hb] at hr
  rw [(runOn_error m e o args _ path hc).1 hs _ (by rw [rejection_failureOf]; exact hr), ← text_atLine]
  rfl

/-- A journal with an unreadable line: no command gives a report. -/
theorem C94_no_report [Unicode] (m : Machine) (e : Env) (o : Options) (args : List Str) (a b : List UInt8) (path : Str) {c : Command} (hc : c ≠ .version)
    (ha : WholeLines a) {l : Str} (hl : Unreadable l) (hfit : PlainLine (encode l)) :
    let bytes := a ++ (encode l ++ 10 :: b)
    (∃ x : Err, m.runOn e o args bytes path c = ⟨m.warnings e bytes path c ++ x.text m.lib ++ str "\n", .exit 0⟩) ∨
    m.runOn e o args bytes path c = ⟨m.warnings e bytes path c, .exit 1⟩ ∨
    ∃ p, m.runOn e o args bytes path c = ⟨m.warnings e bytes path c, .panic p⟩ :=
  C82_no_partial_report m e o args _ path hc
    (Or.inl (by rw [rejection_failureOf]; exact (C94_never_accepted m.fs recorder m.maxOpen path [] a b b ha hl hfit).1))

/-- Lines of all these kinds. -/
example : letI := asciiUnicode
    UnknownLine (str "Assets:Bank  5") .unexpectedLine ∧ UnknownLine (str " A  5") .unexpectedLine ∧
    UnknownLine (str "inclde a.txt") (.unexpectedDirective (str "inclde")) ∧ UnknownLine (str "include  ; a") .badInclude ∧
    UnknownLine (str "~2020-01") .tildeSpaces ∧ Unreadable (str "2020-02-30 x") ∧ Unreadable (str "  A  $1,000") := by
  let := asciiUnicode
  refine ⟨.other (by decide) (by decide) (by decide) (by decide) (by decide) (by decide) (by decide),
    .other (by decide) (by decide) (by decide) (by decide) (by decide) (by decide) (by decide),
    .directive (word := str "inclde") (rest := str " a.txt") (by decide) (by decide) (by decide) (by decide),
    .noFile (ws := str "  ") (t := str "; a") (by decide) (by decide) (by decide), .tilde (ws := []) (by decide) (by decide) (by decide),
    .date (d := str "2020-02-30") (rest := str " x") ⟨'2', by decide, by decide⟩ (by decide) (by decide) ?_,
    .amount (ws := str "  ") (account := str "A") (a := { commodity := str "$", number := str "1,000", quantity := 0 }) (by decide) (by decide) (by decide) ?_⟩
  · rintro ⟨sep, d, h⟩
    have := ((C10_dates_accepted (str "2020-02-30")).1 d).2 ⟨sep, h⟩
    revert this
    have : parseDate (str "2020-02-30") = .error (.err (.timeParse (str "2020-02-30"))) := by decide
    rw [this]
    intro h
    cases h
  · rintro ⟨g, g', w, k1, k2, k3, k4⟩
    have : ∃ q, parseAmount (str "1,000") = .ok q := by
      rcases k4 with k4 | ⟨g'', f, k4, k5, k6⟩
      · exact ⟨_, (C06_accepted_texts_partial _ _).2 ⟨g, g', w, k1, k2, k3, Or.inl ⟨k4, rfl⟩⟩⟩
      · exact ⟨_, (C06_accepted_texts_partial _ _).2 ⟨g, g', w, k1, k2, k3, Or.inr ⟨g'', f, k4, k5, k6, rfl⟩⟩⟩
    obtain ⟨q, hq⟩ := this
    have : parseAmount (str "1,000") = .error (.err (.number (str "1,000"))) := by decide
    rw [this] at hq
    cases hq

/-- A forgotten indentation in the second line. -/
example :
    letI := asciiUnicode
    (machineWith (str "f") "2020-01-01 x\nA  1\n  B\n").run { file := str "f" } .balance [] =
      ⟨str "error at f:2\nunexpected line type during lexing\n", .exit 0⟩ := by
  decide +kernel

end Gledger
