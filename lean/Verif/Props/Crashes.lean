import Verif.Props.Errors
import Verif.Spec.Safety
import Verif.Lemmas.LexedItems

set_option maxRecDepth 100000

namespace Gledger

variable {σ : Type}

/-! ### C20 No input crashes the parser -/

/-- The claim is false: each of these files makes the parser panic. -/
theorem C20_never_crashes_false :
    ¬ ∀ (U : Unicode) (bytes : List UInt8) (p : Panic), @failureOf _ U noFiles recorder 1 bytes (str "f") [] ≠ some (.panic p) := by
  intro h
  have h1 := h asciiUnicode (utf8 "2020\n") .indexOutOfRange
  revert h1
  decide

/-- Six different ways to crash: a short date; two blanks after an account; a posting or an indented comment after a
blank line; an indented comment at the beginning; a note under a periodic header. -/
example :
    letI := asciiUnicode
    failureOf noFiles recorder 1 (utf8 "2020\n") (str "f") [] = some (.panic .indexOutOfRange) ∧
    failureOf noFiles recorder 1 (utf8 "2020-01-01 x\n  A  \n") (str "f") [] = some (.panic .indexOutOfRange) ∧
    failureOf noFiles recorder 1 (utf8 "2020-01-01 x\n  A  1\n  B\n\n  C  1\n") (str "f") [] = some (.panic .nilDereference) ∧
    failureOf noFiles recorder 1 (utf8 "2020-01-01 x\n  A  1\n  B\n\n  ; c\n") (str "f") [] = some (.panic .nilDereference) ∧
    failureOf noFiles recorder 1 (utf8 "  ; c\n") (str "f") [] = some (.panic .nilDereference) ∧
    failureOf noFiles recorder 1 (utf8 "~ 2020-01\n  ; c\n  A  1\n") (str "f") [] = some (.panic .nilDereference) := by decide

/-- A failure that is an error value: not a panic, not the end of the program. -/
def Failure.isErr : Failure → Prop
  | .err _ => True
  | _ => False

/-- The step does not crash, and if it succeeds the state satisfies `I`. -/
def Calm {S : Type} (I : S → Prop) (r : Step S) : Prop := (∀ f, r.2 = some f → f.isErr) ∧ (r.2 = none → I r.1)

theorem Calm.andThen {S : Type} {I J : S → Prop} {a : Step S} {f : S → Step S} (h : Calm J a) (hf : ∀ s, J s → Calm I (f s)) :
    Calm I (a.andThen f) := by
  obtain ⟨s, _ | e⟩ := a
  · exact hf s (h.2 rfl)
  · exact ⟨h.1, by simp [Step.andThen]⟩

theorem Calm.wrap {S : Type} {I : S → Prop} {a : Step S} {w : Err → Err} (h : Calm I a) : Calm I (a.wrap w) := by
  obtain ⟨s, _ | e⟩ := a
  · exact ⟨by simp [Step.wrap], fun _ => h.2 rfl⟩
  · refine ⟨?_, by simp [Step.wrap]⟩
    intro f hf
    simp only [Step.wrap, Option.map_some, Option.some.injEq] at hf
    subst hf
    have := h.1 e rfl
    cases e <;> simp_all [Failure.isErr, Failure.wrap]

theorem Calm.ok {S : Type} {I : S → Prop} {s : S} (h : I s) : Calm I (s, none) := ⟨by simp, fun _ => h⟩

theorem Calm.err {S : Type} {I : S → Prop} {s : S} {e : Err} : Calm I (s, some (.err e)) :=
  ⟨by intro f h; cases h; trivial, by simp⟩

theorem Calm.mono {S : Type} {I J : S → Prop} {r : Step S} (h : Calm I r) (hm : ∀ s, I s → J s) : Calm J r :=
  ⟨h.1, fun hn => hm _ (h.2 hn)⟩

/-- The builder is in the condition described by `Open`. -/
def Builder.Is (b : Builder) : Open → Prop
  | .nothing => b.Shape
  | .transaction => ∃ t p prev, b = ⟨.normal, some t, none, some p, prev⟩
  | .periodic q => ∃ pt p prev, b = ⟨.periodic, none, some pt, some p, prev⟩ ∧ (q = true → p.accountPath ≠ [])

theorem Builder.Is.shape {b : Builder} {o : Open} (h : b.Is o) : b.Shape := by
  cases o with
  | nothing => exact h
  | transaction => obtain ⟨t, p, prev, rfl⟩ := h; exact Or.inr (Or.inl ⟨rfl, by simp, rfl, by simp⟩)
  | periodic q => obtain ⟨t, p, prev, rfl, _⟩ := h; exact Or.inr (Or.inr ⟨rfl, rfl, by simp, by simp⟩)

theorem parseAmount_calm {c : Str} (hc : c ≠ []) : ∀ f, parseAmount c = .error f → f.isErr := by
  intro f h
  unfold parseAmount at h
  cases c with
  | nil => exact absurd rfl hc
  | cons x xs =>
    simp only at h
    repeat' split at h
    all_goals first
      | cases h; trivial
      | cases h

theorem parseDate_calm {c : Str} (hc : 5 ≤ c.length) : ∀ f, parseDate c = .error f → f.isErr := by
  intro f h
  unfold parseDate at h
  rw [List.getElem?_eq_getElem (by omega)] at h
  simp only at h
  repeat' split at h
  all_goals first
    | cases h; trivial
    | cases h

theorem build_calm {b : Builder} {o o' : Open} (hb : b.Is o) (item : ItemType) (hi : item.structural = false) (content : Str)
    (h : o.next item content = some o') : Calm (fun b' => b'.Is o') (b.build item content) := by
  have hamount := @parseAmount_calm content
  cases o with
  | nothing => cases item <;> simp [Open.next, ItemType.structural] at h hi
  | transaction =>
    obtain ⟨t, p, prev, rfl⟩ := hb
    refine Calm.andThen (J := fun b' => b'.Is o') ?_ ?_
    · cases item <;> simp [ItemType.structural] at hi <;> simp only [Builder.buildNormal]
      case stateItem =>
        cases content with
        | nil => simp [Open.next] at h
        | cons c cs =>
          simp [Open.next] at h
          subst h
          split
          · exact Calm.err
          · exact Calm.ok ⟨_, _, _, rfl⟩
      case payeeItem =>
        simp [Open.next] at h
        subst h
        split
        · exact Calm.err
        · exact Calm.ok ⟨_, _, _, rfl⟩
      case accountItem =>
        simp [Open.next] at h
        subst h
        split
        · exact Calm.err
        · split
          · exact Calm.ok ⟨_, _, _, rfl⟩
          · exact Calm.ok ⟨_, _, _, rfl⟩
      case commodityItem =>
        simp [Open.next] at h
        subst h
        split
        · exact Calm.err
        · exact Calm.ok ⟨_, _, _, rfl⟩
      case amountItem =>
        simp [Open.next] at h
        obtain ⟨h1, rfl⟩ := h
        split
        · exact Calm.err
        · split
          · exact Calm.err
          · rename_i f _ hf
            exact ⟨fun f' hf' => by cases hf'; exact hamount h1 _ hf, by simp⟩
          · exact Calm.ok ⟨_, _, _, rfl⟩
      case commentItem =>
        simp [Open.next] at h
        subst h
        split
        · exact Calm.ok ⟨_, _, _, rfl⟩
        · exact Calm.ok ⟨_, _, _, rfl⟩
      case transactionHeaderCommentItem =>
        simp [Open.next] at h
        subst h
        exact Calm.ok ⟨_, _, _, rfl⟩
    · intro b' hb'
      refine Calm.ok ?_
      cases item <;> simp [ItemType.structural] at hi <;> simp [Open.next] at h
      all_goals first
        | (subst h; obtain ⟨t, p, prev, rfl⟩ := hb'; exact ⟨_, _, _, rfl⟩)
        | (obtain ⟨_, rfl⟩ := h; obtain ⟨t, p, prev, rfl⟩ := hb'; exact ⟨_, _, _, rfl⟩)
  | periodic q =>
    obtain ⟨pt, p, prev, rfl, hq⟩ := hb
    refine Calm.andThen (J := fun b' => b'.Is o') ?_ ?_
    · cases item <;> simp [ItemType.structural] at hi <;> simp only [Builder.buildPeriodic, Builder.buildNormal]
      case stateItem =>
        cases content with
        | nil => simp [Open.next] at h
        | cons c cs =>
          simp [Open.next] at h
          subst h
          split
          · exact Calm.err
          · exact Calm.ok ⟨_, _, _, rfl, hq⟩
      case payeeItem =>
        simp [Open.next] at h
        subst h
        split
        · exact Calm.err
        · exact Calm.ok ⟨_, _, _, rfl, hq⟩
      case accountItem =>
        simp [Open.next] at h
        obtain ⟨h1, rfl⟩ := h
        split
        · exact Calm.err
        · split
          · exact Calm.ok ⟨_, _, _, rfl, fun _ => h1⟩
          · exact Calm.ok ⟨_, _, _, rfl, fun _ => h1⟩
      case commodityItem =>
        simp [Open.next] at h
        subst h
        split
        · exact Calm.err
        · exact Calm.ok ⟨_, _, _, rfl, hq⟩
      case amountItem =>
        simp [Open.next] at h
        obtain ⟨h1, rfl⟩ := h
        split
        · exact Calm.err
        · split
          · exact Calm.err
          · rename_i f _ hf
            exact ⟨fun f' hf' => by cases hf'; exact hamount h1 _ hf, by simp⟩
          · exact Calm.ok ⟨_, _, _, rfl, hq⟩
      case commentItem =>
        cases q with
        | false => simp [Open.next] at h
        | true =>
          simp [Open.next] at h
          subst h
          rw [if_pos (by simpa using hq rfl)]
          exact Calm.ok ⟨_, _, _, rfl, hq⟩
      case transactionHeaderCommentItem => simp [Open.next] at h
    · intro b' hb'
      refine Calm.ok ?_
      have : ∃ q', o' = .periodic q' := by
        cases q <;> cases item <;> simp [ItemType.structural] at hi <;> simp [Open.next] at h
        all_goals first
          | exact ⟨_, h.symm⟩
          | exact ⟨_, h.2.symm⟩
      obtain ⟨q', rfl⟩ := this
      obtain ⟨pt, p, prev, rfl, hq⟩ := hb'
      exact ⟨_, _, _, rfl, hq⟩

/-- Handlers that do not crash. -/
def NeverCrashes (H : Handlers σ) : Prop :=
  (∀ h, H.th = some h → ∀ s t f e, (h s t f).2 = some e → e.isErr) ∧
  (∀ h, H.ph = some h → ∀ s t f e, (h s t f).2 = some e → e.isErr)

theorem NeverCrashes.logged {H : Handlers σ} (h : NeverCrashes H) : NeverCrashes (logged H) := by
  constructor
  · intro h' hh s t f
    simp only [Gledger.logged, Option.map_eq_some_iff] at hh
    obtain ⟨g, hg, rfl⟩ := hh
    exact h.1 g hg _ _ _
  · intro h' hh s t f
    simp only [Gledger.logged, Option.map_eq_some_iff] at hh
    obtain ⟨g, hg, rfl⟩ := hh
    exact h.2 g hg _ _ _

theorem endTransaction_calm (H : Handlers σ) (hH : NeverCrashes H) (st : PState σ) (hs : st.builder.Shape) (hfiles : st.files ≠ []) :
    Calm (fun s => s.builder.Idle ∧ s.files ≠ []) (endTransaction H st) := by
  refine ⟨?_, fun h => ⟨(endTransaction_idle H st hs).2 h, by rw [endTransaction_files]; exact hfiles⟩⟩
  have hcall : ∀ {α : Type} (h : Option (σ → α → Str → Step σ)) (a : α) (st : PState σ) (k : PState σ → PState σ), st.files ≠ [] →
      (∀ h', h = some h' → ∀ s t f e, (h' s t f).2 = some e → e.isErr) →
      ∀ f, ((callHandler h a st).andThen fun s => (k s, none)).2 = some f → f.isErr := by
    intro α h a st k hf hh
    unfold callHandler
    cases h with
    | none => simp [Step.andThen]
    | some h =>
      simp only [List.getLast?_eq_getLast_of_ne_nil hf]
      have := hh h rfl st.user a (st.files.getLast hf)
      generalize h st.user a (st.files.getLast hf) = r at this
      obtain ⟨s, _ | e⟩ := r
      · simp [Step.andThen]
      · intro f hf
        simp only [Step.andThen, Option.some.injEq] at hf
        exact this f (by rw [hf])
  intro f
  unfold endTransaction
  cases st.builder.ttype with
  | normal =>
    cases st.builder.transaction with
    | none => simp
    | some t =>
      simp only
      split
      · intro h; cases h; trivial
      · exact hcall H.th _ _ _ (by exact hfiles) hH.1 f
  | periodic =>
    cases st.builder.periodic with
    | none => simp
    | some pt =>
      simp only
      split
      · intro h; cases h; trivial
      · exact hcall H.ph _ _ _ (by exact hfiles) hH.2 f

/-- The condition of the parser. -/
def PState.Is (st : PState σ) (o : Open) : Prop := st.builder.Is o ∧ st.files ≠ []

theorem item_calm [Unicode] (fs : FileSystem) (H : Handlers σ) (hH : NeverCrashes H) (n : Nat) (item : ItemType) (content : Str)
    (hi : item ≠ .includeItem) (st : PState σ) (o o' : Open) (hst : st.Is o) (h : o.next item content = some o') :
    Calm (fun s => s.Is o') (parseItem fs H n item content st) := by
  have hE := endTransaction_calm H hH st hst.1.shape hst.2
  by_cases hs : item.structural = true
  · cases item <;> simp [ItemType.structural] at hs
    case includeItem => exact absurd rfl hi
    case emptyLineItem =>
      rw [parseItem_empty]
      have : o' = .nothing := by cases o <;> simpa [Open.next] using h.symm
      subst this
      exact hE.mono fun s hs => ⟨Or.inl hs.1, hs.2⟩
    case eofItem =>
      rw [parseItem_eof]
      have : o' = .nothing := by cases o <;> simpa [Open.next] using h.symm
      subst this
      exact hE.mono fun s hs => ⟨Or.inl hs.1, hs.2⟩
    case dateItem =>
      rw [parseItem_date]
      have : 5 ≤ content.length ∧ o' = .transaction := by cases o <;> simpa [Open.next, eq_comm] using h
      obtain ⟨hlen, rfl⟩ := this
      refine Calm.andThen hE fun s hs => Calm.wrap ?_
      obtain ⟨b, fl, u⟩ := s
      obtain ⟨⟨h1, h2, h3⟩, h4⟩ := hs
      obtain ⟨tt, t, pt, p, prev⟩ := b
      simp only at h1 h2 h3 h4
      subst h1 h2 h3
      simp only [liftBuilder, Builder.begin, Builder.build, Builder.buildNormal, Builder.target]
      split
      · rename_i f hf
        exact ⟨fun f' hf' => by cases hf'; exact parseDate_calm hlen _ hf, by simp [Step.andThen]⟩
      · exact Calm.ok ⟨⟨_, _, _, rfl⟩, h4⟩
    case periodItem =>
      rw [parseItem_period]
      have : o' = .periodic false := by cases o <;> simpa [Open.next, eq_comm] using h
      subst this
      refine Calm.andThen hE fun s hs => Calm.wrap ?_
      obtain ⟨b, fl, u⟩ := s
      obtain ⟨⟨h1, h2, h3⟩, h4⟩ := hs
      obtain ⟨tt, t, pt, p, prev⟩ := b
      simp only at h1 h2 h3 h4
      subst h1 h2 h3
      exact Calm.ok ⟨⟨_, _, _, rfl, by simp⟩, h4⟩
  · have hs : item.structural = false := by simpa using hs
    have key := build_calm hst.1 item hs content h
    have e : parseItem fs H n item content st = liftBuilder st (st.builder.build item content) := by
      cases item <;> simp [ItemType.structural] at hs <;> cases n <;> rfl
    rw [e]
    exact ⟨key.1, fun hn => ⟨key.2 hn, hst.2⟩⟩

theorem safeItems_calm [Unicode] (fs : FileSystem) (H : Handlers σ) (hH : NeverCrashes H) (n : Nat)
    (file : Open → Str → Option Open)
    (hfile : ∀ (q : Str) (st : PState σ) (o o' : Open), st.Is o → file o q = some o' →
      Calm (fun s => s.Is o') (parseItem fs H n .includeItem q st))
    (is : List (ItemType × Str)) : ∀ (st : PState σ) (o o' : Open), st.Is o → safeItems file is o = some o' →
      Calm (fun s => s.Is o') (runItems (parseItem fs H n) is st) := by
  induction is with
  | nil =>
    intro st o o' hst h
    simp only [safeItems, Option.some.injEq] at h
    subst h
    exact Calm.ok hst
  | cons i is ih =>
    intro st o o' hst h
    obtain ⟨item, content⟩ := i
    rw [runItems_cons]
    by_cases hi : item = .includeItem
    · subst hi
      simp only [safeItems, Option.bind_eq_some_iff] at h
      obtain ⟨o1, h1, h2⟩ := h
      exact Calm.andThen (hfile _ _ _ _ hst h1) fun s hs => ih s o1 o' hs h2
    · have : safeItems file ((item, content) :: is) o = (o.next item content).bind (safeItems file is) := by
        cases item <;> first | rfl | exact absurd rfl hi
      rw [this, Option.bind_eq_some_iff] at h
      obtain ⟨o1, h1, h2⟩ := h
      exact Calm.andThen (item_calm fs H hH n item content hi st o o1 hst h1) fun s hs => ih s o1 o' hs h2

theorem safeLines_calm [Unicode] (fs : FileSystem) (H : Handlers σ) (hH : NeverCrashes H) (n : Nat)
    (file : Open → Str → Option Open)
    (hfile : ∀ (q : Str) (st : PState σ) (o o' : Open), st.Is o → file o q = some o' →
      Calm (fun s => s.Is o') (parseItem fs H n .includeItem q st)) (hint : Str)
    (lines : List RawLine) : ∀ (k : Nat) (st : PState σ) (o o' : Open), st.Is o → safeLines file hint lines o = some o' →
      Calm (fun s => s.Is o') (feedLines (parseItem fs H n) hint k lines st) := by
  induction lines with
  | nil =>
    intro k st o o' hst h
    simp only [safeLines, Option.some.injEq] at h
    subst h
    exact Calm.ok hst
  | cons x xs ih =>
    intro k st o o' hst h
    cases x with
    | tooLong => simp [safeLines] at h
    | line b =>
      simp only [safeLines, Option.bind_eq_some_iff] at h
      obtain ⟨o1, h1, h2⟩ := h
      rw [feedLines]
      refine Calm.andThen (J := fun s => s.Is o1) (Calm.wrap ?_) fun s hs => ih _ s o1 o' hs h2
      unfold runLine
      refine Calm.andThen (safeItems_calm fs H hH n file hfile _ st o o1 hst h1) fun s hs => ?_
      cases (lineItems hint (runes b)).err with
      | none => exact Calm.ok hs
      | some e => exact Calm.err

theorem safeFile_calm [Unicode] (fs : FileSystem) (H : Handlers σ) (hH : NeverCrashes H) : ∀ (n : Nat) (q : Str) (st : PState σ)
    (o o' : Open), st.Is o → safeFile fs n o q = some o' → Calm (fun s => s.Is o') (parseItem fs H n .includeItem q st) := by
  intro n
  induction n with
  | zero => intro q st o o' hst h; exact Calm.err
  | succ n ih =>
    intro q st o o' hst h
    simp only [parseItem, safeFile] at h ⊢
    cases hf : fs q with
    | none => exact Calm.err
    | some bytes =>
      rw [hf] at h
      simp only [Option.map_eq_some_iff] at h ⊢
      obtain ⟨o1, h1, rfl⟩ := h
      rw [lex, lexLoop_eq]
      refine Calm.andThen (J := fun s => s.builder.Idle ∧ s.files ≠ []) (Calm.wrap (Calm.andThen
        (safeLines_calm fs H hH n _ ih q (readLines bytes) 1 _ o o1 ⟨hst.1, by simp⟩ h1) fun s hs => ?_)) fun s hs => ?_
      · rw [parseItem_eof]
        exact endTransaction_calm H hH s hs.1.shape hs.2
      · exact Calm.ok ⟨Or.inl hs.1, by simpa using hs.2⟩

/-- What holds: a file whose lines pass the automaton `SafeText` (dates of at least five characters, no empty amounts,
postings and indented comments only inside a transaction, no notes between a periodic header and its first posting, no
over-long line; included files likewise) never makes the parser crash, whatever else is wrong with it: parsing ends with
success or with an error value. -/
theorem C20_safe_text_partial [Unicode] (fs : FileSystem) (H : Handlers σ) (hH : NeverCrashes H) (maxOpen : Nat) (path : Str)
    (u : σ) (bytes : List UInt8) (hsafe : SafeText fs maxOpen path bytes) (f : Failure)
    (hf : failureOf fs H maxOpen bytes path u = some f) : ∃ e, f = .err e := by
  unfold SafeText at hsafe
  obtain ⟨o', ho⟩ := Option.ne_none_iff_exists'.1 hsafe
  have hH' := hH.logged
  have key : Calm (fun s : PState (σ × List Call) => s.builder.Idle ∧ s.files ≠ [])
      (parse fs (logged H) maxOpen bytes path (newParser (u, []))) := by
    rw [parse_new]
    refine Calm.wrap (Calm.andThen (safeLines_calm fs (logged H) hH' maxOpen _ (safeFile_calm fs (logged H) hH' maxOpen) path
      (readLines bytes) 1 _ .nothing o' ⟨rootStart_shape _ _, by simp [rootStart]⟩ ho) fun s hs => ?_)
    rw [parseItem_eof]
    exact endTransaction_calm _ hH' s hs.1.shape hs.2
  have := key.1 f hf
  cases f with
  | err e => exact ⟨e, rfl⟩
  | panic p => exact this.elim
  | fatal => exact this.elim

/-- A file with several things in it that passes, with an include, and one with an error that passes. -/
example :
    letI := asciiUnicode
    SafeText (oneFile (str "b") (utf8 "2020-01-02 y\n  A  1\n  ; n\n  B\n")) 2 (str "a")
      (utf8 "; c\n2020-01-01 * x  ; note\n    ; n\n  A  £ 1\n  B\n\ninclude b\n~ 2020-01\n\tE\t1\n  ; c\n") ∧
    SafeText noFiles 1 (str "a") (utf8 "2020-99-01 x\n  A  1.x\nfoo\n") ∧
    ¬ SafeText noFiles 1 (str "a") (utf8 "2020\n") ∧ NeverCrashes recorder := by
  refine ⟨by decide, by decide, by decide, ?_, ?_⟩
  · intro h hh s t f e he; cases hh; cases he
  · intro h hh s t f e he; cases hh; cases he

/-! The converse: what does not pass the automaton is never accepted. -/

/-- The builder is in exactly the condition described by `Open`. -/
def Builder.IsJust (b : Builder) : Open → Prop
  | .nothing => b.Idle
  | .transaction => ∃ t p prev, b = ⟨.normal, some t, none, some p, prev⟩
  | .periodic q => ∃ pt p prev, b = ⟨.periodic, none, some pt, some p, prev⟩ ∧ (q = true ↔ p.accountPath ≠ [])

theorem Builder.IsJust.shape {b : Builder} {o : Open} (h : b.IsJust o) : b.Shape := by
  cases o with
  | nothing => exact Or.inl h
  | transaction => obtain ⟨t, p, prev, rfl⟩ := h; exact Or.inr (Or.inl ⟨rfl, by simp, rfl, by simp⟩)
  | periodic q => obtain ⟨t, p, prev, rfl, _⟩ := h; exact Or.inr (Or.inr ⟨rfl, rfl, by simp, by simp⟩)

/-- If the step succeeds then the automaton has a next state, and the step's result is in it. -/
def Follows {S : Type} (I : S → Open → Prop) (r : Step S) (o : Option Open) : Prop := r.2 = none → ∃ o', o = some o' ∧ I r.1 o'

theorem Follows.fail {S : Type} {I : S → Open → Prop} {s : S} {e : Failure} {o : Option Open} : Follows I (s, some e) o := by
  intro h; cases h

theorem Follows.andThen {S : Type} {I J : S → Open → Prop} {a : Step S} {f : S → Step S} {o : Option Open} {g : Open → Option Open}
    (h : Follows J a o) (hf : ∀ s o', J s o' → Follows I (f s) (g o')) : Follows I (a.andThen f) (o.bind g) := by
  obtain ⟨s, _ | e⟩ := a
  · obtain ⟨o', rfl, h2⟩ := h rfl
    exact hf s o' h2
  · exact Follows.fail

theorem Follows.wrap {S : Type} {I : S → Open → Prop} {a : Step S} {w : Err → Err} {o : Option Open} (h : Follows I a o) :
    Follows I (a.wrap w) o := by
  obtain ⟨s, _ | e⟩ := a
  · exact h
  · exact Follows.fail

theorem parseDate_long {c : Str} {d : Date} (h : parseDate c = .ok d) : 5 ≤ c.length := by
  by_contra hc
  unfold parseDate at h
  rw [List.getElem?_eq_none (by omega)] at h
  cases h

theorem build_follows {b : Builder} {o : Open} (hb : b.IsJust o) (item : ItemType) (hi : item.structural = false) (content : Str)
    (hc : item = .accountItem → content ≠ []) : Follows Builder.IsJust (b.build item content) (o.next item content) := by
  have hamount : content = [] → ∀ q, parseAmount content ≠ .ok q := by
    rintro rfl q h
    cases h
  unfold Builder.build
  cases o with
  | nothing =>
    obtain ⟨tt, t, pt, p, prev⟩ := b
    obtain ⟨h1, h2, h3⟩ := hb
    simp only at h1 h2 h3
    subst h1 h2 h3
    cases tt with
    | normal =>
      cases item <;> simp [ItemType.structural] at hi <;> simp only [Builder.buildNormal, Builder.target]
      all_goals repeat' split
      all_goals exact Follows.fail
    | periodic => exact Follows.fail
  | transaction =>
    obtain ⟨t, p, prev, rfl⟩ := hb
    cases item <;> simp [ItemType.structural] at hi <;> simp only [Builder.buildNormal, Builder.target, Open.next]
    all_goals repeat' split
    all_goals first
      | exact Follows.fail
      | (intro _; exact ⟨_, rfl, _, _, _, rfl⟩)
      | simp_all
  | periodic q =>
    obtain ⟨pt, p, prev, rfl, hq⟩ := hb
    cases item <;> simp [ItemType.structural] at hi <;> simp only [Builder.buildPeriodic, Builder.buildNormal, Builder.target, Open.next]
    all_goals repeat' split
    all_goals first
      | exact Follows.fail
      | (intro _; exact ⟨_, rfl, _, _, _, rfl, hq⟩)
      | (intro _; exact ⟨_, rfl, _, _, _, rfl, by simpa using hc rfl⟩)
      | simp_all

theorem item_follows [Unicode] (fs : FileSystem) (H : Handlers σ) (n : Nat) (item : ItemType) (content : Str)
    (hi : item ≠ .includeItem) (hc : item = .accountItem → content ≠ []) (st : PState σ) (o : Open) (hst : st.builder.IsJust o) :
    Follows (fun s o => s.builder.IsJust o) (parseItem fs H n item content st) (o.next item content) := by
  have hE : (endTransaction H st).2 = none → (endTransaction H st).1.builder.Idle := fun h => (endTransaction_idle H st hst.shape).2 h
  by_cases hs : item.structural = true
  · cases item <;> simp [ItemType.structural] at hs
    case includeItem => exact absurd rfl hi
    case emptyLineItem =>
      rw [parseItem_empty]
      intro h
      exact ⟨.nothing, by cases o <;> rfl, hE h⟩
    case eofItem =>
      rw [parseItem_eof]
      intro h
      exact ⟨.nothing, by cases o <;> rfl, hE h⟩
    case dateItem =>
      rw [parseItem_date]
      intro h
      generalize endTransaction H st = r at hE h ⊢
      obtain ⟨s, _ | e⟩ := r
      · obtain ⟨b, fl, u⟩ := s
        obtain ⟨h1, h2, h3⟩ := hE rfl
        obtain ⟨tt, t, pt, p, prev⟩ := b
        simp only at h1 h2 h3
        subst h1 h2 h3
        simp only [andThen_ok, liftBuilder, Builder.begin, Builder.build, Builder.buildNormal, Builder.target] at h ⊢
        cases hd : parseDate content with
        | error f => rw [hd] at h; simp [Step.andThen, Step.wrap] at h
        | ok d =>
          refine ⟨.transaction, ?_, _, _, _, rfl⟩
          have := parseDate_long hd
          cases o <;> simp [Open.next, this]
      · simp [Step.andThen] at h
    case periodItem =>
      rw [parseItem_period]
      intro h
      generalize endTransaction H st = r at hE h ⊢
      obtain ⟨s, _ | e⟩ := r
      · obtain ⟨b, fl, u⟩ := s
        obtain ⟨h1, h2, h3⟩ := hE rfl
        obtain ⟨tt, t, pt, p, prev⟩ := b
        simp only at h1 h2 h3
        subst h1 h2 h3
        exact ⟨.periodic false, by cases o <;> rfl, _, _, _, rfl, by simp⟩
      · simp [Step.andThen] at h
  · have hs : item.structural = false := by simpa using hs
    have key := build_follows hst item hs content hc
    have e : parseItem fs H n item content st = liftBuilder st (st.builder.build item content) := by
      cases item <;> simp [ItemType.structural] at hs <;> cases n <;> rfl
    rw [e]
    exact key

/-- No account item is empty. -/
def Named (is : List (ItemType × Str)) : Prop := ∀ i ∈ is, i.1 = .accountItem → i.2 ≠ []

theorem safeItems_follows [Unicode] (fs : FileSystem) (H : Handlers σ) (n : Nat) (file : Open → Str → Option Open)
    (hfile : ∀ (q : Str) (st : PState σ) (o : Open), st.builder.IsJust o →
      Follows (fun s o => s.builder.IsJust o) (parseItem fs H n .includeItem q st) (file o q))
    (is : List (ItemType × Str)) (hn : Named is) : ∀ (st : PState σ) (o : Open), st.builder.IsJust o →
      Follows (fun s o => s.builder.IsJust o) (runItems (parseItem fs H n) is st) (safeItems file is o) := by
  induction is with
  | nil =>
    intro st o hst _
    exact ⟨o, rfl, hst⟩
  | cons i is ih =>
    intro st o hst
    obtain ⟨item, content⟩ := i
    have ih := ih fun i hi => hn i (by simp [hi])
    rw [runItems_cons]
    by_cases hi : item = .includeItem
    · subst hi
      simp only [safeItems]
      exact Follows.andThen (hfile _ _ _ hst) fun s o' hs => ih s o' hs
    · have : safeItems file ((item, content) :: is) o = (o.next item content).bind (safeItems file is) := by
        cases item <;> first | rfl | exact absurd rfl hi
      rw [this]
      exact Follows.andThen (item_follows fs H n item content hi (fun h => hn (item, content) (by simp) h) st o hst)
        fun s o' hs => ih s o' hs

theorem itemsOk_named [Unicode] : ∀ (is : List (ItemType × Str)) (pv : Option ItemType), ItemsOk ItemText pv is → Named is
  | [], _, _ => by intro i hi; cases hi
  | (item, content) :: is, pv, h => by
    intro i hi hacct
    rcases List.mem_cons.1 hi with rfl | hi
    · simp only at hacct
      subst hacct
      obtain ⟨⟨c, hc, _⟩, _⟩ := h.1
      simp only
      rintro rfl
      cases hc
    · exact itemsOk_named is _ h.2 i hi hacct

theorem safeLines_follows [Unicode] (fs : FileSystem) (H : Handlers σ) (n : Nat) (file : Open → Str → Option Open)
    (hfile : ∀ (q : Str) (st : PState σ) (o : Open), st.builder.IsJust o →
      Follows (fun s o => s.builder.IsJust o) (parseItem fs H n .includeItem q st) (file o q)) (hint : Str)
    (lines : List RawLine) : ∀ (k : Nat) (st : PState σ) (o : Open), st.builder.IsJust o →
      Follows (fun s o => s.builder.IsJust o) (feedLines (parseItem fs H n) hint k lines st) (safeLines file hint lines o) := by
  induction lines with
  | nil => intro k st o hst _; exact ⟨o, rfl, hst⟩
  | cons x xs ih =>
    intro k st o hst
    cases x with
    | tooLong => exact Follows.fail
    | line b =>
      rw [feedLines, safeLines]
      refine Follows.andThen (Follows.wrap ?_) fun s o' hs => ih _ s o' hs
      unfold runLine
      have := safeItems_follows fs H n file hfile _ (itemsOk_named _ _ (lexed_items.2 hint (runes b))) st o hst
      generalize runItems (parseItem fs H n) (lineItems hint (runes b)).items st = r at this
      obtain ⟨s, _ | e⟩ := r
      · intro h
        exact this rfl
      · exact Follows.fail

theorem safeFile_follows [Unicode] (fs : FileSystem) (H : Handlers σ) : ∀ (n : Nat) (q : Str) (st : PState σ) (o : Open),
    st.builder.IsJust o → Follows (fun s o => s.builder.IsJust o) (parseItem fs H n .includeItem q st) (safeFile fs n o q) := by
  intro n
  induction n with
  | zero => intro q st o hst; exact Follows.fail
  | succ n ih =>
    intro q st o hst
    simp only [parseItem, safeFile]
    cases hf : fs q with
    | none => exact Follows.fail
    | some bytes =>
      simp only [lex, lexLoop_eq]
      have := safeLines_follows fs H n _ ih q (readLines bytes) 1 { st with files := st.files ++ [q] } o hst
      generalize feedLines (parseItem fs H n) q 1 (readLines bytes) { st with files := st.files ++ [q] } = r at this
      obtain ⟨s, _ | e⟩ := r
      · obtain ⟨o', h1, h2⟩ := this rfl
        simp only [h1, Option.map_some, andThen_ok, parseItem_eof]
        have hi := (endTransaction_idle H s (Builder.IsJust.shape h2)).2
        generalize endTransaction H s = r2 at hi
        obtain ⟨s2, _ | e⟩ := r2
        · intro _
          exact ⟨.nothing, rfl, hi rfl⟩
        · exact Follows.fail
      · exact Follows.fail

/-- What does not pass the automaton is never accepted: parsing it fails (with a crash, or with an error at or before the
unsafe line). So every accepted file is safe, and a file can only crash the parser if it would have to be rejected
anyway. Missing for the full claim: the crashes, which do occur (`C20_never_crashes_false`). -/
theorem C20_unsafe_fails_partial [Unicode] (fs : FileSystem) (H : Handlers σ) (maxOpen : Nat) (path : Str) (u : σ)
    (bytes : List UInt8) (h : ¬ SafeText fs maxOpen path bytes) : failureOf fs H maxOpen bytes path u ≠ none := by
  intro hf
  apply h
  unfold failureOf at hf
  rw [parse_new] at hf
  have := safeLines_follows fs (logged H) maxOpen _ (safeFile_follows fs (logged H) maxOpen) path (readLines bytes) 1
    (rootStart (u, []) path) .nothing ⟨rfl, rfl, rfl⟩
  generalize feedLines (parseItem fs (logged H) maxOpen) path 1 (readLines bytes) (rootStart (u, []) path) = r at hf this
  obtain ⟨s, _ | e⟩ := r
  · obtain ⟨o', h1, _⟩ := this rfl
    unfold SafeText
    rw [h1]
    simp
  · simp [Step.andThen, Step.wrap] at hf

/-- Unsafe files, one of which fails with an error rather than a crash. -/
example :
    letI := asciiUnicode
    ¬ SafeText noFiles 1 (str "a") (utf8 "2020-01-01 x\n  A  1\n  B\n\n  C  1\n") ∧ ¬ SafeText noFiles 1 (str "a") (utf8 "  C  1\n") ∧
    failureOf noFiles recorder 1 (utf8 "  C  1\n") (str "f") [] =
      some (.err (.errorAt (.atLine (str "f") 1 (.expected .accountItem)))) := by decide

end Gledger
