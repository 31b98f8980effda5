import Verif.Props.Files
import Verif.Lemmas.Fields

set_option maxRecDepth 100000

namespace Gledger

variable {σ : Type}

/-! ### C16 Include is inlining -/

/-- The line is an include directive for the file called `name` (relative to the directory of the including file):
the word `include`, blanks, the name. -/
def IncludeLine (l : List UInt8) (name : Str) : Prop :=
  PlainLine l ∧ ∃ k, 0 < k ∧ runes l = str "include" ++ List.replicate k ' ' ++ name ∧
    FieldText name ∧ StartsInk name ∧ name ≠ []

/-- No line of the file is an include directive. -/
def NoIncludes (bytes : List UInt8) : Prop :=
  ∀ l, RawLine.line l ∈ readLines bytes → ¬ str "include " <+: runes l

theorem takeWhile_include (k : Nat) (hk : 0 < k) (name : Str) :
    (str "include" ++ List.replicate k ' ' ++ name).takeWhile (· ≠ ' ') = str "include" ∧
    (str "include" ++ List.replicate k ' ' ++ name).dropWhile (· ≠ ' ') = List.replicate k ' ' ++ name := by
  obtain ⟨k, rfl⟩ : ∃ j, k = j + 1 := ⟨k - 1, by omega⟩
  have : str "include" = ['i', 'n', 'c', 'l', 'u', 'd', 'e'] := rfl
  rw [this]
  constructor <;> simp [List.replicate_succ]

theorem includeLine_items [Unicode] {l : List UInt8} {name : Str} (h : IncludeLine l name) (hint : Str) :
    lineItems hint (runes l) = { items := [(.includeItem, splitDir hint ++ name)] } := by
  obtain ⟨_, k, hk, hr, hf, hs, hne⟩ := h
  have h1 := takeWhile_include k hk name
  have h2 : runes l = 'i' :: (str "nclude" ++ List.replicate k ' ' ++ name) := by rw [hr]; rfl
  rw [h2, lineItems, if_neg (by decide), if_pos rfl, ← h2, hr, includeItems, h1.1, h1.2, if_neg (by simp)]
  simp only
  rw [afterSpace_skip (by simp [isSpace]) hs, field_end hf]
  simp [hne]

theorem core_atLine (f : Failure) (h : Str) (n : Nat) : (f.wrap (.atLine h n)).core = f.core := by cases f <;> rfl

theorem core_errorAt (f : Failure) : (f.wrap .errorAt).core = f.core := by cases f <;> rfl

theorem includeItems_none {cs : Str} (h : ¬ str "include " <+: cs) (hint : Str) :
    (includeItems hint cs).items = [] ∧ ∀ hint', includeItems hint cs = includeItems hint' cs := by
  unfold includeItems
  by_cases hw : cs.takeWhile (· ≠ ' ') ≠ str "include"
  · simp only [if_pos hw]
    exact ⟨trivial, fun _ => trivial⟩
  have hrest : cs.dropWhile (· ≠ ' ') = [] := by
    by_contra hne
    apply h
    obtain ⟨d, ds, hd⟩ := List.exists_cons_of_ne_nil hne
    have hd1 : d = ' ' := by
      have := List.head?_dropWhile_not (p := fun x : Char => decide (x ≠ ' ')) cs
      rw [hd] at this
      simpa using this
    refine ⟨ds, ?_⟩
    have := List.takeWhile_append_dropWhile (p := fun x : Char => decide (x ≠ ' ')) (l := cs)
    rw [hd, not_not.1 hw, hd1] at this
    rw [← this]
    rfl
  simp only [hrest, true_or, if_true, if_neg hw]
  exact ⟨trivial, fun _ => trivial⟩

theorem payeeItems_noInclude (cs : Str) : ∀ i ∈ payeeItems cs, i.1 ≠ .includeItem := by
  intro i hi
  simp only [payeeItems, List.mem_cons] at hi
  rcases hi with rfl | hi
  · simp
  · split at hi <;> simp at hi
    simp [hi]

theorem stateItems_noInclude (cs : Str) : ∀ i ∈ stateItems cs, i.1 ≠ .includeItem := by
  intro i hi
  unfold stateItems at hi
  split at hi
  · rcases List.mem_cons.1 hi with rfl | hi
    · simp
    · exact payeeItems_noInclude _ i hi
  · rcases List.mem_cons.1 hi with rfl | hi
    · simp
    · exact payeeItems_noInclude _ i hi
  · exact payeeItems_noInclude _ i hi

/-- A line that is not an include directive reads the same in every file, and includes nothing. -/
theorem noInclude_items [U : Unicode] {cs : Str} (h : ¬ str "include " <+: cs) (hint hint' : Str) :
    lineItems hint cs = lineItems hint' cs ∧ ∀ i ∈ (lineItems hint cs).items, i.1 ≠ .includeItem := by
  cases cs with
  | nil => exact ⟨rfl, by simp [lineItems]⟩
  | cons c cs =>
    simp only [lineItems]
    by_cases h1 : c = ';' ∨ c = '#'
    · simp only [if_pos h1]; exact ⟨trivial, by simp⟩
    simp only [if_neg h1]
    by_cases h2 : c = 'i'
    · simp only [if_pos h2]
      obtain ⟨k1, k2⟩ := includeItems_none h hint
      exact ⟨k2 _, by simp [k1]⟩
    simp only [if_neg h2]
    refine ⟨trivial, ?_⟩
    by_cases h3 : c = '~'
    · simp only [if_pos h3, periodItems]
      split <;> simp
    simp only [if_neg h3]
    by_cases h4 : U.isNumber c = true
    · simp only [if_pos h4, headerItems]
      intro i hi
      rcases List.mem_cons.1 hi with rfl | hi
      · simp
      · exact stateItems_noInclude _ i hi
    simp only [if_neg h4]
    by_cases h5 : c = '\t' ∨ (c = ' ' ∧ cs.head? = some ' ')
    · simp only [if_pos h5, postingItems]
      split
      · simp
      · split
        · simp
        split
        · split
          · simp
          · simp [amountItems]
        · simp
    · simp [if_neg h5]

/-- The same calls up to file names. -/
def SameCalls (x y : List Str × (σ × List Call)) : Prop :=
  x.2.1 = y.2.1 ∧ x.2.2.map Call.unfiled = y.2.2.map Call.unfiled ∧ x.1 ≠ [] ∧ y.1 ≠ []

/-- Replacing an include directive by the lines of the included file and a blank line: handlers that do not look
at file names are called with the same transactions in the same order and end in the same state; parsing fails in
one case iff it fails in the other, and for the same reason (up to file names and line numbers). -/
theorem C16_include_is_inlining [Unicode] (fs : FileSystem) (H : Handlers σ) (hH : FileBlind H) (n : Nat) (path : Str) (u : σ)
    (a l b bytes : List UInt8) (name : Str) (ha : WholeLines a) (hl : IncludeLine l name)
    (hfile : fs (splitDir path ++ name) = some bytes) (hw : WholeLines bytes) (hno : NoIncludes bytes) :
    let directive := a ++ (l ++ 10 :: b)
    let inlined := a ++ (bytes ++ 10 :: b)
    (callsOf fs H (n + 1) directive path u).map Call.unfiled = (callsOf fs H (n + 1) inlined path u).map Call.unfiled ∧
    endStateOf fs H (n + 1) directive path u = endStateOf fs H (n + 1) inlined path u ∧
    (failureOf fs H (n + 1) directive path u).map Failure.core = (failureOf fs H (n + 1) inlined path u).map Failure.core := by
  intro directive inlined
  have hu : UserSim True (logged H) (logged H) _ SameCalls _ := UserSim.blind H hH _ FailRel.core
  have e1 : readLines directive = readLines a ++ .line l :: readLines b := by
    rw [readLines_append ha, readLines_line l b hl.1.1, terminatedLine_plain (by have := hl.1.2.2; omega) hl.1.2.1]
  have e2 : readLines inlined = readLines a ++ (readLines bytes ++ .line [] :: readLines b) := by
    rw [readLines_append ha, readLines_append hw, show (10 :: b) = [10] ++ b from rfl, readLines_blank _ _ (Or.inl rfl)]
  have key : StepRel
      (SimShape False SameCalls)
      (fun s t => s.user.1 = t.user.1 ∧ s.user.2.map Call.unfiled = t.user.2.map Call.unfiled)
      (fun f g => f.core = g.core)
      (parse fs (logged H) (n + 1) directive path (newParser (u, [])))
      (parse fs (logged H) (n + 1) inlined path (newParser (u, []))) := by
    rw [parse_new_lexLoop, parse_new_lexLoop, e1, e2, lexLoop_append, lexLoop_append]
    refine StepRel.wrap ?_ FailRel.core.errorAt
    refine StepRel.andThen (R := fun s t => s = t ∧ s.files = [path] ∧ s.builder.Shape) ?_ ?_
    · have hk := feedLines_root (logged H) fs (n + 1) path (readLines a) 1 (rootStart (u, []) path) rfl (rootStart_shape _ _)
      generalize feedLines (parseItem fs (logged H) (n + 1)) path 1 (readLines a) (rootStart (u, []) path) = r at hk
      obtain ⟨s, _ | f⟩ := r
      · exact StepRel.ok ⟨rfl, hk.2 rfl⟩
      · exact StepRel.fail ⟨rfl, rfl⟩ rfl
    rintro s _ ⟨rfl, hs1, hs2⟩
    rw [lexLoop_line, includeLine_items hl, lexLoop_append]
    simp only [runLine_ok, runItems_cons, andThen_runItems_nil, parseItem, hfile]
    -- the right-hand side, regrouped
    have hr : ∀ m, lexLoop (parseItem fs (logged H) (n + 1)) path m (.line [] :: readLines b) =
        fun s => ((endTransaction (logged H) s).wrap (.atLine path m)).andThen
          (lexLoop (parseItem fs (logged H) (n + 1)) path (m + 1) (readLines b)) := by
      intro m
      funext s
      rw [lexLoop_line]
      simp only [runes_nil, lineItems_nil, runLine_ok, runItems_cons, andThen_runItems_nil, parseItem_empty]
    rw [hr, ← andThen_assoc]
    refine StepRel.andThen (R := SimShape False SameCalls) ?_ fun s t hst =>
      lexLoop_rel (R := SimShape False SameCalls) FailRel.core (fun s t h => hu.weak _ _ h.1.1) path _
        (fun i c s t h => parseItem_rel FailRel.core (fun h => h.elim) hu fs (n + 1) (n + 1) i (Or.inl ⟨trivial, rfl⟩) c s t h) _ _ s t hst
    refine StepRel.wrapLeft ?_ (by intro f g h; rw [← h]; cases f <;> rfl)
    rw [lex, lexLoop_eq]
    simp only [wrap_andThen, andThen_assoc]
    refine StepRel.andThen (R := SimShape False SameCalls) ?_ fun s t hst => ?_
    · refine StepRel.wrapLeft ?_ (by intro f g h; rw [← h]; cases f <;> rfl)
      refine feedLines_rel2 (R := SimShape False SameCalls) (F := fun f g => f.core = g.core) (fun f => rfl) (fun f g h h' n m e => by rw [core_atLine, core_atLine, e])
        (fun s t h => hu.weak _ _ h.1.1) _ _ _ (fun b hb => (noInclude_items (hno b hb) _ _).1) ?_ _ _ _ _ ?_
      · intro b hb i hi s t hst
        exact parseItem_rel FailRel.core (fun h => h.elim) hu fs n (n + 1) i.1
          (Or.inr ((noInclude_items (hno b hb) _ path).2 i hi)) i.2 s t hst
      · exact ⟨⟨⟨rfl, rfl, by simp, by simp [hs1]⟩, Or.inl rfl⟩, hs2⟩
    · simp only [parseItem_eof]
      have := endTransaction_rel FailRel.core hu s t hst.1 hst.2
      generalize endTransaction (logged H) s = x at this
      generalize endTransaction (logged H) t = y at this
      obtain ⟨x1, x2⟩ := x
      obtain ⟨y1, y2⟩ := y
      rcases this with ⟨h1, h2, h3⟩ | ⟨f, g, h1, h2, h3, h4⟩ <;> simp only at h1 h2 h3 <;> subst h1 <;> subst h2
      · exact StepRel.ok ⟨⟨⟨h3.1.1.1, h3.1.1.2.1, by simpa using h3.1.1.2.2.1, h3.1.1.2.2.2⟩, h3.1.2⟩, Or.inl h3.2.1⟩
      · refine StepRel.fail h3 ?_
        simp only [core_errorAt, core_atLine, h4]
  unfold callsOf endStateOf failureOf
  rcases key with ⟨h1, h2, h3⟩ | ⟨f, g, h1, h2, h3, h4⟩
  · exact ⟨h3.1.1.2.1, h3.1.1.1, by rw [h1, h2]⟩
  · exact ⟨h3.2, h3.1, by rw [h1, h2]; simp [h4]⟩

/-- A file system with one more file. -/
def oneFile (path : Str) (bytes : List UInt8) : FileSystem := fun p => if p = path then some bytes else none

/-- The hypotheses are met by a file including another one in the same directory, between two transactions;
three transactions are delivered. -/
example :
    letI := asciiUnicode
    let x := utf8 "2020-01-02 y\n  A  1\n  B\n"
    IncludeLine (utf8 "include  b c.journal") (str "b c.journal") ∧ splitDir (str "d/a") ++ str "b c.journal" = str "d/b c.journal" ∧
    WholeLines x ∧ NoIncludes x ∧
    (callsOf (oneFile (str "d/b c.journal") x) recorder 2
      (utf8 "2020-01-01 x\n  A  1\n  B\n" ++ (utf8 "include  b c.journal" ++ 10 :: utf8 "2020-01-03 z\n  A  1\n  B\n")) (str "d/a") []).map
        (fun c => c.transaction.payee) = [str "x", str "y", str "z"] := by
  refine ⟨⟨by decide, 2, by decide, by decide, by decide, by decide, by decide⟩, by decide, by decide, ?_, by decide⟩
  have h : readLines (utf8 "2020-01-02 y\n  A  1\n  B\n") = [.line (utf8 "2020-01-02 y"), .line (utf8 "  A  1"), .line (utf8 "  B")] := by decide
  intro l hl
  rw [h] at hl
  simp only [List.mem_cons, RawLine.line.injEq, List.not_mem_nil, or_false] at hl
  rcases hl with rfl | rfl | rfl <;> decide

/-! ### C17 A cyclic include never succeeds -/

theorem feedLines_fails [Unicode] {S : Type} (cb : ItemParser S) (hint : Str) (b : List UInt8)
    (hb : ∀ s, (runLine cb (lineItems hint (runes b)) s).2 ≠ none) (lines : List RawLine) (hm : RawLine.line b ∈ lines) :
    ∀ n s, (feedLines cb hint n lines s).2 ≠ none := by
  induction lines with
  | nil => simp at hm
  | cons x xs ih =>
    intro n s
    cases x with
    | tooLong => simp [feedLines]
    | line c =>
      rw [feedLines]
      by_cases hc : c = b
      · subst hc
        have := hb s
        generalize runLine cb (lineItems hint (runes c)) s = r at this
        obtain ⟨s', _ | f⟩ := r
        · simp at this
        · simp [Step.wrap, Step.andThen]
      · have hm' : RawLine.line b ∈ xs := by
          rcases List.mem_cons.1 hm with h | h
          · exact absurd (RawLine.line.inj h).symm hc
          · exact h
        generalize (runLine cb (lineItems hint (runes c)) s).wrap (.atLine hint n) = r
        obtain ⟨s', _ | f⟩ := r
        · exact ih hm' _ _
        · simp [Step.andThen]

/-- `P` is a set of files each of which, as far as it exists, includes a file of the set. -/
def IncludesWithin (fs : FileSystem) (P : Str → Prop) : Prop :=
  ∀ p, P p → ∀ bytes, fs p = some bytes → ∃ l name, RawLine.line l ∈ readLines bytes ∧ IncludeLine l name ∧ P (splitDir p ++ name)

theorem include_cycle_fails [Unicode] (fs : FileSystem) (H : Handlers σ) (P : Str → Prop) (hP : IncludesWithin fs P) :
    ∀ (n : Nat) (q : Str) (st : PState σ), P q → (parseItem fs H n .includeItem q st).2 ≠ none := by
  intro n
  induction n with
  | zero => intro q st _; simp [parseItem]
  | succ n ih =>
    intro q st hq
    simp only [parseItem]
    cases hf : fs q with
    | none => simp
    | some bytes =>
      obtain ⟨l, name, hl, hi, hp⟩ := hP q hq bytes hf
      simp only
      rw [lex, lexLoop_eq]
      have := feedLines_fails (parseItem fs H n) q l (by
        intro s
        rw [includeLine_items hi]
        simp only [runLine_ok, runItems_cons, andThen_runItems_nil]
        exact ih _ _ hp) (readLines bytes) hl 1 { st with files := st.files ++ [q] }
      generalize feedLines (parseItem fs H n) q 1 (readLines bytes) { st with files := st.files ++ [q] } = r at this
      obtain ⟨s', _ | f⟩ := r
      · simp at this
      · simp [Step.wrap, Step.andThen]

/-- A file including a member of a set of files that include each other never parses, whatever the limit on open
files. -/
theorem C17_cyclic_include_fails [Unicode] (fs : FileSystem) (H : Handlers σ) (maxOpen : Nat) (path : Str) (u : σ)
    (bytes : List UInt8) (P : Str → Prop) (hP : IncludesWithin fs P) (l : List UInt8) (name : Str)
    (hl : RawLine.line l ∈ readLines bytes) (hi : IncludeLine l name) (hp : P (splitDir path ++ name)) :
    failureOf fs H maxOpen bytes path u ≠ none := by
  unfold failureOf
  rw [parse_new]
  have := feedLines_fails (parseItem fs (logged H) maxOpen) path l (by
    intro s
    rw [includeLine_items hi]
    simp only [runLine_ok, runItems_cons, andThen_runItems_nil]
    exact include_cycle_fails fs (logged H) P hP maxOpen _ _ hp) (readLines bytes) hl 1 (rootStart (u, []) path)
  generalize feedLines (parseItem fs (logged H) maxOpen) path 1 (readLines bytes) (rootStart (u, []) path) = r at this
  obtain ⟨s', _ | f⟩ := r
  · simp at this
  · simp [Step.wrap, Step.andThen]

/-- A file that includes itself. -/
theorem C17_self_include_fails [Unicode] (fs : FileSystem) (H : Handlers σ) (maxOpen : Nat) (path name : Str) (u : σ)
    (bytes l : List UInt8) (hfile : fs path = some bytes) (hname : splitDir path ++ name = path)
    (hl : RawLine.line l ∈ readLines bytes) (hi : IncludeLine l name) :
    failureOf fs H maxOpen bytes path u ≠ none :=
  C17_cyclic_include_fails fs H maxOpen path u bytes (· = path)
    (by rintro p rfl b hb; rw [hfile] at hb; cases hb; exact ⟨l, name, hl, hi, hname⟩) l name hl hi hname

/-- Two files including each other, the second after a transaction: the hypotheses of both theorems can be met. -/
example :
    let fs : FileSystem := fun p => if p = str "a" then some (utf8 "include b\n")
      else if p = str "b" then some (utf8 "2020-01-01 x\n  A  1\n  B\n\ninclude a\n") else none
    IncludesWithin fs (fun p => p = str "a" ∨ p = str "b") := by
  rintro fs p (rfl | rfl) bytes hb
  · obtain rfl : utf8 "include b\n" = bytes := Option.some.inj hb
    exact ⟨utf8 "include b", str "b", by decide, ⟨by decide, 1, by decide, by decide, by decide, by decide, by decide⟩, Or.inr rfl⟩
  · obtain rfl : utf8 "2020-01-01 x\n  A  1\n  B\n\ninclude a\n" = bytes := Option.some.inj hb
    exact ⟨utf8 "include a", str "a", by decide, ⟨by decide, 1, by decide, by decide, by decide, by decide, by decide⟩, Or.inl rfl⟩

/-! ### C18 Transactions are attributed to the file they are written in -/

/-- The claim, for transactions delivered from a tree of files: each is attributed to a file whose text contains
its payee. (A consequence of the claim; already this fails.) -/
theorem C18_attribution_false :
    ¬ ∀ (U : Unicode) (fs : FileSystem) (bytes : List UInt8) (path : Str), fs path = some bytes →
      ∀ c ∈ @callsOf _ U fs recorder 5 bytes path [], ∀ text, fs c.file = some text →
        c.transaction.payee <:+: runes text := by
  intro h
  -- `b` is included by `a`, which is included by `r`; the transaction `y` of `a` follows the include of `b`
  let fs : FileSystem := fun p => if p = str "r" then some (utf8 "include a\n")
    else if p = str "a" then some (utf8 "include b\n2020-01-01 y\n  A  1\n  B\n")
    else if p = str "b" then some (utf8 "") else none
  have h1 := h asciiUnicode fs (utf8 "include a\n") (str "r") rfl
  revert h1
  decide

/-- Continuing in a root file after a point without an open transaction is like parsing the rest on its own. -/
theorem resume_idle [Unicode] (fs : FileSystem) (H : Handlers σ) (n k : Nat) (path : Str) (b : List UInt8)
    (s : PState (σ × List Call)) (hidle : s.builder.Idle) (hfiles : s.files = [path]) :
    let r := lexLoop (parseItem fs (logged H) n) path k (readLines b) s
    r.1.user.2 = s.user.2 ++ callsOf fs H n b path s.user.1 ∧ r.1.user.1 = endStateOf fs H n b path s.user.1 ∧
      (r.2 = none ↔ failureOf fs H n b path s.user.1 = none) := by
  intro r
  have h1 : StepRel (fun s t : PState (σ × List Call) => s.user = t.user) (fun s t => s.user = t.user) (fun _ _ => True)
      (r.wrap .errorAt) (parse fs (logged H) n b path (newParser s.user)) := by
    have hu := UserSim.eq (logged H) FailRel.trivial
    rw [parse_new_lexLoop]
    refine StepRel.wrap (StepRel.mono (lexLoop_rel (R := SimShape True Eq) FailRel.trivial (fun s t h => hu.weak _ _ h.1.1) path _
      (fun i c s t h => parseItem_rel FailRel.trivial (fun _ _ _ => trivial) hu fs n n i (Or.inl ⟨trivial, rfl⟩) c s t h) _ 1 _ _ ?_)
      (fun s t h => ?_) (fun _ _ h => h) (fun _ _ h => h)) (fun _ _ _ => trivial)
    · refine ⟨⟨?_, Or.inr ⟨trivial, hidle, ⟨rfl, rfl, rfl⟩⟩⟩, Or.inl hidle⟩
      simp [hfiles, rootStart]
    · have := h.1.1
      simp only [Prod.mk.injEq] at this
      exact this.2
  have h2 := logged_parse_prefix fs H n path b s.user.1 s.user.2
  simp only [Prod.mk.eta] at h2
  unfold callsOf endStateOf failureOf
  have hr : r.2 = none ↔ (r.wrap .errorAt).2 = none := by simp [Step.wrap]
  rw [hr, show r.1 = (r.wrap .errorAt).1 from rfl]
  generalize r.wrap .errorAt = X at h1
  generalize parse fs (logged H) n b path (newParser s.user) = Y at h1 h2
  generalize parse fs (logged H) n b path (newParser (s.user.1, [])) = Z at h2
  rcases h1 with ⟨a1, a2, a3⟩ | ⟨f, g, a1, a2, a3, _⟩ <;> rcases h2 with ⟨b1, b2, b3⟩ | ⟨f', g', b1, b2, b3, _⟩
  · exact ⟨by rw [a3, b3.2], by rw [a3, b3.1], by simp [a1, b2]⟩
  · rw [a2] at b1; cases b1
  · rw [a2] at b1; cases b1
  · exact ⟨by rw [a3, b3.2], by rw [a3, b3.1], by simp [a1, b2]⟩

theorem callHandler_logged_file {α : Type} (h : Option (σ → α → Str → Step σ)) (mk : α → Str → Call) (hmk : ∀ a f, (mk a f).file = f)
    (a : α) (path : Str) (st : PState (σ × List Call)) (hf : st.files = [path]) (hc : ∀ c ∈ st.user.2, c.file = path) :
    let r := callHandler (h.map fun h s a f => (((h s.1 a f).1, s.2 ++ [mk a f]), (h s.1 a f).2)) a st
    r.1.files = [path] ∧ ∀ c ∈ r.1.user.2, c.file = path := by
  unfold callHandler
  cases h with
  | none => exact ⟨hf, hc⟩
  | some h =>
    simp only [Option.map_some, hf, List.getLast?_singleton]
    refine ⟨trivial, ?_⟩
    intro c hm
    simp only [List.mem_append, List.mem_singleton] at hm
    rcases hm with hm | rfl
    · exact hc c hm
    · exact hmk _ _

theorem endTransaction_filed (H : Handlers σ) (path : Str) (st : PState (σ × List Call)) (hf : st.files = [path])
    (hc : ∀ c ∈ st.user.2, c.file = path) :
    (endTransaction (logged H) st).1.files = [path] ∧ ∀ c ∈ (endTransaction (logged H) st).1.user.2, c.file = path := by
  refine ⟨by rw [endTransaction_files, hf], ?_⟩
  have key2 : ∀ (r : Step (PState (σ × List Call))) (f : PState (σ × List Call) → Builder),
      (r.andThen fun st => ({ st with builder := f st }, none)).1.user = r.1.user := by
    rintro ⟨s, _ | e⟩ f <;> rfl
  unfold endTransaction
  cases st.builder.ttype with
  | normal =>
    cases st.builder.transaction with
    | none => exact hc
    | some t =>
      simp only
      split
      · exact hc
      · rw [key2]
        exact (callHandler_logged_file H.th .normal (fun _ _ => rfl) _ path _ (by exact hf) (by exact hc)).2
  | periodic =>
    cases st.builder.periodic with
    | none => exact hc
    | some t =>
      simp only
      split
      · exact hc
      · rw [key2]
        exact (callHandler_logged_file H.ph .periodic (fun _ _ => rfl) _ path _ (by exact hf) (by exact hc)).2

theorem parseItem_filed [Unicode] (fs : FileSystem) (H : Handlers σ) (n : Nat) (path : Str) (item : ItemType) (hi : item ≠ .includeItem)
    (content : Str) (st : PState (σ × List Call)) (h : st.files = [path] ∧ ∀ c ∈ st.user.2, c.file = path) :
    (parseItem fs (logged H) n item content st).1.files = [path] ∧
      ∀ c ∈ (parseItem fs (logged H) n item content st).1.user.2, c.file = path := by
  have hE := endTransaction_filed H path st h.1 h.2
  cases item
  case includeItem => exact absurd rfl hi
  case emptyLineItem => rw [parseItem_empty]; exact hE
  case eofItem => rw [parseItem_eof]; exact hE
  case dateItem =>
    rw [parseItem_date]
    generalize endTransaction (logged H) st = r at hE
    obtain ⟨s, _ | e⟩ := r <;> exact hE
  case periodItem =>
    rw [parseItem_period]
    generalize endTransaction (logged H) st = r at hE
    obtain ⟨s, _ | e⟩ := r <;> exact hE
  all_goals cases n <;> exact h

theorem runItems_filed [Unicode] (fs : FileSystem) (H : Handlers σ) (n : Nat) (path : Str) (is : List (ItemType × Str))
    (hi : ∀ i ∈ is, i.1 ≠ .includeItem) (st : PState (σ × List Call)) (h : st.files = [path] ∧ ∀ c ∈ st.user.2, c.file = path) :
    (runItems (parseItem fs (logged H) n) is st).1.files = [path] ∧
      ∀ c ∈ (runItems (parseItem fs (logged H) n) is st).1.user.2, c.file = path := by
  induction is generalizing st with
  | nil => exact h
  | cons i is ih =>
    have h1 := parseItem_filed fs H n path i.1 (hi i (by simp)) i.2 st h
    rw [runItems_cons]
    generalize parseItem fs (logged H) n i.1 i.2 st = r at h1
    obtain ⟨s, _ | e⟩ := r
    · exact ih (fun i hm => hi i (by simp [hm])) s h1
    · exact h1

theorem feedLines_filed [Unicode] (fs : FileSystem) (H : Handlers σ) (n : Nat) (path : Str) (lines : List RawLine)
    (hno : ∀ l, RawLine.line l ∈ lines → ¬ str "include " <+: runes l) :
    ∀ (k : Nat) (st : PState (σ × List Call)), (st.files = [path] ∧ ∀ c ∈ st.user.2, c.file = path) →
    (feedLines (parseItem fs (logged H) n) path k lines st).1.files = [path] ∧
      ∀ c ∈ (feedLines (parseItem fs (logged H) n) path k lines st).1.user.2, c.file = path := by
  induction lines with
  | nil => intro k st h; exact h
  | cons x xs ih =>
    intro k st h
    cases x with
    | tooLong => exact h
    | line b =>
      have h1 := runItems_filed fs H n path _ (noInclude_items (hno b (by simp)) path path).2 st h
      rw [feedLines, runLine]
      generalize runItems (parseItem fs (logged H) n) (lineItems path (runes b)).items st = r at h1
      obtain ⟨s, _ | e⟩ := r
      · cases (lineItems path (runes b)).err with
        | none => exact ih (fun l hl => hno l (by simp [hl])) _ s h1
        | some e => exact h1
      · exact h1

/-- What holds, first part: in a file without include directives every transaction is attributed to the file
(also those delivered before a failure). -/
theorem C18_single_file_partial [Unicode] (fs : FileSystem) (H : Handlers σ) (maxOpen : Nat) (path : Str) (u : σ)
    (bytes : List UInt8) (hno : NoIncludes bytes) : ∀ c ∈ callsOf fs H maxOpen bytes path u, c.file = path := by
  unfold callsOf
  rw [parse_new]
  have h1 := feedLines_filed fs H maxOpen path (readLines bytes) hno 1 (rootStart (u, []) path) ⟨rfl, by simp [rootStart]⟩
  generalize feedLines (parseItem fs (logged H) maxOpen) path 1 (readLines bytes) (rootStart (u, []) path) = r at h1
  obtain ⟨s, _ | e⟩ := r
  · exact (parseItem_filed fs H maxOpen path .eofItem (by simp) [] s h1).2
  · exact h1.2

/-- What holds, second part: an include directive at a point without an open transaction, of a file without
include directives, delivers the transactions of that file under its own name, and what follows the directive is
delivered as if it stood alone. (With `C15_files_compose` for what precedes the directive, this covers every root
file whose directives follow a blank line and whose included files include nothing. Nested includes and directives
inside a transaction are the cases in which the claim fails.) -/
theorem C18_include_partial [Unicode] (fs : FileSystem) (H : Handlers σ) (n : Nat) (path : Str) (u : σ)
    (l b bytes : List UInt8) (name : Str) (hl : IncludeLine l name)
    (hfile : fs (splitDir path ++ name) = some bytes) (hno : NoIncludes bytes)
    (hok : failureOf fs H n bytes (splitDir path ++ name) u = none) :
    let u' := endStateOf fs H n bytes (splitDir path ++ name) u
    callsOf fs H (n + 1) (l ++ 10 :: b) path u =
        callsOf fs H n bytes (splitDir path ++ name) u ++ callsOf fs H (n + 1) b path u' ∧
      endStateOf fs H (n + 1) (l ++ 10 :: b) path u = endStateOf fs H (n + 1) b path u' ∧
      (failureOf fs H (n + 1) (l ++ 10 :: b) path u = none ↔ failureOf fs H (n + 1) b path u' = none) ∧
      (∀ c ∈ callsOf fs H n bytes (splitDir path ++ name) u, c.file = splitDir path ++ name) := by
  intro u'
  have hfiled := C18_single_file_partial fs H n (splitDir path ++ name) u bytes hno
  have e1 : readLines (l ++ 10 :: b) = .line l :: readLines b := by
    rw [readLines_line l b hl.1.1, terminatedLine_plain (by have := hl.1.2.2; omega) hl.1.2.1]
  -- the included file, on its own and included
  have hrel : StepRel (fun s t : PState (σ × List Call) => s.user = t.user ∧ s.builder.Idle ∧ s.files = [path])
      (fun s t => s.user = t.user) (fun _ _ => True)
      (parseItem fs (logged H) (n + 1) .includeItem (splitDir path ++ name) (rootStart (u, []) path))
      (parse fs (logged H) n bytes (splitDir path ++ name) (newParser (u, []))) := by
    have hu := UserSim.lastFile (logged H) _ FailRel.trivial [path, splitDir path ++ name] [splitDir path ++ name] rfl
    simp only [parseItem, hfile]
    rw [parse_new, lex, lexLoop_eq]
    rw [wrap_andThen, wrap_andThen, andThen_assoc]
    refine StepRel.andThen (R := SimShape False (fun x y : List Str × (σ × List Call) =>
      x.2 = y.2 ∧ x.1 = [path, splitDir path ++ name] ∧ y.1 = [splitDir path ++ name])) ?_ ?_
    · refine StepRel.wrap (feedLines_rel (R := SimShape False (fun x y : List Str × (σ × List Call) =>
        x.2 = y.2 ∧ x.1 = [path, splitDir path ++ name] ∧ y.1 = [splitDir path ++ name])) FailRel.trivial
        (fun s t h => hu.weak _ _ h.1.1) _ _ ?_ 1 1 _ _ ?_) (fun _ _ _ => trivial)
      · intro b hb i hi s t hst
        exact parseItem_rel FailRel.trivial (fun h => h.elim) hu fs n n i.1
          (Or.inr ((noInclude_items (hno b hb) _ path).2 i hi)) i.2 s t hst
      · exact ⟨⟨⟨rfl, rfl, rfl⟩, Or.inl rfl⟩, rootStart_shape (u, ([] : List Call)) path⟩
    · intro s t hst
      simp only [parseItem_eof]
      have := endTransaction_rel FailRel.trivial hu s t hst.1 hst.2
      generalize endTransaction (logged H) s = x at this
      generalize endTransaction (logged H) t = y at this
      obtain ⟨x1, x2⟩ := x
      obtain ⟨y1, y2⟩ := y
      rcases this with ⟨h1, h2, h3⟩ | ⟨f, g, h1, h2, h3, h4⟩ <;> simp only at h1 h2 h3 <;> subst h1 <;> subst h2
      · have hf : x1.files = [path, splitDir path ++ name] := h3.1.1.2.1
        exact StepRel.ok ⟨h3.1.1.1, h3.2.1, by simp [hf]⟩
      · exact StepRel.fail h3 trivial
  have hu' : u' = endStateOf fs H n bytes (splitDir path ++ name) u := rfl
  clear_value u'
  unfold callsOf endStateOf failureOf at *
  rw [parse_new_lexLoop, e1, lexLoop_line, includeLine_items hl]
  simp only [runLine_ok, runItems_cons, andThen_runItems_nil]
  generalize parse fs (logged H) n bytes (splitDir path ++ name) (newParser (u, [])) = Y at *
  generalize parseItem fs (logged H) (n + 1) .includeItem (splitDir path ++ name) (rootStart (u, []) path) = X at *
  obtain ⟨y, _ | f⟩ := Y
  · rcases hrel with ⟨h1, -, h2, h3, h4⟩ | ⟨f, g, -, h2, -⟩
    · obtain ⟨x, _ | f⟩ := X
      · simp only at h2 h3 h4
        have := resume_idle fs H (n + 1) (1 + 1) path b x h3 h4
        simp only [Step.wrap, Option.map_none, andThen_ok, Option.map_eq_none_iff]
        rw [h2] at this
        unfold callsOf endStateOf failureOf at this
        subst hu'
        exact ⟨this.1, this.2.1, this.2.2, hfiled⟩
      · cases h1
    · cases h2
  · cases hok

end Gledger
