/-
C111, C112: how the bytes of a file arrive, and files that cannot be read to their end.
-/
import Verif.Lemmas.Reader
import Verif.Model.Program

namespace Gledger

variable {ρ ρ' S σ : Type}

/-! ### C111 -/

/-- Lexing a file that arrives in pieces is lexing its bytes. -/
theorem C111_lex [Unicode] {R : Source ρ} {src : ρ} {bs : List UInt8} (h : Delivers R .eof src bs) {k : Nat} (hk : bs.length < k)
    (cb : ItemParser S) (hint : Str) (s : S) : lexReader R cb hint k 1 { src := src } s = lex cb hint bs s := by
  rw [lexReader_delivers h cb hint hk, lex, lexLoop_eq]
  rfl

theorem C111_items [Unicode] {R : Source ρ} {disk : Disk ρ} {k : Nat} {fs : FileSystem} (h : OnDisk R disk k fun p => (fs p).map (·, .eof))
    (H : Handlers σ) (n : Nat) : readItem R disk k H n = parseItem fs H n := by
  induction n with
  | zero => funext item; exact readItem_other R disk k fs H 0 (Or.inr rfl)
  | succ n ih =>
    funext item
    by_cases hi : item = .includeItem
    · subst hi
      funext path st
      have hp := h path
      simp only [] at hp
      simp only [readItem, parseItem]
      cases hd : disk path with
      | none =>
        cases hf : fs path with
        | none => rfl
        | some bs => rw [hd, hf] at hp; exact hp.elim
      | some src =>
        cases hf : fs path with
        | none => rw [hd, hf] at hp; exact hp.elim
        | some bs =>
          rw [hd, hf] at hp
          simp only [C111_lex hp.1 hp.2, ih]
    · exact readItem_other R disk k fs H (n + 1) (Or.inl hi)

/-- **C111**: what the parser makes of a journal depends only on the bytes of the files, not on the pieces in which they arrive: on readers that deliver
the contents of the files of `fs` and the bytes `bs` of the root, whatever the sizes of the pieces, the parse is `parse`, for all handlers. -/
theorem C111_parse [Unicode] {R : Source ρ} {disk : Disk ρ} {k : Nat} {fs : FileSystem} (h : OnDisk R disk k fun p => (fs p).map (·, .eof))
    {src : ρ} {bs : List UInt8} (hs : Delivers R .eof src bs) (hk : bs.length < k) (H : Handlers σ) (maxOpen : Nat) (hint : Str) (st : PState σ) :
    parseReader R disk k H maxOpen src hint st = parse fs H maxOpen bs hint st := by
  simp only [parseReader, parse, C111_items h, C111_lex hs hk]

/-- What every command computes from its journal. -/
theorem C111_run [Unicode] {R : Source ρ} {disk : Disk ρ} {k : Nat} {fs : FileSystem} (h : OnDisk R disk k fun p => (fs p).map (·, .eof))
    {src : ρ} {bs : List UInt8} (hs : Delivers R .eof src bs) (hk : bs.length < k) (H : Handlers σ) (maxOpen : Nat) (path : Str) (init : σ) :
    readParse R disk k maxOpen src path H init = runParse fs maxOpen bs path H init := by
  rw [readParse, runParse, C111_parse h hs hk]
  rfl

/-- Two disks with the same contents, however they deliver them, are not told apart. -/
theorem C111_same [Unicode] {R : Source ρ} {R' : Source ρ'} {disk : Disk ρ} {disk' : Disk ρ'} {k k' : Nat} {fs : FileSystem}
    (h : OnDisk R disk k fun p => (fs p).map (·, .eof)) (h' : OnDisk R' disk' k' fun p => (fs p).map (·, .eof))
    {src : ρ} {src' : ρ'} {bs : List UInt8} (hs : Delivers R .eof src bs) (hs' : Delivers R' .eof src' bs) (hk : bs.length < k) (hk' : bs.length < k')
    (H : Handlers σ) (maxOpen : Nat) (hint : Str) (st : PState σ) :
    parseReader R disk k H maxOpen src hint st = parseReader R' disk' k' H maxOpen src' hint st := by
  rw [C111_parse h hs hk, C111_parse h' hs' hk']

/-- Pieces of any sizes deliver the bytes they make up. -/
theorem pieces_deliver (e : ReadErr) {ps : List (List UInt8)} (h : ∀ p ∈ ps, p ≠ []) : Delivers (pieces e) e ps ps.flatten := by
  refine ⟨fun i s bs => i = 0 ∧ (∀ p ∈ s, p ≠ []) ∧ bs = s.flatten, ?_, rfl, h, rfl⟩
  rintro i s bs ⟨rfl, hs, rfl⟩ k hk
  cases s with
  | nil => exact ⟨[], Or.inr (Or.inr (Or.inl ⟨rfl, rfl, rfl, by simp, rfl⟩))⟩
  | cons p ps =>
    have hp : 0 < p.length := List.length_pos_iff.2 (hs p (by simp))
    by_cases hl : p.length ≤ k
    · refine ⟨ps, Or.inr (Or.inl ⟨p, ps.flatten, by simp, hp, hl, ?_, rfl, fun q hq => hs q (by simp [hq]), rfl⟩)⟩
      simp [pieces, hl]
    · refine ⟨p.drop k :: ps, Or.inr (Or.inl ⟨p.take k, p.drop k ++ ps.flatten, ?_, ?_, ?_, ?_, rfl, ?_, by simp⟩)⟩
      · rw [← List.append_assoc, List.take_append_drop]; rfl
      · rw [List.length_take]; omega
      · rw [List.length_take]; omega
      · simp [pieces, hl]
      · intro q hq
        rcases List.mem_cons.1 hq with rfl | hq
        · exact List.length_pos_iff.1 (by rw [List.length_drop]; omega)
        · exact hs q (by simp [hq])

theorem endingPieces_deliver {ps : List (List UInt8)} (e : ReadErr) (h : ∀ p ∈ ps, p ≠ []) : Delivers endingPieces e (ps, e) ps.flatten := by
  obtain ⟨P, hP, h0⟩ := pieces_deliver e h
  refine ⟨fun i s bs => s.2 = e ∧ P i s.1 bs, ?_, rfl, h0⟩
  rintro i ⟨s, _⟩ bs ⟨rfl, hs⟩ k hk
  obtain ⟨s', h | ⟨d, r, h1, h2, h3, h4, h5⟩ | ⟨h1, h2, h3⟩ | ⟨h1, h2, h3, h4, h5⟩⟩ := hP i s bs hs k hk
  · exact ⟨(s', _), Or.inl ⟨by simp [endingPieces, h.1], h.2.1, rfl, h.2.2⟩⟩
  · exact ⟨(s', _), Or.inr (Or.inl ⟨d, r, h1, h2, h3, by simp [endingPieces, h4], rfl, h5⟩)⟩
  · exact ⟨(s', _), Or.inr (Or.inr (Or.inl ⟨h1, by simp [endingPieces, h2], rfl, h3⟩))⟩
  · exact ⟨(s', _), Or.inr (Or.inr (Or.inr ⟨h1, h2, by simp [endingPieces, h3], h4, rfl, h5⟩))⟩

/-- A journal with an included file, each line of which arrives byte by byte or in odd pieces. -/
def scatteredDisk : Disk (List (List UInt8) × ReadErr) := fun p =>
  if p = str "more" then some ([utf8 "2020-01-02 y\r", utf8 "\n  a  1\n  ", utf8 "b"], .eof)
  else if p = str "dir" then some ([], .other (str "read dir: is a directory"))
  else if p = str "broken" then some ([utf8 "2020-01-03 z\n  a  1\n  b\n\n2020-01-04 w\n  c  2\n  d"], .other (str "read broken: input/output error"))
  else none

/-- What that disk holds. -/
def scatteredFiles : Contents := fun p => (scatteredDisk p).map fun s => (s.1.flatten, s.2)

theorem scattered_onDisk : OnDisk endingPieces scatteredDisk 100 scatteredFiles := by
  intro p
  unfold scatteredFiles scatteredDisk
  by_cases h1 : p = str "more"
  · simp only [h1, if_true, Option.map_some]
    exact ⟨endingPieces_deliver _ (by decide +kernel), by decide +kernel⟩
  · by_cases h2 : p = str "dir"
    · simp only [h2, if_true, Option.map_some, if_neg (show str "dir" ≠ str "more" by decide)]
      exact ⟨endingPieces_deliver _ (by decide +kernel), by decide +kernel⟩
    · by_cases h3 : p = str "broken"
      · simp only [h3, if_true, Option.map_some, if_neg (show str "broken" ≠ str "more" by decide), if_neg (show str "broken" ≠ str "dir" by decide)]
        exact ⟨endingPieces_deliver _ (by decide +kernel), by decide +kernel⟩
      · simp only [if_neg h1, if_neg h2, if_neg h3, Option.map_none]

/-- Gathers the payees. -/
def payeeGatherer : Handlers (List Str) where
  th := some fun ps t _ => (ps ++ [t.payee], none)
  ph := none

set_option maxRecDepth 100000 in
/-- A root journal that arrives byte by byte, with an included file that arrives in pieces which part lines, and "\r" from "\n". -/
example :
    letI := asciiUnicode
    let root := utf8 "2020-01-01 x\n  a  1\n  b\n\ninclude more\n"
    let src := (root.map fun c => [c], ReadErr.eof)
    Delivers endingPieces .eof src root ∧
    readParse endingPieces scatteredDisk 100 3 src (str "r") payeeGatherer [] = .ok [str "x", str "y"] ∧
    runParse (readable scatteredFiles) 3 root (str "r") payeeGatherer [] = .ok [str "x", str "y"] := by
  refine ⟨?_, by decide +kernel, by decide +kernel⟩
  have := endingPieces_deliver (ps := (utf8 "2020-01-01 x\n  a  1\n  b\n\ninclude more\n").map fun c => [c]) .eof (by simp)
  rwa [show ∀ l : List UInt8, (l.map fun c => [c]).flatten = l from fun l => by induction l <;> simp_all] at this

/-! ### C112 -/

/-- Whatever succeeds with `cb` gives the same with `cb'`. -/
def Succeeds (cb cb' : ItemParser S) : Prop := ∀ i c s, (cb i c s).2 = none → cb' i c s = cb i c s

theorem andThen_none {a : Step S} {f : S → Step S} (h : (a.andThen f).2 = none) : a.2 = none ∧ a.andThen f = f a.1 := by
  obtain ⟨s, _ | e⟩ := a
  · exact ⟨rfl, rfl⟩
  · exact absurd h (by simp)

theorem Succeeds.items {cb cb' : ItemParser S} (h : Succeeds cb cb') (is : List (ItemType × Str)) (s : S) (hs : (runItems cb is s).2 = none) :
    runItems cb' is s = runItems cb is s := by
  induction is generalizing s with
  | nil => rfl
  | cons i is ih =>
    simp only [runItems] at hs ⊢
    obtain ⟨h1, h2⟩ := andThen_none hs
    rw [h _ _ _ h1]
    rw [h2] at hs
    have := ih _ hs
    revert h1 this
    generalize cb i.1 i.2 s = r
    obtain ⟨s', _ | e⟩ := r
    · intro _ h; exact h
    · intro h; exact absurd h (by simp)

theorem Succeeds.lines [Unicode] {cb cb' : ItemParser S} (h : Succeeds cb cb') (hint : Str) (ls : List RawLine) (n : Nat) (s : S)
    (hs : (feedLines cb hint n ls s).2 = none) : feedLines cb' hint n ls s = feedLines cb hint n ls s := by
  induction ls generalizing n s with
  | nil => rfl
  | cons l ls ih =>
    cases l with
    | tooLong => rfl
    | line b =>
      simp only [feedLines, runLine] at hs ⊢
      obtain ⟨h1, h2⟩ := andThen_none hs
      rw [h2] at hs
      have h3 : ((runItems cb (lineItems hint (runes b)).items s).andThen fun s => (s, (lineItems hint (runes b)).err.map .err)).2 = none := by
        revert h1
        generalize ((runItems cb (lineItems hint (runes b)).items s).andThen fun s => (s, (lineItems hint (runes b)).err.map .err)) = r
        obtain ⟨s', _ | e⟩ := r
        · intro _; rfl
        · intro h; exact absurd h (by simp [Step.wrap])
      rw [h.items _ _ (andThen_none h3).1]
      have := ih _ _ hs
      rw [h2, ← this]
      revert h1
      generalize (((runItems cb (lineItems hint (runes b)).items s).andThen fun s => (s, (lineItems hint (runes b)).err.map .err)).wrap
        (.atLine hint n)) = r
      obtain ⟨s', _ | e⟩ := r
      · intro _; rfl
      · intro h; exact absurd h (by simp)

theorem wrap_ok {a : Step S} {w : Err → Err} (h : (a.wrap w).2 = none) : a.2 = none ∧ a.wrap w = a := by
  obtain ⟨s, _ | e⟩ := a
  · exact ⟨rfl, rfl⟩
  · exact absurd h (by simp [Step.wrap])

/-- The lexer succeeds only on a file that it reads to its end. -/
theorem lexReader_succeeds [Unicode] {R : Source ρ} {e : ReadErr} {src : ρ} {bs : List UInt8} (hd : Delivers R e src bs)
    (hn : e.text = str "EOF" → e = .eof) {cb cb' : ItemParser S} (h : Succeeds cb cb') (hint : Str) {k : Nat} (hk : bs.length < k) (s : S)
    (hs : (lexReader R cb hint k 1 { src := src } s).2 = none) :
    e = .eof ∧ lex cb' hint bs s = lexReader R cb hint k 1 { src := src } s := by
  rw [lexReader_delivers hd cb hint hk] at hs ⊢
  obtain ⟨h1, h2⟩ := andThen_none hs
  rw [h2] at hs ⊢
  by_cases he : e.text = str "EOF"
  · refine ⟨hn he, ?_⟩
    rw [lex, lexLoop_eq, h.lines _ _ _ _ h1]
    simp only [atEnd, if_pos he] at hs ⊢
    rw [← h _ _ _ hs]
    revert h1
    generalize feedLines cb hint 1 (readLines bs) s = r
    obtain ⟨s', _ | e⟩ := r
    · intro _; rfl
    · intro h; exact absurd h (by simp)
  · simp only [atEnd, if_neg he] at hs
    exact absurd hs (by simp)

theorem readItem_succeeds [Unicode] {R : Source ρ} {disk : Disk ρ} {k : Nat} {files : Contents} (h : OnDisk R disk k files) (hn : files.Named)
    (H : Handlers σ) (n : Nat) : Succeeds (readItem R disk k H n) (parseItem (readable files) H n) := by
  induction n with
  | zero => intro i c s _; rw [readItem_other R disk k (readable files) H 0 (Or.inr rfl)]
  | succ n ih =>
    intro i c s hs
    by_cases hi : i = .includeItem
    · subst hi
      have hp := h c
      simp only [readItem, parseItem] at hs ⊢
      cases hd : disk c with
      | none => rw [hd] at hs; exact absurd hs (by simp)
      | some src =>
        cases hf : files c with
        | none => rw [hd, hf] at hp; exact hp.elim
        | some f =>
          obtain ⟨bs, e⟩ := f
          rw [hd] at hs
          rw [hd, hf] at hp
          simp only at hs hp ⊢
          obtain ⟨h1, -⟩ := andThen_none hs
          obtain ⟨h3, h4⟩ := wrap_ok h1
          obtain ⟨h5, h6⟩ := lexReader_succeeds hp.1 (hn c _ hf) ih c hp.2 _ h3
          subst h5
          have : readable files c = some bs := by simp only [readable, hf]
          simp only [this, h6]
    · rw [readItem_other R disk k (readable files) H (n + 1) (Or.inl hi)]

/-- **C112**: a parse that succeeds has read every file it opened to its end: the error that ended the root file was the end of the file, and the result is that
of a parse in a file system in which only the files that can be read to their end exist. -/
theorem C112_success [Unicode] {R : Source ρ} {disk : Disk ρ} {k : Nat} {files : Contents} (h : OnDisk R disk k files) (hn : files.Named)
    {e : ReadErr} {src : ρ} {bs : List UInt8} (hd : Delivers R e src bs) (he : e.text = str "EOF" → e = .eof) (hk : bs.length < k)
    (H : Handlers σ) (maxOpen : Nat) (hint : Str) (st : PState σ) (hs : (parseReader R disk k H maxOpen src hint st).2 = none) :
    e = .eof ∧ parseReader R disk k H maxOpen src hint st = parse (readable files) H maxOpen bs hint st := by
  simp only [parseReader, parse] at hs ⊢
  obtain ⟨h1, h2⟩ := wrap_ok hs
  obtain ⟨h3, h4⟩ := lexReader_succeeds hd he (readItem_succeeds h hn H maxOpen) hint hk _ h1
  exact ⟨h3, by rw [h4]⟩

/-- So a command reports only on files that it has read to their end. -/
theorem C112_report [Unicode] {R : Source ρ} {disk : Disk ρ} {k : Nat} {files : Contents} (h : OnDisk R disk k files) (hn : files.Named)
    {e : ReadErr} {src : ρ} {bs : List UInt8} (hd : Delivers R e src bs) (he : e.text = str "EOF" → e = .eof) (hk : bs.length < k)
    (H : Handlers σ) (maxOpen : Nat) (path : Str) (init u : σ) (hs : readParse R disk k maxOpen src path H init = .ok u) :
    e = .eof ∧ runParse (readable files) maxOpen bs path H init = .ok u := by
  have hok : (parseReader R disk k H maxOpen src path (newParser init)).2 = none := by
    revert hs
    unfold readParse
    generalize parseReader R disk k H maxOpen src path (newParser init) = r
    obtain ⟨s, _ | f⟩ := r
    · intro _; rfl
    · intro h; exact absurd h (by simp)
  obtain ⟨h1, h2⟩ := C112_success h hn hd he hk H maxOpen path (newParser init) hok
  exact ⟨h1, by rw [← hs, readParse, runParse, h2]; rfl⟩

/-- What happens instead: the lines read so far are dealt with as usual (a last line without its newline too), and then the parse fails with the text of the error
alone, naming neither file nor line; the transaction that is open then is not ended. -/
theorem C112_failing [Unicode] {R : Source ρ} (disk : Disk ρ) {k : Nat} {e : ReadErr} {src : ρ} {bs : List UInt8} (hd : Delivers R e src bs)
    (he : e.text ≠ str "EOF") (hk : bs.length < k) (H : Handlers σ) (maxOpen : Nat) (hint : Str) (st : PState σ) :
    parseReader R disk k H maxOpen src hint st =
      ((feedLines (readItem R disk k H maxOpen) hint 1 (readLines bs) { st with files := st.files ++ [hint] }).andThen fun s =>
        (s, some (.err (.readFile e.text)))).wrap .errorAt := by
  simp only [parseReader, lexReader_delivers hd _ _ hk]
  congr 2
  funext s
  simp only [atEnd, if_neg he]

/-- The same for an included file. -/
theorem C112_include [Unicode] {R : Source ρ} {disk : Disk ρ} {k : Nat} {e : ReadErr} {src : ρ} {bs : List UInt8} {path : Str} (hp : disk path = some src)
    (hd : Delivers R e src bs) (he : e.text ≠ str "EOF") (hk : bs.length < k) (H : Handlers σ) (n : Nat) (st : PState σ) :
    readItem R disk k H (n + 1) .includeItem path st =
      ((feedLines (readItem R disk k H n) path 1 (readLines bs) { st with files := st.files ++ [path] }).andThen fun s =>
        (s, some (.err (.readFile e.text)))).wrap .errorAt := by
  simp only [readItem, hp, lexReader_delivers hd _ _ hk]
  rw [show (atEnd (readItem R disk k H n) e) = fun s => (s, some (.err (.readFile e.text))) from by
    funext s; simp only [atEnd, if_neg he]]
  generalize feedLines (readItem R disk k H n) path 1 (readLines bs) { st with files := st.files ++ [path] } = r
  obtain ⟨s, _ | f⟩ := r <;> rfl

/-- Never a report. -/
theorem C112_no_report [Unicode] {R : Source ρ} (disk : Disk ρ) {k : Nat} {e : ReadErr} {src : ρ} {bs : List UInt8} (hd : Delivers R e src bs)
    (he : e.text ≠ str "EOF") (hk : bs.length < k) (H : Handlers σ) (maxOpen : Nat) (path : Str) (init : σ) :
    ∃ f, readParse R disk k maxOpen src path H init = .error f := by
  rw [readParse, C112_failing disk hd he hk]
  generalize feedLines (readItem R disk k H maxOpen) path 1 (readLines bs) _ = r
  obtain ⟨s, _ | f⟩ := r
  · exact ⟨_, rfl⟩
  · exact ⟨_, rfl⟩

/-- A file of which nothing can be read (a directory, say): its name is in the message only if the operating system puts it there. -/
theorem C112_directory [Unicode] {R : Source ρ} (disk : Disk ρ) {k : Nat} {e : ReadErr} {src : ρ} (hd : Delivers R e src [])
    (he : e.text ≠ str "EOF") (hk : 0 < k) (H : Handlers σ) (maxOpen : Nat) (path : Str) (init : σ) (lib : Err → Str) :
    readParse R disk k maxOpen src path H init = .error (.err (.errorAt (.readFile e.text))) ∧
      (Err.errorAt (.readFile e.text)).text lib = str "error at " ++ e.text := by
  refine ⟨?_, rfl⟩
  rw [readParse, C112_failing disk hd he hk]
  rfl

/-- A file of which nothing comes any more, neither byte nor error: the parse does not wait for ever, nor take it for the end of the file. -/
theorem C112_stuck [Unicode] {R : Source ρ} (disk : Disk ρ) {k : Nat} {src : ρ} {bs : List UInt8} (hd : Delivers R .noProgress src bs)
    (hk : bs.length < k) (H : Handlers σ) (maxOpen : Nat) (path : Str) (init : σ) :
    (∃ f, readParse R disk k maxOpen src path H init = .error f) ∧
      (bs = [] → readParse R disk k maxOpen src path H init =
        .error (.err (.errorAt (.readFile (str "multiple Read calls return no data or error"))))) := by
  have he : ReadErr.noProgress.text ≠ str "EOF" := by decide
  refine ⟨C112_no_report disk hd he hk H maxOpen path init, ?_⟩
  rintro rfl
  exact (C112_directory disk hd he hk H maxOpen path init fun _ => []).1

/-- Pieces of any sizes, and then nothing for ever. -/
def stuckPieces : Source (List (List UInt8)) where
  read s k := match (pieces .eof).read s k with
    | (d, none, s') => (d, none, s')
    | (d, some _, s') => (d, none, s')

theorem stuckPieces_deliver {ps : List (List UInt8)} (h : ∀ p ∈ ps, p ≠ []) : Delivers stuckPieces .noProgress ps ps.flatten := by
  refine ⟨fun i s bs => i < 100 ∧ (s ≠ [] → i = 0) ∧ (∀ p ∈ s, p ≠ []) ∧ bs = s.flatten, ?_, by decide, fun _ => rfl, h, rfl⟩
  rintro i s bs ⟨hi, hz, hs, rfl⟩ k hk
  cases s with
  | nil =>
    refine ⟨[], ?_⟩
    by_cases hj : i + 1 < 100
    · exact Or.inl ⟨rfl, hj, hj, fun h => absurd rfl h, by simp, rfl⟩
    · exact Or.inr (Or.inr (Or.inr ⟨rfl, rfl, rfl, by omega, by omega, fun _ => rfl, by simp, rfl⟩))
  | cons p ps =>
    have hp : 0 < p.length := List.length_pos_iff.2 (hs p (by simp))
    by_cases hl : p.length ≤ k
    · refine ⟨ps, Or.inr (Or.inl ⟨p, ps.flatten, by simp, hp, hl, ?_, by omega, fun _ => rfl, fun q hq => hs q (by simp [hq]), rfl⟩)⟩
      simp [stuckPieces, pieces, hl]
    · refine ⟨p.drop k :: ps, Or.inr (Or.inl ⟨p.take k, p.drop k ++ ps.flatten, ?_, ?_, ?_, ?_, by omega, fun _ => rfl, ?_, by simp⟩)⟩
      · rw [← List.append_assoc, List.take_append_drop]; rfl
      · rw [List.length_take]; omega
      · rw [List.length_take]; omega
      · simp [stuckPieces, pieces, hl]
      · intro q hq
        rcases List.mem_cons.1 hq with rfl | hq
        · exact List.length_pos_iff.1 (by rw [List.length_drop]; omega)
        · exact hs q (by simp [hq])

set_option maxRecDepth 100000 in
/-- The transaction that was complete is handed over, the one that was open is not. -/
example :
    letI := asciiUnicode
    let ps := [utf8 "2020-01-03 z\n  a  1\n ", utf8 " b\n\n2020-01-04 w\n  c  2\n  d"]
    Delivers stuckPieces .noProgress ps ps.flatten ∧
    (parseReader stuckPieces (fun _ => none) 100 payeeGatherer 3 ps (str "r") (newParser [])).1.user = [str "z"] ∧
    readParse stuckPieces (fun _ => none) 100 3 ps (str "r") payeeGatherer [] =
      .error (.err (.errorAt (.readFile (str "multiple Read calls return no data or error")))) :=
  ⟨stuckPieces_deliver (by decide +kernel), by decide +kernel, by decide +kernel⟩

set_option maxRecDepth 100000 in
/-- Including a directory; a file of which the middle cannot be read (the complete transaction before is handed over, the one being read is not). -/
example :
    letI := asciiUnicode
    readParse endingPieces scatteredDisk 100 3 ([utf8 "\ninclude dir\n"], .eof) (str "r") payeeGatherer [] =
      .error (.err (.errorAt (.atLine (str "r") 2 (.errorAt (.readFile (str "read dir: is a directory")))))) ∧
    (parseReader endingPieces scatteredDisk 100 payeeGatherer 3
        ([utf8 "2020-01-03 z\n  a  1\n  b\n\n2020-01-04 w\n  c  2\n  d"], .other (str "read broken: input/output error")) (str "broken") (newParser [])).1.user =
      [str "z"] := by
  decide +kernel

end Gledger
