/-
C134: a journal that is cut off anywhere: at most the last transaction read is not one of the journal.
-/
import Verif.Props.Files
import Verif.Props.Dates
import Verif.Spec.Replay
import Verif.Props.Balances
import Verif.Lemmas.ParserInv
import Verif.Props.Errors

namespace Gledger

/-- The line at the end of a text that is not finished. -/
def unfinished (x : List UInt8) : List UInt8 := (x.reverse.takeWhile (· ≠ 10)).reverse

/-! ### What the recorder has written down only grows -/

section
variable {st : PState (List Call)}

theorem ended_one (st : PState (List Call)) : ∃ last : List Call, last.length ≤ 1 ∧ (endTransaction recorder st).1.user = st.user ++ last := by
  unfold endTransaction
  have nothing : ∃ last : List Call, last.length ≤ 1 ∧ st.user = st.user ++ last := ⟨[], by simp, by simp⟩
  cases st.builder.ttype with
  | normal =>
    dsimp only
    cases st.builder.transaction with
    | none => exact nothing
    | some t =>
      dsimp only
      cases (endNormalTransaction st.builder.current false t).2 with
      | some e => exact nothing
      | none =>
        dsimp only [callHandler, recorder]
        cases st.files.getLast? with
        | none => exact nothing
        | some f => exact ⟨[_], by simp, rfl⟩
  | periodic =>
    dsimp only
    cases st.builder.periodic with
    | none => exact nothing
    | some pt =>
      dsimp only
      cases (endNormalTransaction st.builder.current (pt.period.interval = .none) pt.transaction).2 with
      | some e => exact nothing
      | none =>
        dsimp only [callHandler, recorder]
        cases st.files.getLast? with
        | none => exact nothing
        | some f => exact ⟨[_], by simp, rfl⟩

theorem grows_inv (pre : List Call) : ParserInv recorder (fun st => pre <+: st.user) (fun st => pre <+: st.user) (fun st => pre <+: st.user) where
  weak := fun _ h => h
  idle := fun _ h => h
  files := fun _ _ h => h
  ended := fun st h => by
    obtain ⟨l, _, e⟩ := ended_one st
    have : pre <+: (endTransaction recorder st).1.user := by rw [e]; exact h.trans (List.prefix_append _ _)
    exact ⟨this, fun _ => this⟩
  begun := fun _ _ h => h
  built := fun _ _ _ h => ⟨h, fun _ => h⟩

variable [Unicode]

theorem grows_loop (fs : FileSystem) (maxOpen : Nat) (path : Str) (n : Nat) (lines : List RawLine) (st : PState (List Call)) :
    st.user <+: (lexLoop (parseItem fs recorder maxOpen) path n lines st).1.user :=
  (lexLoop_keeps (grows_inv st.user).weak (parseItem_keeps (grows_inv st.user) fs maxOpen) path lines n st (List.prefix_refl _)).1

theorem grows_items (fs : FileSystem) (maxOpen : Nat) (is : List (ItemType × Str)) : ∀ st : PState (List Call),
    st.user <+: (runItems (parseItem fs recorder maxOpen) is st).1.user := by
  induction is with
  | nil => exact fun st => List.prefix_refl _
  | cons i is ih =>
    intro st
    have h1 := (parseItem_keeps (grows_inv st.user) fs maxOpen i.1 i.2 st (List.prefix_refl _)).1
    rw [runItems]
    generalize parseItem fs recorder maxOpen i.1 i.2 st = r at h1
    obtain ⟨s, _ | f⟩ := r
    · exact h1.trans (ih s)
    · exact h1

theorem quiet_items (fs : FileSystem) (maxOpen : Nat) (is : List (ItemType × Str)) (h : ∀ i ∈ is, i.1.structural = false) : ∀ st : PState (List Call),
    (runItems (parseItem fs recorder maxOpen) is st).1.user = st.user := by
  induction is with
  | nil => exact fun st => rfl
  | cons i is ih =>
    intro st
    have h1 : (parseItem fs recorder maxOpen i.1 i.2 st).1.user = st.user := by
      have := h i (by simp)
      obtain ⟨i, c⟩ := i
      cases i <;> simp [ItemType.structural] at this <;> cases maxOpen <;> rfl
    rw [runItems]
    generalize parseItem fs recorder maxOpen i.1 i.2 st = r at h1
    obtain ⟨s, _ | f⟩ := r
    · exact (ih (fun i hi => h i (List.mem_cons_of_mem _ hi)) s).trans h1
    · exact h1

/-! ### The line that is cut off -/

omit [Unicode] in
theorem payeeItems_quiet (cs : Str) : ∀ i ∈ payeeItems cs, i.1.structural = false := by
  unfold payeeItems
  intro i hi
  rcases List.mem_cons.1 hi with rfl | hi
  · rfl
  · split at hi
    · cases hi
    · rw [List.mem_singleton.1 hi]; rfl

omit [Unicode] in
theorem stateItems_quiet (cs : Str) : ∀ i ∈ stateItems cs, i.1.structural = false := by
  unfold stateItems
  intro i hi
  split at hi
  · rcases List.mem_cons.1 hi with rfl | hi
    · rfl
    · exact payeeItems_quiet _ i hi
  · rcases List.mem_cons.1 hi with rfl | hi
    · rfl
    · exact payeeItems_quiet _ i hi
  · exact payeeItems_quiet _ i hi

theorem postingItems_quiet (cs : Str) : (∀ i ∈ (postingItems cs).items, i.1.structural = false) := by
  unfold postingItems
  intro i hi
  split at hi
  · cases hi
  · split at hi
    · rw [List.mem_singleton.1 hi]; rfl
    · split at hi
      · dsimp only at hi
        split at hi
        · rw [List.mem_singleton.1 hi]; rfl
        · rcases List.mem_cons.1 hi with rfl | hi
          · rfl
          · simp only [amountItems, List.mem_cons, List.not_mem_nil, or_false] at hi
            rcases hi with rfl | rfl <;> rfl
      · cases hi

/-- A line with the first character `c` begins a paragraph. -/
def begins (c : Char) : Prop := c = '~' ∨ isDigit c = true

theorem opening_user (fs : FileSystem) (maxOpen : Nat) {i : ItemType} (hi : i = .dateItem ∨ i = .periodItem) (c : Str) (st : PState (List Call)) :
    (parseItem fs recorder maxOpen i c st).1.user = (endTransaction recorder st).1.user := by
  rcases hi with rfl | rfl <;> cases maxOpen <;> simp only [parseItem] <;>
  · generalize endTransaction recorder st = r
    obtain ⟨s, _ | f⟩ := r
    · simp [Step.andThen, Step.wrap, liftBuilder]
    · rfl

theorem opening_run (fs : FileSystem) (maxOpen : Nat) {i : ItemType} (hi : i = .dateItem ∨ i = .periodItem) (c : Str) (is : List (ItemType × Str))
    (hq : ∀ i ∈ is, i.1.structural = false) (err : Option Err) (st : PState (List Call)) :
    (runLine (parseItem fs recorder maxOpen) ⟨(i, c) :: is, err⟩ st).1.user = (endTransaction recorder st).1.user := by
  rw [← opening_user fs maxOpen hi c st]
  unfold runLine
  simp only [runItems]
  generalize parseItem fs recorder maxOpen i c st = r
  obtain ⟨s, _ | f⟩ := r
  · have := quiet_items fs maxOpen is hq s
    generalize hr : runItems (parseItem fs recorder maxOpen) is s = r at this
    obtain ⟨s', _ | f⟩ := r
    · simpa [Step.andThen, hr] using this
    · simpa [Step.andThen, hr] using this
  · rfl

theorem quiet_run (fs : FileSystem) (maxOpen : Nat) (li : LineItems) (hq : ∀ i ∈ li.items, i.1.structural = false) (st : PState (List Call)) :
    (runLine (parseItem fs recorder maxOpen) li st).1.user = st.user := by
  unfold runLine
  have := quiet_items fs maxOpen li.items hq st
  generalize runItems (parseItem fs recorder maxOpen) li.items st = r at this
  obtain ⟨s', _ | f⟩ := r
  · exact this
  · exact this

omit [Unicode] in
/-- A date begins with a digit. -/
theorem date_digit {s : Str} {d : Date} (h : parseDate s = .ok d) : ∃ c cs, s = c :: cs ∧ isDigit c = true := by
  obtain ⟨sep, _, ⟨y, m, dd, n, rfl, _, ⟨h1, h2, _⟩, _⟩, _⟩ := ((C10_dates_accepted s).1 d).1 h
  cases y with
  | nil => cases h1
  | cons c cs => exact ⟨c, _, rfl, (isDigit_iff c).2 (h2 c (by simp))⟩

theorem strange_date (fs : FileSystem) (maxOpen : Nat) {c : Char} {cs : Str} (hc : isDigit c = false) (st : PState (List Call)) :
    (parseItem fs recorder maxOpen .dateItem (c :: cs) st).2 ≠ none := by
  have hd : ∀ d, parseDate (c :: cs) ≠ .ok d := by
    intro d h
    obtain ⟨c', cs', e, h'⟩ := date_digit h
    cases e
    rw [hc] at h'
    cases h'
  have e : parseItem fs recorder maxOpen .dateItem (c :: cs) st = (endTransaction recorder st).andThen fun st =>
      let st := { st with builder := st.builder.begin .normal }
      (liftBuilder st (st.builder.build .dateItem (c :: cs))).wrap .parsingDate := by cases maxOpen <;> rfl
  rw [e]
  generalize endTransaction recorder st = r
  obtain ⟨s, _ | f⟩ := r
  · cases hp : parseDate (c :: cs) with
    | ok d => exact absurd hp (hd d)
    | error f => simp [Step.andThen, liftBuilder, Builder.build, Builder.begin, Builder.buildNormal, hp, Step.wrap]
  · simp [Step.andThen]

/-- What becomes of the line that is cut off: nothing is delivered, or what was open before; and then something fails, or the line begins a paragraph. -/
theorem cut_line (fs : FileSystem) (maxOpen : Nat) (path : Str) {c : Char} {cs : Str} (hi : ¬ str "include" <+: c :: cs) (st : PState (List Call)) :
    (runLine (parseItem fs recorder maxOpen) (lineItems path (c :: cs)) st).1.user = st.user ∨
      (runLine (parseItem fs recorder maxOpen) (lineItems path (c :: cs)) st).1.user = (endTransaction recorder st).1.user ∧
        ((runLine (parseItem fs recorder maxOpen) (lineItems path (c :: cs)) st).2 ≠ none ∨ begins c) := by
  rw [lineItems]
  split
  · exact Or.inl rfl
  · split
    · refine Or.inl (quiet_run _ _ _ ?_ st)
      unfold includeItems
      split
      · intro i h; cases h
      · rename_i h
        exact absurd ⟨_, by rw [← Classical.not_not.1 h]; exact List.takeWhile_append_dropWhile⟩ hi
    · split
      · rename_i h
        unfold periodItems
        split
        · exact Or.inl (quiet_run _ _ _ (fun i h => by cases h) st)
        · exact Or.inr ⟨opening_run fs maxOpen (Or.inr rfl) _ [] (fun i h => by cases h) none st, Or.inr (Or.inl h)⟩
      · split
        · rename_i h
          refine Or.inr ⟨opening_run fs maxOpen (Or.inl rfl) _ _ (stateItems_quiet _) none st, ?_⟩
          cases hd : isDigit c with
          | true => exact Or.inr (Or.inr hd)
          | false =>
            refine Or.inl ?_
            have hsp : c ≠ ' ' := by
              rintro rfl
              rw [Unicode.number_not_space ' ' (by decide)] at h
              cases h
            have := strange_date fs maxOpen (cs := cs.takeWhile (· ≠ ' ')) hd st
            unfold runLine headerItems
            simp only [runItems, List.takeWhile_cons, hsp, ne_eq, not_false_eq_true, decide_true, if_true]
            generalize parseItem fs recorder maxOpen .dateItem (c :: cs.takeWhile _) st = r at this
            obtain ⟨s, _ | f⟩ := r
            · exact absurd rfl this
            · simp [Step.andThen]
        · split
          · exact Or.inl (quiet_run _ _ _ (postingItems_quiet _) st)
          · exact Or.inl (quiet_run _ _ _ (fun i h => by cases h) st)

/-- An accepted line that begins a paragraph ends what was open before. -/
theorem begun_line (fs : FileSystem) (maxOpen : Nat) (path : Str) {c : Char} {cs : Str} (hc : begins c) (st : PState (List Call))
    (hok : (runLine (parseItem fs recorder maxOpen) (lineItems path (c :: cs)) st).2 = none) :
    (runLine (parseItem fs recorder maxOpen) (lineItems path (c :: cs)) st).1.user = (endTransaction recorder st).1.user := by
  rcases hc with rfl | hd
  · have e : lineItems path ('~' :: cs) = periodItems cs := by simp [lineItems]
    rw [e] at hok ⊢
    unfold periodItems at hok ⊢
    split
    · rename_i h
      rw [if_pos h] at hok
      cases hok
    · exact opening_run fs maxOpen (Or.inr rfl) _ [] (fun i h => by cases h) none st
  · have hn : c.toNat < 128 := by
      simp only [isDigit, Bool.and_eq_true, decide_eq_true_eq] at hd
      omega
    have e : lineItems path (c :: cs) = headerItems (c :: cs) := by
      have h1 : c ≠ ';' := by rintro rfl; exact absurd hd (by decide)
      have h2 : c ≠ '#' := by rintro rfl; exact absurd hd (by decide)
      have h3 : c ≠ 'i' := by rintro rfl; exact absurd hd (by decide)
      have h4 : c ≠ '~' := by rintro rfl; exact absurd hd (by decide)
      simp [lineItems, h1, h2, h3, h4, Unicode.number_ascii c hn, hd]
    rw [e]
    exact opening_run fs maxOpen (Or.inl rfl) _ _ (stateItems_quiet _) none st

omit [Unicode] in
theorem first_line (l y : List UInt8) (hl : l ≠ []) (hn : (10 : UInt8) ∉ l) :
    ∃ z rest ln, readLines (l ++ y) = ln :: rest ∧ (ln = .tooLong ∨ ln = .line (l ++ z) ∨ (l ++ z).getLast? = some 13 ∧ ln = .line (l ++ z).dropLast) := by
  by_cases hy : (10 : UInt8) ∈ y
  · obtain ⟨z, b, rfl, hz⟩ : ∃ z b, y = z ++ 10 :: b ∧ (10 : UInt8) ∉ z := by
      clear hn
      induction y with
      | nil => cases hy
      | cons w y ih =>
        by_cases hw : w = 10
        · exact ⟨[], y, by rw [hw]; rfl, by simp⟩
        · obtain ⟨z, b, e, hz⟩ := ih ((List.mem_cons.1 hy).resolve_left (Ne.symm hw))
          exact ⟨w :: z, b, by rw [e]; rfl, by simp [hz, Ne.symm hw]⟩
    refine ⟨z, readLines b, terminatedLine (l ++ z), by rw [← List.append_assoc, readLines_line _ _ (by simp [hn, hz])], ?_⟩
    unfold terminatedLine
    split
    · exact Or.inl rfl
    · split
      · rename_i h
        exact Or.inr (Or.inr ⟨h, rfl⟩)
      · exact Or.inr (Or.inl rfl)
  · have hn' : (10 : UInt8) ∉ l ++ y := by simp [hn, hy]
    refine ⟨y, [], unterminatedLine (l ++ y), by rw [readLines_last _ hn', if_neg (by simp [hl])], ?_⟩
    unfold unterminatedLine
    split
    · exact Or.inl rfl
    · exact Or.inr (Or.inl rfl)

omit [Unicode] in
theorem begins_first {l z b : List UInt8} {c : Char} {cs : Str} (hr : runes l = c :: cs) (hc : begins c)
    (hb : b = l ++ z ∨ (l ++ z).getLast? = some 13 ∧ b = (l ++ z).dropLast) : ∃ ds, runes b = c :: ds := by
  have hn : c.toNat < 128 ∧ c ≠ '\r' := by
    rcases hc with rfl | hd
    · decide
    · refine ⟨?_, by rintro rfl; exact absurd hd (by decide)⟩
      simp only [isDigit, Bool.and_eq_true, decide_eq_true_eq] at hd
      omega
  cases l with
  | nil => cases hr
  | cons b0 l =>
    rw [runes_cons, List.cons.injEq] at hr
    have hb0 := (decodeRune_eq_ascii hn.1 hr.1).1
    have key : ∀ t, ∃ ds, runes (b0 :: t) = c :: ds := by
      intro t
      rw [runes_cons, decodeRune_of_ascii b0 t (by rw [hb0]; exact hn.1), hb0]
      exact ⟨_, by rw [Char.ofNat_toNat]⟩
    rcases hb with rfl | ⟨h1, rfl⟩
    · exact key _
    · rw [List.cons_append] at h1 ⊢
      cases ht : l ++ z with
      | nil =>
        rw [ht] at h1
        simp only [List.getLast?_singleton, Option.some.injEq] at h1
        rw [h1] at hb0
        exact absurd (Char.toNat_inj.1 hb0.symm) hn.2
      | cons t ts =>
        rw [List.dropLast_cons_cons]
        exact key _

omit [Unicode] in
theorem unfinished_split (x : List UInt8) : ∃ a, x = a ++ unfinished x ∧ WholeLines a ∧ (10 : UInt8) ∉ unfinished x := by
  refine ⟨(x.reverse.dropWhile (· ≠ 10)).reverse, ?_, ?_, ?_⟩
  · unfold unfinished
    rw [← List.reverse_append, List.takeWhile_append_dropWhile, List.reverse_reverse]
  · unfold WholeLines
    cases h : x.reverse.dropWhile (· ≠ 10) with
    | nil => exact Or.inl rfl
    | cons b t =>
      refine Or.inr ?_
      have := List.head?_dropWhile_not (p := fun b : UInt8 => decide (b ≠ 10)) (l := x.reverse)
      rw [h] at this
      simpa using this
  · unfold unfinished
    rw [List.mem_reverse]
    intro h
    have key : ∀ k : List UInt8, (10 : UInt8) ∉ k.takeWhile (· ≠ 10) := by
      intro k
      induction k with
      | nil => simp
      | cons w k ih =>
        by_cases hw : w = 10
        · simp [hw]
        · simpa [hw, Ne.symm hw] using ih
    exact key _ h

/-- A journal that is accepted, cut off anywhere except after the word `include` in the line of such a directive: what is read before the end, or before an error, are
transactions and budgets from the beginning of the journal, except perhaps the last one. -/
theorem C134_cut (fs : FileSystem) (maxOpen : Nat) (path : Str) (x y : List UInt8) (hok : rejection fs maxOpen (x ++ y) path = none)
    (hi : ¬ str "include" <+: runes (unfinished x)) :
    ∃ kept last, delivered fs maxOpen x path = kept ++ last ∧ last.length ≤ 1 ∧ kept <+: delivered fs maxOpen (x ++ y) path := by
  obtain ⟨a, hx, ha, hn⟩ := unfinished_split x
  generalize unfinished x = l at hx hi hn
  subst hx
  unfold delivered rejection at *
  rw [List.append_assoc, parse_new_lexLoop, readLines_append ha, lexLoop_append] at hok ⊢
  rw [parse_new_lexLoop, readLines_append ha, lexLoop_append]
  generalize feedLines (parseItem fs recorder maxOpen) path 1 (readLines a) (rootStart [] path) = r0 at hok ⊢
  generalize 1 + (readLines a).length = n at hok ⊢
  obtain ⟨s, _ | f⟩ := r0
  swap
  · exact ⟨s.user, [], by simp [Step.andThen, Step.wrap], by simp, List.prefix_refl _⟩
  simp only [Step.andThen, Step.wrap] at hok ⊢
  have hok : (lexLoop (parseItem fs recorder maxOpen) path n (readLines (l ++ y)) s).2 = none := by simpa using hok
  have hk := grows_loop fs maxOpen path n (readLines (l ++ y)) s
  have one : ∀ u : PState (List Call), ∃ last : List Call, last.length ≤ 1 ∧ (lexLoop (parseItem fs recorder maxOpen) path (n + 1) [] u).1.user = u.user ++ last := by
    intro u
    obtain ⟨last, h1, h2⟩ := ended_one u
    exact ⟨last, h1, by rw [lexLoop, parseItem_eof, h2]⟩
  rw [readLines_last l hn]
  split
  · obtain ⟨last, h1, h2⟩ := one s
    refine ⟨s.user, last, ?_, h1, hk⟩
    rw [← h2]
    rfl
  · rename_i hl
    unfold unterminatedLine
    split
    · exact ⟨s.user, [], by simp [lexLoop], by simp, hk⟩
    · cases hr : runes l with
      | nil => exact absurd (runes_eq_nil hr) hl
      | cons c cs =>
        rw [hr] at hi
        have hc := cut_line fs maxOpen path hi s
        rw [lexLoop_line, hr]
        generalize hrun : runLine (parseItem fs recorder maxOpen) (lineItems path (c :: cs)) s = r at hc
        obtain ⟨s1, _ | f⟩ := r
        · obtain ⟨last, h1, h2⟩ := one s1
          simp only [Step.andThen, Step.wrap, Option.map_none]
          rcases hc with hc | ⟨hc, hc'⟩
          · exact ⟨s.user, last, by rw [h2, hc], h1, hk⟩
          · have hb : begins c := hc'.resolve_left (by simp)
            refine ⟨(endTransaction recorder s).1.user, last, by rw [h2, hc], h1, ?_⟩
            obtain ⟨z, rest, ln, e1, e2⟩ := first_line l y hl hn
            rw [e1] at hok ⊢
            rcases e2 with rfl | e2
            · cases hok
            · obtain ⟨b, rfl, hb'⟩ : ∃ b, ln = .line b ∧ (b = l ++ z ∨ (l ++ z).getLast? = some 13 ∧ b = (l ++ z).dropLast) := by
                rcases e2 with rfl | ⟨h, rfl⟩
                · exact ⟨_, rfl, Or.inl rfl⟩
                · exact ⟨_, rfl, Or.inr ⟨h, rfl⟩⟩
              obtain ⟨ds, hds⟩ := begins_first hr hb hb'
              rw [lexLoop_line, hds] at hok ⊢
              have hg := begun_line fs maxOpen path (cs := ds) hb s
              generalize runLine (parseItem fs recorder maxOpen) (lineItems path (c :: ds)) s = r at hok hg ⊢
              obtain ⟨s2, _ | f⟩ := r
              · rw [← hg rfl]
                exact grows_loop fs maxOpen path (n + 1) rest s2
              · cases hok
        · simp only [Step.andThen, Step.wrap, Option.map_some]
          rcases hc with hc | ⟨hc, _⟩
          · exact ⟨s.user, [], by simpa using hc, by simp, hk⟩
          · obtain ⟨last, h1, h2⟩ := ended_one s
            exact ⟨s.user, last, by rw [hc, h2], h1, hk⟩

/-- A journal cut off at the end of a line, whether it is accepted or not. -/
theorem C134_lines (fs : FileSystem) (maxOpen : Nat) (path : Str) (x y : List UInt8) (hx : WholeLines x) :
    ∃ kept last, delivered fs maxOpen x path = kept ++ last ∧ last.length ≤ 1 ∧ kept <+: delivered fs maxOpen (x ++ y) path := by
  unfold delivered
  rw [parse_new_lexLoop fs recorder maxOpen (x ++ y), readLines_append hx, lexLoop_append, parse_new]
  generalize feedLines (parseItem fs recorder maxOpen) path 1 (readLines x) (rootStart [] path) = r0
  obtain ⟨s, _ | f⟩ := r0
  · obtain ⟨last, h1, h2⟩ := ended_one s
    refine ⟨s.user, last, ?_, h1, ?_⟩
    · simp only [Step.andThen, Step.wrap, parseItem_eof, h2]
    · exact grows_loop fs maxOpen path _ _ s
  · exact ⟨s.user, [], by simp [Step.andThen, Step.wrap], by simp, List.prefix_refl _⟩

/-- What follows a mistake does not matter: whatever stands below the lines, what is reported and what has been read by then remain the same. The exception is what is
found out at the end of the file only, that the last transaction does not balance (or leaves out two amounts): that bears no line number, and may be put right by
the lines that follow. -/
theorem C134_rejected (fs : FileSystem) (maxOpen : Nat) (path : Str) (x : List UInt8) (hx : WholeLines x) (f : Failure)
    (hf : rejection fs maxOpen x path = some f) :
    (f = .err (.errorAt .unbalanced) ∨ f = .err (.errorAt .tooManyElided)) ∨
      ∀ y, rejection fs maxOpen (x ++ y) path = some f ∧ delivered fs maxOpen (x ++ y) path = delivered fs maxOpen x path := by
  unfold rejection delivered at *
  have hroot := (feedLines_root recorder fs maxOpen path (readLines x) 1 (rootStart [] path) rfl (rootStart_shape _ _)).2
  simp only [parse_new_lexLoop fs recorder maxOpen (x ++ _), readLines_append hx, lexLoop_append]
  rw [parse_new] at hf ⊢
  generalize feedLines (parseItem fs recorder maxOpen) path 1 (readLines x) (rootStart [] path) = r0 at hf hroot ⊢
  obtain ⟨s, _ | f'⟩ := r0
  · left
    have hn : NeverFails recorder := by
      constructor <;> · intro h hh s t f; cases hh; rfl
    have := endTransaction_err recorder hn s (by rw [(hroot rfl).1]; simp)
    simp only [Step.andThen, Step.wrap, parseItem_eof] at hf
    rcases this with h | h | h
    · rw [h] at hf; cases hf
    · rw [h] at hf; exact Or.inl (Option.some.inj hf).symm
    · rw [h] at hf; exact Or.inr (Option.some.inj hf).symm
  · right
    intro y
    exact ⟨hf, rfl⟩

/-- What is complete is read in any case: the transactions and budgets of an accepted journal, if a blank line follows it, whatever comes then. -/
theorem C134_before (fs : FileSystem) (maxOpen : Nat) (path : Str) (a nl b : List UInt8) (ha : WholeLines a) (hnl : BlankLine nl)
    (hok : rejection fs maxOpen a path = none) : delivered fs maxOpen a path <+: delivered fs maxOpen (a ++ (nl ++ b)) path := by
  unfold delivered rejection at *
  rw [parse_new] at hok ⊢
  rw [parse_new_lexLoop fs recorder maxOpen (a ++ (nl ++ b)), readLines_append ha, readLines_blank _ _ hnl, lexLoop_append]
  generalize feedLines (parseItem fs recorder maxOpen) path 1 (readLines a) (rootStart [] path) = r0 at hok ⊢
  obtain ⟨s, _ | f⟩ := r0
  · simp only [Step.andThen, Step.wrap, parseItem_eof, lexLoop_line, runes_nil, lineItems_nil, runLine, runItems, parseItem_empty] at hok ⊢
    generalize endTransaction recorder s = r at hok ⊢
    obtain ⟨s1, _ | f⟩ := r
    · exact grows_loop fs maxOpen path _ (readLines b) s1
    · cases hok
  · cases hok

end

/-- The last transaction that is read of a journal that is cut off need not be one of the journal, even if nothing is reported: here a posting is cut off, and
there the rest of the name of an account. -/
theorem C134_last_false :
    letI := asciiUnicode
    let x := utf8 "2020-01-02 a\n  A  1\n  B\n\n2020-01-03 b\n  A  1\n  B  -1\n"
    let y := utf8 "  Cash  5\n  D\n"
    let x' := utf8 "2020-01-02 a\n  A  1\n  B\n\n2020-01-03 b\n  A  1\n  B:Dr"
    let y' := utf8 "inks\n"
    (rejection noFiles 1 (x ++ y) (str "f") = none ∧ rejection noFiles 1 x (str "f") = none ∧ ¬ delivered noFiles 1 x (str "f") <+: delivered noFiles 1 (x ++ y) (str "f")) ∧
      (rejection noFiles 1 (x' ++ y') (str "f") = none ∧ rejection noFiles 1 x' (str "f") = none ∧
        ¬ delivered noFiles 1 x' (str "f") <+: delivered noFiles 1 (x' ++ y') (str "f")) := by
  decide +kernel

/-- A mistake at a line remains, one at the end of the file may go. -/
example :
    letI := asciiUnicode
    let x := utf8 "2020-01-02 a\n  A  1\n  B\n\n2020-01-03 b\n  A  1\n  B  -2\n\n"
    let z := utf8 "2020-01-02 a\n  A  1\n  B\n\n2020-01-03 b\n  A  1\n  B  -2\n"
    let y := utf8 "  C  1\n"
    rejection noFiles 1 x (str "f") = some (.err (.errorAt (.atLine (str "f") 8 .unbalanced))) ∧
      rejection noFiles 1 z (str "f") = some (.err (.errorAt .unbalanced)) ∧ rejection noFiles 1 (z ++ y) (str "f") = none := by
  decide +kernel

/-- Cut off in the name of a file to be included, a journal may go on with another file. -/
theorem C134_include_false :
    letI := asciiUnicode
    let fs : FileSystem := fun p => if p = str "a" then some (utf8 "2020-01-02 a\n  A  1\n  B\n\n2020-01-03 b\n  A  1\n  B\n") else if p = str "ab" then some [] else none
    let x := utf8 "include a"
    let y := utf8 "b\n"
    rejection fs 1 (x ++ y) (str "f") = none ∧ rejection fs 1 x (str "f") = none ∧ (delivered fs 1 (x ++ y) (str "f")).length = 0 ∧ (delivered fs 1 x (str "f")).length = 2 := by
  decide +kernel

/-- A journal, cut off at each place in turn: the hypotheses hold. (A date alone counts as a transaction, and so does what is left of a posting.) -/
example :
    letI := asciiUnicode
    let t := utf8 "2020-01-02 a\n  A  1\n  B\n2020-01-03 b\n  A  1\n  B\n"
    rejection noFiles 1 t (str "f") = none ∧
      (∀ n < 49, ¬ str "include" <+: runes (unfinished (t.take n))) ∧
      ((List.range 49).map fun n => (delivered noFiles 1 (t.take n) (str "f")).length) =
        [0, 0, 0, 0, 0, 0, 0, 0, 0, 0, 1, 1, 1, 1, 0, 1, 1, 1, 0, 0, 0, 0, 0, 1, 1, 1, 1, 1, 1, 1, 1, 1, 1, 1, 2, 2, 2, 2, 1, 2, 2, 2, 1, 1, 1, 1, 1, 2, 2] := by
  decide +kernel

end Gledger
