/-
C116, C117: files, clock, time zone and environment have no influence except where they are asked for.
-/
import Verif.Spec.Surroundings
import Verif.Props.DateFlags
import Verif.Props.Moved
import Verif.Props.Whole
import Verif.Lemmas.LineKinds

namespace Gledger

variable {σ S : Type}

/-! ### C116 -/

theorem runItems_congr {cb cb' : ItemParser S} {is : List (ItemType × Str)} (h : ∀ i ∈ is, ∀ s, cb i.1 i.2 s = cb' i.1 i.2 s) (s : S) :
    runItems cb is s = runItems cb' is s := by
  induction is generalizing s with
  | nil => rfl
  | cons i is ih =>
    simp only [runItems]
    rw [h i (by simp)]
    congr 1
    funext s'
    exact ih (fun j hj => h j (by simp [hj])) s'

theorem feedLines_congr [Unicode] {cb cb' : ItemParser S} (hint : Str) {ls : List RawLine}
    (h : ∀ l, RawLine.line l ∈ ls → ∀ i ∈ (lineItems hint (runes l)).items, ∀ s, cb i.1 i.2 s = cb' i.1 i.2 s) (n : Nat) (s : S) :
    feedLines cb hint n ls s = feedLines cb' hint n ls s := by
  induction ls generalizing n s with
  | nil => rfl
  | cons l ls ih =>
    cases l with
    | tooLong => rfl
    | line b =>
      simp only [feedLines, runLine]
      rw [runItems_congr (h b (by simp))]
      congr 1
      funext s'
      exact ih (fun l hl => h l (by simp [hl])) (n + 1) s'

/-- Which include items a line has. -/
theorem include_of_line [Unicode] {hint p : Str} {l : Str} (h : (ItemType.includeItem, p) ∈ (lineItems hint l).items) :
    ∃ name, LineIs l (.inclusion name) ∧ p = splitDir hint ++ name := by
  obtain ⟨L, hL⟩ := lineIs_exists l
  have hi := lineIs_items hint hL
  cases L with
  | passed => rw [show lineItems hint l = _ from hi] at h; simp at h
  | blank => rw [show lineItems hint l = _ from hi] at h; simp at h
  | header d s p n =>
    rcases hi with hi | ⟨_, hi⟩ <;> rw [hi] at h <;> cases s <;> simp [stateItemsOf] at h
  | budget p => rw [show lineItems hint l = _ from hi] at h; simp at h
  | note x => rw [show lineItems hint l = _ from hi] at h; simp at h
  | posting a am =>
    cases am with
    | none => rw [show lineItems hint l = _ from hi] at h; simp at h
    | some x => obtain ⟨c, n⟩ := x; rw [show lineItems hint l = _ from hi] at h; simp at h
  | inclusion name =>
    rw [show lineItems hint l = _ from hi] at h
    simp only [List.mem_singleton, Prod.mk.injEq, true_and] at h
    exact ⟨name, hL, h⟩
  | unknown e => rw [show lineItems hint l = _ from hi] at h; simp at h

theorem lex_partOf [Unicode] {fs : FileSystem} {root path : Str} {bytes : List UInt8} {cb cb' : ItemParser S} (hp : PartOf fs root path) (hb : fs path = some bytes)
    (h : ∀ item c s, (item = .includeItem → PartOf fs root c) → cb item c s = cb' item c s) (s : S) : lex cb path bytes s = lex cb' path bytes s := by
  rw [lex, lex, lexLoop_eq, lexLoop_eq]
  have h1 := feedLines_congr path (cb := cb) (cb' := cb') (ls := readLines bytes) (by
    intro l hl i hi s
    refine h _ _ _ fun hinc => ?_
    obtain ⟨i, p⟩ := i
    simp only at hinc
    subst hinc
    obtain ⟨name, h1, rfl⟩ := include_of_line hi
    exact .included hp hb hl h1 ((C110_directory _ _).2 rfl)) 1 s
  rw [h1]
  congr 1
  funext s'
  exact h _ _ _ (by intro h; cases h)

theorem parseItem_partOf [Unicode] {fs fs' : FileSystem} {root : Str} (h : ∀ p, PartOf fs root p → fs p = fs' p) (H : Handlers σ) (n : Nat) :
    ∀ item c s, (item = .includeItem → PartOf fs root c) → parseItem fs H n item c s = parseItem fs' H n item c s := by
  induction n with
  | zero => intro item c s _; cases item <;> rfl
  | succ n ih =>
    intro item c s hi
    by_cases hinc : item = .includeItem
    · subst hinc
      have hc := hi rfl
      simp only [parseItem, ← h c hc]
      cases hf : fs c with
      | none => rfl
      | some bytes => simp only [lex_partOf hc hf ih]
    · cases item <;> first | rfl | exact absurd rfl hinc

/-- The parser looks at no file that is not part of the journal. -/
theorem C116_parse [Unicode] {fs fs' : FileSystem} {root : Str} {bytes : List UInt8} (hb : fs root = some bytes) (h : ∀ p, PartOf fs root p → fs p = fs' p)
    (H : Handlers σ) (maxOpen : Nat) (st : PState σ) : parse fs H maxOpen bytes root st = parse fs' H maxOpen bytes root st := by
  simp only [parse, lex_partOf .root hb (parseItem_partOf h H maxOpen)]

/-- **C116**: what a command prints and how it ends depends on no file but the root journal and the files that are included from it, directly or not: if another file
system has the same contents for these (or lacks the same), the run is the same. -/
theorem C116_files [Unicode] (m : Machine) (fs' : FileSystem) (o : Options) (c : Command) (args : List Str)
    (h : ∀ root, m.rootPath o = some root → ∀ p, PartOf m.fs root p → m.fs p = fs' p) :
    { m with fs := fs' }.run o c args = m.run o c args := by
  simp only [Machine.run]
  rcases makeFilters m.engine args with (f | f | f) | filters
  · rfl
  · rfl
  · rfl
  · simp only [Machine.runFiltered]
    split
    · rfl
    · have hr : { m with fs := fs' }.rootPath o = m.rootPath o := rfl
      rw [hr]
      cases hp : m.rootPath o with
      | none => rfl
      | some p =>
        have h' := h p hp
        simp only [← h' p .root]
        cases hb : m.fs p with
        | none => rfl
        | some bytes =>
          simp only
          have hpar : ∀ {τ : Type} (H : Handlers τ) (st : PState τ), parse fs' H m.maxOpen bytes p st = parse m.fs H m.maxOpen bytes p st :=
            fun H st => (C116_parse hb h' H m.maxOpen st).symm
          have hrun : ∀ {τ : Type} (H : Handlers τ) (u : τ), runParse fs' m.maxOpen bytes p H u = runParse m.fs m.maxOpen bytes p H u :=
            fun H u => by rw [runParse, runParse, hpar]
          have hpr : ∀ {τ : Type} (H : Handlers (τ × Str)) (u : τ), printedBy fs' m.maxOpen bytes p H u = printedBy m.fs m.maxOpen bytes p H u :=
            fun H u => by rw [printedBy, printedBy, hpar]
          show Machine.runOn _ (m.env o filters) o args bytes p c = _
          cases c <;>
            simp only [Machine.runOn, accountsCmd, balanceCmd, budgetCmd, payeesCmd, printCmd, statsCmd, hrun, hpr] <;> rfl

/-! ### C117 -/

theorem run_range [Unicode] (m m' : Machine) (o : Options) (c : Command) (args : List Str)
    (hm : m' = { m with tomorrow := m'.tomorrow, nowYear := m'.nowYear, offset := m'.offset })
    (hr : ∀ filters, (m'.env o filters).withinDateRange = (m.env o filters).withinDateRange) : m'.run o c args = m.run o c args := by
  rw [hm] at hr ⊢
  generalize m'.tomorrow = now at hr ⊢
  generalize m'.nowYear = year at hr ⊢
  generalize m'.offset = offset at hr ⊢
  simp only [Machine.run]
  rcases makeFilters m.engine args with (f | f | f) | filters
  · rfl
  · rfl
  · rfl
  · simp only [Machine.runFiltered]
    split
    · rfl
    · have hr' : { m with tomorrow := now, nowYear := year, offset := offset }.rootPath o = m.rootPath o := rfl
      rw [hr']
      cases m.rootPath o with
      | none => rfl
      | some p =>
        simp only
        cases m.fs p with
        | none => rfl
        | some bytes => exact runOn_range m o o args bytes p c (hr filters) rfl rfl rfl rfl rfl

/-- Without date flags, neither the time nor the time zone has any influence (but for the words for elapsed time in the statistics, which are kept here). -/
theorem C117_no_dates [Unicode] (m : Machine) (tomorrow : Int) (year : Nat) (offset : Date → Int) (o : Options) (hb : o.beginDate = []) (he : o.endDate = [])
    (hc : o.current = false) (c : Command) (args : List Str) :
    { m with tomorrow := tomorrow, nowYear := year, offset := offset }.run o c args = m.run o c args := by
  refine run_range m _ o c args rfl fun filters => ?_
  funext t
  simp [Env.withinDateRange, Env.bound, Machine.env, hb, he, hc]

/-- With `--current`, only the instant a day from now (by the local clock) matters: the time zone has no further influence. -/
theorem C117_current [Unicode] (m : Machine) (year : Nat) (offset : Date → Int) (o : Options) (hc : o.current = true) (c : Command) (args : List Str) :
    { m with nowYear := year, offset := offset }.run o c args = m.run o c args := by
  refine run_range m _ o c args rfl fun filters => ?_
  funext t
  simp [Env.withinDateRange, Env.bound, Machine.env, hc]

theorem split_single {s : Char} {d a : Str} (h : split s d = [a]) : d = a ∧ s ∉ a := by
  induction d generalizing a with
  | nil => simp only [split, List.cons.injEq, and_true] at h; subst h; simp
  | cons c d ih =>
    rw [split] at h
    split at h
    · exact absurd (List.cons.inj h).2 (split_nonempty s d)
    · rename_i hc
      split at h
      · rename_i heq
        exact absurd heq (split_nonempty s d)
      · rename_i x xs heq
        obtain ⟨rfl, rfl⟩ := List.cons.inj h
        obtain ⟨rfl, h2⟩ := ih heq
        exact ⟨rfl, by simp only [List.mem_cons, not_or]; exact ⟨fun e => hc e.symm, h2⟩⟩

theorem split_pair {s : Char} {d a b : Str} (h : split s d = [a, b]) : d = a ++ s :: b ∧ s ∉ a ∧ s ∉ b := by
  induction d generalizing a with
  | nil => simp [split] at h
  | cons c d ih =>
    rw [split] at h
    split at h
    · rename_i hc
      obtain ⟨rfl, h2⟩ := List.cons.inj h
      obtain ⟨rfl, h3⟩ := split_single h2
      exact ⟨by rw [hc]; rfl, by simp, h3⟩
    · rename_i hc
      split at h
      · rename_i heq
        exact absurd heq (split_nonempty s d)
      · rename_i x xs heq
        obtain ⟨rfl, rfl⟩ := List.cons.inj h
        obtain ⟨h1, h2, h3⟩ := ih heq
        exact ⟨by rw [h1]; rfl, by simp only [List.mem_cons, not_or]; exact ⟨fun e => hc e.symm, h2⟩, h3⟩

theorem smartDate_year {y y' : Nat} {flag : Str} (h : ¬ Yearless flag) : parseSmartDate y flag = parseSmartDate y' flag := by
  have key : ∀ s, (s = '/' ∨ s = '.' ∨ s = '-') → parseComponents y flag s = parseComponents y' flag s := by
    intro s hs
    unfold parseComponents
    split
    · rfl
    · rename_i first second heq
      by_cases h4 : utf8Len first = 4
      · rw [if_pos h4, if_pos h4]
      · obtain ⟨k1, k2, k3⟩ := split_pair heq
        exact absurd ⟨first, s, second, k1, hs, k2, k3, h4⟩ h
    · rfl
    · rfl
  unfold parseSmartDate
  rw [key '/' (by simp), key '.' (by simp), key '-' (by simp)]

/-- Without `--current`, the time of day has no influence; and if `--begin` and `--end` are written with a year, neither has the current year: only the time zone,
through the instants at which the days named begin. -/
theorem C117_dates [Unicode] (m : Machine) (tomorrow : Int) (year : Nat) (o : Options) (hc : o.current = false) (hy : m.nowYear = year ∨ ¬ Yearless o.beginDate ∧ ¬ Yearless o.endDate)
    (c : Command) (args : List Str) : { m with tomorrow := tomorrow, nowYear := year }.run o c args = m.run o c args := by
  refine run_range m _ o c args rfl fun filters => ?_
  funext t
  have h1 : parseSmartDate year o.beginDate = parseSmartDate m.nowYear o.beginDate := by
    rcases hy with rfl | ⟨h, _⟩
    · rfl
    · exact smartDate_year h
  have h2 : parseSmartDate year o.endDate = parseSmartDate m.nowYear o.endDate := by
    rcases hy with rfl | ⟨_, h⟩
    · rfl
    · exact smartDate_year h
  simp [Env.withinDateRange, Env.bound, Machine.env, hc, h1, h2, Env.localInstant]

/-- Only commands that show elapsed time use the words for it. -/
theorem C117_words [Unicode] (m : Machine) (humanize : Date → Str) (o : Options) (c : Command) (hc : c ≠ .statistics) (args : List Str) :
    { m with humanize := humanize }.run o c args = m.run o c args := by
  simp only [Machine.run]
  rcases makeFilters m.engine args with (f | f | f) | filters
  · rfl
  · rfl
  · rfl
  · simp only [Machine.runFiltered]
    split
    · rfl
    · have hr' : { m with humanize := humanize }.rootPath o = m.rootPath o := rfl
      rw [hr']
      cases m.rootPath o with
      | none => rfl
      | some p =>
        simp only
        cases m.fs p with
        | none => rfl
        | some bytes =>
          show Machine.runOn _ (m.env o filters) o args bytes p c = _
          cases c <;> first | exact absurd rfl hc | rfl

/-- Dates with and without a year. -/
example : Yearless (str "03-01") ∧ ¬ Yearless (str "2020") ∧ parseSmartDate 2020 (str "03-01") ≠ parseSmartDate 2021 (str "03-01") := by
  refine ⟨⟨str "03", '-', str "01", rfl, by simp, by decide, by decide, by decide⟩, ?_, by decide +kernel⟩
  rintro ⟨a, s, b, h, hs, -⟩
  have : s ∈ str "2020" := by rw [h]; simp
  revert this
  rcases hs with rfl | rfl | rfl <;> decide

set_option maxRecDepth 100000 in
/-- A journal with an included file: a file that neither includes can change. -/
example :
    letI := asciiUnicode
    let m := { wholeMachine with maxOpen := 3, fs := fun p => if p = str "other" then some (utf8 "junk") else movingFiles p }
    let m' := { wholeMachine with maxOpen := 3, fs := movingFiles }
    PartOf movingFiles (str "top") (str "sub/a") ∧
    m.run { file := str "top" } .payees [] = m'.run { file := str "top" } .payees [] := by
  refine ⟨?_, by decide +kernel⟩
  let := asciiUnicode
  obtain ⟨name, h1, h2⟩ := include_of_line (hint := str "top") (l := runes (utf8 "include sub/a")) (p := str "sub/a") (by decide +kernel)
  have h3 : name = str "sub/a" := h2.symm
  subst h3
  exact PartOf.included (bytes := utf8 "include sub/a\n2020-01-02 y\n  A  1\n  B\n") (d := []) .root rfl (by decide +kernel) h1
    ⟨str "top", rfl, by decide, Or.inl rfl⟩

end Gledger
