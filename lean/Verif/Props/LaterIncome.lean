/-
C148: income that comes later than it is needed does not change the age of money.
-/
import Verif.Props.UnitFree

namespace Gledger

theorem segments_append (f : Date → Int) (l l' : List Date) : ∀ A, segments f A (l ++ l') = segments f A l ++ segments f (A + (l.map f).sum) l' := by
  induction l with
  | nil => intro A; simp [segments]
  | cons d l ih =>
    intro A
    rw [List.cons_append, segments, ih, segments, List.cons_append, List.map_cons, List.sum_cons, add_assoc]

theorem segments_congr {f g : Date → Int} {l : List Date} (h : ∀ d ∈ l, f d = g d) : ∀ A, segments f A l = segments g A l := by
  induction l with
  | nil => intro A; rfl
  | cons d l ih =>
    intro A
    rw [segments, segments, h d (by simp), ih fun d hd => h d (by simp [hd])]

theorem segments_end (f : Date → Int) (l : List Date) (hf : ∀ d ∈ l, 0 ≤ f d) : ∀ A, ∀ s ∈ segments f A l, s.2.2 ≤ A + (l.map f).sum := by
  induction l with
  | nil => intro A s hs; cases hs
  | cons d l ih =>
    intro A s hs
    rw [segments, List.mem_cons] at hs
    rw [List.map_cons, List.sum_cons]
    have h1 : 0 ≤ (l.map f).sum := sum_nonneg_int _ (by simp only [List.mem_map]; rintro x ⟨d, h, rfl⟩; exact hf d (by simp [h]))
    rcases hs with rfl | hs
    · simp only
      omega
    · have := ih (fun d hd => hf d (by simp [hd])) _ s hs
      omega

/-- Incomes beyond what is spent altogether are not touched. -/
theorem spending_enough {income expense : Date → Int} {I J E : List Date} (hj : ∀ d ∈ J, 0 ≤ income d) (he : ∀ d ∈ E, 0 ≤ expense d)
    (h : (E.map expense).sum ≤ (I.map income).sum) : spending income expense (I ++ J) E = spending income expense I E := by
  unfold spending
  refine flatMap_congr_mem fun e hE => ?_
  rw [segments_append, List.filterMap_append]
  have h1 := segments_end expense E he 0 e hE
  have h2 : ((segments income (0 + (I.map income).sum) J).filterMap fun s => if Overlap s.2 e.2 then some (e.1, s.1) else none) = [] := by
    rw [List.filterMap_eq_nil_iff]
    intro s hs
    obtain ⟨j1, j2, j3⟩ := segments_start income J _ hj s hs
    rw [if_neg]
    unfold Overlap
    omega
  rw [h2, List.append_nil]

theorem sorted_cut (D : Int) : ∀ {l : List Date}, DaysSorted l → l = (l.filter fun d => d.dayNumber ≤ D) ++ l.filter fun d => ¬ d.dayNumber ≤ D := by
  intro l
  induction l with
  | nil => intro _; rfl
  | cons d l ih =>
    intro h
    obtain ⟨h1, h2⟩ := List.pairwise_cons.1 h
    by_cases hd : d.dayNumber ≤ D
    · simp only [List.filter_cons, hd, decide_true, if_true, not_true, decide_false, Bool.false_eq_true, if_false, List.cons_append]
      rw [← ih h2]
    · have e1 : (l.filter fun d => decide (d.dayNumber ≤ D)) = [] := List.filter_eq_nil_iff.2 fun x hx => by
        have := h1 x hx
        simp only [decide_eq_true_eq]
        omega
      have e2 : (l.filter fun d => decide (¬ d.dayNumber ≤ D)) = l := List.filter_eq_self.2 fun x hx => by
        have := h1 x hx
        simp only [decide_eq_true_eq]
        omega
      simp only [List.filter_cons, hd, decide_false, Bool.false_eq_true, if_false, not_false_eq_true, decide_true, if_true, e1, e2, List.nil_append]

/-- What is earned on a day (incomes are negative in a journal). -/
def earnedOn (fs : List Filter) (ts : List (Transaction × Str)) (d : Date) : Int := (- valueOf (dayPostings fs (str "Income") ts d)).toInt

/-- What is spent on a day. -/
def spentOn (fs : List Filter) (ts : List (Transaction × Str)) (d : Date) : Int := (valueOf (dayPostings fs (str "Expenses") ts d)).toInt

/-- The days on which something is posted under this account, in order. -/
def DaysOf (fs : List Filter) (top : Str) (ts : List (Transaction × Str)) (l : List Date) : Prop := DaysSorted l ∧ ∀ d, d ∈ l ↔ dayPostings fs top ts d ≠ []

/-- Nothing is spent that has not been earned up to day number `D` in both, the same has been earned by then, and the same is spent: no day has negative income, nor spending that is not positive. -/
structure EnoughBy (D : Int) (fs : List Filter) (ts ts' : List (Transaction × Str)) (I I' E : List Date) : Prop where
  incomes : DaysOf fs (str "Income") ts I
  incomes' : DaysOf fs (str "Income") ts' I'
  expenses : DaysOf fs (str "Expenses") ts E
  expenses' : DaysOf fs (str "Expenses") ts' E
  earned : ∀ d : Date, d.dayNumber ≤ D → (d ∈ I ↔ d ∈ I') ∧ earnedOn fs ts d = earnedOn fs ts' d
  spent : ∀ d ∈ E, 0 < spentOn fs ts d ∧ spentOn fs ts d = spentOn fs ts' d
  positive : (∀ d ∈ I, 0 ≤ earnedOn fs ts d) ∧ ∀ d ∈ I', 0 ≤ earnedOn fs ts' d
  enough : (E.map (spentOn fs ts)).sum ≤ ((I.filter fun d => d.dayNumber ≤ D).map (earnedOn fs ts)).sum

section
variable {fs : List Filter} {ts ts' : List (Transaction × Str)}

theorem ages_spending {s : Stats} (S : StatsOf fs ts s) (hr : ∀ tf ∈ ts, tf.1.date.Real) {sort : List Date → List Date} (h1 : SortsDates sort) {I E : List Date}
    (hI : DaysOf fs (str "Income") ts I) (hE : DaysOf fs (str "Expenses") ts E) (hi : ∀ d ∈ I, 0 ≤ earnedOn fs ts d) (he : ∀ d ∈ E, 0 < spentOn fs ts d) :
    s.ages sort = spending (earnedOn fs ts) (spentOn fs ts) I E := by
  have wi : incomeID = str "Income" := rfl
  have we : expensesID = str "Expenses" := rfl
  obtain ⟨i1, i2⟩ := keys_sorted h1 S.income.2.1 fun d hd => day_real hr ((S.income.2.2 d).1 hd)
  obtain ⟨x1, x2⟩ := keys_sorted h1 S.expense.2.1 fun d hd => day_real hr ((S.expense.2.2 d).1 hd)
  have ei : sort (s.income.map Prod.fst) = I := sorted_days_unique i1 hI.1 fun d => by rw [i2, S.income.2.2, hI.2, wi]
  have ee : sort (s.expense.map Prod.fst) = E := sorted_days_unique x1 hE.1 fun d => by rw [x2, S.expense.2.2, hE.2, we]
  have gi : (fun d => (s.income.get d).toInt) = earnedOn fs ts := funext fun d => by rw [S.income.1]; rfl
  have ge : (fun d => (s.expense.get d).toInt) = spentOn fs ts := funext fun d => by rw [S.expense.1]; rfl
  have ge' : ∀ d, (s.expense.get d).toInt = spentOn fs ts d := fun d => congrFun ge d
  have gi' : ∀ d, (s.income.get d).toInt = earnedOn fs ts d := fun d => congrFun gi d
  have := (C54_first_in_first_out s.income s.expense I E hI.1 (fun d hd => by rw [gi']; exact hi d hd) (fun d hd => by rw [ge']; exact (he d hd).le)).2.1
    fun d hd => by rw [ge']; exact he d hd
  unfold Stats.ages
  rw [show (fun x : Date × I64 => x.1) = Prod.fst from rfl, ei, ee, this, gi, ge]
  rfl

/-- The matches are the same. -/
theorem C148_age {D : Int} {I I' E : List Date} (h : EnoughBy D fs ts ts' I I' E) (hr : ∀ tf ∈ ts, tf.1.date.Real) (hr' : ∀ tf ∈ ts', tf.1.date.Real) {s s' : Stats}
    (S : StatsOf fs ts s) (S' : StatsOf fs ts' s') {sort sort' : List Date → List Date} (h1 : SortsDates sort) (h1' : SortsDates sort') : s'.ages sort' = s.ages sort := by
  rw [ages_spending S hr h1 h.incomes h.expenses h.positive.1 fun d hd => (h.spent d hd).1,
    ages_spending S' hr' h1' h.incomes' h.expenses' h.positive.2 fun d hd => by rw [← (h.spent d hd).2]; exact (h.spent d hd).1]
  have hc : (I.filter fun d => d.dayNumber ≤ D) = I'.filter fun d => d.dayNumber ≤ D := by
    refine sorted_days_unique (h.incomes.1.filter _) (h.incomes'.1.filter _) fun d => ?_
    rw [List.mem_filter, List.mem_filter, decide_eq_true_eq]
    constructor
    · rintro ⟨q1, q2⟩
      exact ⟨(h.earned d q2).1.1 q1, q2⟩
    · rintro ⟨q1, q2⟩
      exact ⟨(h.earned d q2).1.2 q1, q2⟩
  have hE : ∀ d ∈ E, spentOn fs ts' d = spentOn fs ts d := fun d hd => (h.spent d hd).2.symm
  have hI : ∀ d ∈ I.filter (fun d => d.dayNumber ≤ D), earnedOn fs ts' d = earnedOn fs ts d := fun d hd =>
    ((h.earned d (of_decide_eq_true (List.mem_filter.1 hd).2)).2).symm
  rw [sorted_cut D h.incomes.1, sorted_cut D h.incomes'.1, spending_enough (fun d hd => h.positive.1 d (List.mem_of_mem_filter hd)) (fun d hd => (h.spent d hd).1.le) h.enough, ← hc,
    spending_enough (fun d hd => h.positive.2 d (List.mem_of_mem_filter hd)) (fun d hd => by rw [hE d hd]; exact (h.spent d hd).1.le)
      (by rw [List.map_congr_left hE, List.map_congr_left hI]; exact h.enough)]
  unfold spending
  rw [segments_congr hE, segments_congr hI]

variable [Unicode] {m m' : Machine} {o o' : Options} {args args' : List Str} {bytes bytes' : List UInt8} {js js' : List (Meant × Str)} {filters : List Filter}
  {admits admits' : Date → Bool} {path path' : Str}

/-- Two runs of `statistics` show the same age of money if the same is spent and nothing is spent that has not been earned up to some day, up to which the same is earned: whatever is earned afterwards, and whatever else is in the journals. -/
theorem C148_statistics (g : Setting m o args bytes filters admits path) {pg pg' : Page} (r : Reading m.fs m.lib m.maxOpen path bytes js (.ok pg))
    (hs : ¬ Command.statistics.Short filters admits (meanings js))
    (g' : Setting m' o' args' bytes' filters admits' path') (r' : Reading m'.fs m'.lib m'.maxOpen path' bytes' js' (.ok pg'))
    (hs' : ¬ Command.statistics.Short filters admits' (meanings js')) (hw : wantedIn filters admits js ≠ []) (hw' : wantedIn filters admits' js' ≠ [])
    {D : Int} {I I' E : List Date} (h : EnoughBy D filters (wantedIn filters admits js) (wantedIn filters admits' js') I I' E) :
    ∃ x x' : Figures, FiguresOf filters (wantedIn filters admits js) x ∧ FiguresOf filters (wantedIn filters admits' js') x' ∧ x'.age = x.age ∧
      m.run o .statistics args = ⟨(x.lines m.humanize).flatMap (· ++ str "\n"), .exit 0⟩ ∧
      m'.run o' .statistics args' = ⟨(x'.lines m'.humanize).flatMap (· ++ str "\n"), .exit 0⟩ := by
  obtain ⟨d1, d2, _⟩ := C99_parsed r
  obtain ⟨d1', d2', _⟩ := C99_parsed r'
  have H : Heard m o args bytes js filters admits path := ⟨g, d1⟩
  have H' : Heard m' o' args' bytes' js' filters admits' path' := ⟨g', d1'⟩
  have hp := (runParse_cases m.fs m.maxOpen bytes path (m.env o filters).statsHandlers {}).2.1 (H.stopped (c := .statistics) hs) (d2 pg rfl)
  have hp' := (runParse_cases m'.fs m'.maxOpen bytes' path' (m'.env o' filters).statsHandlers {}).2.1 (H'.stopped (c := .statistics) hs') (d2' pg' rfl)
  have a1 := H.asks.2.1
  have a1' := H'.asks.2.1
  have hr : ∀ tf ∈ wantedIn filters admits js, tf.1.date.Real := by
    rw [← a1]
    exact fun tf htf => (picked_real _ htf).1
  have hr' : ∀ tf ∈ wantedIn filters admits' js', tf.1.date.Real := by
    rw [← a1']
    exact fun tf htf => (picked_real _ htf).1
  have s1 := C53_statistics (m.env o filters) g.fair.postings _ _ _ _ _ hp
  have s1' := C53_statistics (m'.env o' filters) g'.fair.postings _ _ _ _ _ hp'
  obtain ⟨age, e1, e2, e3⟩ := stats_figures (m.env o filters) g.fair.postings m.humanize m.stringOrder g.fair.strings m.sortDates g.fair.dates _ _ _ _ _ hp (by rw [a1]; exact hw)
  obtain ⟨age', e1', e2', e3'⟩ := stats_figures (m'.env o' filters) g'.fair.postings m'.humanize m'.stringOrder g'.fair.strings m'.sortDates g'.fair.dates _ _ _ _ _ hp' (by rw [a1']; exact hw')
  rw [a1] at s1 e2
  rw [a1'] at s1' e2'
  have k8 := C148_age h hr hr' s1 s1' g.fair.dates g'.fair.dates
  have k9 : age' = age := by
    have := congrArg decimalValue (show natDigits age' = natDigits age by rw [← e1', ← e1, k8])
    rwa [natDigits_value, natDigits_value] at this
  refine ⟨_, _, e2, e2', k9, ?_, ?_⟩
  · rw [H.run (by decide), Machine.runOn, statsCmd, hp]
    simp only [Except.map]
    rw [e3]
    rfl
  · rw [H'.run (by decide), Machine.runOn, statsCmd, hp']
    simp only [Except.map]
    rw [e3']
    rfl

end

/-- Ten earned on the first, two spent on the eleventh, and five earned on the twelfth or not. -/
example :
    let posting (a : String) (q : Int) : Posting := { accountPath := str a, amount := some ⟨[], BitVec.ofInt 64 q⟩ }
    let t (d : Nat) (a : String) (q : Int) : Transaction × Str := ({ date := ⟨2020, 1, d⟩, payee := str "y", postings := [posting a q, posting "A" (-q)] }, str "f")
    let ts := [t 1 "Income:A" (-1000), t 11 "Expenses:B" 200]
    let ts' := ts ++ [t 12 "Income:A" (-500)]
    EnoughBy (Date.dayNumber ⟨2020, 1, 5⟩) [] ts ts' [⟨2020, 1, 1⟩] [⟨2020, 1, 1⟩, ⟨2020, 1, 12⟩] [⟨2020, 1, 11⟩] := by
  intro posting t ts ts'
  have key : ∀ (top : Str) (us : List (Transaction × Str)) (l : List Date), (∀ d ∈ us.map (fun tf => tf.1.date), d ∈ l ↔ dayPostings [] top us d ≠ []) →
      (∀ d ∈ l, d ∈ us.map fun tf => tf.1.date) → ∀ d, d ∈ l ↔ dayPostings [] top us d ≠ [] := by
    intro top us l h1 h2 d
    by_cases hd : d ∈ us.map fun tf => tf.1.date
    · exact h1 d hd
    · refine iff_of_false (fun h => hd (h2 d h)) (not_not.2 ?_)
      unfold dayPostings
      rw [List.filter_eq_nil_iff.2 fun tf htf e => hd (List.mem_map.2 ⟨tf, htf, of_decide_eq_true e⟩)]
      rfl
  refine ⟨⟨?_, key _ _ _ (by decide +kernel) (by decide +kernel)⟩, ⟨?_, key _ _ _ (by decide +kernel) (by decide +kernel)⟩,
    ⟨?_, key _ _ _ (by decide +kernel) (by decide +kernel)⟩, ⟨?_, key _ _ _ (by decide +kernel) (by decide +kernel)⟩, fun d hd => ⟨?_, ?_⟩, by decide +kernel, by decide +kernel, by decide +kernel⟩
  · unfold DaysSorted; decide +kernel
  · unfold DaysSorted; decide +kernel
  · unfold DaysSorted; decide +kernel
  · unfold DaysSorted; decide +kernel
  · have : d ≠ ⟨2020, 1, 12⟩ := by
      rintro rfl
      revert hd
      decide +kernel
    simp [this]
  · have : ¬ (⟨2020, 1, 12⟩ : Date) = d := by
      rintro rfl
      revert hd
      decide +kernel
    have e : dayPostings [] (str "Income") ts' d = dayPostings [] (str "Income") ts d := by
      show ((ts ++ [t 12 "Income:A" (-500)]).filter fun tf => decide (tf.1.date = d)).flatMap _ = _
      have e0 : ([t 12 "Income:A" (-500)].filter fun tf => decide (tf.1.date = d)) = [] := by simpa [t] using this
      rw [List.filter_append, e0, List.append_nil]
      rfl
    unfold earnedOn
    rw [e]

set_option maxRecDepth 100000 in
/-- Later income does not matter; if it is needed, it does. -/
theorem C148_needed_false :
    letI := asciiUnicode
    let a := machineWith (str "f") "2020-01-01 x\n  A  10\n  Income:A\n\n2020-01-11 y\n  Expenses:B  2\n  A\n"
    let b := machineWith (str "f") "2020-01-01 x\n  A  10\n  Income:A\n\n2020-01-11 y\n  Expenses:B  2\n  A\n\n2020-01-12 z\n  A  5\n  Income:B\n"
    let c := machineWith (str "f") "2020-01-01 x\n  A  1\n  Income:A\n\n2020-01-05 x\n  A  1\n  Income:A\n\n2020-01-11 y\n  Expenses:B  2\n  A\n"
    str "Age of money:\t\t10 days\n" <:+ (a.run { file := str "f" } .statistics []).stdout ∧
      str "Age of money:\t\t10 days\n" <:+ (b.run { file := str "f" } .statistics []).stdout ∧
      str "Age of money:\t\t8 days\n" <:+ (c.run { file := str "f" } .statistics []).stdout := by
  decide +kernel

end Gledger
