/-
The words that the program knows, as they are spelled (journal/journal.go:9-15). The claims about budgets, statistics and hidden accounts are stated with
the program's own constants; here is what they say with the words themselves.
-/
import Verif.Props.Scale

namespace Gledger

/-- What is filed as spending and as income: what is posted to `Expenses` and to `Income`, or below them, and nothing else. -/
theorem C56_words (e : Env) (t : Transaction) (f : Str) (x : Filed) :
    x ∈ e.filedOf (.normal t f) ↔ ∃ p ∈ e.selectedOf (.normal t f), ∃ c cs, p.components = c :: cs ∧
      (c = str "Expenses" ∧ x = ⟨t.date, p, .expense⟩ ∨ c = str "Income" ∧ x = ⟨t.date, p, .income⟩) := by
  have hne : str "Expenses" ≠ str "Income" := by decide
  unfold Env.filedOf
  rw [List.mem_filterMap]
  constructor
  · rintro ⟨p, hp, hx⟩
    refine ⟨p, hp, ?_⟩
    cases hc : p.components with
    | nil =>
      rw [hc] at hx
      exact absurd hx (by rw [if_neg (by decide), if_neg (by decide)]; simp)
    | cons c cs =>
      rw [hc, List.headD_cons] at hx
      refine ⟨c, cs, rfl, ?_⟩
      by_cases h1 : c = expensesID
      · rw [if_pos h1] at hx
        exact Or.inl ⟨h1, (Option.some.inj hx).symm⟩
      · rw [if_neg h1] at hx
        by_cases h2 : c = incomeID
        · rw [if_pos h2] at hx
          exact Or.inr ⟨h2, (Option.some.inj hx).symm⟩
        · rw [if_neg h2] at hx
          cases hx
  · rintro ⟨p, hp, c, cs, hc, ⟨h, rfl⟩ | ⟨h, rfl⟩⟩
    · exact ⟨p, hp, by rw [hc, List.headD_cons, if_pos (show c = expensesID from h)]⟩
    · refine ⟨p, hp, ?_⟩
      rw [hc, List.headD_cons, if_neg (show ¬ c = expensesID from fun e => hne (e.symm.trans h)), if_pos (show c = incomeID from h)]

/-- The same for what the budget of a written journal is made of. -/
theorem C67_words (filters : List Filter) (admits : Date → Bool) (t : Transaction) (ha : admits t.date = true) :
    (Meant.transaction t).filed filters admits = (selection filters t).filterMap fun p =>
      if p.components.headD [] = str "Expenses" then some ⟨t.date, p, .expense⟩
      else if p.components.headD [] = str "Income" then some ⟨t.date, p, .income⟩ else none := by
  unfold Meant.filed
  dsimp only
  rw [if_pos ha]
  rfl

/-- Money put back into the pool of unassigned funds is what is budgeted for `_budget_root_`. -/
theorem C57_words (e : Filed) : e.category = none ↔ e.type = .income ∨ e.type = .envelope ∧ e.posting.accountPath = str "_budget_root_" := by
  unfold Filed.category
  cases e.type with
  | income => simp
  | expense => simp
  | envelope =>
    by_cases h : e.posting.accountPath = budgetRootID
    · simp [h]; rfl
    · simp only [if_neg h, reduceCtorEq, true_and, false_or, false_iff]
      exact h

/-- For which postings statistics need an amount. -/
theorem C96_words (filters : List Filter) (admits : Date → Bool) (ms : List Meant) :
    Command.statistics.Short filters admits ms ↔
      ∃ p ∈ askedPostings filters admits ms, p.amount = none ∧ (p.components.headD [] = str "Income" ∨ p.components.headD [] = str "Expenses") := Iff.rfl

/-- What counts for the age of money: a posting to `Income` or below it is income of its day, one to `Expenses` or below it is spending, and others do not count. -/
theorem C54_words (d : Date) (s : Stats) (p : Posting) (a : Amount) (ha : p.amount = some a) :
    (p.components.headD [] = str "Income" → s.addBucket d p = some { s with income := s.income.put d (s.income.get d - a.quantity) }) ∧
    (p.components.headD [] = str "Expenses" → s.addBucket d p = some { s with expense := s.expense.put d (s.expense.get d + a.quantity) }) ∧
    (p.components.headD [] ≠ str "Income" → p.components.headD [] ≠ str "Expenses" → s.addBucket d p = some s) := by
  have hne : str "Expenses" ≠ str "Income" := by decide
  unfold Stats.addBucket
  rw [ha]
  refine ⟨fun h => ?_, fun h => ?_, fun h1 h2 => ?_⟩
  · exact if_pos h
  · exact (if_neg fun e => hne (h.symm.trans e)).trans (if_pos h)
  · exact (if_neg h1).trans (if_neg h2)

/-- Which accounts are never hidden. -/
theorem C34_words (ps : List Posting) (cs : List Str) :
    Shown false ps cs ↔ (cs = [] ∨ ∃ p ∈ ps, cs <+: p.components) ∧
      ∀ es, es <+: cs → es ≠ [] → valueOf (below es ps) ≠ 0 ∨ es.getLast? = some (str "_root_") := by
  unfold Shown
  simp only [Bool.false_eq_true, false_or]
  exact Iff.rfl

/-- Dates are printed as YYYY-MM-DD. -/
theorem C11_layout (d : Date) (hr : d.Real) (h0 : 0 ≤ d.year) (h1 : d.year ≤ 9999) : WrittenYMD '-' d.format d := format_written hr h0 h1

example : (⟨2020, 2, 29⟩ : Date).Real ∧ (⟨2020, 2, 29⟩ : Date).format = str "2020-02-29" := by decide

/-- A journal in which each of these words matters. -/
example :
    let posting (a : String) : Posting := { accountPath := str a, amount := some ⟨str "$", 100⟩ }
    let t : Transaction := { date := ⟨2020, 1, 2⟩, postings := [posting "Expenses:Food", posting "Income", posting "Expense:Food", posting "Assets:Income"] }
    (Meant.transaction t).filed [] (fun _ => true) = [⟨⟨2020, 1, 2⟩, posting "Expenses:Food", .expense⟩, ⟨⟨2020, 1, 2⟩, posting "Income", .income⟩] := by
  decide +kernel

end Gledger
