/-
C135: the figures of the statistics fit together.
-/
import Verif.Props.AlikeToo

namespace Gledger

/-- Figures that fit together: something is counted, and it is written somewhere and paid to someone, no more of either than transactions; no more accounts than
postings; the first day is not after the last; and no money is older than the period. -/
structure Figures.Fit (postings : Nat) (f : Figures) : Prop where
  files : 1 ≤ f.files.length ∧ f.files.length ≤ f.count
  payees : 1 ≤ f.payees ∧ f.payees ≤ f.count
  accounts : f.accounts ≤ postings
  dates : f.first.dayNumber ≤ f.last.dayNumber
  period : f.days = 0 ↔ f.first.dayNumber = f.last.dayNumber
  age : f.age ≤ f.days

theorem nodup_image_le {α β : Type} {l : List β} (hn : l.Nodup) {ts : List α} {g : α → β} (h : ∀ b ∈ l, ∃ a ∈ ts, g a = b) : l.length ≤ ts.length := by
  rw [← List.length_map (f := g)]
  exact (hn.subperm fun b hb => by
    obtain ⟨a, ha, rfl⟩ := h b hb
    exact List.mem_map_of_mem ha).length_le

/-- The figures of transactions none of which is on 1 January of the year 1 fit together. -/
theorem C135_figures {fs : List Filter} {ts : List (Transaction × Str)} (hts : ts ≠ []) (hz : ∀ tf ∈ ts, ¬ tf.1.date.isZero) {f : Figures} (h : FiguresOf fs ts f) :
    f.Fit (ts.flatMap fun tf => selection fs tf.1).length := by
  obtain ⟨x, hx⟩ := List.exists_mem_of_ne_nil _ hts
  obtain ⟨⟨a, ha, e1⟩, _⟩ := h.first hz
  have h2 := (h.last hz).2 a ha
  rw [e1] at h2
  obtain ⟨ps, p1, p2, p3⟩ := h.payees
  obtain ⟨as, a1, a2, a3⟩ := h.accounts
  have hd := h.days hz
  refine ⟨⟨?_, ?_⟩, ⟨?_, ?_⟩, ?_, h2, ?_, h.young hz⟩
  · exact List.length_pos_iff.2 (List.ne_nil_of_mem ((h.files.2 x.2).2 ⟨x, hx, rfl⟩))
  · rw [h.count]
    exact nodup_image_le h.files.1 fun b hb => (h.files.2 b).1 hb
  · rw [p3]
    exact List.length_pos_iff.2 (List.ne_nil_of_mem ((p2 x.1.payee).2 ⟨x, hx, rfl⟩))
  · rw [h.count, p3]
    exact nodup_image_le (g := fun tf => tf.1.payee) p1 fun b hb => (p2 b).1 hb
  · rw [a3]
    refine nodup_image_le (g := Posting.accountPath) a1 fun b hb => ?_
    obtain ⟨tf, htf, p, hp, e⟩ := (a2 b).1 hb
    exact ⟨p, List.mem_flatMap.2 ⟨tf, htf, hp⟩, e⟩
  · omega

section
variable [Unicode] {m : Machine} {o : Options} {args : List Str} {bytes : List UInt8} {js : List (Meant × Str)} {filters : List Filter} {admits : Date → Bool} {path : Str}

/-- Whatever is in the journal and whatever is asked for: the figures that `statistics` prints are those of the transactions asked for, and fit together. -/
theorem C135_runs_partial (g : Setting m o args bytes filters admits path) {pg : Page} (r : Reading m.fs m.lib m.maxOpen path bytes js (.ok pg))
    (hs : ¬ Command.statistics.Short filters admits (meanings js)) (hz : ∀ tf ∈ wantedIn filters admits js, ¬ tf.1.date.isZero) :
    (wantedIn filters admits js = [] ∧ m.run o .statistics args = ⟨str "No transactions matched arguments.\n", .exit 0⟩) ∨
    ∃ f, FiguresOf filters (wantedIn filters admits js) f ∧ f.Fit ((wantedIn filters admits js).flatMap fun tf => selection filters tf.1).length ∧
      m.run o .statistics args = ⟨(f.lines m.humanize).flatMap (· ++ str "\n"), .exit 0⟩ := by
  obtain ⟨d1, d2, _⟩ := C99_parsed r
  obtain ⟨text, h1, h2⟩ := Heard.statistics (js := js) ⟨g, d1⟩ (d2 pg rfl) hs
  by_cases h : wantedIn filters admits js = []
  · rw [if_pos h] at h2
    exact Or.inl ⟨h, by rw [h1, h2]⟩
  · rw [if_neg h] at h2
    obtain ⟨f, f1, f2⟩ := h2
    exact Or.inr ⟨f, f1, C135_figures h hz f1, by rw [h1, f2]⟩

end

/-- Not so if something is earned on 1 January of the year 1: a day the program takes for none, so that the period begins later. Here money ten days old is found in
a period of one day. -/
theorem C135_first_day_false :
    letI := asciiUnicode
    let a := machineWith (str "f") "0001-01-01 x\n  A  10\n  Income:A\n\n0001-01-11 y\n  Expenses:B  2\n  A\n\n0001-01-12 x\n  Expenses:B  3\n  A\n"
    (str "Time period:\t\t1 days\n" <:+: (a.run { file := str "f" } .statistics []).stdout) ∧ (str "Age of money:\t\t10 days\n" <:+: (a.run { file := str "f" } .statistics []).stdout) := by
  decide +kernel

/-- Each of 311 amounts was a year old when it was spent, yet their average age is negative (and 0 is shown): together they are older than 292 years, the most that
a duration holds. So it can happen that the age is far below the truth, but never above the period. -/
theorem C64_overflow_false : (averageAge (List.replicate 311 (⟨2021, 1, 1⟩, ⟨2020, 1, 1⟩))).toInt < 0 := by decide +kernel

/-- Money as old as the period. -/
example :
    letI := asciiUnicode
    let a := machineWith (str "f") "2020-01-01 x\n  A  10\n  Income:A\n\n2020-03-01 y\n  Expenses:B  2\n  A\n"
    (str "Time period:\t\t60 days\n" <:+: (a.run { file := str "f" } .statistics []).stdout) ∧ (str "Age of money:\t\t60 days\n" <:+: (a.run { file := str "f" } .statistics []).stdout) := by
  decide +kernel

/-- Spent before it is earned, and more than is earned. -/
example :
    letI := asciiUnicode
    let a := machineWith (str "f") "2020-01-01 x\n  Expenses:B  10\n  A\n\n2020-03-01 y\n  A  2\n  Income:A\n"
    (str "Time period:\t\t60 days\n" <:+: (a.run { file := str "f" } .statistics []).stdout) ∧ (str "Age of money:\t\t0 days\n" <:+: (a.run { file := str "f" } .statistics []).stdout) := by
  decide +kernel

end Gledger
