/-
C96: which journals make a command crash.
-/
import Verif.Props.Adding
import Verif.Props.Orders

namespace Gledger

set_option maxRecDepth 100000

/-- What a command cannot compute with: an amount that is missing where one is needed. Balance adds up all selected postings,
statistics those to Income and Expenses, and budget those it files (which must also name a category). -/
def Command.Lacks (e : Env) (calls : List Call) : Command → Prop
  | .balance => ∃ p ∈ e.selected calls, p.amount = none
  | .statistics => ∃ p ∈ e.selected calls, p.amount = none ∧ (p.components.headD [] = incomeID ∨ p.components.headD [] = expensesID)
  | .budget => ∃ x ∈ e.filed calls, ¬ x.Fileable
  | _ => False

instance (e : Env) (calls : List Call) (c : Command) : Decidable (c.Lacks e calls) := by cases c <;> unfold Command.Lacks <;> infer_instance

theorem addBuckets_none (d : Date) (ps : List Posting) : ∀ s : Stats, Stats.addBuckets d ps s = none ↔
    ∃ p ∈ ps, p.amount = none ∧ (p.components.headD [] = incomeID ∨ p.components.headD [] = expensesID) := by
  induction ps with
  | nil => intro s; simp [Stats.addBuckets]
  | cons p ps ih =>
    intro s
    rw [Stats.addBuckets, Option.bind_eq_none_iff]
    have key : s.addBucket d p = none ↔ p.amount = none ∧ (p.components.headD [] = incomeID ∨ p.components.headD [] = expensesID) := by
      unfold Stats.addBucket
      simp only [show split ':' p.accountPath = p.components from rfl]
      by_cases h1 : p.components.headD [] = incomeID
      · rw [if_pos h1]; simp only [Option.map_eq_none_iff, h1, true_or, and_true]
      · rw [if_neg h1]
        by_cases h2 : p.components.headD [] = expensesID
        · rw [if_pos h2]; simp only [Option.map_eq_none_iff, h2, or_true, and_true]
        · rw [if_neg h2]; simp only [reduceCtorEq, h1, h2, or_self, and_false]
    constructor
    · intro h
      cases hb : s.addBucket d p with
      | none => exact ⟨p, by simp, key.1 hb⟩
      | some s' =>
        obtain ⟨q, hq, h'⟩ := (ih s').1 (h s' hb)
        exact ⟨q, by simp [hq], h'⟩
    · rintro ⟨q, hq, h'⟩ s' hs'
      rcases List.mem_cons.1 hq with rfl | hq
      · rw [key.2 h'] at hs'; cases hs'
      · exact (ih s').2 ⟨q, hq, h'⟩

theorem stats_ready (e : Env) (ho : ∀ l, (e.mapOrder l).Perm l) (hd : e.dateError = none) (calls : List Call) : ∀ s : Stats,
    ((e.statsHandlers.replay calls s).2 = none ↔ ¬ Command.statistics.Lacks e calls) := by
  induction calls with
  | nil => intro s; simp [Handlers.replay, Command.Lacks, Env.selected]
  | cons c calls ih =>
    intro s
    have hL : Command.statistics.Lacks e (c :: calls) ↔
        (∃ p ∈ e.selectedOf c, p.amount = none ∧ (p.components.headD [] = incomeID ∨ p.components.headD [] = expensesID)) ∨
          Command.statistics.Lacks e calls := by
      simp only [Command.Lacks, Env.selected, List.flatMap_cons, List.mem_append, or_and_right, exists_or]
    rw [hL, Handlers.replay]
    cases c with
    | periodic pt f =>
      have h0 : e.statsHandlers.call s (.periodic pt f) = (s, none) := rfl
      rw [h0, Step.andThen]
      simp only [Env.selectedOf]
      rw [ih s]
      simp
    | normal t f =>
      have hcall : e.statsHandlers.call s (.normal t f) = e.statsHandler s t f := rfl
      rw [hcall, Env.statsHandler]
      obtain ⟨b, hr⟩ := (withinDateRange_dateError e t).2 hd
      cases b with
      | false =>
        rw [C44_out_of_range e t hr]
        simp only [List.length_nil, and_self, if_true, Step.andThen]
        rw [ih s]
        simp [Env.selectedOf, hr]
      | true =>
        obtain ⟨qs, h1, h2⟩ := C44_any_of e ho t hr
        have hso : e.selectedOf (.normal t f) = selection e.filters t := by simp [Env.selectedOf, hr]
        rw [h1, hso]
        simp only
        have hmem : ∀ p, p ∈ selection e.filters t ↔ p ∈ qs := fun p => h2.mem_iff.symm
        simp only [hmem]
        split
        · rename_i hc
          have h0 : qs = [] := by simpa using hc.2
          simp only [Step.andThen]
          rw [ih s]
          simp [h0]
        · have := addBuckets_none t.date qs
          split
          · rename_i s' hs'
            have hn := mt (this _).2 (by rw [hs']; simp)
            simp only [Step.andThen]
            rw [ih s']
            simp only [hn, false_or]
          · rename_i hs'
            have hn := (this _).1 hs'
            refine ⟨fun h => ?_, fun h => absurd (Or.inl hn) h⟩
            simp [panicking, Step.andThen] at h

theorem budget_ready (e : Env) (ho : ∀ l, (e.mapOrder l).Perm l) (hd : e.dateError = none) (calls : List Call) : ∀ (b : Budget) (es : List Filed),
    b.Holds es → (∀ x ∈ e.filed calls, 1 ≤ x.date.day) → ((e.budgetHandlers.replay calls b).2 = none ↔ ¬ Command.budget.Lacks e calls) := by
  induction calls with
  | nil => intro b es _ _; simp [Handlers.replay, Command.Lacks, Env.filed]
  | cons c calls ih =>
    intro b es H hday
    have hL : Command.budget.Lacks e (c :: calls) ↔ (∃ x ∈ e.filedOf c, ¬ x.Fileable) ∨ Command.budget.Lacks e calls := by
      simp only [Command.Lacks, Env.filed, List.flatMap_cons, List.mem_append, or_and_right, exists_or]
    have hfl : e.filed (c :: calls) = e.filedOf c ++ e.filed calls := by simp [Env.filed]
    rw [hfl] at hday
    have hday1 := fun x hx => hday x (List.mem_append_left _ hx)
    have hday2 := fun x hx => hday x (List.mem_append_right _ hx)
    -- a call files postings or panics
    have step : ∃ xs, xs.Perm (e.filedOf c) ∧ ∃ b0, e.budgetHandlers.call b c = match Budget.addEach xs b with
        | some b' => (b', none)
        | none => (b0, some (.panic .unusablePosting)) := by
      cases c with
      | periodic pt f =>
        refine ⟨_, List.Perm.refl _, b, ?_⟩
        simp only [Handlers.call, Env.budgetHandlers]
        rw [budgetPeriodicHandler, PeriodicTransaction.run, Env.filedOf]
        by_cases hi : pt.period.interval = .none
        · rw [if_pos hi, if_pos hi]
          simp only [addEnvelopes_filed]
          rfl
        · rw [if_neg hi, if_neg hi]
          rfl
      | normal t f =>
        simp only [Handlers.call, Env.budgetHandlers]
        rw [Env.budgetHandler]
        obtain ⟨r, hr⟩ := (withinDateRange_dateError e t).2 hd
        cases r with
        | false =>
          refine ⟨[], by simp [Env.filedOf, Env.selectedOf, hr], b, ?_⟩
          rw [C44_out_of_range e t hr]
          rfl
        | true =>
          obtain ⟨qs, k1, k2⟩ := C44_any_of e ho t hr
          have hso : e.selectedOf (.normal t f) = selection e.filters t := by simp [Env.selectedOf, hr]
          rw [k1]
          simp only
          rw [Env.filedOf, hso]
          refine ⟨_, k2.filterMap _, b, ?_⟩
          split
          · rename_i hc
            have h0 : qs = [] := by simpa using hc.2
            rw [h0]; rfl
          · rw [addPostings_filed]
            rfl
    obtain ⟨xs, hx, b0, hcall⟩ := step
    rw [hL, Handlers.replay, hcall]
    have hmem : ∀ x, x ∈ e.filedOf c ↔ x ∈ xs := fun x => hx.mem_iff.symm
    simp only [hmem]
    obtain ⟨a1, a2⟩ := budget_adds xs H fun x hm => hday1 x ((hmem x).2 hm)
    by_cases hf : ∀ x ∈ xs, x.Fileable
    · obtain ⟨b', e1, H'⟩ := a1 hf
      rw [e1]
      simp only [Step.andThen]
      rw [ih b' _ H' hday2]
      have : ¬ ∃ x ∈ xs, ¬ x.Fileable := by push Not; exact hf
      simp only [this, false_or]
    · push Not at hf
      rw [a2 hf]
      refine ⟨fun h => ?_, fun h => absurd (Or.inl hf) h⟩
      simp [Step.andThen] at h

/-- With date flags that can be read, a command stops at the transactions of a journal exactly if it lacks an amount, and then with a panic. -/
theorem C96_stopped [Unicode] (e : Env) (ho : ∀ l, (e.mapOrder l).Perm l) (hd : e.dateError = none) (fs : FileSystem) (maxOpen : Nat)
    (bytes : List UInt8) (path : Str) (c : Command) :
    c.stopped e (delivered fs maxOpen bytes path) =
      if c.Lacks e (delivered fs maxOpen bytes path) then some (.panic .unusablePosting) else none := by
  have key : c.stopped e (delivered fs maxOpen bytes path) = none ↔ ¬ c.Lacks e (delivered fs maxOpen bytes path) := by
    have calm : ∀ g, c.stopped e (delivered fs maxOpen bytes path) = some g → c = .balance ∨ c = .budget ∨ c = .statistics := by
      intro g hg
      by_cases hv : c = .version
      · subst hv; cases hg
      · rcases (stopped_cases e _ hv).1 g hg with ⟨_, h⟩ | ⟨x, hx, _⟩
        · exact h
        · rw [hd] at hx; cases hx
    have never : ¬ (c = .balance ∨ c = .budget ∨ c = .statistics) → c.stopped e (delivered fs maxOpen bytes path) = none := by
      intro h
      cases hs : c.stopped e (delivered fs maxOpen bytes path) with
      | none => rfl
      | some g => exact absurd (calm g hs) h
    cases c with
    | accounts => exact ⟨fun _ h => h, fun _ => never (by decide)⟩
    | payees => exact ⟨fun _ h => h, fun _ => never (by decide)⟩
    | print => exact ⟨fun _ h => h, fun _ => never (by decide)⟩
    | version => exact ⟨fun _ h => h, fun _ => never (by decide)⟩
    | statistics => exact stats_ready e ho hd _ {}
    | budget => exact budget_ready e ho hd _ [] [] empty_holds (filed_days e fs maxOpen bytes path)
    | balance =>
      refine (balance_ready e ho _ newJournal [] (newAccount_books _)).trans ?_
      unfold Env.Ready Command.Lacks
      push Not
      exact ⟨fun h => h.2, fun h => ⟨fun tf _ => (withinDateRange_dateError e tf.1).2 hd, h⟩⟩
  by_cases hl : c.Lacks e (delivered fs maxOpen bytes path)
  · rw [if_pos hl]
    have hv : c ≠ .version := by rintro rfl; exact hl
    cases hs : c.stopped e (delivered fs maxOpen bytes path) with
    | none => exact absurd hl (key.1 hs)
    | some g =>
      rcases (stopped_cases e _ hv).1 g hs with ⟨h, _⟩ | ⟨x, hx, _⟩
      · rw [h]
      · rw [hd] at hx; cases hx
  · rw [if_neg hl]; exact key.2 hl

/-- On an accepted journal, with date flags that can be read, a command ends with a panic exactly if it lacks an amount, and with status 0
otherwise. -/
theorem C96_crash [Unicode] (m : Machine) (e : Env) (ho : ∀ l, (e.mapOrder l).Perm l) (hd : e.dateError = none) (o : Options) (args : List Str)
    (bytes : List UInt8) (path : Str) (c : Command) (hr : rejection m.fs m.maxOpen bytes path = none) :
    (m.runOn e o args bytes path c).ending =
      if c.Lacks e (delivered m.fs m.maxOpen bytes path) then .panic .unusablePosting else .exit 0 := by
  have hs := C96_stopped e ho hd m.fs m.maxOpen bytes path c
  by_cases hl : c.Lacks e (delivered m.fs m.maxOpen bytes path)
  · rw [if_pos hl] at hs ⊢
    have hv : c ≠ .version := by rintro rfl; exact hl
    obtain ⟨f, hf, hrun⟩ := (runOn_error m e o args bytes path hv).2 _ hs
    rw [hrun, core_panic hf]
    rfl
  · rw [if_neg hl] at hs ⊢
    exact runOn_success m e o args bytes path hs hr

/-- A third posting without an amount where the others cancel: balance panics, statistics and budget do not as it is no income or expense;
with one that is, all three panic; a posting to Expenses without a category stops budget only. -/
example :
    letI := asciiUnicode
    let run (text : String) (c : Command) : Ending := ((machineWith (str "f") text).run { file := str "f" } c []).ending
    let assets := "2020-01-01 x\n  A  1\n  B  -1\n  C\n"
    let spending := "2020-01-01 x\n  A  1\n  B  -1\n  Expenses:C\n"
    let bare := "2020-01-01 x\n  Expenses  1\n  B  -1\n"
    run assets .balance = .panic .unusablePosting ∧ run assets .statistics = .exit 0 ∧ run assets .budget = .exit 0 ∧
    run spending .balance = .panic .unusablePosting ∧ run spending .statistics = .panic .unusablePosting ∧ run spending .budget = .panic .unusablePosting ∧
    run bare .balance = .exit 0 ∧ run bare .statistics = .exit 0 ∧ run bare .budget = .panic .unusablePosting ∧
    run spending .print = .exit 0 ∧ run spending .accounts = .exit 0 ∧ run spending .payees = .exit 0 := by
  decide +kernel

end Gledger
