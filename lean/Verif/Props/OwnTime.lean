/-
C118, continued: what a run over midnight gives.
-/
import Verif.Props.Ticks

namespace Gledger

set_option maxRecDepth 100000

variable {σ τ : Type}

/-- What is left of a journal if of its transactions those are kept that are within the range of dates at the moment they are judged. -/
def Env.keptByTheClock (e : Env) (clock : Nat → Moment) : Nat → List Call → List Call
  | _, [] => []
  | n, .normal t f :: calls =>
    if (e.at (clock n)).withinDateRange t = .ok true then .normal t f :: e.keptByTheClock clock (n + 1) calls else e.keptByTheClock clock (n + 1) calls
  | n, .periodic pt f :: calls => .periodic pt f :: e.keptByTheClock clock n calls

/-- The same without any flags about dates. -/
def Env.undated (e : Env) : Env := { e with beginDate := [], endDate := [], current := false }

theorem undated_range (e : Env) {t : Transaction} (h : 0 ≤ t.date.instant) : e.undated.withinDateRange t = .ok true := by
  simp only [Env.withinDateRange, Env.bound, Env.undated]
  have : t.date.instant = 0 ∨ 0 < t.date.instant := by omega
  simpa using this

/-- Handlers that leave out what is out of range and otherwise are those without flags. -/
structure KeepsTime (e : Env) (clock : Nat → Moment) (H : Moment → Handlers σ) (K : Handlers σ) : Prop where
  th : ∀ w, (H w).th.isSome = true
  ph : ∀ w w', (H w).ph = (H w').ph
  normal : ∀ n u t f, 0 ≤ t.date.instant →
    (H (clock n)).call u (.normal t f) = if (e.at (clock n)).withinDateRange t = .ok true then K.call u (.normal t f) else (u, none)
  periodic : ∀ n u pt f, (H (clock n)).call u (.periodic pt f) = K.call u (.periodic pt f)

theorem ticking_normal (clock : Nat → Moment) (H : Moment → Handlers σ) (hth : ∀ w, (H w).th.isSome = true) (n : Nat) (u : σ) (t : Transaction) (f : Str) :
    (Handlers.ticking clock H).call (n, u) (.normal t f) =
      ((n + 1, ((H (clock n)).call u (.normal t f)).1), ((H (clock n)).call u (.normal t f)).2) := by
  obtain ⟨h, h1⟩ := Option.isSome_iff_exists.1 (hth (clock n))
  obtain ⟨h', h2⟩ := Option.isSome_iff_exists.1 (hth (clock 0))
  simp only [Handlers.call, Handlers.ticking, h1, h2, Option.map_some]

theorem ticking_periodic (clock : Nat → Moment) (H : Moment → Handlers σ) (hph : ∀ w w', (H w).ph = (H w').ph) (n : Nat) (u : σ) (pt : PeriodicTransaction) (f : Str) :
    (Handlers.ticking clock H).call (n, u) (.periodic pt f) =
      ((n, ((H (clock n)).call u (.periodic pt f)).1), ((H (clock n)).call u (.periodic pt f)).2) := by
  simp only [Handlers.call, Handlers.ticking, hph (clock 0) (clock n)]
  cases (H (clock n)).ph <;> rfl

theorem ticking_kept {e : Env} {clock : Nat → Moment} {H : Moment → Handlers σ} {K : Handlers σ} (h : KeepsTime e clock H K) (calls : List Call)
    (hz : ∀ t f, Call.normal t f ∈ calls → 0 ≤ t.date.instant) : ∀ n u,
    ((Handlers.ticking clock H).replay calls (n, u)).1.2 = (K.replay (e.keptByTheClock clock n calls) u).1 ∧
    ((Handlers.ticking clock H).replay calls (n, u)).2 = (K.replay (e.keptByTheClock clock n calls) u).2 := by
  induction calls with
  | nil => intro n u; exact ⟨rfl, rfl⟩
  | cons c calls ih =>
    intro n u
    have ih := ih fun t f hc => hz t f (List.mem_cons_of_mem _ hc)
    cases c with
    | normal t f =>
      simp only [Handlers.replay, ticking_normal clock H h.th, h.normal n u t f (hz t f (by simp)), Env.keptByTheClock]
      split
      · simp only [Handlers.replay]
        generalize K.call u (.normal t f) = r
        obtain ⟨v, _ | g⟩ := r
        · exact ih (n + 1) v
        · exact ⟨rfl, rfl⟩
      · exact ih (n + 1) u
    | periodic pt f =>
      simp only [Handlers.replay, ticking_periodic clock H h.ph, h.periodic n u pt f, Env.keptByTheClock]
      generalize K.call u (.periodic pt f) = r
      obtain ⟨v, _ | g⟩ := r
      · exact ih n v
      · exact ⟨rfl, rfl⟩

/-- Two journals of which the second delivers what the clock keeps of the first, and which end alike. -/
structure KeptJournal [Unicode] (fs : FileSystem) (maxOpen : Nat) (e : Env) (clock : Nat → Moment) (bytes : List UInt8) (path : Str) (bytes' : List UInt8) (path' : Str) :
    Prop where
  kept : delivered fs maxOpen bytes' path' = e.keptByTheClock clock 0 (delivered fs maxOpen bytes path)
  ends : rejection fs maxOpen bytes' path' = rejection fs maxOpen bytes path
  years : ∀ t f, Call.normal t f ∈ delivered fs maxOpen bytes path → 0 ≤ t.date.instant

section
variable [Unicode] {fs : FileSystem} {maxOpen : Nat} {e : Env} {clock : Nat → Moment} {bytes bytes' : List UInt8} {path path' : Str}

theorem tickPrinted_kept (k : KeptJournal fs maxOpen e clock bytes path bytes' path') {H : Moment → Handlers (σ × Str)} {K : Handlers (σ × Str)}
    (h : KeepsTime e clock H K) (u : σ) : tickPrinted clock fs maxOpen bytes path H u = printedBy fs maxOpen bytes' path' K u := by
  unfold tickPrinted printedBy
  rw [(parse_replay fs (Handlers.ticking clock H) maxOpen bytes path (0, u, [])).1, (parse_replay fs K maxOpen bytes' path' (u, [])).1, k.kept,
    (ticking_kept h _ k.years 0 (u, [])).1]

theorem tickParse_kept (k : KeptJournal fs maxOpen e clock bytes path bytes' path') {H : Moment → Handlers σ} {K : Handlers σ}
    (h : KeepsTime e clock H K) {e' : Env} (hu : K.Usual e') (hd : e'.dateError = none) (u : σ) :
    tickParse clock fs maxOpen bytes path H u = runParse fs maxOpen bytes' path' K u := by
  obtain ⟨h1, h2⟩ := ticking_kept h _ k.years 0 u
  obtain ⟨a1, a2, a3⟩ := runParse_cases fs maxOpen bytes path (Handlers.ticking clock H) (0, u)
  obtain ⟨b1, b2, b3⟩ := runParse_cases fs maxOpen bytes' path' K u
  rw [k.kept, k.ends] at b1
  rw [k.kept, k.ends] at b2
  rw [k.kept] at b3
  rw [← h2] at b1 b2 b3
  unfold tickParse
  cases hs : ((Handlers.ticking clock H).replay (delivered fs maxOpen bytes path) (0, u)).2 with
  | none =>
    cases hr : rejection fs maxOpen bytes path with
    | none => rw [a2 hs hr, b2 hs hr, ← h1]; rfl
    | some f => rw [a1 hs f hr, b1 hs f hr]; rfl
  | some g =>
    obtain ⟨f, c1, c2⟩ := a3 g hs
    obtain ⟨f', c1', c2'⟩ := b3 g hs
    rcases (hu.replay _ u).1 g (h2.symm.trans hs) with rfl | ⟨x, hx, _⟩
    · rw [core_panic c1] at c2
      rw [core_panic c1'] at c2'
      rw [c2, c2']
      rfl
    · rw [hd] at hx; cases hx

end

theorem undated_dateError (e : Env) : e.undated.dateError = none := by simp [Env.dateError, Env.undated]

theorem check_kept {e : Env} {clock : Nat → Moment} (hd : ∀ n, (e.at (clock n)).dateError = none)
    (ho : (∀ n, (clock n).order = e.mapOrder) ∨ e.filters = []) (n : Nat) {t : Transaction} (hz : 0 ≤ t.date.instant) :
    (e.at (clock n)).checkAgainstFilters t = if (e.at (clock n)).withinDateRange t = .ok true then e.undated.checkAgainstFilters t else .ok (false, []) := by
  obtain ⟨b, hb⟩ := (withinDateRange_dateError (e.at (clock n)) t).2 (hd n)
  simp only [Env.checkAgainstFilters, hb, undated_range e hz]
  cases b with
  | false => rfl
  | true =>
    simp only [if_true]
    rcases ho with ho | ho
    · simp only [Env.at, Env.undated, ho n]
      rfl
    · simp [Env.at, Env.undated, ho]

theorem dateChecked_kept {e : Env} {clock : Nat → Moment} (hd : ∀ n, (e.at (clock n)).dateError = none) (h : σ → Transaction → Str → Step σ) :
    KeepsTime e clock (fun w => (Handlers.mk (some ((e.at w).dateChecked h)) none)) (Handlers.mk (some (e.undated.dateChecked h)) none) := by
  refine ⟨fun _ => rfl, fun _ _ => rfl, fun n u t f hz => ?_, fun _ _ _ _ => rfl⟩
  obtain ⟨b, hb⟩ := (withinDateRange_dateError (e.at (clock n)) t).2 (hd n)
  simp only [Handlers.call, Env.dateChecked, hb, undated_range e hz]
  cases b <;> simp

section
variable {e : Env} {clock : Nat → Moment} (hd : ∀ n, (e.at (clock n)).dateError = none) (ho : (∀ n, (clock n).order = e.mapOrder) ∨ e.filters = [])
include hd ho

theorem print_kept : KeepsTime e clock (fun w => (e.at w).printHandlers) e.undated.printHandlers := by
  refine ⟨fun _ => rfl, fun _ _ => rfl, fun n u t f hz => ?_, fun _ _ _ _ => rfl⟩
  simp only [Handlers.call, Env.printHandlers, Env.printHandler, check_kept hd ho n hz]
  by_cases hw : (e.at (clock n)).withinDateRange t = .ok true <;> simp [hw]

theorem stats_kept : KeepsTime e clock (fun w => (e.at w).statsHandlers) e.undated.statsHandlers := by
  refine ⟨fun _ => rfl, fun _ _ => rfl, fun n u t f hz => ?_, fun _ _ _ _ => rfl⟩
  simp only [Handlers.call, Env.statsHandlers, Env.statsHandler, check_kept hd ho n hz]
  by_cases hw : (e.at (clock n)).withinDateRange t = .ok true <;> simp [hw]

theorem balance_kept : KeepsTime e clock (fun w => (e.at w).balanceHandlers) e.undated.balanceHandlers := by
  refine ⟨fun _ => rfl, fun _ _ => rfl, fun n u t f hz => ?_, fun _ _ _ _ => rfl⟩
  simp only [Handlers.call, Env.balanceHandlers, Env.balanceHandler, check_kept hd ho n hz]
  by_cases hw : (e.at (clock n)).withinDateRange t = .ok true <;> simp [hw]

theorem budget_kept : KeepsTime e clock (fun w => (e.at w).budgetHandlers) e.undated.budgetHandlers := by
  refine ⟨fun _ => rfl, fun _ _ => rfl, fun n u t f hz => ?_, fun _ _ _ _ => rfl⟩
  simp only [Handlers.call, Env.budgetHandlers, Env.budgetHandler, check_kept hd ho n hz]
  by_cases hw : (e.at (clock n)).withinDateRange t = .ok true <;> simp [hw]

theorem balancePrinting_kept : KeepsTime e clock (fun w => (e.at w).balancePrinting) e.undated.balancePrinting := by
  refine ⟨fun _ => rfl, fun _ _ => rfl, fun n u t f hz => ?_, fun _ _ _ _ => rfl⟩
  simp only [Handlers.call, Env.balancePrinting, Handlers.printing, Env.balanceHandlers, Option.map_some, Env.balanceHandler, Env.balanceOut, check_kept hd ho n hz]
  by_cases hw : (e.at (clock n)).withinDateRange t = .ok true <;> simp [hw, addPostingsOut]

theorem budgetPrinting_kept : KeepsTime e clock (fun w => (e.at w).budgetPrinting) e.undated.budgetPrinting := by
  refine ⟨fun _ => rfl, fun _ _ => rfl, fun n u t f hz => ?_, fun _ _ _ _ => rfl⟩
  simp only [Handlers.call, Env.budgetPrinting, Handlers.printing, Env.budgetHandlers, Option.map_some, Env.budgetHandler, Env.budgetOut, check_kept hd ho n hz]
  by_cases hw : (e.at (clock n)).withinDateRange t = .ok true <;> simp [hw, budgetAddPostingsOut]

end

/-- What a run gives whatever the clock does: what the program gives, without flags about dates, of a journal of just those transactions that were within the range of
dates when they were judged. The flags have to be dates at every moment, and no transaction is of the year 0 (which is out of range unless a flag names it). -/
theorem C118_own_time_partial [Unicode] (m : Machine) (clock : Nat → Moment) (e : Env) (o : Options) (args : List Str) (c : Command)
    (bytes bytes' : List UInt8) (path path' : Str) (k : KeptJournal m.fs m.maxOpen e clock bytes path bytes' path')
    (hd : ∀ n, (e.at (clock n)).dateError = none) (ho : (∀ n, (clock n).order = e.mapOrder) ∨ e.filters = []) :
    m.runOnTicking clock e o args bytes path c = m.runOn e.undated o args bytes' path' c := by
  have hu := undated_dateError e
  cases c with
  | version => rfl
  | accounts =>
    have := tickParse_kept k (dateChecked_kept hd accountsHandler) (accounts_usual e.undated).1 hu []
    simp only [Machine.runOnTicking, Machine.runOn, accountsCmd]
    rw [show (fun w => (e.at w).accountsHandlers) = fun w => (Handlers.mk (some ((e.at w).dateChecked accountsHandler)) none) from rfl, this]
    rfl
  | payees =>
    have := tickParse_kept k (dateChecked_kept hd payeesHandler) (payees_usual e.undated).1 hu []
    simp only [Machine.runOnTicking, Machine.runOn, payeesCmd]
    rw [show (fun w => (e.at w).payeesHandlers) = fun w => (Handlers.mk (some ((e.at w).dateChecked payeesHandler)) none) from rfl, this]
    rfl
  | print =>
    simp only [Machine.runOnTicking, Machine.runOn, printCmd]
    rw [tickParse_kept k (print_kept hd ho) (print_usual e.undated).1 hu []]
  | statistics =>
    simp only [Machine.runOnTicking, Machine.runOn, statsCmd]
    rw [tickParse_kept k (stats_kept hd ho) (stats_usual e.undated) hu {}]
  | balance =>
    simp only [Machine.runOnTicking, Machine.runOn, balanceCmd]
    rw [tickParse_kept k (balance_kept hd ho) (balance_usual e.undated) hu newJournal, tickPrinted_kept k (balancePrinting_kept hd ho) newJournal]
  | budget =>
    simp only [Machine.runOnTicking, Machine.runOn, budgetCmd]
    rw [tickParse_kept k (budget_kept hd ho) (budget_usual e.undated) hu [], tickPrinted_kept k (budgetPrinting_kept hd ho) []]

/-- Over midnight: of two transactions of the day after tomorrow, the second is kept. -/
example :
    letI := asciiUnicode
    let e : Env := { current := true }
    KeptJournal noFiles 10 e midnightClock (utf8 "2020-01-03 a\n  A  1\n  B\n\n2020-01-03 b\n  A  1\n  B\n") (str "f")
        (utf8 "2020-01-03 b\n  A  1\n  B\n") (str "f") ∧
      (∀ n, (e.at (midnightClock n)).dateError = none) ∧ (∀ n, (midnightClock n).order = e.mapOrder) := by
  let := asciiUnicode
  refine ⟨⟨by decide +kernel, by decide +kernel, ?_⟩, fun n => rfl, fun n => rfl⟩
  have : (delivered noFiles 10 (utf8 "2020-01-03 a\n  A  1\n  B\n\n2020-01-03 b\n  A  1\n  B\n") (str "f")).all
      (fun c => match c with | .normal t _ => decide (0 ≤ t.date.instant) | .periodic _ _ => true) = true := by decide +kernel
  intro t f ht
  simpa using (List.all_eq_true.1 this) _ ht

end Gledger
