/-
C118: time may pass during a run.
-/
import Verif.Model.Clock
import Verif.Props.Surroundings

namespace Gledger

variable {σ : Type}

theorem ticking_hom (clock : Nat → Moment) (H : Moment → Handlers σ) (K : Handlers σ) (h : ∀ n, H (clock n) = K) :
    (Handlers.ticking clock H).Hom Prod.snd K := by
  refine ⟨fun t st => ?_, fun t st => ?_⟩
  · unfold callHandler Handlers.ticking
    simp only [h]
    cases K.th with
    | none => rfl
    | some k =>
      simp only [Option.map_some]
      rw [show (PState.via Prod.snd st).files = st.files from rfl]
      cases st.files.getLast? <;> rfl
  · unfold callHandler Handlers.ticking
    simp only [h]
    cases K.ph with
    | none => rfl
    | some k =>
      simp only [Option.map_some]
      rw [show (PState.via Prod.snd st).files = st.files from rfl]
      cases st.files.getLast? <;> rfl

theorem tickParse_still [Unicode] {clock : Nat → Moment} {H : Moment → Handlers σ} {K : Handlers σ} (h : ∀ n, H (clock n) = K) (fs : FileSystem) (maxOpen : Nat)
    (bytes : List UInt8) (path : Str) (init : σ) : tickParse clock fs maxOpen bytes path H init = runParse fs maxOpen bytes path K init := by
  have := parse_via (ticking_hom clock H K h) fs maxOpen bytes path (0, init)
  unfold tickParse runParse
  rw [← this]
  rcases parse fs (Handlers.ticking clock H) maxOpen bytes path (newParser (0, init)) with ⟨st, _ | f⟩ <;> rfl

theorem tickPrinted_still [Unicode] {clock : Nat → Moment} {H : Moment → Handlers (σ × Str)} {K : Handlers (σ × Str)} (h : ∀ n, H (clock n) = K) (fs : FileSystem)
    (maxOpen : Nat) (bytes : List UInt8) (path : Str) (init : σ) : tickPrinted clock fs maxOpen bytes path H init = printedBy fs maxOpen bytes path K init := by
  have := parse_via (ticking_hom clock H K h) fs maxOpen bytes path (0, init, [])
  unfold tickPrinted printedBy
  rw [← this]
  rfl

/-- Two moments at which the same transactions are within the range of dates. -/
def SameRange (m : Machine) (o : Options) (w w' : Moment) : Prop :=
  ∀ filters, ((m.at w).env o filters).withinDateRange = ((m.at w').env o filters).withinDateRange

theorem runTicking_still [Unicode] (m : Machine) (clock : Nat → Moment) (w : Moment) (o : Options) (c : Command) (args : List Str)
    (hr : ∀ n, SameRange m o (clock n) w)
    (ho : (∀ n, (clock n).order = w.order) ∨ (c = .accounts ∨ c = .payees ∨ c = .print ∨ args = []) ∧ ∀ n l, ((clock n).order l).length = (w.order l).length) :
    m.runTicking clock o c args = (m.at w).run o c args := by
  simp only [Machine.runTicking, Machine.run]
  have hm : makeFilters (m.at w).engine args = makeFilters m.engine args := rfl
  rw [hm]
  rcases hf : makeFilters m.engine args with (f | f | f) | filters
  · rfl
  · rfl
  · rfl
  simp only [Machine.runFiltered]
  split
  · rfl
  rw [show (m.at w).rootPath o = m.rootPath o from rfl, show (m.at w).fs = m.fs from rfl]
  cases m.rootPath o with
  | none => rfl
  | some p =>
  simp only
  cases m.fs p with
  | none => rfl
  | some bytes =>
  simp only
  have hw : ∀ n, ((m.env o filters).at (clock n)).withinDateRange = ((m.env o filters).at w).withinDateRange := fun n => hr n filters
  have he : (m.at w).env o filters = (m.env o filters).at w := rfl
  rw [he]
  generalize hE : m.env o filters = e at hw he ⊢
  have hef : e.filters = filters := by rw [← hE]; rfl
  have hck : ∀ n, ((∀ n, (clock n).order = w.order) ∨ filters = []) → (e.at (clock n)).checkAgainstFilters = (e.at w).checkAgainstFilters := by
    intro n h
    funext t
    simp only [Env.checkAgainstFilters, hw n]
    rcases h with h | h
    · simp only [Env.at, h n]; rfl
    · simp [Env.at, hef, h]
  have hal : args = [] → filters = [] := by
    rintro rfl
    simp only [makeFilters, Except.ok.injEq] at hf
    exact hf.symm
  cases c with
  | version => rfl
  | accounts =>
    have : ∀ n, (e.at (clock n)).accountsHandlers = (e.at w).accountsHandlers := by
      intro n; unfold Env.accountsHandlers Env.dateChecked; rw [hw n]
    simp only [Machine.runOnTicking, Machine.runOn, accountsCmd, tickParse_still (clock := clock) (H := fun w => (e.at w).accountsHandlers) this]
    rfl
  | payees =>
    have : ∀ n, (e.at (clock n)).payeesHandlers = (e.at w).payeesHandlers := by
      intro n; unfold Env.payeesHandlers Env.dateChecked; rw [hw n]
    simp only [Machine.runOnTicking, Machine.runOn, payeesCmd, tickParse_still (clock := clock) (H := fun w => (e.at w).payeesHandlers) this]
    rfl
  | print =>
    have : ∀ n, (e.at (clock n)).printHandlers = (e.at w).printHandlers := by
      intro n
      unfold Env.printHandlers
      congr 2
      funext u t f
      rcases ho with ho | ⟨-, ho⟩
      · simp only [Env.printHandler, hck n (Or.inl ho)]
      · simp only [Env.printHandler, Env.checkAgainstFilters, hw n]
        rcases (e.at w).withinDateRange t with x | (x | x)
        · rfl
        · rfl
        · simp only
          rw [show (e.at (clock n)).filters = e.filters from rfl, show (e.at w).filters = e.filters from rfl]
          by_cases hl : e.filters.length = 0
          · simp only [if_pos hl]
          · simp only [if_neg hl]
            cases filterLoop t e.filters [] with
            | none => rfl
            | some is =>
              simp only [show (e.at (clock n)).mapOrder = (clock n).order from rfl, show (e.at w).mapOrder = w.order from rfl, ho n]
    simp only [Machine.runOnTicking, Machine.runOn, printCmd, tickParse_still (clock := clock) (H := fun w => (e.at w).printHandlers) this]
    rfl
  | balance =>
    have h1 : (∀ n, (clock n).order = w.order) ∨ filters = [] := by
      rcases ho with ho | ⟨h | h | h | h, -⟩
      · exact Or.inl ho
      · cases h
      · cases h
      · cases h
      · exact Or.inr (hal h)
    have k1 : ∀ n, (e.at (clock n)).balanceHandlers = (e.at w).balanceHandlers := by
      intro n; unfold Env.balanceHandlers; congr 2; funext u t f; simp only [Env.balanceHandler, hck n h1]
    have k2 : ∀ n, (e.at (clock n)).balancePrinting = (e.at w).balancePrinting := by
      intro n; unfold Env.balancePrinting; rw [k1 n]; congr 1; funext u t; simp only [Env.balanceOut, hck n h1]
    simp only [Machine.runOnTicking, Machine.runOn, balanceCmd, tickParse_still (clock := clock) (H := fun w => (e.at w).balanceHandlers) k1, tickPrinted_still (clock := clock) (H := fun w => (e.at w).balancePrinting) k2]
    rfl
  | budget =>
    have h1 : (∀ n, (clock n).order = w.order) ∨ filters = [] := by
      rcases ho with ho | ⟨h | h | h | h, -⟩
      · exact Or.inl ho
      · cases h
      · cases h
      · cases h
      · exact Or.inr (hal h)
    have k1 : ∀ n, (e.at (clock n)).budgetHandlers = (e.at w).budgetHandlers := by
      intro n; unfold Env.budgetHandlers; congr 2; funext u t f; simp only [Env.budgetHandler, hck n h1]
    have k2 : ∀ n, (e.at (clock n)).budgetPrinting = (e.at w).budgetPrinting := by
      intro n; unfold Env.budgetPrinting; rw [k1 n]; congr 1; funext u t; simp only [Env.budgetOut, hck n h1]
    simp only [Machine.runOnTicking, Machine.runOn, budgetCmd, tickParse_still (clock := clock) (H := fun w => (e.at w).budgetHandlers) k1, tickPrinted_still (clock := clock) (H := fun w => (e.at w).budgetPrinting) k2]
    rfl
  | statistics =>
    have h1 : (∀ n, (clock n).order = w.order) ∨ filters = [] := by
      rcases ho with ho | ⟨h | h | h | h, -⟩
      · exact Or.inl ho
      · cases h
      · cases h
      · cases h
      · exact Or.inr (hal h)
    have k1 : ∀ n, (e.at (clock n)).statsHandlers = (e.at w).statsHandlers := by
      intro n; unfold Env.statsHandlers; congr 2; funext u t f; simp only [Env.statsHandler, hck n h1]
    simp only [Machine.runOnTicking, Machine.runOn, statsCmd, tickParse_still (clock := clock) (H := fun w => (e.at w).statsHandlers) k1]
    rfl

/-- What may vary from one transaction to the next without any effect: the order of maps, for commands that list accounts, payees or transactions, and for all commands
without filters. -/
def OrdersAside (clock : Nat → Moment) (c : Command) (args : List Str) : Prop :=
  (∀ n, (clock n).order = (clock 0).order) ∨ (c = .accounts ∨ c = .payees ∨ c = .print ∨ args = []) ∧ ∀ n l, ((clock n).order l).Perm l

theorem OrdersAside.cond {clock : Nat → Moment} {c : Command} {args : List Str} (h : OrdersAside clock c args) :
    (∀ n, (clock n).order = (clock 0).order) ∨ (c = .accounts ∨ c = .payees ∨ c = .print ∨ args = []) ∧
      ∀ n l, ((clock n).order l).length = ((clock 0).order l).length :=
  h.imp_right fun h => ⟨h.1, fun n l => ((h.2 n l).trans (h.2 0 l).symm).length_eq⟩

theorem sameRange_current {m : Machine} {o : Options} (hc : o.current = true) {k : Int} (h0 : 0 ≤ k) {w w' : Moment}
    (h1 : k * nsPerDay < w.tomorrow ∧ w.tomorrow ≤ (k + 1) * nsPerDay) (h2 : k * nsPerDay < w'.tomorrow ∧ w'.tomorrow ≤ (k + 1) * nsPerDay) : SameRange m o w w' := by
  intro filters
  have hday : nsPerDay = 86400000000000 := by decide
  funext t
  have hE : ∀ w : Moment, ((m.at w).env o filters).withinDateRange t =
      .ok ((t.date.instant = 0 || (0 : Int) < t.date.instant) && (w.tomorrow = 0 || t.date.instant < w.tomorrow)) := by
    intro w
    simp [Env.withinDateRange, Env.bound, Machine.env, Machine.at, hc]
  rw [hE, hE]
  have e1 : (w.tomorrow = 0) = (w'.tomorrow = 0) := by
    rw [hday] at h1 h2; exact propext ⟨fun _ => by omega, fun _ => by omega⟩
  have e2 : (t.date.instant < w.tomorrow) = (t.date.instant < w'.tomorrow) := by
    unfold Date.instant
    rw [hday] at h1 h2 ⊢; exact propext ⟨fun _ => by omega, fun _ => by omega⟩
  simp only [e1, e2]

theorem sameRange_dates {m : Machine} {o : Options} (hc : o.current = false) {w w' : Moment} (hy : w.year = w'.year ∨ ¬ Yearless o.beginDate ∧ ¬ Yearless o.endDate) :
    SameRange m o w w' := by
  intro filters
  funext t
  have h1 : parseSmartDate w.year o.beginDate = parseSmartDate w'.year o.beginDate := by
    rcases hy with h | ⟨h, _⟩
    · rw [h]
    · exact smartDate_year h
  have h2 : parseSmartDate w.year o.endDate = parseSmartDate w'.year o.endDate := by
    rcases hy with h | ⟨_, h⟩
    · rw [h]
    · exact smartDate_year h
  simp [Env.withinDateRange, Env.bound, Machine.env, Machine.at, hc, h1, h2, Env.localInstant]

/-- **C118**: all transactions of a run are judged by the same days. With `--current` this holds if, as seen from all moments of the run, tomorrow lies between the
same two midnights of Greenwich. Missing: runs during which that changes. -/
theorem C118_current_partial [Unicode] (m : Machine) (clock : Nat → Moment) (o : Options) (c : Command) (args : List Str) (ho : OrdersAside clock c args)
    (hc : o.current = true) (k : Int) (h0 : 0 ≤ k) (hk : ∀ n, k * nsPerDay < (clock n).tomorrow ∧ (clock n).tomorrow ≤ (k + 1) * nsPerDay) :
    m.runTicking clock o c args = (m.at (clock 0)).run o c args :=
  runTicking_still m clock (clock 0) o c args (fun n => sameRange_current hc h0 (hk n) (hk 0)) ho.cond

/-- Without `--current` it holds if the year does not change, or if `--begin` and `--end` are absent or written with a year. -/
theorem C118_dates_partial [Unicode] (m : Machine) (clock : Nat → Moment) (o : Options) (c : Command) (args : List Str) (ho : OrdersAside clock c args)
    (hc : o.current = false) (hy : (∀ n, (clock n).year = (clock 0).year) ∨ ¬ Yearless o.beginDate ∧ ¬ Yearless o.endDate) :
    m.runTicking clock o c args = (m.at (clock 0)).run o c args :=
  runTicking_still m clock (clock 0) o c args (fun n => sameRange_dates hc (hy.imp_left fun h => h n)) ho.cond

/-- Two transactions of the day after tomorrow. -/
def midnightMachine : Machine := machineWith (str "f") "2020-01-03 a\n  A  1\n  B\n\n2020-01-03 b\n  A  1\n  B\n"

/-- A clock that strikes twelve between the first transaction and the second, and stops a second later. -/
def midnightClock (n : Nat) : Moment := { tomorrow := (⟨2020, 1, 3⟩ : Date).instant + 1000000000 * (min n 1 : Nat), year := 2020, order := id }

set_option maxRecDepth 100000 in
/-- In general it does not hold: of two transactions of the same day, the first is left out and the second is not, as is the case at no moment of the run. -/
theorem C118_same_days_false :
    ¬ ∀ [Unicode] (m : Machine) (clock : Nat → Moment) (o : Options) (c : Command) (args : List Str), (∀ n, (clock n).tomorrow ≤ (clock (n + 1)).tomorrow) →
      (∀ n, (clock n).order = id) → ∃ n, m.runTicking clock o c args = (m.at (clock n)).run o c args := by
  intro h
  let := asciiUnicode
  obtain ⟨n, hn⟩ := h midnightMachine midnightClock { file := str "f", current := true } .payees [] (by intro n; simp only [midnightClock]; omega) (fun _ => rfl)
  have h1 : midnightMachine.runTicking midnightClock { file := str "f", current := true } .payees [] = ⟨str "b\n", .exit 0⟩ := by decide +kernel
  have h2 : (midnightMachine.at (midnightClock 0)).run { file := str "f", current := true } .payees [] ≠ ⟨str "b\n", .exit 0⟩ := by decide +kernel
  have h3 : (midnightMachine.at (midnightClock 1)).run { file := str "f", current := true } .payees [] ≠ ⟨str "b\n", .exit 0⟩ := by decide +kernel
  have h4 : midnightClock n = midnightClock 0 ∨ midnightClock n = midnightClock 1 := by
    rcases n with _ | n
    · exact Or.inl rfl
    · right
      unfold midnightClock
      rw [show min (n + 1) 1 = min 1 1 by omega]
  rw [h1] at hn
  rcases h4 with h4 | h4 <;> rw [h4] at hn
  · exact h2 hn.symm
  · exact h3 hn.symm

/-- A clock that ticks during the day, and a map that is ordered now so and now otherwise. -/
def noonClock (n : Nat) : Moment :=
  { tomorrow := (⟨2020, 1, 3⟩ : Date).instant + 1000000000 * (min n 1000 + 1 : Nat), year := 2020, order := if n % 2 = 0 then id else List.reverse }

/-- The hypotheses of `C118_current_partial` are met. -/
example : OrdersAside noonClock .print [str "a"] ∧
    ∀ n, (⟨2020, 1, 3⟩ : Date).dayNumber * nsPerDay < (noonClock n).tomorrow ∧ (noonClock n).tomorrow ≤ ((⟨2020, 1, 3⟩ : Date).dayNumber + 1) * nsPerDay := by
  have hday : nsPerDay = 86400000000000 := by decide
  refine ⟨Or.inr ⟨by simp, fun n l => ?_⟩, fun n => ?_⟩
  · simp only [noonClock]
    split
    · exact List.Perm.refl _
    · exact List.reverse_perm l
  · simp only [noonClock, Date.instant, hday]
    omega

set_option maxRecDepth 100000 in
/-- A run while this clock ticks. -/
example :
    letI := asciiUnicode
    midnightMachine.runTicking noonClock { file := str "f", current := true } .payees [] = ⟨str "a\nb\n", .exit 0⟩ := by
  decide +kernel

end Gledger
