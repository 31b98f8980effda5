/-
C80, C91, C92: what of the date flags a run depends on.
-/
import Verif.Props.Sources
import Verif.Props.Warnings

namespace Gledger

set_option maxRecDepth 100000

variable {σ τ : Type}

/-! ### Handlers that agree on what is delivered -/

theorem replay_agree {H H' : Handlers σ} (calls : List Call) (h : ∀ c ∈ calls, ∀ u, H.call u c = H'.call u c) :
    ∀ u, H.replay calls u = H'.replay calls u := by
  induction calls with
  | nil => intro u; rfl
  | cons c calls ih =>
    intro u
    rw [Handlers.replay, Handlers.replay, h c (by simp)]
    rcases H'.call u c with ⟨v, _ | g⟩
    · exact ih (fun c hc => h c (by simp [hc])) v
    · rfl

theorem prints_agree {H H' : Handlers σ} {out out' : σ → Transaction → Str} {pout : σ → PeriodicTransaction → Str} (calls : List Call)
    (h : ∀ c ∈ calls, ∀ u, H.call u c = H'.call u c) (ho : ∀ c ∈ calls, ∀ u, H.callOut out pout u c = H'.callOut out' pout u c) :
    ∀ u, H.prints out pout calls u = H'.prints out' pout calls u := by
  induction calls with
  | nil => intro u; rfl
  | cons c calls ih =>
    intro u
    rw [Handlers.prints, Handlers.prints, h c (by simp), ho c (by simp)]
    congr 1
    rcases H'.call u c with ⟨v, _ | g⟩
    · exact ih (fun c hc => h c (by simp [hc])) (fun c hc => ho c (by simp [hc])) v
    · rfl

theorem runParse_agree [Unicode] (fs : FileSystem) (n : Nat) (bytes : List UInt8) (path : Str) (H H' : Handlers σ) (u : σ)
    (h : H.replay (delivered fs n bytes path) u = H'.replay (delivered fs n bytes path) u) :
    runParse fs n bytes path H u = runParse fs n bytes path H' u ∨
    ∃ f f', f.core = f'.core ∧ runParse fs n bytes path H u = .error f ∧ runParse fs n bytes path H' u = .error f' := by
  obtain ⟨a1, a2, a3⟩ := runParse_cases fs n bytes path H u
  obtain ⟨b1, b2, b3⟩ := runParse_cases fs n bytes path H' u
  rw [← h] at b1 b2 b3
  cases hs : (H.replay (delivered fs n bytes path) u).2 with
  | none =>
    left
    cases hr : rejection fs n bytes path with
    | none => rw [a2 hs hr, b2 hs hr]
    | some f => rw [a1 hs f hr, b1 hs f hr]
  | some g =>
    right
    obtain ⟨f, h1, h2⟩ := a3 g hs
    obtain ⟨f', h1', h2'⟩ := b3 g hs
    exact ⟨f, f', h1.trans h1'.symm, h2, h2'⟩

/-- The date flags treat a transaction alike, and everything else is the same. -/
structure Env.SameFor (e e' : Env) (t : Transaction) : Prop where
  range : e.withinDateRange t = e'.withinDateRange t
  filters : e.filters = e'.filters
  order : e.mapOrder = e'.mapOrder

theorem Env.SameFor.check {e e' : Env} {t : Transaction} (h : e.SameFor e' t) : e.checkAgainstFilters t = e'.checkAgainstFilters t := by
  unfold Env.checkAgainstFilters
  rw [h.range, h.filters, h.order]

theorem calls_agree {e e' : Env} {c : Call} (h : ∀ t f, c = .normal t f → e.SameFor e' t) :
    (∀ u, e.accountsHandlers.call u c = e'.accountsHandlers.call u c) ∧ (∀ u, e.payeesHandlers.call u c = e'.payeesHandlers.call u c) ∧
    (∀ u, e.printHandlers.call u c = e'.printHandlers.call u c) ∧ (∀ u, e.balanceHandlers.call u c = e'.balanceHandlers.call u c) ∧
    (∀ u, e.budgetHandlers.call u c = e'.budgetHandlers.call u c) ∧ (∀ u, e.statsHandlers.call u c = e'.statsHandlers.call u c) ∧
    (∀ u, e.balanceHandlers.callOut e.balanceOut (fun _ pt => pt.runOut) u c = e'.balanceHandlers.callOut e'.balanceOut (fun _ pt => pt.runOut) u c) ∧
    (∀ u, e.budgetHandlers.callOut e.budgetOut budgetPeriodicOut u c = e'.budgetHandlers.callOut e'.budgetOut budgetPeriodicOut u c) := by
  cases c with
  | periodic pt f => exact ⟨fun _ => rfl, fun _ => rfl, fun _ => rfl, fun _ => rfl, fun _ => rfl, fun _ => rfl, fun _ => rfl, fun _ => rfl⟩
  | normal t f =>
    have h := h t f rfl
    have hc := h.check
    refine ⟨fun u => ?_, fun u => ?_, fun u => ?_, fun u => ?_, fun u => ?_, fun u => ?_, fun u => ?_, fun u => ?_⟩
    · simp only [Handlers.call, Env.accountsHandlers, Env.dateChecked, h.range]
    · simp only [Handlers.call, Env.payeesHandlers, Env.dateChecked, h.range]
    · simp only [Handlers.call, Env.printHandlers, Env.printHandler, hc]
    · simp only [Handlers.call, Env.balanceHandlers, Env.balanceHandler, hc]
    · simp only [Handlers.call, Env.budgetHandlers, Env.budgetHandler, hc]
    · simp only [Handlers.call, Env.statsHandlers, Env.statsHandler, hc]
    · simp only [Handlers.callOut, Env.balanceHandlers, Env.balanceOut, hc, Option.isSome_some]
    · simp only [Handlers.callOut, Env.budgetHandlers, Env.budgetOut, hc, Option.isSome_some]

/-! ### C91: the date flags matter through the transactions they let through -/

theorem alike_map [Unicode] (m : Machine) (w : Str) {x x' : Except Failure σ} (g : Except Failure σ → Outcome)
    (hg : ∀ f, g (.error f) = .error f) (h : x = x' ∨ ∃ f f', f.core = f'.core ∧ x = .error f ∧ x' = .error f') :
    m.Alike (m.finish w (g x)) (m.finish w (g x')) := by
  rcases h with rfl | ⟨f, f', h, rfl, rfl⟩
  · exact Or.inl rfl
  · exact Or.inr ⟨w, f, f', h, by rw [hg], by rw [hg]⟩

/-- Two settings of the flags that treat the transactions of the journal alike give runs that are alike, whatever the command. -/
theorem C91_same_transactions [Unicode] (m : Machine) (e e' : Env) (o : Options) (args : List Str) (bytes : List UInt8) (path : Str) (c : Command)
    (h : ∀ tf ∈ normals (delivered m.fs m.maxOpen bytes path), e.withinDateRange tf.1 = e'.withinDateRange tf.1)
    (hf : e.filters = e'.filters) (ho : e.mapOrder = e'.mapOrder) :
    m.Alike (m.runOn e o args bytes path c) (m.runOn e' o args bytes path c) := by
  have hc : ∀ c ∈ delivered m.fs m.maxOpen bytes path, ∀ t f, c = .normal t f → e.SameFor e' t := by
    rintro c hc t f rfl
    exact ⟨h (t, f) (List.mem_filterMap.2 ⟨_, hc, rfl⟩), hf, ho⟩
  have k : ∀ c ∈ delivered m.fs m.maxOpen bytes path, _ := fun c hm => calls_agree (hc c hm)
  have rp : ∀ {τ : Type} {H H' : Handlers τ} (u : τ), (∀ c ∈ delivered m.fs m.maxOpen bytes path, ∀ u, H.call u c = H'.call u c) → _ :=
    fun {τ} {H H'} u hh => runParse_agree m.fs m.maxOpen bytes path H H' u (replay_agree _ hh u)
  cases c with
  | version => exact Or.inl rfl
  | accounts =>
    have hp : e.accountsPrepare = e'.accountsPrepare := by funext l; unfold Env.accountsPrepare; rw [hf]
    simp only [Machine.runOn, accountsCmd, hp]
    exact alike_map m _ (Except.map _) (fun _ => rfl) (rp [] fun c hm => (k c hm).1)
  | payees =>
    exact alike_map m _ (fun x => match x with
      | .error f => .error f
      | .ok s => (payeesPrepare m.engine args (m.stringOrder s)).map printLines) (fun _ => rfl) (rp [] fun c hm => (k c hm).2.1)
  | print =>
    exact alike_map m _ (Except.map _) (fun _ => rfl) (rp [] fun c hm => (k c hm).2.2.1)
  | balance =>
    have hw : printedBy m.fs m.maxOpen bytes path e.balancePrinting newJournal = printedBy m.fs m.maxOpen bytes path e'.balancePrinting newJournal := by
      unfold Env.balancePrinting
      rw [printed_replay, printed_replay]
      exact prints_agree _ (fun c hm => (k c hm).2.2.2.1) (fun c hm => (k c hm).2.2.2.2.2.2.1) _
    simp only [Machine.runOn, hw]
    exact alike_map m _ (Except.map _) (fun _ => rfl) (rp newJournal fun c hm => (k c hm).2.2.2.1)
  | budget =>
    have hw : printedBy m.fs m.maxOpen bytes path e.budgetPrinting [] = printedBy m.fs m.maxOpen bytes path e'.budgetPrinting [] := by
      unfold Env.budgetPrinting
      rw [printed_replay, printed_replay]
      exact prints_agree _ (fun c hm => (k c hm).2.2.2.2.1) (fun c hm => (k c hm).2.2.2.2.2.2.2) _
    simp only [Machine.runOn, hw]
    exact alike_map m _ (Except.map _) (fun _ => rfl) (rp [] fun c hm => (k c hm).2.2.2.2.1)
  | statistics =>
    exact alike_map m _ (Except.map _) (fun _ => rfl) (rp {} fun c hm => (k c hm).2.2.2.2.2.1)

/-- `--begin` before everything, or no `--begin`: the same. -/
example :
    letI := asciiUnicode
    let m := machineWith (str "f") "2020-01-01 x\n  A  1\n  B\n\n2020-02-01 y\n  A  2\n  B\n"
    let e : Env := { beginDate := str "2019" }
    let e' : Env := { beginDate := str "2020-01-01", endDate := str "2021" }
    (∀ tf ∈ normals (delivered m.fs m.maxOpen (utf8 "2020-01-01 x\n  A  1\n  B\n\n2020-02-01 y\n  A  2\n  B\n") (str "f")),
      e.withinDateRange tf.1 = e'.withinDateRange tf.1) ∧ e.withinDateRange { date := ⟨2022, 1, 1⟩ } ≠ e'.withinDateRange { date := ⟨2022, 1, 1⟩ } := by
  decide +kernel

/-! ### C80: unreadable dates, exactly -/

theorem replay_dateError {H : Handlers σ} {x : Err} (calls : List Call) (h1 : ∀ u t f, (H.call u (.normal t f)).2 = some (.err x))
    (h2 : ∀ u pt f, (H.call u (.periodic pt f)).2 = none) (hn : normals calls ≠ []) : ∀ u, (H.replay calls u).2 = some (.err x) := by
  induction calls with
  | nil => exact absurd rfl hn
  | cons c calls ih =>
    intro u
    rw [Handlers.replay]
    cases c with
    | normal t f =>
      have := h1 u t f
      generalize H.call u (.normal t f) = r at this
      obtain ⟨v, _ | g⟩ := r
      · cases this
      · exact this
    | periodic pt f =>
      have := h2 u pt f
      generalize H.call u (.periodic pt f) = r at this
      obtain ⟨v, _ | g⟩ := r
      · exact ih hn v
      · cases this

/-- With a date that cannot be read, every command but budget fails with the reason. -/
theorem stopped_dateError (e : Env) (calls : List Call) {c : Command} (hc : c ≠ .version) (hb : c ≠ .budget) {x : Err} (hx : e.dateError = some x)
    (hn : normals calls ≠ []) : c.stopped e calls = some (.err x) := by
  have k1 : ∀ t, e.withinDateRange t = .error x := fun t => (withinDateRange_dateError e t).1 x hx
  have k2 : ∀ t, e.checkAgainstFilters t = .error x := fun t => (checkAgainstFilters_dateError e t).1 x hx
  cases c with
  | version => exact absurd rfl hc
  | budget => exact absurd rfl hb
  | accounts =>
    exact replay_dateError calls (fun u t f => by simp only [Handlers.call, Env.accountsHandlers, Env.dateChecked, k1]) (fun _ _ _ => rfl) hn _
  | payees =>
    exact replay_dateError calls (fun u t f => by simp only [Handlers.call, Env.payeesHandlers, Env.dateChecked, k1]) (fun _ _ _ => rfl) hn _
  | print =>
    exact replay_dateError calls (fun u t f => by simp only [Handlers.call, Env.printHandlers, Env.printHandler, k2]) (fun _ _ _ => rfl) hn _
  | balance =>
    exact replay_dateError calls (fun u t f => by simp only [Handlers.call, Env.balanceHandlers, Env.balanceHandler, k2]) (fun _ _ _ => rfl) hn _
  | statistics =>
    exact replay_dateError calls (fun u t f => by simp only [Handlers.call, Env.statsHandlers, Env.statsHandler, k2]) (fun _ _ _ => rfl) hn _

/-- With a date that cannot be read, nothing is added up, so that the balance command has nothing to warn about. -/
theorem warnings_dateError [Unicode] (m : Machine) (e : Env) (bytes : List UInt8) (path : Str) {c : Command} (hb : c ≠ .budget) {x : Err}
    (hx : e.dateError = some x) : m.warnings e bytes path c = [] := by
  have k2 : ∀ t, e.checkAgainstFilters t = .error x := fun t => (checkAgainstFilters_dateError e t).1 x hx
  cases c with
  | budget => exact absurd rfl hb
  | balance =>
    simp only [Machine.warnings, Env.balancePrinting]
    rw [printed_replay]
    have hd := delivered_once m.fs m.maxOpen bytes path
    revert hd
    generalize newJournal = u
    generalize delivered m.fs m.maxOpen bytes path = calls
    induction calls generalizing u with
    | nil => intro _; rfl
    | cons c calls ih =>
      intro hd
      rw [Handlers.prints]
      cases c with
      | normal t f => simp [Handlers.callOut, Handlers.call, Env.balanceHandlers, Env.balanceHandler, Env.balanceOut, k2]
      | periodic pt f =>
        have h0 : pt.runOut = [] := by
          unfold PeriodicTransaction.runOut
          rw [hd _ (by simp) pt f rfl]
          rfl
        simp only [Handlers.callOut, Handlers.call, Env.balanceHandlers, Option.isSome_some, if_true, h0, List.nil_append]
        exact ih _ fun c hc => hd c (by simp [hc])
  | _ => rfl

/-- Every command but budget, given at least one transaction: nothing is printed but one error, which ends with the reason. -/
theorem C80_reported_partial [Unicode] (m : Machine) (e : Env) (o : Options) (args : List Str) (bytes : List UInt8) (path : Str) {c : Command}
    (hc : c ≠ .version) (hb : c ≠ .budget) {x : Err} (hx : e.dateError = some x) (hn : normals (delivered m.fs m.maxOpen bytes path) ≠ []) :
    ∃ place, m.runOn e o args bytes path c = ⟨place ++ x.text m.lib ++ str "\n", .exit 0⟩ := by
  obtain ⟨f, hf, hr⟩ := (runOn_error m e o args bytes path hc).2 _ (stopped_dateError e _ hc hb hx hn)
  have hbs := dateError_basic hx
  rw [Failure.core, core_basic hbs] at hf
  obtain ⟨e', rfl, he⟩ := core_err hf
  obtain ⟨place, hp⟩ := text_core m.lib hbs e' he
  refine ⟨place, ?_⟩
  rw [hr, warnings_dateError m e bytes path hb hx, Machine.finish, ← hp]
  simp

/-- Without a transaction the flags do not matter: every command does what it does without them. -/
theorem C80_unnoticed [Unicode] (m : Machine) (e : Env) (o : Options) (args : List Str) (bytes : List UInt8) (path : Str) (c : Command)
    (hn : normals (delivered m.fs m.maxOpen bytes path) = []) :
    m.Alike (m.runOn e o args bytes path c) (m.runOn { e with beginDate := [], endDate := [], current := false } o args bytes path c) :=
  C91_same_transactions m e _ o args bytes path c (by rw [hn]; simp) rfl rfl

/-- A budget and no transaction, and an unreadable date. -/
example :
    letI := asciiUnicode
    let bytes := utf8 "~ 2020-01\n  A  1\n"
    let m := machineWith (str "f") "~ 2020-01\n  A  1\n"
    normals (delivered m.fs m.maxOpen bytes (str "f")) = [] ∧ (m.env { beginDate := str "x" } []).dateError ≠ none := by
  decide +kernel

/-! ### C92: the same date written differently -/

/-- Environments whose date flags let through the same transactions give the same run. -/
theorem runOn_range [Unicode] (m : Machine) {e e' : Env} (o o' : Options) (args : List Str) (bytes : List UInt8) (path : Str) (c : Command)
    (h : e.withinDateRange = e'.withinDateRange) (hf : e.filters = e'.filters) (ho : e.mapOrder = e'.mapOrder)
    (h1 : o.flatten = o'.flatten) (h2 : o.showZero = o'.showZero) (h3 : o.collapse = o'.collapse) :
    m.runOn e o args bytes path c = m.runOn e' o' args bytes path c := by
  have hs : ∀ t, e.SameFor e' t := fun t => ⟨congrFun h t, hf, ho⟩
  have hc : e.checkAgainstFilters = e'.checkAgainstFilters := funext fun t => (hs t).check
  have a1 : e.accountsHandlers = e'.accountsHandlers := by unfold Env.accountsHandlers Env.dateChecked; rw [h]
  have a2 : e.payeesHandlers = e'.payeesHandlers := by unfold Env.payeesHandlers Env.dateChecked; rw [h]
  have a3 : e.printHandlers = e'.printHandlers := by unfold Env.printHandlers; congr 2; funext u t f; simp only [Env.printHandler, hc]
  have a4 : e.balanceHandlers = e'.balanceHandlers := by unfold Env.balanceHandlers; congr 2; funext u t f; simp only [Env.balanceHandler, hc]
  have a5 : e.budgetHandlers = e'.budgetHandlers := by unfold Env.budgetHandlers; congr 2; funext u t f; simp only [Env.budgetHandler, hc]
  have a6 : e.statsHandlers = e'.statsHandlers := by unfold Env.statsHandlers; congr 2; funext u t f; simp only [Env.statsHandler, hc]
  have a7 : e.accountsPrepare = e'.accountsPrepare := by funext l; unfold Env.accountsPrepare; rw [hf]
  have a8 : e.balanceOut = e'.balanceOut := by funext u t; simp only [Env.balanceOut, hc]
  have a9 : e.budgetOut = e'.budgetOut := by funext u t; simp only [Env.budgetOut, hc]
  cases c with
  | version => rfl
  | accounts => simp only [Machine.runOn, accountsCmd, a1, a7]
  | payees => simp only [Machine.runOn, payeesCmd, a2]
  | print => simp only [Machine.runOn, printCmd, a3]
  | balance => simp only [Machine.runOn, balanceCmd, Env.balancePrinting, a4, a8, h1, h2, h3]
  | budget => simp only [Machine.runOn, budgetCmd, Env.budgetPrinting, a5, a9]
  | statistics => simp only [Machine.runOn, statsCmd, a6]

/-- Two flags that say the same: both absent, or both naming the same day. -/
def SameDay (year : Nat) (a b : Str) : Prop := (a = [] ∧ b = []) ∨ ∃ d, SmartDate year a d ∧ SmartDate year b d

theorem written_ne_nil {year : Nat} {s : Str} {d : Date} (h0 : 1000 ≤ year) (h1 : year ≤ 9999) (h : SmartDate year s d) : s ≠ [] := by
  rintro rfl
  have := (C48_smart_dates_partial year h0 h1 [] d).1 h
  revert this
  have : ∀ y, parseSmartDate y [] = .error (.badYear []) := fun y => rfl
  rw [this]
  intro h
  cases h

theorem bound_same {e e' : Env} {a b : Str} (h0 : 1000 ≤ e.nowYear) (h1 : e.nowYear ≤ 9999) (hy : e.nowYear = e'.nowYear) (ho : e.offset = e'.offset)
    (hc : e.current = e'.current) (h : SameDay e.nowYear a b) : e.bound a = e'.bound b := by
  have hl : e.localInstant = e'.localInstant := by funext d; unfold Env.localInstant; rw [ho]
  rcases h with ⟨rfl, rfl⟩ | ⟨d, ha, hb⟩
  · simp [Env.bound]
  · unfold Env.bound
    have la := List.length_pos_of_ne_nil (written_ne_nil h0 h1 ha)
    have lb := List.length_pos_of_ne_nil (written_ne_nil h0 h1 hb)
    rw [← hy, ← hc, (C48_smart_dates_partial _ h0 h1 a d).1 ha, (C48_smart_dates_partial _ h0 h1 b d).1 hb, hl]
    simp only [la, lb, true_and]

/-- A day can be written with any separator, and the first of a month or of a year in short, in both flags: the run is the same. -/
theorem C92_spelling [Unicode] (m : Machine) (h0 : 1000 ≤ m.nowYear) (h1 : m.nowYear ≤ 9999) (o : Options) (b n : Str) (c : Command) (args : List Str)
    (hb : SameDay m.nowYear o.beginDate b) (hn : SameDay m.nowYear o.endDate n) :
    m.run o c args = m.run { o with beginDate := b, endDate := n } c args := by
  have hr : ∀ filters, (m.env o filters).withinDateRange = (m.env { o with beginDate := b, endDate := n } filters).withinDateRange := by
    intro filters
    funext t
    have k1 : (m.env o filters).bound (m.env o filters).beginDate = (m.env { o with beginDate := b, endDate := n } filters).bound
        (m.env { o with beginDate := b, endDate := n } filters).beginDate := bound_same h0 h1 rfl rfl rfl hb
    have k2 : (m.env o filters).bound (m.env o filters).endDate = (m.env { o with beginDate := b, endDate := n } filters).bound
        (m.env { o with beginDate := b, endDate := n } filters).endDate := bound_same h0 h1 rfl rfl rfl hn
    unfold Env.withinDateRange
    rw [k1, k2]
    rfl
  simp only [Machine.run]
  rcases makeFilters m.engine args with (f | f | f) | filters
  · rfl
  · rfl
  · rfl
  · simp only [Machine.runFiltered]
    split
    · rfl
    · have : m.rootPath { o with beginDate := b, endDate := n } = m.rootPath o := rfl
      rw [this]
      cases m.rootPath o with
      | none => rfl
      | some p =>
        simp only
        cases m.fs p with
        | none => rfl
        | some bytes => exact runOn_range m o _ args bytes p c (hr filters) rfl rfl rfl rfl rfl

/-- Six ways to write the first of January. -/
example : ∀ s ∈ [str "2020", str "2020-01", str "2020/01", str "01-01", str "2020.01.01", str "2020/01/01"],
    parseSmartDate 2020 s = .ok ⟨2020, 1, 1⟩ := by decide +kernel

/-- Two of them say the same. -/
example : SameDay 2020 (str "2020") (str "01/01") :=
  Or.inr ⟨⟨2020, 1, 1⟩, (C48_smart_dates_partial 2020 (by decide) (by decide) _ _).2 (by decide) (by decide +kernel),
    (C48_smart_dates_partial 2020 (by decide) (by decide) _ _).2 (by decide) (by decide +kernel)⟩

/-- `--current` overrides `--begin` and `--end`, whatever they say. -/
theorem C92_current [Unicode] (m : Machine) (o : Options) (hcur : o.current = true) (b n : Str) (c : Command) (args : List Str) :
    m.run o c args = m.run { o with beginDate := b, endDate := n } c args := by
  have hr : ∀ filters, (m.env o filters).withinDateRange = (m.env { o with beginDate := b, endDate := n } filters).withinDateRange := by
    intro filters
    funext t
    simp [Env.withinDateRange, Env.bound, Machine.env, hcur]
  simp only [Machine.run]
  rcases makeFilters m.engine args with (f | f | f) | filters
  · rfl
  · rfl
  · rfl
  · simp only [Machine.runFiltered]
    split
    · rfl
    · have : m.rootPath { o with beginDate := b, endDate := n } = m.rootPath o := rfl
      rw [this]
      cases m.rootPath o with
      | none => rfl
      | some p =>
        simp only
        cases m.fs p with
        | none => rfl
        | some bytes => exact runOn_range m o _ args bytes p c (hr filters) rfl rfl rfl rfl rfl

/-- `--current` with an unreadable `--begin`. -/
example :
    letI := asciiUnicode
    (machineWith (str "f") "0000-01-01 x\n  A  1\n  B\n\n").run { file := str "f", beginDate := str "y", current := true } .payees [] =
      (machineWith (str "f") "0000-01-01 x\n  A  1\n  B\n\n").run { file := str "f", current := true } .payees [] := by
  decide +kernel

end Gledger
