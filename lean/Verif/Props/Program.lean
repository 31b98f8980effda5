/-
C77-C82: the program as a whole.
-/
import Verif.Spec.Program
import Verif.Props.Errors
import Verif.Props.Warnings

namespace Gledger

set_option maxRecDepth 100000

variable {σ : Type}

/-! ### How commands fail -/

/-- Reading a journal with a command's handlers: it succeeds, or the journal is rejected, or the handlers fail. -/
theorem runParse_cases [Unicode] (fs : FileSystem) (maxOpen : Nat) (bytes : List UInt8) (path : Str) (H : Handlers σ) (u : σ) :
    let rep := H.replay (delivered fs maxOpen bytes path) u
    (rep.2 = none → ∀ f, rejection fs maxOpen bytes path = some f → runParse fs maxOpen bytes path H u = .error f) ∧
    (rep.2 = none → rejection fs maxOpen bytes path = none → runParse fs maxOpen bytes path H u = .ok rep.1) ∧
    (∀ g, rep.2 = some g → ∃ f, f.core = g.core ∧ runParse fs maxOpen bytes path H u = .error f) := by
  intro rep
  obtain ⟨h1, h2, h3⟩ := parse_replay fs H maxOpen bytes path u
  refine ⟨?_, ?_, ?_⟩
  · intro hr f hf
    have h2 := h2 hr
    rw [hf] at h2
    unfold runParse
    rcases hp : parse fs H maxOpen bytes path (newParser u) with ⟨st, x⟩
    rw [hp] at h2
    simp only at h2
    subst h2
    rfl
  · intro hr hf
    have h2 := h2 hr
    rw [hf] at h2
    unfold runParse
    rcases hp : parse fs H maxOpen bytes path (newParser u) with ⟨st, x⟩
    rw [hp] at h1 h2
    simp only at h1 h2
    subst h2
    simp only [h1]
    rfl
  · intro g hg
    obtain ⟨f, hf, hc⟩ := h3 g hg
    refine ⟨f, hc, ?_⟩
    unfold runParse
    rcases hp : parse fs H maxOpen bytes path (newParser u) with ⟨st, x⟩
    rw [hp] at hf
    simp only at hf
    subst hf
    rfl

/-- A failure while the journal is read is all that a command shows, after its warnings. -/
theorem runOn_error [Unicode] (m : Machine) (e : Env) (o : Options) (args : List Str) (bytes : List UInt8) (path : Str) {c : Command}
    (hc : c ≠ .version) :
    (c.stopped e (delivered m.fs m.maxOpen bytes path) = none → ∀ f, rejection m.fs m.maxOpen bytes path = some f →
      m.runOn e o args bytes path c = m.finish (m.warnings e bytes path c) (.error f)) ∧
    (∀ g, c.stopped e (delivered m.fs m.maxOpen bytes path) = some g → ∃ f, f.core = g.core ∧
      m.runOn e o args bytes path c = m.finish (m.warnings e bytes path c) (.error f)) := by
  cases c with
  | version => exact absurd rfl hc
  | accounts =>
    obtain ⟨h1, _, h3⟩ := runParse_cases m.fs m.maxOpen bytes path e.accountsHandlers []
    refine ⟨fun hs f hf => ?_, fun g hg => ?_⟩
    · simp only [Machine.runOn, Machine.warnings, accountsCmd, h1 hs f hf]; rfl
    · obtain ⟨f, hf, hr⟩ := h3 g hg
      exact ⟨f, hf, by simp only [Machine.runOn, Machine.warnings, accountsCmd, hr]; rfl⟩
  | balance =>
    obtain ⟨h1, _, h3⟩ := runParse_cases m.fs m.maxOpen bytes path e.balanceHandlers newJournal
    refine ⟨fun hs f hf => ?_, fun g hg => ?_⟩
    · simp only [Machine.runOn, Machine.warnings, balanceCmd, h1 hs f hf]; rfl
    · obtain ⟨f, hf, hr⟩ := h3 g hg
      exact ⟨f, hf, by simp only [Machine.runOn, Machine.warnings, balanceCmd, hr]; rfl⟩
  | budget =>
    obtain ⟨h1, _, h3⟩ := runParse_cases m.fs m.maxOpen bytes path e.budgetHandlers []
    refine ⟨fun hs f hf => ?_, fun g hg => ?_⟩
    · simp only [Machine.runOn, Machine.warnings, budgetCmd, h1 hs f hf]; rfl
    · obtain ⟨f, hf, hr⟩ := h3 g hg
      exact ⟨f, hf, by simp only [Machine.runOn, Machine.warnings, budgetCmd, hr]; rfl⟩
  | payees =>
    obtain ⟨h1, _, h3⟩ := runParse_cases m.fs m.maxOpen bytes path e.payeesHandlers []
    refine ⟨fun hs f hf => ?_, fun g hg => ?_⟩
    · simp only [Machine.runOn, Machine.warnings, payeesCmd, h1 hs f hf]
    · obtain ⟨f, hf, hr⟩ := h3 g hg
      exact ⟨f, hf, by simp only [Machine.runOn, Machine.warnings, payeesCmd, hr]⟩
  | print =>
    obtain ⟨h1, _, h3⟩ := runParse_cases m.fs m.maxOpen bytes path e.printHandlers []
    refine ⟨fun hs f hf => ?_, fun g hg => ?_⟩
    · simp only [Machine.runOn, Machine.warnings, printCmd, h1 hs f hf]; rfl
    · obtain ⟨f, hf, hr⟩ := h3 g hg
      exact ⟨f, hf, by simp only [Machine.runOn, Machine.warnings, printCmd, hr]; rfl⟩
  | statistics =>
    obtain ⟨h1, _, h3⟩ := runParse_cases m.fs m.maxOpen bytes path e.statsHandlers {}
    refine ⟨fun hs f hf => ?_, fun g hg => ?_⟩
    · simp only [Machine.runOn, Machine.warnings, statsCmd, h1 hs f hf]; rfl
    · obtain ⟨f, hf, hr⟩ := h3 g hg
      exact ⟨f, hf, by simp only [Machine.runOn, Machine.warnings, statsCmd, hr]; rfl⟩

/-- The two flags together. -/
theorem withinDateRange_dateError (e : Env) (t : Transaction) :
    (∀ x, e.dateError = some x → e.withinDateRange t = .error x) ∧ (e.dateError = none → ∃ b, e.withinDateRange t = .ok b) := by
  unfold Env.dateError Env.withinDateRange Env.bound
  cases hc : e.current with
  | true => simp
  | false =>
    simp only [Bool.false_eq_true, if_false, and_true, List.length_pos_iff, ne_eq]
    by_cases hb : e.beginDate = []
    · by_cases he : e.endDate = []
      · simp [hb, he]
      · rcases hp : parseSmartDate e.nowYear e.endDate with err | d <;> simp [hb, he]
    · rcases hq : parseSmartDate e.nowYear e.beginDate with err | d
      · simp [hb]
      · by_cases he : e.endDate = []
        · simp [hb, he]
        · rcases hp : parseSmartDate e.nowYear e.endDate with err | d <;> simp [hb, he]

theorem checkAgainstFilters_dateError (e : Env) (t : Transaction) :
    (∀ x, e.dateError = some x → e.checkAgainstFilters t = .error x) ∧ (e.dateError = none → ∃ r, e.checkAgainstFilters t = .ok r) := by
  obtain ⟨h1, h2⟩ := withinDateRange_dateError e t
  unfold Env.checkAgainstFilters
  constructor
  · intro x hx; rw [h1 x hx]
  · intro hn
    obtain ⟨b, hb⟩ := h2 hn
    rw [hb]
    cases b with
    | false => exact ⟨_, rfl⟩
    | true =>
      simp only
      split
      · exact ⟨_, rfl⟩
      · split <;> exact ⟨_, rfl⟩

/-- What may be wrong when a command handles a transaction: the flags, or else it panics. -/
def Handlers.Usual (H : Handlers σ) (e : Env) : Prop :=
  (∀ u t f, match e.dateError with
    | some x => H.call u (.normal t f) = (u, some (.err x))
    | none => (H.call u (.normal t f)).2 = none ∨ (H.call u (.normal t f)).2 = some (.panic .unusablePosting)) ∧
  ∀ u pt f, (H.call u (.periodic pt f)).2 = none ∨ (H.call u (.periodic pt f)).2 = some (.panic .unusablePosting)

/-- Handlers that never panic. -/
def Handlers.Calm (H : Handlers σ) : Prop := ∀ u c g, (H.call u c).2 = some g → ∃ x, g = .err x

theorem Handlers.Usual.replay {H : Handlers σ} {e : Env} (hu : H.Usual e) (calls : List Call) (u : σ) :
    (∀ g, (H.replay calls u).2 = some g → g = .panic .unusablePosting ∨ ∃ x, e.dateError = some x ∧ g = .err x ∧ normals calls ≠ []) ∧
    (e.dateError ≠ none → normals calls ≠ [] → (H.replay calls u).2 ≠ none) := by
  induction calls generalizing u with
  | nil => exact ⟨fun g hg => by simp [Handlers.replay] at hg, fun _ h => absurd rfl h⟩
  | cons c calls ih =>
    rw [Handlers.replay]
    rcases hr : H.call u c with ⟨v, _ | g0⟩
    · simp only [Step.andThen]
      obtain ⟨i1, i2⟩ := ih v
      cases c with
      | normal t f =>
        have h := hu.1 u t f
        cases hd : e.dateError with
        | some x => rw [hd] at h; simp only at h; rw [hr] at h; cases h
        | none =>
          rw [hd] at i1
          refine ⟨fun g hg => ?_, fun h => absurd rfl h⟩
          rcases i1 g hg with h | ⟨x, hx, _⟩
          · exact Or.inl h
          · cases hx
      | periodic pt f =>
        have hn : normals (.periodic pt f :: calls) = normals calls := by rw [normals_cons]; rfl
        rw [hn]
        exact ⟨i1, i2⟩
    · simp only [Step.andThen]
      refine ⟨fun g hg => ?_, fun _ _ h => by cases h⟩
      cases hg
      cases c with
      | normal t f =>
        have h := hu.1 u t f
        have hn : normals (.normal t f :: calls) ≠ [] := by rw [normals_cons]; simp [normals]
        cases hd : e.dateError with
        | some x =>
          rw [hd] at h; simp only at h; rw [hr] at h
          cases h
          exact Or.inr ⟨x, rfl, rfl, hn⟩
        | none =>
          rw [hd] at h; simp only at h; rw [hr] at h
          rcases h with h | h
          · cases h
          · cases h; exact Or.inl rfl
      | periodic pt f =>
        have h := hu.2 u pt f
        rw [hr] at h
        rcases h with h | h
        · cases h
        · cases h; exact Or.inl rfl

theorem Handlers.Calm.replay {H : Handlers σ} (hu : H.Calm) (calls : List Call) (u : σ) : ∀ g, (H.replay calls u).2 = some g → ∃ x, g = .err x := by
  induction calls generalizing u with
  | nil => intro g hg; simp [Handlers.replay] at hg
  | cons c calls ih =>
    intro g hg
    rw [Handlers.replay] at hg
    rcases hr : H.call u c with ⟨v, _ | g0⟩
    · rw [hr] at hg; exact ih v g hg
    · rw [hr] at hg
      simp only [Step.andThen, Option.some.injEq] at hg
      subst hg
      exact hu u c g0 (by rw [hr])

theorem dateChecked_usual (e : Env) (h : σ → Transaction → Str → Step σ) (hh : ∀ u t f, (h u t f).2 = none) :
    (Handlers.mk (some (e.dateChecked h)) none).Usual e ∧ (Handlers.mk (some (e.dateChecked h)) none).Calm := by
  refine ⟨⟨fun u t f => ?_, fun u pt f => Or.inl rfl⟩, ?_⟩
  · obtain ⟨w1, w2⟩ := withinDateRange_dateError e t
    simp only [Handlers.call, Env.dateChecked]
    cases hd : e.dateError with
    | some x => simp only [w1 x hd]
    | none =>
      obtain ⟨b, hb⟩ := w2 hd
      rw [hb]
      cases b
      · exact Or.inl rfl
      · exact Or.inl (hh u t f)
  · intro u c g hg
    cases c with
    | normal t f =>
      simp only [Handlers.call, Env.dateChecked] at hg
      rcases hw : e.withinDateRange t with err | b
      · rw [hw] at hg; simp only [Option.some.injEq] at hg; exact ⟨err, hg.symm⟩
      · rw [hw] at hg
        cases b
        · cases hg
        · simp only [hh u t f] at hg; cases hg
    | periodic pt f => cases hg

theorem accounts_usual (e : Env) : e.accountsHandlers.Usual e ∧ e.accountsHandlers.Calm := dateChecked_usual e _ fun _ _ _ => rfl

theorem payees_usual (e : Env) : e.payeesHandlers.Usual e ∧ e.payeesHandlers.Calm := dateChecked_usual e _ fun _ _ _ => rfl

theorem print_usual (e : Env) : e.printHandlers.Usual e ∧ e.printHandlers.Calm := by
  refine ⟨⟨fun u t f => ?_, fun u pt f => Or.inl rfl⟩, ?_⟩
  · obtain ⟨w1, w2⟩ := checkAgainstFilters_dateError e t
    simp only [Handlers.call, Env.printHandlers, Env.printHandler]
    cases hd : e.dateError with
    | some x => simp only [w1 x hd]
    | none =>
      obtain ⟨r, hr⟩ := w2 hd
      rw [hr]
      simp only
      left
      split <;> rfl
  · intro u c g hg
    cases c with
    | normal t f =>
      simp only [Handlers.call, Env.printHandlers, Env.printHandler] at hg
      rcases hw : e.checkAgainstFilters t with err | r
      · rw [hw] at hg; simp only [Option.some.injEq] at hg; exact ⟨err, hg.symm⟩
      · rw [hw] at hg
        simp only at hg
        split at hg <;> cases hg
    | periodic pt f => cases hg

theorem stats_usual (e : Env) : e.statsHandlers.Usual e := by
  refine ⟨fun u t f => ?_, fun u pt f => Or.inl rfl⟩
  obtain ⟨w1, w2⟩ := checkAgainstFilters_dateError e t
  simp only [Handlers.call, Env.statsHandlers, Env.statsHandler]
  cases hd : e.dateError with
  | some x => simp only [w1 x hd]
  | none =>
    obtain ⟨r, hr⟩ := w2 hd
    rw [hr]
    simp only
    split
    · exact Or.inl rfl
    · split
      · exact Or.inl rfl
      · exact Or.inr rfl

theorem balance_usual (e : Env) : e.balanceHandlers.Usual e := by
  refine ⟨fun u t f => ?_, fun u pt f => Or.inl rfl⟩
  obtain ⟨w1, w2⟩ := checkAgainstFilters_dateError e t
  simp only [Handlers.call, Env.balanceHandlers, Env.balanceHandler]
  cases hd : e.dateError with
  | some x => simp only [w1 x hd]
  | none =>
    obtain ⟨r, hr⟩ := w2 hd
    rw [hr]
    simp only
    split
    · exact Or.inl rfl
    · split
      · exact Or.inl rfl
      · exact Or.inr rfl

theorem budget_usual (e : Env) : e.budgetHandlers.Usual e := by
  refine ⟨fun u t f => ?_, fun u pt f => ?_⟩
  · obtain ⟨w1, w2⟩ := checkAgainstFilters_dateError e t
    simp only [Handlers.call, Env.budgetHandlers, Env.budgetHandler]
    cases hd : e.dateError with
    | some x => simp only [w1 x hd]
    | none =>
      obtain ⟨r, hr⟩ := w2 hd
      rw [hr]
      simp only
      split
      · exact Or.inl rfl
      · split
        · exact Or.inl rfl
        · exact Or.inr rfl
  · simp only [Handlers.call, Env.budgetHandlers, budgetPeriodicHandler]
    split
    · exact Or.inl rfl
    · split
      · exact Or.inl rfl
      · exact Or.inr rfl

/-- A command stops because of the flags, or it panics; the lists and the print command never panic. -/
theorem stopped_cases (e : Env) (calls : List Call) {c : Command} (hc : c ≠ .version) :
    (∀ g, c.stopped e calls = some g →
      (g = .panic .unusablePosting ∧ (c = .balance ∨ c = .budget ∨ c = .statistics)) ∨ ∃ x, e.dateError = some x ∧ g = .err x ∧ normals calls ≠ []) ∧
    (e.dateError ≠ none → normals calls ≠ [] → c.stopped e calls ≠ none) := by
  have calm : ∀ {τ : Type} {H : Handlers τ} {u : τ}, H.Usual e ∧ H.Calm → ∀ g, (H.replay calls u).2 = some g →
      ∃ x, e.dateError = some x ∧ g = .err x ∧ normals calls ≠ [] := by
    intro τ H u h g hg
    rcases (h.1.replay calls u).1 g hg with rfl | h'
    · obtain ⟨x, hx⟩ := h.2.replay calls u _ hg
      cases hx
    · exact h'
  cases c with
  | version => exact absurd rfl hc
  | accounts => exact ⟨fun g hg => Or.inr (calm (accounts_usual e) g hg), ((accounts_usual e).1.replay calls _).2⟩
  | payees => exact ⟨fun g hg => Or.inr (calm (payees_usual e) g hg), ((payees_usual e).1.replay calls _).2⟩
  | print => exact ⟨fun g hg => Or.inr (calm (print_usual e) g hg), ((print_usual e).1.replay calls _).2⟩
  | balance => exact ⟨fun g hg => (((balance_usual e).replay calls _).1 g hg).imp (fun h => ⟨h, by simp⟩) id, ((balance_usual e).replay calls _).2⟩
  | budget => exact ⟨fun g hg => (((budget_usual e).replay calls _).1 g hg).imp (fun h => ⟨h, by simp⟩) id, ((budget_usual e).replay calls _).2⟩
  | statistics => exact ⟨fun g hg => (((stats_usual e).replay calls _).1 g hg).imp (fun h => ⟨h, by simp⟩) id, ((stats_usual e).replay calls _).2⟩

/-! ### Texts of errors -/

/-- An error without another one inside. -/
def Err.Basic : Err → Prop
  | .parsingDate _ | .parsingPeriod _ | .parsingAmount _ | .atLine _ _ _ | .errorAt _ => False
  | _ => True

theorem core_basic {x : Err} (hx : x.Basic) : x.core = x := by
  cases x <;> first | rfl | exact absurd hx id

/-- The text of an error ends with the text of its cause. -/
theorem text_core (lib : Err → Str) {x : Err} (hx : x.Basic) : ∀ e : Err, e.core = x → x.text lib <:+ e.text lib := by
  intro e
  induction e with
  | atLine f n e ih => intro h; exact (ih h).trans (List.suffix_append _ _)
  | errorAt e ih => intro h; exact (ih h).trans (List.suffix_append _ _)
  | parsingDate e _ => intro h; subst h; exact absurd hx id
  | parsingPeriod e _ => intro h; subst h; exact absurd hx id
  | parsingAmount e _ => intro h; subst h; exact absurd hx id
  | _ => intro h; subst h; exact List.suffix_rfl

theorem text_atLine (lib : Err → Str) (path : Str) (n : Nat) (e : Err) :
    (Err.errorAt (.atLine path n e)).text lib = str "error at " ++ path ++ str ":" ++ natDigits n ++ str "\n" ++ e.text lib := by
  have key : ∀ a b c d f g : Str, a ++ (b ++ c ++ d ++ f ++ g) = a ++ b ++ c ++ d ++ f ++ g := by intros; simp
  exact key _ _ _ _ _ _

theorem text_unbalanced (lib : Err → Str) : (Err.errorAt .unbalanced).text lib = str "error at transaction does not balance" := by
  show str "error at " ++ str "transaction does not balance" = _
  decide +kernel

theorem text_tooManyElided (lib : Err → Str) :
    (Err.errorAt .tooManyElided).text lib = str "error at cannot have more than one posting with an elided amount" := by
  show str "error at " ++ str "cannot have more than one posting with an elided amount" = _
  decide +kernel

theorem parseSmartDate_basic {year : Nat} {s : Str} {x : Err} (h : parseSmartDate year s = .error x) : x.Basic := by
  unfold parseSmartDate parseComponents parseYear parseYearMonth parseMonthDay parseYearMonthDay at h
  repeat' split at h
  all_goals first | (cases h; done) | (cases h; trivial)

theorem dateError_basic {e : Env} {x : Err} (h : e.dateError = some x) : x.Basic := by
  unfold Env.dateError at h
  split at h
  · cases h
  · by_cases hb : e.beginDate = []
    · by_cases he : e.endDate = []
      · simp [hb, he] at h
      · rcases hp : parseSmartDate e.nowYear e.endDate with err | d
        · simp [hb, he, hp] at h
          subst h
          exact parseSmartDate_basic hp
        · simp [hb, he, hp] at h
    · rcases hq : parseSmartDate e.nowYear e.beginDate with err | d
      · simp [hb, hq] at h
        subst h
        exact parseSmartDate_basic hq
      · by_cases he : e.endDate = []
        · simp [hb, hq, he] at h
        · rcases hp : parseSmartDate e.nowYear e.endDate with err | d
          · simp [hb, hq, he, hp] at h
            subst h
            exact parseSmartDate_basic hp
          · simp [hb, hq, he, hp] at h

/-- A recorder is never the reason of a failure. -/
theorem rejection_failureOf [Unicode] (fs : FileSystem) (maxOpen : Nat) (bytes : List UInt8) (path : Str) :
    rejection fs maxOpen bytes path = failureOf fs recorder maxOpen bytes path [] := by
  have hr : ∀ (calls : List Call) (u : List Call × List Call), ((logged recorder).replay calls u).2 = none := by
    intro calls
    induction calls with
    | nil => intro u; rfl
    | cons c calls ih =>
      intro u
      rw [Handlers.replay]
      cases c <;> exact ih _
  exact ((parse_replay fs (logged recorder) maxOpen bytes path ([], [])).2.1 (hr _ _)).symm

/-! ### C77 Which journal is read -/

/-- A machine with one file. -/
def machineWith (name : Str) (text : String) : Machine where
  ledgerFile := none
  fs := fun p => if p = name then some (utf8 text) else none
  maxOpen := 1
  engine := ⟨fun _ => none⟩
  lib := fun _ => []
  tomorrow := nsPerDay
  nowYear := 2020
  offset := fun _ => 0
  postingOrder := id
  stringOrder := id
  sortTransactions := id
  sortDates := id
  humanize := fun _ => []

/-- With `--file` the environment does not matter. -/
theorem C77_file_flag [Unicode] (m : Machine) (o : Options) (c : Command) (args : List Str) (env : Option Str) (h : o.file ≠ []) :
    { m with ledgerFile := env }.run o c args = m.run o c args := by
  have h0 : ¬ o.file.length = 0 := by simpa using h
  simp only [Machine.run, Machine.runFiltered, Machine.rootPath, if_neg h0]
  rfl

/-- Without `--file` the journal named by `LEDGER_FILE` is read, as if it had been given by `--file`. -/
theorem C77_environment [Unicode] (m : Machine) (o : Options) (c : Command) (args : List Str) (path : Str) (h : o.file = [])
    (he : m.ledgerFile = some path) (hp : path ≠ []) : m.run o c args = m.run { o with file := path } c args := by
  have h0 : ¬ path.length = 0 := by simpa using hp
  simp only [Machine.run, Machine.runFiltered, Machine.rootPath, h, List.length_nil, if_true, if_neg h0, he]
  rfl

/-- Without either, a command says so and prints nothing else. -/
theorem C77_no_journal [Unicode] (m : Machine) (o : Options) (c : Command) (args : List Str) (h : o.file = []) (he : m.ledgerFile = none)
    (hc : c ≠ .version) {fs : List Filter} (hf : makeFilters m.engine args = .ok fs) :
    m.run o c args = ⟨str "no root journal path provided\n", .exit 0⟩ := by
  simp only [Machine.run, hf, Machine.runFiltered, Machine.rootPath, h, he, List.length_nil, if_true, if_neg hc]

/-- If the journal cannot be opened a command prints the error of opening it and nothing else. -/
theorem C77_missing_journal [Unicode] (m : Machine) (o : Options) (c : Command) (args : List Str) (path : Str)
    (h : o.file = path ∧ path ≠ [] ∨ o.file = [] ∧ m.ledgerFile = some path) (hn : m.fs path = none)
    (hc : c ≠ .version) {fs : List Filter} (hf : makeFilters m.engine args = .ok fs) :
    m.run o c args = ⟨m.lib (.openFile path) ++ str "\n", .exit 0⟩ := by
  have hp : m.rootPath o = some path := by
    unfold Machine.rootPath
    rcases h with ⟨rfl, h⟩ | ⟨h1, h2⟩
    · rw [if_neg (by simpa using h)]
    · rw [if_pos (by simp [h1]), h2]
  simp only [Machine.run, hf, Machine.runFiltered, if_neg hc, hp, hn, Machine.finish]
  rfl

/-- The journal named by the environment, and the one named by the flag instead. -/
example :
    letI := asciiUnicode
    let m : Machine := { machineWith (str "f") "2020-01-01 x\n  A  1\n  B\n\n" with ledgerFile := some (str "f") }
    m.run {} .payees [] = ⟨str "x\n", .exit 0⟩ ∧ m.run { file := str "g" } .payees [] = ⟨str "\n", .exit 0⟩ ∧
      m.rootPath { file := str "g" } = some (str "g") := by
  decide +kernel

/-! ### C78 Exit status -/

/-- A transaction that does not balance is reported, and the status is that of success. -/
theorem C78_exit_status_false :
    ¬ ∀ (m : Machine) (o : Options) (c : Command) (args : List Str) (path : Str) (bytes : List UInt8), letI := asciiUnicode
      m.rootPath o = some path → m.fs path = some bytes → rejection m.fs m.maxOpen bytes path ≠ none → c ≠ .version →
      (m.run o c args).ending ≠ .exit 0 := by
  intro h
  have := h (machineWith (str "f") "2020-01-01 x\n  A  1\n") { file := str "f" } .print [] (str "f") (utf8 "2020-01-01 x\n  A  1\n")
    (by decide) (by decide) (by decide +kernel) (by decide)
  revert this
  decide +kernel

theorem makeFilters_cases [Unicode] (R : RegexEngine) (args : List Str) :
    (∃ fs, makeFilters R args = .ok fs ∧ ∀ a ∈ args, ∃ f, newFilter R a = .ok f) ∨
    (∃ e pre a post, makeFilters R args = .error (.err e) ∧ args = pre ++ a :: post ∧ newFilter R a = .error (.err e) ∧
      ∀ b ∈ pre, ∃ f, newFilter R b = .ok f) ∨
    (∃ pre post, makeFilters R args = .error (.panic .indexOutOfRange) ∧ args = pre ++ [] :: post ∧ ∀ b ∈ pre, ∃ f, newFilter R b = .ok f) := by
  induction args with
  | nil => exact Or.inl ⟨[], rfl, by simp⟩
  | cons a as ih =>
    rw [makeFilters]
    rcases hf : newFilter R a with f | f
    · right
      cases f with
      | err e => exact Or.inl ⟨e, [], a, as, rfl, rfl, hf, by simp⟩
      | panic p =>
        right
        cases a with
        | nil => cases hf; exact ⟨[], as, rfl, rfl, by simp⟩
        | cons c rest =>
          simp only [newFilter] at hf
          split at hf <;> cases hf
      | fatal =>
        cases a with
        | nil => cases hf
        | cons c rest =>
          simp only [newFilter] at hf
          split at hf <;> cases hf
    · simp only
      rcases ih with ⟨fs, h1, h2⟩ | ⟨e, pre, b, post, h1, h2, h3, h4⟩ | ⟨pre, post, h1, h2, h3⟩
      · rw [h1]
        refine Or.inl ⟨_, rfl, ?_⟩
        intro b hb
        rcases List.mem_cons.1 hb with rfl | hb
        · exact ⟨f, hf⟩
        · exact h2 b hb
      · rw [h1]
        refine Or.inr (Or.inl ⟨e, a :: pre, b, post, rfl, by rw [h2]; rfl, h3, ?_⟩)
        intro b hb
        rcases List.mem_cons.1 hb with rfl | hb
        · exact ⟨f, hf⟩
        · exact h4 b hb
      · rw [h1]
        refine Or.inr (Or.inr ⟨a :: pre, post, rfl, by rw [h2]; rfl, ?_⟩)
        intro b hb
        rcases List.mem_cons.1 hb with rfl | hb
        · exact ⟨f, hf⟩
        · exact h3 b hb

theorem finish_ending (m : Machine) (w : Str) (f : Failure) :
    ((m.finish w (.error f)).ending = .exit 0 ↔ ∃ e, f = .err e) ∧ ((m.finish w (.error f)).ending = .exit 1 ↔ f = .fatal) := by
  cases f <;> simp [Machine.finish]

theorem finish_ok_ending (m : Machine) (w : Str) {x : Except Failure Str} (h : ∀ f, x = .error f → ∃ e, f = .err e) :
    (m.finish w x).ending = .exit 0 := by
  cases x with
  | ok t => rfl
  | error f => obtain ⟨e, rfl⟩ := h f rfl; rfl

theorem core_err {f : Failure} {x : Err} (h : f.core = .err x) : ∃ e, f = .err e ∧ e.core = x := by
  cases f with
  | err e => exact ⟨e, rfl, by simpa [Failure.core] using h⟩
  | panic p => cases h
  | fatal => cases h

theorem core_panic {f : Failure} {p : Panic} (h : f.core = .panic p) : f = .panic p := by
  cases f <;> simp_all [Failure.core]

/-- If the journal is not rejected and the command does not stop, the exit status is 0. -/
theorem runOn_success [Unicode] (m : Machine) (e : Env) (o : Options) (args : List Str) (bytes : List UInt8) (path : Str) {c : Command}
    (hs : c.stopped e (delivered m.fs m.maxOpen bytes path) = none) (hr : rejection m.fs m.maxOpen bytes path = none) :
    (m.runOn e o args bytes path c).ending = .exit 0 := by
  cases c with
  | version => rfl
  | accounts =>
    have h2 := (runParse_cases m.fs m.maxOpen bytes path e.accountsHandlers []).2.1 hs hr
    simp only [Machine.runOn, accountsCmd, h2]; rfl
  | balance =>
    have h2 := (runParse_cases m.fs m.maxOpen bytes path e.balanceHandlers newJournal).2.1 hs hr
    simp only [Machine.runOn, balanceCmd, h2]; rfl
  | budget =>
    have h2 := (runParse_cases m.fs m.maxOpen bytes path e.budgetHandlers []).2.1 hs hr
    simp only [Machine.runOn, budgetCmd, h2]; rfl
  | payees =>
    have h2 := (runParse_cases m.fs m.maxOpen bytes path e.payeesHandlers []).2.1 hs hr
    simp only [Machine.runOn, payeesCmd, h2]
    apply finish_ok_ending
    intro f hf
    unfold payeesPrepare at hf
    split at hf
    · cases hf
    · rcases hc : compileArgs m.engine args with g | rs
      · rw [hc] at hf
        cases hf
        have : ∀ as g, compileArgs m.engine as = .error g → ∃ e, g = .err e := by
          intro as
          induction as with
          | nil => intro g h; cases h
          | cons a as ih =>
            intro g h
            rw [compileArgs] at h
            split at h
            · cases h; exact ⟨_, rfl⟩
            · rcases hq : compileArgs m.engine as with g' | rs
              · rw [hq] at h; cases h; exact ih _ hq
              · rw [hq] at h; cases h
        exact this _ _ hc
      · rw [hc] at hf; cases hf
  | print =>
    have h2 := (runParse_cases m.fs m.maxOpen bytes path e.printHandlers []).2.1 hs hr
    simp only [Machine.runOn, printCmd, h2]; rfl
  | statistics =>
    have h2 := (runParse_cases m.fs m.maxOpen bytes path e.statsHandlers {}).2.1 hs hr
    simp only [Machine.runOn, statsCmd, h2]; rfl

/-- What holds: a status other than that of success is given in exactly these cases. An argument is no filter (status 1) or empty
(panic), and the arguments before it are filters; or the command reads an existing journal, and this has a line that is too long
or makes the parser panic with the command not having stopped before (status 1, panic), or the command itself panics.
Missing: journals that are missing or rejected otherwise, and dates that cannot be read. -/
theorem C78_exit_status_partial [Unicode] (m : Machine) (o : Options) (c : Command) (args : List Str) :
    (m.run o c args).ending ≠ .exit 0 ↔
      (∃ pre a post, args = pre ++ a :: post ∧ (a = [] ∨ BadArgument m.engine a) ∧ ∀ b ∈ pre, ∃ f, newFilter m.engine b = .ok f) ∨
      (c ≠ .version ∧ ∃ filters path bytes, makeFilters m.engine args = .ok filters ∧ m.rootPath o = some path ∧ m.fs path = some bytes ∧
        ((c.stopped (m.env o filters) (delivered m.fs m.maxOpen bytes path) = none ∧
            ∃ f, rejection m.fs m.maxOpen bytes path = some f ∧ ∀ x, f ≠ .err x) ∨
          c.stopped (m.env o filters) (delivered m.fs m.maxOpen bytes path) = some (.panic .unusablePosting))) := by
  have hno : ∀ {pre post : List Str} {a : Str}, args = pre ++ a :: post → (a = [] ∨ BadArgument m.engine a) →
      (∀ b ∈ args, ∃ f, newFilter m.engine b = .ok f) → False := by
    intro pre post a h1 h2 h3
    obtain ⟨f, hf⟩ := h3 a (by rw [h1]; simp)
    rcases h2 with rfl | ⟨e, he⟩
    · cases hf
    · rw [he] at hf; cases hf
  unfold Machine.run
  rcases makeFilters_cases m.engine args with ⟨filters, h1, h2⟩ | ⟨e, pre, a, post, h1, h2, h3, h4⟩ | ⟨pre, post, h1, h2, h3⟩
  · rw [h1]
    simp only
    constructor
    · intro h
      right
      unfold Machine.runFiltered at h
      by_cases hc : c = .version
      · rw [if_pos hc] at h; exact absurd rfl h
      rw [if_neg hc] at h
      refine ⟨hc, ?_⟩
      cases hp : m.rootPath o with
      | none => rw [hp] at h; exact absurd rfl h
      | some path =>
        rw [hp] at h
        simp only at h
        cases hb : m.fs path with
        | none => rw [hb] at h; exact absurd rfl h
        | some bytes =>
          rw [hb] at h
          simp only at h
          refine ⟨filters, path, bytes, rfl, rfl, hb, ?_⟩
          obtain ⟨r1, r2⟩ := runOn_error m (m.env o filters) o args bytes path hc
          cases hs : c.stopped (m.env o filters) (delivered m.fs m.maxOpen bytes path) with
          | none =>
            left
            refine ⟨rfl, ?_⟩
            cases hr : rejection m.fs m.maxOpen bytes path with
            | none => exact absurd (runOn_success m _ o args bytes path hs hr) h
            | some f =>
              rw [r1 hs f hr] at h
              refine ⟨f, rfl, ?_⟩
              rintro x rfl
              exact h rfl
          | some g =>
            right
            rcases (stopped_cases (m.env o filters) _ hc).1 g hs with ⟨rfl, _⟩ | ⟨x, _, rfl, _⟩
            · rfl
            · obtain ⟨f, hf, hr⟩ := r2 _ hs
              obtain ⟨e, rfl, _⟩ := core_err hf
              rw [hr] at h
              exact absurd rfl h
    · rintro (⟨pre, a, post, q1, q2, _⟩ | ⟨hc, fs', path, bytes, q1, q2, q3, q4⟩)
      · exact (hno q1 q2 h2).elim
      · cases q1
        simp only [Machine.runFiltered, if_neg hc, q2, q3]
        obtain ⟨r1, r2⟩ := runOn_error m (m.env o filters) o args bytes path hc
        rcases q4 with ⟨hs, f, hf, hx⟩ | hs
        · rw [r1 hs f hf, ne_eq, (finish_ending m _ f).1]
          rintro ⟨e, he⟩
          exact hx e he
        · obtain ⟨f, hf, hr⟩ := r2 _ hs
          rw [hr, core_panic hf]
          simp [Machine.finish]
  · rw [h1]
    simp only [ne_eq]
    constructor
    · intro _
      exact Or.inl ⟨pre, a, post, h2, Or.inr ⟨e, h3⟩, h4⟩
    · intro _; simp
  · rw [h1]
    simp only [ne_eq]
    constructor
    · intro _
      exact Or.inl ⟨pre, [], post, h2, Or.inl rfl, h3⟩
    · intro _; simp

/-- An argument that is no filter, and an empty one after one that is. -/
example :
    letI := asciiUnicode
    let m := machineWith (str "f") ""
    m.run { file := str "f" } .print [str "("] = ⟨[], .exit 1⟩ ∧
      { m with engine := ⟨fun _ => some fun _ => true⟩ }.run { file := str "f" } .print [str "x", []] = ⟨[], .panic .indexOutOfRange⟩ := by
  decide +kernel

/-! ### C79 What is printed about a rejected journal -/

/-- The number of lines. -/
def lineCount (bytes : List UInt8) : Nat := (readLines bytes).length

/-- Every command that reads a rejected journal prints its warnings and then the parser's message, which names the journal and the
line, and the exit status is 0; only for a last transaction closed by the end of the file the place is missing. It is understood that
the command has not stopped before. -/
theorem C79_message [Unicode] (m : Machine) (e : Env) (o : Options) (args : List Str) (bytes : List UInt8) (path : Str) {c : Command}
    (hc : c ≠ .version) (hs : c.stopped e (delivered m.fs m.maxOpen bytes path) = none) (x : Err)
    (hr : rejection m.fs m.maxOpen bytes path = some (.err x)) :
    ∃ message, m.runOn e o args bytes path c = ⟨m.warnings e bytes path c ++ message ++ str "\n", .exit 0⟩ ∧
      ((∃ k what, k < lineCount bytes ∧ message = str "error at " ++ path ++ str ":" ++ natDigits (k + 1) ++ str "\n" ++ what) ∨
        message = str "error at transaction does not balance" ∨
        message = str "error at cannot have more than one posting with an elided amount") := by
  refine ⟨x.text m.lib, ?_, ?_⟩
  · rw [(runOn_error m e o args bytes path hc).1 hs _ hr]
    rfl
  · rw [rejection_failureOf] at hr
    have hn : NeverFails recorder := by
      refine ⟨?_, ?_⟩
      · intro h hh s t f; cases hh; rfl
      · intro h hh s t f; cases hh; rfl
    rcases C19_line_number_or_end m.fs recorder hn m.maxOpen path [] bytes x hr with ⟨k, e', hk, rfl⟩ | rfl | rfl
    · exact Or.inl ⟨k, e'.text m.lib, hk, text_atLine _ _ _ _⟩
    · exact Or.inr (Or.inl (text_unbalanced _))
    · exact Or.inr (Or.inr (text_tooManyElided _))

/-- A date without a day, in the third line. -/
example :
    letI := asciiUnicode
    (machineWith (str "f") "; c\n\n2020-01 x\n").run { file := str "f" } .accounts [] =
      ⟨str "error at f:3\nerror parsing date\n\n", .exit 0⟩ := by
  decide +kernel

/-! ### C80 Unreadable dates -/

/-- A date that cannot be read goes unnoticed if there is no transaction. -/
theorem C80_dates_false :
    ¬ ∀ (m : Machine) (o : Options) (c : Command), letI := asciiUnicode
      (m.env o []).dateError ≠ none → c ≠ .version → ∃ x, (m.run o c []).stdout = x ++ str "could not parse year: 'x'\n" := by
  intro h
  have := h (machineWith (str "f") "; nothing\n") { file := str "f", beginDate := str "x" } .print (by decide) (by decide)
  obtain ⟨x, hx⟩ := this
  have hr : (letI := asciiUnicode; (machineWith (str "f") "; nothing\n").run { file := str "f", beginDate := str "x" } .print []).stdout = [] := by
    decide +kernel
  rw [hr] at hx
  have := congrArg List.length hx
  simp [str] at this

/-- What holds: if `--begin` or `--end` cannot be read, and is not overridden by `--current`, a command that is given a transaction
does not produce a report: it prints its warnings and then an error that ends with the reason, or panics (which only balance, budget
and statistics can do). Missing: journals without a transaction. -/
theorem C80_dates_partial [Unicode] (m : Machine) (e : Env) (o : Options) (args : List Str) (bytes : List UInt8) (path : Str) {c : Command}
    (hc : c ≠ .version) {x : Err} (hx : e.dateError = some x) (hn : normals (delivered m.fs m.maxOpen bytes path) ≠ []) :
    (∃ place, m.runOn e o args bytes path c = ⟨m.warnings e bytes path c ++ place ++ x.text m.lib ++ str "\n", .exit 0⟩) ∨
    ((c = .balance ∨ c = .budget ∨ c = .statistics) ∧
      m.runOn e o args bytes path c = ⟨m.warnings e bytes path c, .panic .unusablePosting⟩) := by
  obtain ⟨s1, s2⟩ := stopped_cases e (delivered m.fs m.maxOpen bytes path) hc
  obtain ⟨g, hg⟩ := Option.ne_none_iff_exists'.1 (s2 (by rw [hx]; simp) hn)
  obtain ⟨f, hf, hr⟩ := (runOn_error m e o args bytes path hc).2 g hg
  rcases s1 g hg with ⟨rfl, hcs⟩ | ⟨y, hy, rfl, _⟩
  · right
    refine ⟨hcs, ?_⟩
    rw [hr, core_panic hf]
    rfl
  · left
    rw [hx] at hy
    cases hy
    have hb := dateError_basic hx
    rw [Failure.core, core_basic hb] at hf
    obtain ⟨e', rfl, he⟩ := core_err hf
    obtain ⟨place, hp⟩ := text_core m.lib hb e' he
    refine ⟨place, ?_⟩
    rw [hr, Machine.finish, ← hp]
    simp

/-- One transaction, and `--end` that is not a date. -/
example :
    letI := asciiUnicode
    (machineWith (str "f") "2020-01-01 x\n  A  1\n  B\n\n").run { file := str "f", endDate := str "y" } .payees [] =
      ⟨str "error at f:4\ncould not parse year: 'y'\n", .exit 0⟩ := by
  decide +kernel

/-! ### C81 The words for commands -/

/-- `p` is an alias of the payees command and of the print command. -/
theorem C81_words_false : ¬ ∀ c ∈ allCommands, ∀ w ∈ c.words, commandOf w = some c := by decide

/-- What holds: every other word selects the command it belongs to, in particular each command's own name; `p` lists payees.
Missing: `p` for print. -/
theorem C81_words_partial (c : Command) (w : Str) (hw : w ∈ c.words) : commandOf w = some c ∨ w = str "p" ∧ commandOf w = some .payees := by
  have : ∀ c ∈ allCommands, ∀ w ∈ c.words, commandOf w = some c ∨ w = str "p" ∧ commandOf w = some .payees := by decide
  exact this c (by cases c <;> decide) w hw

/-- A word that selects a command is one of its words. -/
theorem C81_only_words (w : Str) (c : Command) (h : commandOf w = some c) : w ∈ c.words := by
  have := List.find?_some h
  simpa using this

/-! ### C82 Nothing of a report after a failure -/

/-- If the journal is rejected, or the command stops at one of its transactions, then the output consists of the warnings and at most
one message: nothing of a report is printed. -/
theorem C82_no_partial_report [Unicode] (m : Machine) (e : Env) (o : Options) (args : List Str) (bytes : List UInt8) (path : Str) {c : Command}
    (hc : c ≠ .version)
    (h : rejection m.fs m.maxOpen bytes path ≠ none ∨ c.stopped e (delivered m.fs m.maxOpen bytes path) ≠ none) :
    (∃ x : Err, m.runOn e o args bytes path c = ⟨m.warnings e bytes path c ++ x.text m.lib ++ str "\n", .exit 0⟩) ∨
    m.runOn e o args bytes path c = ⟨m.warnings e bytes path c, .exit 1⟩ ∨
    ∃ p, m.runOn e o args bytes path c = ⟨m.warnings e bytes path c, .panic p⟩ := by
  have : ∃ f, m.runOn e o args bytes path c = m.finish (m.warnings e bytes path c) (.error f) := by
    obtain ⟨r1, r2⟩ := runOn_error m e o args bytes path hc
    cases hs : c.stopped e (delivered m.fs m.maxOpen bytes path) with
    | some g => obtain ⟨f, _, hf⟩ := r2 g hs; exact ⟨f, hf⟩
    | none =>
      rw [hs] at h
      obtain ⟨f, hf⟩ := Option.ne_none_iff_exists'.1 (h.resolve_right (by simp))
      exact ⟨f, r1 hs f hf⟩
  obtain ⟨f, hf⟩ := this
  rw [hf]
  cases f with
  | err x => exact Or.inl ⟨x, rfl⟩
  | fatal => exact Or.inr (Or.inl rfl)
  | panic p => exact Or.inr (Or.inr ⟨p, rfl⟩)

/-- The third transaction does not balance: nothing of the first two is printed but the warning about them. -/
example :
    letI := asciiUnicode
    (machineWith (str "f") "2020-01-01 x\n  A  $1\n  B\n\n2020-01-01 x\n  A  £1\n  B\n\n2020-01-01 x\n  A  £1\n\n").run { file := str "f" } .balance [] =
      ⟨str "unhandled addition of unmatched commodities: '$' and '£'\nunhandled addition of unmatched commodities: '$' and '£'\nunhandled addition of unmatched commodities: '$' and '£'\nunhandled addition of unmatched commodities: '$' and '£'\nerror at f:11\ntransaction does not balance\n", .exit 0⟩ := by
  decide +kernel

end Gledger
