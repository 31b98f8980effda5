/-
C83-C85: what the reports of the program do not depend on, and how they add up over parts of a journal.
-/
import Verif.Props.Program
import Verif.Props.IncludeTrees
import Verif.Props.StatsText
import Verif.Spec.Layout

namespace Gledger

set_option maxRecDepth 100000

variable {σ τ : Type}

/-! ### Journals that deliver the same, file names apart -/

/-- Handlers whose effect, seen through `π`, does not depend on file names. -/
def BlindThrough (H : Handlers σ) (π : σ → τ) : Prop :=
  ∀ (u v : σ) (c c' : Call), π u = π v → c.unfiled = c'.unfiled →
    π (H.call u c).1 = π (H.call v c').1 ∧ (H.call u c).2 = (H.call v c').2

theorem replay_blind {H : Handlers σ} {π : σ → τ} (hH : BlindThrough H π) : ∀ (calls calls' : List Call) (u v : σ),
    calls.map Call.unfiled = calls'.map Call.unfiled → π u = π v →
    π (H.replay calls u).1 = π (H.replay calls' v).1 ∧ (H.replay calls u).2 = (H.replay calls' v).2 := by
  intro calls
  induction calls with
  | nil =>
    intro calls' u v h hu
    cases calls' with
    | nil => exact ⟨hu, rfl⟩
    | cons c cs => cases h
  | cons c cs ih =>
    intro calls' u v h hu
    cases calls' with
    | nil => cases h
    | cons c' cs' =>
      simp only [List.map_cons, List.cons.injEq] at h
      obtain ⟨h1, h2⟩ := hH u v c c' hu h.1
      rw [Handlers.replay, Handlers.replay]
      rcases h3 : H.call u c with ⟨u', x⟩
      rcases h4 : H.call v c' with ⟨v', y⟩
      rw [h3, h4] at h1 h2
      simp only at h1 h2
      subst h2
      cases x with
      | none => exact ih cs' u' v' h.2 h1
      | some f => exact ⟨h1, rfl⟩

theorem blind_id {H : Handlers σ} (h : FileBlind H) : BlindThrough H (id : σ → σ) := by
  rintro u v c c' rfl hc
  cases c with
  | normal t f =>
    cases c' with
    | periodic pt f' => cases hc
    | normal t' f' =>
      cases hc
      simp only [Handlers.call]
      cases ht : H.th with
      | none => exact ⟨rfl, rfl⟩
      | some g => simp only [h.1 g ht _ _ f f']; exact ⟨rfl, rfl⟩
  | periodic pt f =>
    cases c' with
    | normal t f' => cases hc
    | periodic pt' f' =>
      cases hc
      simp only [Handlers.call]
      cases ht : H.ph with
      | none => exact ⟨rfl, rfl⟩
      | some g => simp only [h.2 g ht _ _ f f']; exact ⟨rfl, rfl⟩

theorem prints_blind {H : Handlers σ} {π : σ → τ} (hH : BlindThrough H π) {out : σ → Transaction → Str} {pout : σ → PeriodicTransaction → Str}
    (ho : ∀ u v t, π u = π v → out u t = out v t) (hp : ∀ u v t, π u = π v → pout u t = pout v t) : ∀ (calls calls' : List Call) (u v : σ),
    calls.map Call.unfiled = calls'.map Call.unfiled → π u = π v → H.prints out pout calls u = H.prints out pout calls' v := by
  intro calls
  induction calls with
  | nil =>
    intro calls' u v h hu
    cases calls' with
    | nil => rfl
    | cons c cs => cases h
  | cons c cs ih =>
    intro calls' u v h hu
    cases calls' with
    | nil => cases h
    | cons c' cs' =>
      simp only [List.map_cons, List.cons.injEq] at h
      obtain ⟨h1, h2⟩ := hH u v c c' hu h.1
      rw [Handlers.prints, Handlers.prints]
      have h0 : H.callOut out pout u c = H.callOut out pout v c' := by
        cases c with
        | normal t f =>
          cases c' with
          | periodic pt f' => cases h.1
          | normal t' f' =>
            have := h.1
            cases this
            simp only [Handlers.callOut, ho u v t hu]
        | periodic pt f =>
          cases c' with
          | normal t f' => cases h.1
          | periodic pt' f' =>
            have := h.1
            cases this
            simp only [Handlers.callOut, hp u v pt hu]
      rw [h0]
      rcases h3 : H.call u c with ⟨u', x⟩
      rcases h4 : H.call v c' with ⟨v', y⟩
      rw [h3, h4] at h1 h2
      simp only at h1 h2
      subst h2
      cases x with
      | none => simp only [ih cs' u' v' h.2 h1]
      | some f => rfl

/-- A journal without the names of the files it was read from. -/
def Journal.unfiled (j : Journal) : Journal := { j with filePaths := [] }

theorem addPostings_unfiled (t : Transaction) : ∀ (ps : List Posting) (j : Journal),
    (addPostings t ps j).map Journal.unfiled = (addPostings t ps j.unfiled).map Journal.unfiled := by
  intro ps
  induction ps with
  | nil => intro j; rfl
  | cons p ps ih =>
    intro j
    simp only [addPostings, Journal.addPosting]
    have : j.unfiled.heap = j.heap := rfl
    rw [this]
    cases wireUpPosting j.heap 0 t p with
    | none => rfl
    | some h =>
      simp only [Option.map_some, Option.bind_some]
      rw [ih, ih { j.unfiled with heap := h }]
      rfl

theorem balance_blind (e : Env) : BlindThrough e.balanceHandlers Journal.unfiled := by
  intro u v c c' hu hc
  cases c with
  | periodic pt f =>
    cases c' with
    | normal t f' => cases hc
    | periodic pt' f' =>
      cases hc
      simp only [Handlers.call, Env.balanceHandlers, and_true]
      simp only [Journal.unfiled, Journal.mk.injEq, Journal.addPeriodicTransaction] at hu ⊢
      simp [hu]
  | normal t f =>
    cases c' with
    | periodic pt f' => cases hc
    | normal t' f' =>
      cases hc
      simp only [Handlers.call, Env.balanceHandlers, Env.balanceHandler]
      rcases e.checkAgainstFilters t with err | ⟨m, ps⟩
      · exact ⟨hu, rfl⟩
      · simp only
        split
        · exact ⟨hu, rfl⟩
        · have h1 : (u.addTransaction t f).unfiled = (v.addTransaction t f').unfiled := by
            simp only [Journal.unfiled, Journal.mk.injEq, Journal.addTransaction] at hu ⊢
            simp [hu]
          have h2 := addPostings_unfiled t ps (u.addTransaction t f)
          rw [h1, ← addPostings_unfiled] at h2
          cases h3 : addPostings t ps (u.addTransaction t f) with
          | none =>
            cases h4 : addPostings t ps (v.addTransaction t f') with
            | none => exact ⟨h1, rfl⟩
            | some j => rw [h3, h4] at h2; cases h2
          | some j =>
            cases h4 : addPostings t ps (v.addTransaction t f') with
            | none => rw [h3, h4] at h2; cases h2
            | some j' => rw [h3, h4] at h2; exact ⟨Option.some.inj h2, rfl⟩

theorem addPostingsOut_unfiled (t : Transaction) : ∀ (ps : List Posting) (j j' : Journal), j.heap = j'.heap →
    addPostingsOut t ps j = addPostingsOut t ps j' := by
  intro ps
  induction ps with
  | nil => intro j j' h; rfl
  | cons p ps ih =>
    intro j j' h
    simp only [addPostingsOut, Journal.addPosting, h]
    cases wireUpPosting j'.heap 0 t p with
    | none => rfl
    | some x => simp only [Option.map_some]; rw [ih { j with heap := x } { j' with heap := x } rfl]

theorem unfiled_heap {u v : Journal} (h : u.unfiled = v.unfiled) : u.heap = v.heap := by
  simp only [Journal.unfiled, Journal.mk.injEq] at h
  exact h.2.2.2

theorem accounts_fileBlind (e : Env) : FileBlind e.accountsHandlers := by
  refine ⟨?_, ?_⟩
  · intro h hh s t f g; cases hh; rfl
  · intro h hh; cases hh

theorem payees_fileBlind (e : Env) : FileBlind e.payeesHandlers := by
  refine ⟨?_, ?_⟩
  · intro h hh s t f g; cases hh; rfl
  · intro h hh; cases hh

theorem print_fileBlind (e : Env) : FileBlind e.printHandlers := by
  refine ⟨?_, ?_⟩
  · intro h hh s t f g; cases hh; rfl
  · intro h hh; cases hh

theorem budget_fileBlind (e : Env) : FileBlind e.budgetHandlers := by
  refine ⟨?_, ?_⟩
  · intro h hh s t f g; cases hh; rfl
  · intro h hh s t f g; cases hh; rfl

theorem runParse_same [Unicode] {H : Handlers σ} {π : σ → τ} (hH : BlindThrough H π) (fs fs' : FileSystem) (n n' : Nat) (bytes bytes' : List UInt8)
    (path path' : Str) (u : σ) (hd : (delivered fs n bytes path).map Call.unfiled = (delivered fs' n' bytes' path').map Call.unfiled)
    (hr : rejection fs n bytes path = none) (hr' : rejection fs' n' bytes' path' = none)
    (hs : (H.replay (delivered fs n bytes path) u).2 = none) :
    ∃ v v', runParse fs n bytes path H u = .ok v ∧ runParse fs' n' bytes' path' H u = .ok v' ∧ π v = π v' := by
  obtain ⟨h1, h2⟩ := replay_blind hH _ _ u u hd rfl
  refine ⟨_, _, (runParse_cases fs n bytes path H u).2.1 hs hr, (runParse_cases fs' n' bytes' path' H u).2.1 (h2 ▸ hs) hr', h1⟩

theorem warnings_same [Unicode] (m : Machine) (fs' : FileSystem) (n' : Nat) (e : Env) (bytes bytes' : List UInt8) (path path' : Str)
    (hd : (delivered m.fs m.maxOpen bytes path).map Call.unfiled = (delivered fs' n' bytes' path').map Call.unfiled) (c : Command) :
    m.warnings e bytes path c = { m with fs := fs', maxOpen := n' }.warnings e bytes' path' c := by
  cases c with
  | budget =>
    simp only [Machine.warnings]
    unfold Env.budgetPrinting
    rw [printed_replay, printed_replay, prints_blind (blind_id (budget_fileBlind e)) (by rintro u v t rfl; rfl) (by rintro u v t rfl; rfl) _ _ [] [] hd rfl]
  | balance =>
    simp only [Machine.warnings]
    unfold Env.balancePrinting
    rw [printed_replay, printed_replay, prints_blind (balance_blind e) ?_ ?_ _ _ newJournal newJournal hd rfl]
    · intro u v t h
      unfold Env.balanceOut
      rcases e.checkAgainstFilters t with err | ⟨m, ps⟩
      · rfl
      · exact addPostingsOut_unfiled t ps u v (unfiled_heap h)
    · intro u v t _; rfl
  | _ => rfl

/-- Figures gathered, without the names of files. -/
def Stats.unfiled (s : Stats) : Stats := { s with files := [] }

theorem addBuckets_unfiled (d : Date) : ∀ (ps : List Posting) (s : Stats),
    (Stats.addBuckets d ps s).map Stats.unfiled = Stats.addBuckets d ps s.unfiled := by
  intro ps
  induction ps with
  | nil => intro s; rfl
  | cons p ps ih =>
    intro s
    simp only [Stats.addBuckets]
    have : s.unfiled.addBucket d p = (s.addBucket d p).map Stats.unfiled := by
      unfold Stats.addBucket
      simp only
      split
      · cases p.amount <;> rfl
      · split
        · cases p.amount <;> rfl
        · rfl
    rw [this]
    cases s.addBucket d p with
    | none => rfl
    | some s' => simp only [Option.bind_some, Option.map_some]; exact ih s'

theorem stats_blind (e : Env) : BlindThrough e.statsHandlers Stats.unfiled := by
  intro u v c c' hu hc
  cases c with
  | periodic pt f =>
    cases c' with
    | normal t f' => cases hc
    | periodic pt' f' => exact ⟨hu, rfl⟩
  | normal t f =>
    cases c' with
    | periodic pt f' => cases hc
    | normal t' f' =>
      cases hc
      simp only [Handlers.call, Env.statsHandlers, Env.statsHandler]
      rcases e.checkAgainstFilters t with err | ⟨m, ps⟩
      · exact ⟨hu, rfl⟩
      · simp only
        split
        · exact ⟨hu, rfl⟩
        · have hu' := hu
          simp only [Stats.unfiled, Stats.mk.injEq] at hu'
          obtain ⟨e1, e2, e3, e4, e5, _, e6, e7⟩ := hu'
          rw [e1, e2, e3, e4, e5, e6, e7]
          generalize hx : Stats.mk _ _ _ _ _ (addKey u.files f) _ _ = x
          generalize hy : Stats.mk _ _ _ _ _ (addKey v.files f') _ _ = y
          have hxy : x.unfiled = y.unfiled := by rw [← hx, ← hy]; rfl
          have h := addBuckets_unfiled t.date ps x
          rw [hxy, ← addBuckets_unfiled] at h
          cases h3 : Stats.addBuckets t.date ps x with
          | none =>
            cases h4 : Stats.addBuckets t.date ps y with
            | none => exact ⟨hxy, rfl⟩
            | some j => rw [h3, h4] at h; cases h
          | some j =>
            cases h4 : Stats.addBuckets t.date ps y with
            | none => rw [h3, h4] at h; cases h
            | some j' => rw [h3, h4] at h; exact ⟨Option.some.inj h, rfl⟩

theorem stopped_same (e : Env) {calls calls' : List Call} (h : calls.map Call.unfiled = calls'.map Call.unfiled) (c : Command) :
    c.stopped e calls = c.stopped e calls' := by
  cases c with
  | version => rfl
  | accounts => exact (replay_blind (blind_id (accounts_fileBlind e)) _ _ [] [] h rfl).2
  | payees => exact (replay_blind (blind_id (payees_fileBlind e)) _ _ [] [] h rfl).2
  | print => exact (replay_blind (blind_id (print_fileBlind e)) _ _ [] [] h rfl).2
  | budget => exact (replay_blind (blind_id (budget_fileBlind e)) _ _ [] [] h rfl).2
  | balance => exact (replay_blind (balance_blind e) _ _ newJournal newJournal h rfl).2
  | statistics => exact (replay_blind (stats_blind e) _ _ {} {} h rfl).2

/-- Two journals that deliver the same, file names apart, and are both accepted: every command but the statistics does the same. -/
theorem runOn_same [Unicode] (m : Machine) (fs' : FileSystem) (n' : Nat) (e : Env) (o : Options) (args : List Str) (bytes bytes' : List UInt8)
    (path path' : Str) (hd : (delivered m.fs m.maxOpen bytes path).map Call.unfiled = (delivered fs' n' bytes' path').map Call.unfiled)
    (hr : rejection m.fs m.maxOpen bytes path = none) (hr' : rejection fs' n' bytes' path' = none) {c : Command} (hc : c ≠ .statistics)
    (hs : c.stopped e (delivered m.fs m.maxOpen bytes path) = none) :
    m.runOn e o args bytes path c = { m with fs := fs', maxOpen := n' }.runOn e o args bytes' path' c := by
  have hw := warnings_same m fs' n' e bytes bytes' path path' hd c
  cases c with
  | statistics => exact absurd rfl hc
  | version => rfl
  | accounts =>
    obtain ⟨v, v', h1, h2, h3⟩ := runParse_same (blind_id (accounts_fileBlind e)) _ fs' _ n' _ bytes' _ path' [] hd hr hr' hs
    simp only [id] at h3
    simp only [Machine.runOn, accountsCmd, h1, h2, h3]
    rfl
  | payees =>
    obtain ⟨v, v', h1, h2, h3⟩ := runParse_same (blind_id (payees_fileBlind e)) _ fs' _ n' _ bytes' _ path' [] hd hr hr' hs
    simp only [id] at h3
    simp only [Machine.runOn, payeesCmd, h1, h2, h3]
    rfl
  | print =>
    obtain ⟨v, v', h1, h2, h3⟩ := runParse_same (blind_id (print_fileBlind e)) _ fs' _ n' _ bytes' _ path' [] hd hr hr' hs
    simp only [id] at h3
    simp only [Machine.runOn, printCmd, h1, h2, h3]
    rfl
  | budget =>
    obtain ⟨v, v', h1, h2, h3⟩ := runParse_same (blind_id (budget_fileBlind e)) _ fs' _ n' _ bytes' _ path' [] hd hr hr' hs
    simp only [id] at h3
    simp only [Machine.warnings] at hw
    simp only [Machine.runOn, budgetCmd, h1, h2, h3, hw]
    rfl
  | balance =>
    obtain ⟨v, v', h1, h2, h3⟩ := runParse_same (balance_blind e) _ fs' _ n' _ bytes' _ path' newJournal hd hr hr' hs
    simp only [Machine.warnings] at hw
    simp only [Machine.runOn, balanceCmd, h1, h2, hw, Except.map, unfiled_heap h3]
    rfl

/-- The statistics of two such journals: the same figures, for other files. -/
theorem runOn_stats [Unicode] (m : Machine) (ho : ∀ l, (m.stringOrder l).Perm l) (fs' : FileSystem) (n' : Nat) (e : Env) (o : Options) (args : List Str)
    (bytes bytes' : List UInt8) (path path' : Str)
    (hd : (delivered m.fs m.maxOpen bytes path).map Call.unfiled = (delivered fs' n' bytes' path').map Call.unfiled)
    (hr : rejection m.fs m.maxOpen bytes path = none) (hr' : rejection fs' n' bytes' path' = none)
    (hs : Command.statistics.stopped e (delivered m.fs m.maxOpen bytes path) = none) :
    (m.runOn e o args bytes path .statistics = ⟨str "No transactions matched arguments.\n", .exit 0⟩ ∧
      { m with fs := fs', maxOpen := n' }.runOn e o args bytes' path' .statistics = ⟨str "No transactions matched arguments.\n", .exit 0⟩) ∨
    ∃ (f : Figures) (files' : List Str),
      m.runOn e o args bytes path .statistics = ⟨(f.lines m.humanize).flatMap (· ++ str "\n"), .exit 0⟩ ∧
      { m with fs := fs', maxOpen := n' }.runOn e o args bytes' path' .statistics =
        ⟨({ f with files := files' }.lines m.humanize).flatMap (· ++ str "\n"), .exit 0⟩ := by
  obtain ⟨v, v', h1, h2, h3⟩ := runParse_same (stats_blind e) _ fs' _ n' _ bytes' _ path' {} hd hr hr' hs
  simp only [Stats.unfiled, Stats.mk.injEq] at h3
  obtain ⟨e1, e2, e3, e4, e5, _, e6, e7⟩ := h3
  simp only [Machine.runOn, statsCmd, h1, h2, Except.map, Machine.finish, List.nil_append]
  have ea : averageAge (v'.ages m.sortDates) = averageAge (v.ages m.sortDates) := by unfold Stats.ages; rw [e6, e7]
  have ed : v'.days = v.days := by unfold Stats.days; rw [e1, e2]
  rw [ea]
  by_cases hc : v.count = 0
  · left
    unfold statsReport
    rw [if_pos hc, if_pos (e3 ▸ hc)]
    exact ⟨rfl, rfl⟩
  · right
    obtain ⟨age, a1, -⟩ := C71_age_days (averageAge (v.ages m.sortDates))
    refine ⟨⟨m.stringOrder v.files, v.first, v.last, v.days, v.count, perDay v.count v.days, v.accounts.length, v.payees.length, age⟩,
      m.stringOrder v'.files, ?_, ?_⟩
    · unfold statsReport
      rw [if_neg hc, a1, show v.files.length = (m.stringOrder v.files).length from (ho _).length_eq.symm]
      simp [Figures.lines, ago, List.flatMap_append, List.flatMap_map, List.append_assoc, str]
    · unfold statsReport
      rw [← e1, ← e2, ← e3, ← e4, ← e5, ed, if_neg hc, a1, show v'.files.length = (m.stringOrder v'.files).length from (ho _).length_eq.symm]
      simp [Figures.lines, ago, List.flatMap_append, List.flatMap_map, List.append_assoc, str]

/-- In any case but that of statistics that come out, the commands end alike. -/
theorem runOn_alike [Unicode] (m : Machine) (fs' : FileSystem) (n' : Nat) (e : Env) (o : Options) (args : List Str) (bytes bytes' : List UInt8)
    (path path' : Str) (hd : (delivered m.fs m.maxOpen bytes path).map Call.unfiled = (delivered fs' n' bytes' path').map Call.unfiled)
    (hr : (rejection m.fs m.maxOpen bytes path).map Failure.core = (rejection fs' n' bytes' path').map Failure.core) {c : Command}
    (hc : c ≠ .statistics ∨ rejection m.fs m.maxOpen bytes path ≠ none ∨ c.stopped e (delivered m.fs m.maxOpen bytes path) ≠ none) :
    m.Alike (m.runOn e o args bytes path c) ({ m with fs := fs', maxOpen := n' }.runOn e o args bytes' path' c) := by
  by_cases hv : c = .version
  · subst hv; exact Or.inl rfl
  obtain ⟨a1, a2⟩ := runOn_error m e o args bytes path hv
  obtain ⟨b1, b2⟩ := runOn_error { m with fs := fs', maxOpen := n' } e o args bytes' path' hv
  rw [← warnings_same m fs' n' e bytes bytes' path path' hd c, ← stopped_same e hd c] at b1 b2
  cases hs : c.stopped e (delivered m.fs m.maxOpen bytes path) with
  | some g =>
    obtain ⟨f, hf, h1⟩ := a2 g hs
    obtain ⟨f', hf', h2⟩ := b2 g hs
    exact Or.inr ⟨_, f, f', hf.trans hf'.symm, h1, h2⟩
  | none =>
    cases h : rejection m.fs m.maxOpen bytes path with
    | some f =>
      rw [h] at hr
      cases h' : rejection fs' n' bytes' path' with
      | none => rw [h'] at hr; cases hr
      | some f' =>
        rw [h'] at hr
        exact Or.inr ⟨_, f, f', Option.some.inj hr, a1 hs f h, b1 hs f' h'⟩
    | none =>
      rw [h] at hr
      cases h' : rejection fs' n' bytes' path' with
      | some f' => rw [h'] at hr; cases hr
      | none =>
        rw [h, hs] at hc
        simp only [ne_eq, not_true_eq_false, or_false] at hc
        exact Or.inl (runOn_same m fs' n' e o args bytes bytes' path path' hd h h' hc hs)

/-- Journals that deliver exactly the same: all commands end alike. -/
theorem runOn_alike_exact [Unicode] (m : Machine) (fs' : FileSystem) (n' : Nat) (e : Env) (o : Options) (args : List Str) (bytes bytes' : List UInt8) (path : Str)
    (hd : delivered m.fs m.maxOpen bytes path = delivered fs' n' bytes' path)
    (hr : (rejection m.fs m.maxOpen bytes path).map Failure.core = (rejection fs' n' bytes' path).map Failure.core) (c : Command) :
    m.Alike (m.runOn e o args bytes path c) ({ m with fs := fs', maxOpen := n' }.runOn e o args bytes' path c) := by
  by_cases hc : c ≠ .statistics ∨ rejection m.fs m.maxOpen bytes path ≠ none ∨ c.stopped e (delivered m.fs m.maxOpen bytes path) ≠ none
  · exact runOn_alike m fs' n' e o args bytes bytes' path path (by rw [hd]) hr hc
  · simp only [ne_eq, not_or, not_not] at hc
    obtain ⟨rfl, h1, h2⟩ := hc
    have h1' : rejection fs' n' bytes' path = none := by
      rw [h1] at hr
      cases h' : rejection fs' n' bytes' path with
      | none => rfl
      | some f' => rw [h'] at hr; cases hr
    left
    have k1 := (runParse_cases m.fs m.maxOpen bytes path e.statsHandlers {}).2.1 h2 h1
    have k2 := (runParse_cases fs' n' bytes' path e.statsHandlers {}).2.1 (by rw [← hd]; exact h2) h1'
    simp only [Machine.runOn, statsCmd, k1, k2, hd]
    rfl

/-! ### C83: splitting a journal into files -/

/-- Handlers that do nothing. -/
def idle : Handlers Unit where
  th := some fun s _ _ => (s, none)
  ph := some fun s _ _ => (s, none)

theorem idle_fileBlind : FileBlind idle := by
  refine ⟨?_, ?_⟩
  · intro h hh s t f g; cases hh; rfl
  · intro h hh s t f g; cases hh; rfl

theorem idle_calls [Unicode] (fs : FileSystem) (n : Nat) (bytes : List UInt8) (path : Str) :
    callsOf fs idle n bytes path () = delivered fs n bytes path ∧ failureOf fs idle n bytes path () = rejection fs n bytes path := by
  have key : ∀ (cs : List Call) (u : Unit × List Call), (logged idle).replay cs u = ((u.1, u.2 ++ cs), none) := by
    intro cs
    induction cs with
    | nil => intro u; simp [Handlers.replay]
    | cons c cs ih =>
      intro u
      rw [Handlers.replay]
      have hc : (logged idle).call u c = ((u.1, u.2 ++ [c]), none) := by cases c <;> rfl
      rw [hc]
      simp only [Step.andThen]
      rw [ih]
      simp
  obtain ⟨h1, h2, -⟩ := parse_replay fs (logged idle) n bytes path ((), [])
  unfold callsOf failureOf
  rw [key] at h1 h2
  exact ⟨by rw [h1]; simp, h2 rfl⟩

theorem inlined_same [Unicode] (fs fs' : FileSystem) (n n' : Nat) (path path' : Str) (bytes flat : List UInt8)
    (hflat : inlineLines (inlineFile fs n) path (readLines bytes) = some (readLines flat)) :
    (delivered fs n bytes path).map Call.unfiled = (delivered fs' n' flat path').map Call.unfiled ∧
    (rejection fs n bytes path).map Failure.core = (rejection fs' n' flat path').map Failure.core := by
  obtain ⟨h1, -, h3⟩ := C16_tree_inlining fs fs' idle idle_fileBlind n n' path path' () bytes flat hflat
  rw [(idle_calls _ _ _ _).1, (idle_calls _ _ _ _).1] at h1
  rw [(idle_calls _ _ _ _).2, (idle_calls _ _ _ _).2] at h3
  exact ⟨h1, h3⟩

theorem run_path [Unicode] (m : Machine) (o : Options) (c : Command) (args : List Str) {path : Str} {bytes : List UInt8} (hp : path ≠ [])
    (hb : m.fs path = some bytes) :
    m.run { o with file := path } c args = match makeFilters m.engine args with
      | .error (.panic p) => ⟨[], .panic p⟩
      | .error _ => ⟨[], .exit 1⟩
      | .ok filters => m.runOn (m.env o filters) o args bytes path c := by
  unfold Machine.run
  rcases makeFilters m.engine args with (x | x | x) | filters
  · rfl
  · rfl
  · rfl
  · unfold Machine.runFiltered Machine.rootPath
    have : (path.length = 0) = False := by simpa using hp
    simp only [this, if_false, hb]
    cases c <;> rfl

/-- Splitting a journal into files that include each other, or joining such files, changes what no command but the statistics does:
same output, same exit status; or the same warnings and an error for the same reason. -/
theorem C83_split [Unicode] (m : Machine) (fs' : FileSystem) (n' : Nat) (o : Options) (c : Command) (args : List Str) (path path' : Str)
    (hp : path ≠ []) (hp' : path' ≠ []) (bytes flat : List UInt8) (hb : m.fs path = some bytes) (hb' : fs' path' = some flat)
    (hflat : inlineLines (inlineFile m.fs m.maxOpen) path (readLines bytes) = some (readLines flat)) (hc : c ≠ .statistics) :
    m.Alike (m.run { o with file := path } c args) ({ m with fs := fs', maxOpen := n' }.run { o with file := path' } c args) := by
  obtain ⟨hd, hr⟩ := inlined_same m.fs fs' m.maxOpen n' path path' bytes flat hflat
  rw [run_path m o c args hp hb, run_path { m with fs := fs', maxOpen := n' } o c args hp' hb']
  simp only
  split
  · exact Or.inl rfl
  · exact Or.inl rfl
  · exact runOn_alike m fs' n' _ o args bytes flat path path' hd hr (Or.inl hc)

/-- Two files and the one that holds both; the statistics name the files and otherwise agree. -/
example :
    letI := asciiUnicode
    let fs : FileSystem := fun p =>
      if p = str "d/r" then some (utf8 "include a\n2020-01-04 w\n  A  1\n  B\n")
      else if p = str "d/a" then some (utf8 "2020-01-01 x\n  A  1\n  B\n") else none
    let flat := "2020-01-01 x\n  A  1\n  B\n\n2020-01-04 w\n  A  1\n  B\n"
    let m : Machine := { machineWith (str "g") flat with fs := fs, maxOpen := 2 }
    let m' : Machine := { machineWith (str "g") flat with maxOpen := 2 }
    inlineLines (inlineFile m.fs m.maxOpen) (str "d/r") (readLines (utf8 "include a\n2020-01-04 w\n  A  1\n  B\n")) = some (readLines (utf8 flat)) ∧
    m.run { file := str "d/r" } .payees [] = ⟨str "w\nx\n", .exit 0⟩ ∧ m'.run { file := str "g" } .payees [] = ⟨str "w\nx\n", .exit 0⟩ ∧
    m.run { file := str "d/r" } .statistics [] ≠ m'.run { file := str "g" } .statistics [] := by
  decide +kernel

/-- The statistics differ in the list of files only. -/
theorem C83_split_statistics [Unicode] (m : Machine) (ho : ∀ l, (m.stringOrder l).Perm l) (fs' : FileSystem) (n' : Nat) (o : Options)
    (args : List Str) (path path' : Str) (hp : path ≠ []) (hp' : path' ≠ []) (bytes flat : List UInt8) (hb : m.fs path = some bytes)
    (hb' : fs' path' = some flat) (hflat : inlineLines (inlineFile m.fs m.maxOpen) path (readLines bytes) = some (readLines flat)) :
    m.Alike (m.run { o with file := path } .statistics args) ({ m with fs := fs', maxOpen := n' }.run { o with file := path' } .statistics args) ∨
    ∃ (f : Figures) (files' : List Str),
      m.run { o with file := path } .statistics args = ⟨(f.lines m.humanize).flatMap (· ++ str "\n"), .exit 0⟩ ∧
      { m with fs := fs', maxOpen := n' }.run { o with file := path' } .statistics args =
        ⟨({ f with files := files' }.lines m.humanize).flatMap (· ++ str "\n"), .exit 0⟩ := by
  obtain ⟨hd, hr⟩ := inlined_same m.fs fs' m.maxOpen n' path path' bytes flat hflat
  rw [run_path m o .statistics args hp hb, run_path { m with fs := fs', maxOpen := n' } o .statistics args hp' hb']
  simp only
  split
  · exact Or.inl (Or.inl rfl)
  · exact Or.inl (Or.inl rfl)
  · rename_i filters _
    have env : Machine.env { m with fs := fs', maxOpen := n' } o filters = m.env o filters := rfl
    rw [env]
    by_cases h1 : rejection m.fs m.maxOpen bytes path = none
    · by_cases h2 : Command.statistics.stopped (m.env o filters) (delivered m.fs m.maxOpen bytes path) = none
      · have h1' : rejection fs' n' flat path' = none := by
          rw [h1] at hr
          cases h' : rejection fs' n' flat path' with
          | none => rfl
          | some f' => rw [h'] at hr; cases hr
        rcases runOn_stats m ho fs' n' (m.env o filters) o args bytes flat path path' hd h1 h1' h2 with ⟨e1, e2⟩ | h
        · exact Or.inl (Or.inl (e1.trans e2.symm))
        · exact Or.inr h
      · exact Or.inl (runOn_alike m fs' n' _ o args bytes flat path path' hd hr (Or.inr (Or.inr h2)))
    · exact Or.inl (runOn_alike m fs' n' _ o args bytes flat path path' hd hr (Or.inr (Or.inl h1)))

/-! ### C84: layout -/

theorem core_unnumbered (e : Err) : e.unnumbered.core = e.core := by
  induction e <;> simp_all [Err.unnumbered, Err.core]

theorem core_of_unnumbered {f g : Failure} (h : f.unnumbered = g.unnumbered) : f.core = g.core := by
  have key : ∀ f : Failure, f.unnumbered.core = f.core := by
    intro f
    cases f with
    | err e => exact congrArg Failure.err (core_unnumbered e)
    | _ => rfl
  rw [← key f, h, key]

theorem layout_rel [Unicode] (fs : FileSystem) (H : Handlers σ) (n : Nat) (path : Str) {a b : List UInt8} (h : SameLayout a b) :
    ∀ st : PState σ, st.builder.Shape → StepRel Eq Eq (fun f g => f.core = g.core) (parse fs H n a path st) (parse fs H n b path st) := by
  have weaken : ∀ {x y : Step (PState σ)}, StepRel Eq Eq (fun f g => f.unnumbered = g.unnumbered) x y → StepRel Eq Eq (fun f g => f.core = g.core) x y :=
    fun h => h.mono (fun _ _ h => h) (fun _ _ h => h) fun f g h => core_of_unnumbered h
  induction h with
  | refl a => intro st _; exact StepRel.refl fun _ => rfl
  | symm _ ih =>
    intro st hst
    rcases ih st hst with ⟨h1, h2, h3⟩ | ⟨f, g, h1, h2, h3, h4⟩
    · exact Or.inl ⟨h2, h1, h3.symm⟩
    · exact Or.inr ⟨g, f, h2, h1, h3.symm, h4.symm⟩
  | trans _ _ ih ih' => intro st hst; exact StepRel.trans_eq (F := fun f g => f.core = g.core) (fun _ _ _ => Eq.trans) (ih st hst) (ih' st hst)
  | comment ha hc hnl hlen => intro st hst; exact weaken (comment_rel fs H n path st hst _ _ _ ha hc hnl hlen)
  | blanks ha h1 h2 => intro st hst; exact weaken (blanks_rel fs H n path st hst _ _ _ _ ha h1 h2)
  | header ha h1 hb hl => intro st hst; exact weaken (blankHeader_rel fs H n path st hst _ _ _ _ _ ha h1 hb hl)
  | atEnd ha h1 => intro st hst; exact atEnd_rel fs H n path st hst _ _ ha h1
  | crlf h =>
    intro st hst
    rw [(C14_line_endings fs H n path st _ [0] h (by decide) (by decide)).1]
    exact StepRel.refl fun _ => rfl
  | unterminated h hl hne =>
    intro st hst
    rw [(C14_line_endings fs H n path st _ _ h hl hne).2.1]
    exact StepRel.refl fun _ => rfl

theorem parseItem_include [Unicode] (fs : FileSystem) (H : Handlers σ) (n : Nat) (path : Str) (st : PState σ) :
    parseItem fs H (n + 1) .includeItem path st = match fs path with
      | none => ({ st with files := st.files ++ [path] }, some (.err (.openFile path)))
      | some bytes => (parse fs H n bytes path st).andThen fun st => ({ st with files := st.files.take 1 }, none) := by
  rw [parseItem]
  rfl

theorem layouts_rel [Unicode] {fs fs' : FileSystem} (hfs : SameLayouts fs fs') (H : Handlers σ) : ∀ (n : Nat) (i : ItemType) (c : Str) (s t : PState σ),
    (s = t ∧ s.builder.Shape) →
    StepRel (fun s t => s = t ∧ s.builder.Shape) Eq (fun f g => f.core = g.core) (parseItem fs H n i c s) (parseItem fs' H n i c t) := by
  -- items other than includes
  have other : ∀ (n : Nat) (i : ItemType) (c : Str) (s : PState σ), s.builder.Shape → parseItem fs H n i c s = parseItem fs' H n i c s →
      StepRel (fun s t => s = t ∧ s.builder.Shape) Eq (fun f g => f.core = g.core) (parseItem fs H n i c s) (parseItem fs' H n i c s) := by
    intro n i c s hs h
    rw [← h]
    have hk := parseItem_keeps (shape_inv H) fs n i c s hs
    generalize parseItem fs H n i c s = r at hk
    obtain ⟨s', _ | f⟩ := r
    · exact StepRel.ok ⟨rfl, hk.2 rfl⟩
    · exact StepRel.fail rfl rfl
  intro n
  induction n with
  | zero =>
    rintro i c s _ ⟨rfl, hs⟩
    exact other 0 i c s hs (by cases i <;> simp only [parseItem])
  | succ n ih =>
    rintro i c s _ ⟨rfl, hs⟩
    by_cases hi : i = .includeItem
    · subst hi
      rw [parseItem_include, parseItem_include]
      rcases hfs c with ⟨h1, h2⟩ | ⟨a, b, h1, h2, h3⟩
      · rw [h1, h2]
        exact StepRel.fail rfl rfl
      · rw [h1, h2]
        simp only
        have k1 := layout_rel fs H n c h3 s hs
        have k2 : StepRel (fun s t => s = t ∧ s.builder.Shape) Eq (fun f g => f.core = g.core) (parse fs H n b c s) (parse fs' H n b c s) := by
          rw [parse_lexLoop, parse_lexLoop]
          exact (lexLoop_rel FailRel.core (fun _ _ h => h.1) c _ (fun i x s t h => ih i x s t h) 1 1 { s with files := s.files ++ [c] } { s with files := s.files ++ [c] } ⟨rfl, hs⟩).wrap FailRel.core.errorAt
        have k : StepRel (fun s t => s = t ∧ s.builder.Shape) Eq (fun f g => f.core = g.core) (parse fs H n a c s) (parse fs' H n b c s) := by
          rcases k1 with ⟨a1, a2, a3⟩ | ⟨f, g, a1, a2, a3, a4⟩
          · rcases k2 with ⟨b1, b2, b3⟩ | ⟨f', g', b1, b2, b3, b4⟩
            · exact Or.inl ⟨a1, b2, a3 ▸ b3⟩
            · rw [a2] at b1; cases b1
          · rcases k2 with ⟨b1, b2, b3⟩ | ⟨f', g', b1, b2, b3, b4⟩
            · rw [a2] at b1; cases b1
            · rw [a2] at b1; cases b1
              exact Or.inr ⟨f, g', a1, b2, a3.trans b3, a4.trans b4⟩
        refine StepRel.andThen k ?_
        rintro s' _ ⟨rfl, hs'⟩
        exact StepRel.ok ⟨rfl, hs'⟩
    · exact other (n + 1) i c s hs (by cases i <;> first | exact absurd rfl hi | simp only [parseItem])

/-- Files that differ in their layout only, included files too. -/
theorem layouts_parse [Unicode] {fs fs' : FileSystem} (hfs : SameLayouts fs fs') (n : Nat) (path : Str) {a b : List UInt8} (h : SameLayout a b) :
    delivered fs n a path = delivered fs' n b path ∧ (rejection fs n a path).map Failure.core = (rejection fs' n b path).map Failure.core := by
  unfold delivered rejection
  have k1 := layout_rel fs recorder n path h (newParser []) (newParser_shape [])
  have k2 : StepRel (fun s t => s = t ∧ s.builder.Shape) Eq (fun f g => f.core = g.core)
      (parse fs recorder n b path (newParser [])) (parse fs' recorder n b path (newParser [])) := by
    rw [parse_lexLoop, parse_lexLoop]
    exact (lexLoop_rel FailRel.core (fun _ _ h => h.1) path _ (fun i x s t h => layouts_rel hfs recorder n i x s t h) 1 1 { newParser [] with files := (newParser ([] : List Call)).files ++ [path] } { newParser [] with files := (newParser ([] : List Call)).files ++ [path] } ⟨rfl, newParser_shape ([] : List Call)⟩).wrap FailRel.core.errorAt
  have k3 : StepRel Eq Eq (fun f g => f.core = g.core) (parse fs recorder n b path (newParser [])) (parse fs' recorder n b path (newParser [])) :=
    k2.mono (fun _ _ h => h.1) (fun _ _ h => h) (fun _ _ h => h)
  have k := StepRel.trans_eq (F := fun f g => f.core = g.core) (fun _ _ _ => Eq.trans) k1 k3
  rcases k with ⟨h1, h2, h3⟩ | ⟨f, g, h1, h2, h3, h4⟩
  · rw [h1, h2, h3]; exact ⟨rfl, rfl⟩
  · rw [h1, h2, h3]; exact ⟨rfl, congrArg some h4⟩

/-- Changing the layout of the files changes what no command does. -/
theorem C84_layout [Unicode] (m : Machine) (fs' : FileSystem) (h : SameLayouts m.fs fs') (o : Options) (c : Command) (args : List Str) :
    m.Alike (m.run o c args) ({ m with fs := fs' }.run o c args) := by
  unfold Machine.run
  rcases makeFilters m.engine args with (x | x | x) | filters
  · exact Or.inl rfl
  · exact Or.inl rfl
  · exact Or.inl rfl
  · simp only
    unfold Machine.runFiltered
    by_cases hc : c = .version
    · rw [if_pos hc, if_pos hc]; exact Or.inl rfl
    rw [if_neg hc, if_neg hc]
    have hp : Machine.rootPath { m with fs := fs' } o = m.rootPath o := rfl
    rw [hp]
    cases m.rootPath o with
    | none => exact Or.inl rfl
    | some path =>
      simp only
      rcases h path with ⟨h1, h2⟩ | ⟨a, b, h1, h2, h3⟩
      · rw [h1, h2]; exact Or.inl rfl
      · rw [h1, h2]
        simp only
        obtain ⟨hd, hr⟩ := layouts_parse h m.maxOpen path h3
        exact runOn_alike_exact m fs' m.maxOpen (m.env o filters) o args a b path hd hr c

/-- A comment, a second blank line and line ends of the other kind; and what the program prints with either file. -/
example :
    letI := asciiUnicode
    SameLayout (utf8 "; c\n2020-01-01 x\r\n  A  1\r\n  B\r\n\r\n\r\n") (utf8 "2020-01-01 x\n  A  1\n  B\n") ∧
    (machineWith (str "f") "; c\n2020-01-01 x\r\n  A  1\r\n  B\r\n\r\n\r\n").run { file := str "f" } .print [] =
      ⟨str "2020-01-01   x\n    A    1.00\n    B    -1.00\n\n", .exit 0⟩ := by
  let _ := asciiUnicode
  refine ⟨?_, by decide +kernel⟩
  have h1 := SameLayout.comment (a := []) (c := utf8 "; c") (b := utf8 "2020-01-01 x\r\n  A  1\r\n  B\r\n\r\n\r\n") (Or.inl rfl) (Or.inl (by decide))
    (by decide) (by decide)
  have h2 := SameLayout.blanks (a := utf8 "2020-01-01 x\r\n  A  1\r\n  B\r\n") (nl := [13, 10]) (nl' := [13, 10]) (b := []) (by decide)
    (Or.inr rfl) (Or.inr rfl)
  have h3 := SameLayout.atEnd (a := utf8 "2020-01-01 x\r\n  A  1\r\n  B\r\n") (nl := [13, 10]) (by decide) (Or.inr rfl)
  have h4 := SameLayout.crlf (ls := [utf8 "2020-01-01 x", utf8 "  A  1", utf8 "  B"]) (by decide)
  exact (h1.trans (h2.trans h3)).trans h4

end Gledger
