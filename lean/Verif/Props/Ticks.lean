/-
C118, continued: maps ordered anew for every transaction, with filters.
-/
import Verif.Props.Clock
import Verif.Props.MapOrders

namespace Gledger

set_option maxRecDepth 100000

variable {σ τ : Type}

/-! ### Two runs of handlers in step -/

theorem ticking_call (clock : Nat → Moment) (H : Moment → Handlers σ) (hth : ∀ w, (H w).th.isSome = true) (hph : ∀ w w', (H w).ph = (H w').ph) (n : Nat) (u : σ)
    (c : Call) : ∃ k, (Handlers.ticking clock H).call (n, u) c = ((k, ((H (clock n)).call u c).1), ((H (clock n)).call u c).2) := by
  cases c with
  | normal t f =>
    obtain ⟨h, h1⟩ := Option.isSome_iff_exists.1 (hth (clock n))
    obtain ⟨h', h2⟩ := Option.isSome_iff_exists.1 (hth (clock 0))
    exact ⟨n + 1, by simp only [Handlers.call, Handlers.ticking, h1, h2, Option.map_some]⟩
  | periodic pt f =>
    refine ⟨n, ?_⟩
    simp only [Handlers.call, Handlers.ticking, hph (clock 0) (clock n)]
    cases (H (clock n)).ph <;> rfl

theorem ticking_replay (clock : Nat → Moment) (H : Moment → Handlers σ) (K : Handlers τ) (hth : ∀ w, (H w).th.isSome = true) (hph : ∀ w w', (H w).ph = (H w').ph)
    (R : List Call → σ → τ → Prop) (calls : List Call)
    (hs : ∀ before, ∀ c ∈ calls, ∀ n u v, R before u v → ((H (clock n)).call u c).2 = (K.call v c).2 ∧
      (((H (clock n)).call u c).2 = none → R (before ++ [c]) ((H (clock n)).call u c).1 (K.call v c).1)) :
    ∀ before n u v, R before u v → ((Handlers.ticking clock H).replay calls (n, u)).2 = (K.replay calls v).2 ∧
      (((Handlers.ticking clock H).replay calls (n, u)).2 = none →
        R (before ++ calls) ((Handlers.ticking clock H).replay calls (n, u)).1.2 (K.replay calls v).1) := by
  induction calls with
  | nil => intro before n u v r; exact ⟨rfl, fun _ => by rw [List.append_nil]; exact r⟩
  | cons c calls ih =>
    intro before n u v r
    obtain ⟨k, hk⟩ := ticking_call clock H hth hph n u c
    obtain ⟨s1, s2⟩ := hs before c (by simp) n u v r
    simp only [Handlers.replay]
    rw [hk]
    generalize (H (clock n)).call u c = a at s1 s2 ⊢
    generalize K.call v c = b at s1 s2 ⊢
    obtain ⟨a1, _ | f⟩ := a <;> obtain ⟨b1, _ | g⟩ := b
    · have := ih (fun before c hc => hs before c (List.mem_cons_of_mem _ hc)) (before ++ [c]) k a1 b1 (s2 rfl)
      simpa only [Step.andThen, List.append_assoc, List.singleton_append] using this
    · cases s1
    · cases s1
    · exact ⟨s1, fun h => by cases h⟩

theorem tickParse_pair [Unicode] (clock : Nat → Moment) (H : Moment → Handlers σ) (K : Handlers τ) (hth : ∀ w, (H w).th.isSome = true)
    (hph : ∀ w w', (H w).ph = (H w').ph) (R : List Call → σ → τ → Prop) (fs : FileSystem) (maxOpen : Nat) (bytes : List UInt8) (path : Str) {u : σ} {v : τ}
    (hs : ∀ before, ∀ c ∈ delivered fs maxOpen bytes path, ∀ n u v, R before u v → ((H (clock n)).call u c).2 = (K.call v c).2 ∧
      (((H (clock n)).call u c).2 = none → R (before ++ [c]) ((H (clock n)).call u c).1 (K.call v c).1))
    (hp : ∀ g, (K.replay (delivered fs maxOpen bytes path) v).2 = some g → g = .panic .unusablePosting) (r : R [] u v) :
    (∃ f, tickParse clock fs maxOpen bytes path H u = .error f ∧ runParse fs maxOpen bytes path K v = .error f) ∨
    ∃ u' v', tickParse clock fs maxOpen bytes path H u = .ok u' ∧ runParse fs maxOpen bytes path K v = .ok v' ∧ R (delivered fs maxOpen bytes path) u' v' := by
  obtain ⟨h1, h2⟩ := ticking_replay clock H K hth hph R _ hs [] 0 u v r
  rcases runParse_pair fs maxOpen bytes path (Handlers.ticking clock H) K (0, u) v h1 (fun g hg => hp g (h1 ▸ hg)) with ⟨f, h3, h4⟩ | ⟨h0, h3, h4⟩
  · exact Or.inl ⟨f, by rw [tickParse, h3]; rfl, h4⟩
  · exact Or.inr ⟨_, _, by rw [tickParse, h3]; rfl, h4, by simpa using h2 h0⟩

/-! ### Environments that differ in the order of maps, and in time to no effect -/

/-- Two moments' environments select the same, in whatever order. -/
structure Env.SameSelection (e e' : Env) : Prop where
  filters : e'.filters = e.filters
  range : e'.withinDateRange = e.withinDateRange
  order : ∀ l, (e.mapOrder l).Perm l
  order' : ∀ l, (e'.mapOrder l).Perm l

theorem Env.SameSelection.check {e e' : Env} (h : e.SameSelection e') : Env.checkAgainstFilters { e with mapOrder := e'.mapOrder } = e'.checkAgainstFilters := by
  funext t
  have h1 : Env.withinDateRange { e with mapOrder := e'.mapOrder } t = e.withinDateRange t := rfl
  simp only [Env.checkAgainstFilters, h1, h.range, h.filters]

theorem Env.SameSelection.selectedOf {e e' : Env} (h : e.SameSelection e') (c : Call) : e'.selectedOf c = e.selectedOf c := by
  cases c with
  | normal t f => simp only [Env.selectedOf, h.range, h.filters]
  | periodic pt f => rfl

theorem Env.SameSelection.selected {e e' : Env} (h : e.SameSelection e') (calls : List Call) : e'.selected calls = e.selected calls := by
  unfold Env.selected
  congr 1
  funext c
  exact h.selectedOf c

theorem Env.SameSelection.filedOf {e e' : Env} (h : e.SameSelection e') (c : Call) : e'.filedOf c = e.filedOf c := by
  cases c with
  | normal t f => simp only [Env.filedOf, h.selectedOf]
  | periodic pt f => rfl

theorem Env.SameSelection.filed {e e' : Env} (h : e.SameSelection e') (calls : List Call) : e'.filed calls = e.filed calls := by
  unfold Env.filed
  congr 1
  funext c
  exact h.filedOf c

theorem Env.SameSelection.dateError {e e' : Env} (h : e.SameSelection e') : e'.dateError = e.dateError := by
  have h1 := withinDateRange_dateError e ({} : Transaction)
  have h2 := withinDateRange_dateError e' ({} : Transaction)
  rw [h.range] at h2
  cases h3 : e.dateError with
  | some x =>
    cases h4 : e'.dateError with
    | some y =>
      have := (h1.1 x h3).symm.trans (h2.1 y h4)
      cases this
      rfl
    | none =>
      obtain ⟨b, hb⟩ := h2.2 h4
      rw [h1.1 x h3] at hb
      cases hb
  | none =>
    cases h4 : e'.dateError with
    | some y =>
      obtain ⟨b, hb⟩ := h1.2 h3
      rw [h2.1 y h4] at hb
      cases hb
    | none => rfl

theorem Env.SameSelection.check_error {e e' : Env} (h : e.SameSelection e') (hd : e.dateError ≠ none) : e'.checkAgainstFilters = e.checkAgainstFilters := by
  obtain ⟨x, hx⟩ := Option.ne_none_iff_exists'.1 hd
  funext t
  rw [(checkAgainstFilters_dateError e t).1 x hx, (checkAgainstFilters_dateError e' t).1 x (h.dateError.trans hx)]

/-! ### Balances -/

theorem balance_reports {showZero flatten collapse : Bool} {ps qs sel : List Posting} {text text' : Str} (hp : ps.Perm sel) (hq : qs.Perm sel)
    (h : BalanceReport showZero flatten collapse ps text) (h' : BalanceReport showZero flatten collapse qs text') : SameBalances sel text text' := by
  have uniq : ∀ {L L' : List (List Str)} {P : List Str → Prop}, L.Pairwise PathLt → L'.Pairwise PathLt → (∀ cs, cs ∈ L ↔ P cs) → (∀ cs, cs ∈ L' ↔ P cs) → L = L' := by
    intro L L' P h1 h2 h3 h4
    exact pairwise_unique PathLt.irrefl (fun _ _ _ => PathLt.trans) h1 h2 fun x => (h3 x).trans (h4 x).symm
  rw [BalanceReport, shown_perm hp] at h
  rw [BalanceReport, shown_perm hq] at h'
  cases flatten with
  | true =>
    rw [if_pos rfl] at h h'
    obtain ⟨L, a2, a3, rfl⟩ := h
    obtain ⟨L', b2, b3, rfl⟩ := h'
    have := uniq a2 b2 a3 b3
    subst this
    exact same_balances hp hq L fun cs => joinPath (spelledNames cs)
  | false =>
    rw [if_neg (by simp)] at h h'
    cases collapse with
    | false =>
      rw [if_neg (by simp)] at h h'
      obtain ⟨L, a2, a3, rfl⟩ := h
      obtain ⟨L', b2, b3, rfl⟩ := h'
      have := uniq a2 b2 a3 b3
      subst this
      simpa only [List.append_assoc] using same_balances hp hq L fun cs => List.replicate (2 * (cs.length - 1)) ' ' ++ cs.getLastD []
    | true =>
      rw [if_pos rfl] at h h'
      obtain ⟨L, one, a2, a0, a3, rfl⟩ := h
      obtain ⟨L', one', b2, b0, b3, rfl⟩ := h'
      have h1 : ∀ cs, Shown showZero sel cs → one cs = one' cs := by
        intro cs hs
        have := (a0 cs hs).trans (b0 cs hs).symm
        cases h1 : one cs <;> cases h2 : one' cs <;> simp_all
      have := uniq a2 b2 a3 (fun cs => (b3 cs).trans ⟨fun ⟨x, y, z⟩ => ⟨x, y, by rw [h1 cs x]; exact z⟩, fun ⟨x, y, z⟩ => ⟨x, y, by rw [← h1 cs x]; exact z⟩⟩)
      subst this
      have hl : (L.map fun cs => amountColumn (tally (below cs qs)) ++ List.replicate (2 * levelBy one' cs) ' ' ++ joinPath (chainBy one' cs)) =
          L.map fun cs => amountColumn (tally (below cs qs)) ++ List.replicate (2 * levelBy one cs) ' ' ++ joinPath (chainBy one cs) := by
        apply List.map_congr_left
        intro cs hcs
        have hs := ((a3 cs).1 hcs).1
        have hst : stopsBy one cs = stopsBy one' cs := stopsBy_congr fun i _ => h1 _ (hs.up (List.take_prefix i cs))
        simp only [levelBy, chainBy, hst]
      rw [hl]
      simpa only [List.append_assoc] using same_balances hp hq L fun cs => List.replicate (2 * levelBy one cs) ' ' ++ joinPath (chainBy one cs)

theorem replay_single (H : Handlers σ) (c : Call) (u : σ) : H.replay [c] u = H.call u c := by
  simp only [Handlers.replay]
  rcases H.call u c with ⟨a, _ | f⟩ <;> rfl

/-- Journals made by the same calls, with maps in some orders. -/
def BookedAlike (e : Env) (calls : List Call) (j j' : Journal) : Prop :=
  j.heap.Made rootID ∧ j'.heap.Made rootID ∧ ∃ ps qs, j.heap.Books ps ∧ j'.heap.Books qs ∧ ps.Perm (e.selected calls) ∧ qs.Perm (e.selected calls)

theorem balance_call_alike {e e' : Env} (h : e.SameSelection e') (hd : e.dateError = none) (before : List Call) (c : Call) {j j' : Journal}
    (r : BookedAlike e before j j') : (e'.balanceHandlers.call j c).2 = (e.balanceHandlers.call j' c).2 ∧
      ((e'.balanceHandlers.call j c).2 = none → BookedAlike e (before ++ [c]) (e'.balanceHandlers.call j c).1 (e.balanceHandlers.call j' c).1) := by
  obtain ⟨m1, m2, ps, qs, b1, b2, p1, p2⟩ := r
  have panics : ∀ e : Env, e.dateError = none → ∀ j g, (e.balanceHandlers.call j c).2 = some g → g = .panic .unusablePosting := by
    intro e hd j g hg
    rw [← replay_single] at hg
    rcases ((balance_usual e).replay [c] j).1 g hg with h | ⟨x, hx, _⟩
    · exact h
    · rw [hd] at hx; cases hx
  have r1 := balance_ready e' h.order' [c] j ps b1
  have r2 := balance_ready e h.order [c] j' qs b2
  have hr : e'.Ready [c] ↔ e.Ready [c] := by
    unfold Env.Ready
    rw [h.selected, h.range]
  rw [hr, ← r2] at r1
  simp only [replay_single] at r1
  cases h1 : (e'.balanceHandlers.call j c).2 with
  | some g =>
    cases h2 : (e.balanceHandlers.call j' c).2 with
    | none => rw [r1.2 h2] at h1; cases h1
    | some g' =>
      rw [panics e' (h.dateError.trans hd) j g h1, panics e hd j' g' h2]
      exact ⟨rfl, fun h => by cases h⟩
  | none =>
    have h2 := r1.1 h1
    refine ⟨h2.symm, fun _ => ?_⟩
    have k1 : e'.balanceHandlers.replay [c] j = ((e'.balanceHandlers.call j c).1, none) := by rw [replay_single, ← h1]
    have k2 : e.balanceHandlers.replay [c] j' = ((e.balanceHandlers.call j' c).1, none) := by rw [replay_single, ← h2]
    obtain ⟨ps', c1, q1⟩ := balance_replay e' h.order' [c] j _ ps b1 k1
    obtain ⟨qs', c2, q2⟩ := balance_replay e h.order [c] j' _ qs b2 k2
    rw [h.selected] at q1
    have hsel : e.selected (before ++ [c]) = e.selected before ++ e.selected [c] := by simp [Env.selected]
    refine ⟨balance_made e' [c] j _ m1 k1, balance_made e [c] j' _ m2 k2, _, _, c1, c2, ?_, ?_⟩
    · rw [hsel]; exact p1.append q1
    · rw [hsel]; exact p2.append q2

/-! ### Budgets -/

/-- Budgets made by the same calls, with maps in some orders. -/
def FiledAlike (e : Env) (calls : List Call) (b b' : Budget) : Prop :=
  ∃ es fs, es.Perm (e.filed calls) ∧ fs.Perm (e.filed calls) ∧ Budget.addEach es [] = some b ∧ Budget.addEach fs [] = some b' ∧ b.Holds es ∧ b'.Holds fs

theorem addEach_holds {es fs : List Filed} {b b' : Budget} (h : b.Holds es) (hd : ∀ x ∈ fs, 1 ≤ x.date.day) (ha : Budget.addEach fs b = some b') : b'.Holds (es ++ fs) := by
  by_cases hf : ∀ x ∈ fs, x.Fileable
  · obtain ⟨b1, e1, H⟩ := (budget_adds fs h hd).1 hf
    rw [ha] at e1
    cases e1
    exact H
  · push Not at hf
    rw [(budget_adds fs h hd).2 hf] at ha
    cases ha

theorem budget_call_alike {e e' : Env} (h : e.SameSelection e') (hd : e.dateError = none) (before : List Call) (c : Call) {b b' : Budget}
    (hday : ∀ x ∈ e.filedOf c, 1 ≤ x.date.day)
    (r : FiledAlike e before b b') : (e'.budgetHandlers.call b c).2 = (e.budgetHandlers.call b' c).2 ∧
      ((e'.budgetHandlers.call b c).2 = none → FiledAlike e (before ++ [c]) (e'.budgetHandlers.call b c).1 (e.budgetHandlers.call b' c).1) := by
  obtain ⟨es, fs, p1, p2, a1, a2, H1, H2⟩ := r
  have panics : ∀ e : Env, e.dateError = none → ∀ b g, (e.budgetHandlers.call b c).2 = some g → g = .panic .unusablePosting := by
    intro e hd b g hg
    rw [← replay_single] at hg
    rcases ((budget_usual e).replay [c] b).1 g hg with h | ⟨x, hx, _⟩
    · exact h
    · rw [hd] at hx; cases hx
  have hone : ∀ e : Env, e.filed [c] = e.filedOf c := fun e => by simp [Env.filed]
  have r1 := budget_ready e' h.order' (h.dateError.trans hd) [c] b es H1 (by rw [hone, h.filedOf]; exact hday)
  have r2 := budget_ready e h.order hd [c] b' fs H2 (by rw [hone]; exact hday)
  have hr : Command.budget.Lacks e' [c] ↔ Command.budget.Lacks e [c] := by
    unfold Command.Lacks
    rw [h.filed]
  rw [hr, ← r2] at r1
  simp only [replay_single] at r1
  cases h1 : (e'.budgetHandlers.call b c).2 with
  | some g =>
    cases h2 : (e.budgetHandlers.call b' c).2 with
    | none => rw [r1.2 h2] at h1; cases h1
    | some g' =>
      rw [panics e' (h.dateError.trans hd) b g h1, panics e hd b' g' h2]
      exact ⟨rfl, fun h => by cases h⟩
  | none =>
    have h2 := r1.1 h1
    refine ⟨h2.symm, fun _ => ?_⟩
    have k1 : e'.budgetHandlers.replay [c] b = ((e'.budgetHandlers.call b c).1, none) := by rw [replay_single, ← h1]
    have k2 : e.budgetHandlers.replay [c] b' = ((e.budgetHandlers.call b' c).1, none) := by rw [replay_single, ← h2]
    obtain ⟨es', q1, c1⟩ := budget_replay e' h.order' [c] b _ k1
    obtain ⟨fs', q2, c2⟩ := budget_replay e h.order [c] b' _ k2
    rw [h.filed] at q1
    have hfl : e.filed (before ++ [c]) = e.filed before ++ e.filed [c] := by simp [Env.filed]
    have d1 : ∀ x ∈ es', 1 ≤ x.date.day := fun x hx => hday x (by rw [← hone]; exact q1.mem_iff.1 hx)
    have d2 : ∀ x ∈ fs', 1 ≤ x.date.day := fun x hx => hday x (by rw [← hone]; exact q2.mem_iff.1 hx)
    refine ⟨es ++ es', fs ++ fs', ?_, ?_, ?_, ?_, addEach_holds H1 d1 c1, addEach_holds H2 d2 c2⟩
    · rw [hfl]; exact p1.append q1
    · rw [hfl]; exact p2.append q2
    · rw [addEach_append, a1]; exact c1
    · rw [addEach_append, a2]; exact c2

/-! ### The program -/

/-- The same transactions are within the range of dates at all moments of a run, and maps are ordered in some way at each. -/
structure Steady (m : Machine) (o : Options) (clock : Nat → Moment) : Prop where
  range : ∀ n, SameRange m o (clock n) (clock 0)
  order : ∀ n l, ((clock n).order l).Perm l

theorem Steady.selection {m : Machine} {o : Options} {clock : Nat → Moment} (h : Steady m o clock) (filters : List Filter) (n : Nat) :
    (((m.env o filters).at (clock 0))).SameSelection ((m.env o filters).at (clock n)) :=
  ⟨rfl, h.range n filters, h.order 0, h.order n⟩

/-- With filters and maps ordered anew for every transaction, balance fails as it does at the first moment, or gives a report with the same lines and quantities, in
which only the commodities of accounts that mix them can differ. Missing: the warnings. -/
theorem C118_balance_partial [Unicode] {m : Machine} {o : Options} {clock : Nat → Moment} (h : Steady m o clock) (args : List Str) (filters : List Filter)
    (bytes : List UInt8) (path : Str) :
    ∃ w w' r r', m.runOnTicking clock (m.env o filters) o args bytes path .balance = m.finish w r ∧
      (m.at (clock 0)).runOn ((m.at (clock 0)).env o filters) o args bytes path .balance = m.finish w' r' ∧
      ((∃ f, r = .error f ∧ r' = .error f) ∨ ∃ text text', r = .ok text ∧ r' = .ok text' ∧
        SameBalances (((m.at (clock 0)).env o filters).selected (delivered m.fs m.maxOpen bytes path)) text text') := by
  have hsel := h.selection filters
  refine ⟨_, _, _, _, rfl, rfl, ?_⟩
  rw [show (m.at (clock 0)).env o filters = (m.env o filters).at (clock 0) from rfl, show (m.at (clock 0)).fs = m.fs from rfl,
    show (m.at (clock 0)).maxOpen = m.maxOpen from rfl]
  generalize m.env o filters = e at hsel ⊢
  unfold balanceCmd
  cases hd : (e.at (clock 0)).dateError with
  | some x =>
    have k : ∀ n, (e.at (clock n)).balanceHandlers = (e.at (clock 0)).balanceHandlers := by
      intro n
      unfold Env.balanceHandlers
      congr 2
      funext u t f
      simp only [Env.balanceHandler, (hsel n).check_error (by rw [hd]; simp)]
    rw [tickParse_still (clock := clock) (H := fun w => (e.at w).balanceHandlers) k]
    cases hr : runParse m.fs m.maxOpen bytes path (e.at (clock 0)).balanceHandlers newJournal with
    | error f => exact Or.inl ⟨f, rfl, rfl⟩
    | ok j =>
      obtain ⟨ps, b, p⟩ := balance_replay _ (hsel 0).order _ newJournal j [] (newAccount_books _) (runParse_replay.1 hr).2
      rw [List.nil_append] at b
      have R := balance_report (balance_made _ _ newJournal j .new (runParse_replay.1 hr).2) b o.showZero o.flatten o.collapse
      exact Or.inr ⟨_, _, rfl, rfl, balance_reports p p R R⟩
  | none =>
    rcases tickParse_pair clock (fun w => (e.at w).balanceHandlers) (e.at (clock 0)).balanceHandlers (fun _ => rfl) (fun _ _ => rfl)
      (BookedAlike (e.at (clock 0))) m.fs m.maxOpen bytes path (u := newJournal) (v := newJournal)
      (fun before c _ n u v r => balance_call_alike (hsel n) hd before c r)
      (fun g hg => by
        rcases ((balance_usual _).replay _ newJournal).1 g hg with h | ⟨x, hx, _⟩
        · exact h
        · rw [hd] at hx; cases hx)
      ⟨.new, .new, [], [], newAccount_books _, newAccount_books _, List.Perm.refl _, List.Perm.refl _⟩ with ⟨f, h1, h2⟩ | ⟨j, j', h1, h2, m1, m2, ps, qs, b1, b2, p1, p2⟩
    · exact Or.inl ⟨f, by rw [h1]; rfl, by rw [h2]; rfl⟩
    · exact Or.inr ⟨_, _, by rw [h1]; rfl, by rw [h2]; rfl, balance_reports p1 p2 (balance_report m1 b1 _ _ _) (balance_report m2 b2 _ _ _)⟩

/-- The same for budgets: the months, categories and quantities are the same, and only commodities that are mixed can differ. Missing: the warnings. -/
theorem C118_budget_partial [Unicode] {m : Machine} {o : Options} {clock : Nat → Moment} (h : Steady m o clock) (hs : SortsMonths m.sortDates) (args : List Str)
    (filters : List Filter) (bytes : List UInt8) (path : Str) :
    ∃ w w' r r', m.runOnTicking clock (m.env o filters) o args bytes path .budget = m.finish w r ∧
      (m.at (clock 0)).runOn ((m.at (clock 0)).env o filters) o args bytes path .budget = m.finish w' r' ∧
      ((∃ f, r = .error f ∧ r' = .error f) ∨ ∃ text text', r = .ok text ∧ r' = .ok text' ∧
        SameBudgets (((m.at (clock 0)).env o filters).filed (delivered m.fs m.maxOpen bytes path)) text text') := by
  have hsel := h.selection filters
  refine ⟨_, _, _, _, rfl, rfl, ?_⟩
  rw [show (m.at (clock 0)).env o filters = (m.env o filters).at (clock 0) from rfl, show (m.at (clock 0)).fs = m.fs from rfl,
    show (m.at (clock 0)).maxOpen = m.maxOpen from rfl, show (m.at (clock 0)).sortDates = m.sortDates from rfl]
  generalize m.env o filters = e at hsel ⊢
  unfold budgetCmd
  cases hd : (e.at (clock 0)).dateError with
  | some x =>
    have k : ∀ n, (e.at (clock n)).budgetHandlers = (e.at (clock 0)).budgetHandlers := by
      intro n
      unfold Env.budgetHandlers
      congr 2
      funext u t f
      simp only [Env.budgetHandler, (hsel n).check_error (by rw [hd]; simp)]
    rw [tickParse_still (clock := clock) (H := fun w => (e.at w).budgetHandlers) k]
    cases hr : runParse m.fs m.maxOpen bytes path (e.at (clock 0)).budgetHandlers [] with
    | error f => exact Or.inl ⟨f, rfl, rfl⟩
    | ok b =>
      obtain ⟨es, p1, a1, d1⟩ := budget_command _ (hsel 0).order m.fs m.maxOpen bytes path b hr
      have R := budget_report d1 a1 hs
      exact Or.inr ⟨_, _, rfl, rfl, budget_texts p1 p1 (filed_real _ _ _ _ _) R R⟩
  | none =>
    have hday := filed_days (e.at (clock 0)) m.fs m.maxOpen bytes path
    rcases tickParse_pair clock (fun w => (e.at w).budgetHandlers) (e.at (clock 0)).budgetHandlers (fun _ => rfl) (fun _ _ => rfl)
      (FiledAlike (e.at (clock 0))) m.fs m.maxOpen bytes path (u := []) (v := [])
      (fun before c hc n u v r => budget_call_alike (hsel n) hd before c (fun x hx => hday x (List.mem_flatMap.2 ⟨c, hc, hx⟩)) r)
      (fun g hg => by
        rcases ((budget_usual _).replay _ []).1 g hg with h | ⟨x, hx, _⟩
        · exact h
        · rw [hd] at hx; cases hx)
      ⟨[], [], List.Perm.refl _, List.Perm.refl _, rfl, rfl, empty_holds, empty_holds⟩ with ⟨f, h1, h2⟩ | ⟨b, b', h1, h2, es, fs, p1, p2, a1, a2, H1, H2⟩
    · exact Or.inl ⟨f, by rw [h1]; rfl, by rw [h2]; rfl⟩
    · exact Or.inr ⟨_, _, by rw [h1]; rfl, by rw [h2]; rfl, budget_texts p1 p2 (filed_real _ _ _ _ _)
        (budget_report (fun x hx => hday x (p1.mem_iff.1 hx)) a1 hs) (budget_report (fun x hx => hday x (p2.mem_iff.1 hx)) a2 hs)⟩

attribute [local irreducible] statsReport averageAge Stats.ages

/-- The statistics are those of the first moment. -/
theorem C118_statistics_partial [Unicode] {m : Machine} {o : Options} {clock : Nat → Moment} (h : Steady m o clock) (args : List Str) (filters : List Filter)
    (bytes : List UInt8) (path : Str) :
    m.runOnTicking clock (m.env o filters) o args bytes path .statistics =
      (m.at (clock 0)).runOn ((m.at (clock 0)).env o filters) o args bytes path .statistics := by
  have hsel := h.selection filters
  simp only [Machine.runOnTicking, Machine.runOn, statsCmd]
  rw [show (m.at (clock 0)).env o filters = (m.env o filters).at (clock 0) from rfl, show (m.at (clock 0)).fs = m.fs from rfl,
    show (m.at (clock 0)).maxOpen = m.maxOpen from rfl, show (m.at (clock 0)).sortDates = m.sortDates from rfl,
    show (m.at (clock 0)).humanize = m.humanize from rfl, show (m.at (clock 0)).stringOrder = m.stringOrder from rfl]
  generalize m.env o filters = e at hsel ⊢
  have hcall : ∀ n s s', Stats.SameSet s s' → ∀ c, ((e.at (clock n)).statsHandlers.call s c).2 = ((e.at (clock 0)).statsHandlers.call s' c).2 ∧
      (((e.at (clock n)).statsHandlers.call s c).2 = none →
        ((e.at (clock n)).statsHandlers.call s c).1.SameSet ((e.at (clock 0)).statsHandlers.call s' c).1) := by
    intro n s s' hss c
    have k : Env.statsHandlers { e.at (clock 0) with mapOrder := (e.at (clock n)).mapOrder } = (e.at (clock n)).statsHandlers := by
      unfold Env.statsHandlers
      congr 2
      funext u t f
      simp only [Env.statsHandler, (hsel n).check]
    have := stats_step_orders (e.at (clock 0)) (hsel 0).order (hsel n).order' (s := s') (s' := s) ⟨hss.rest.symm, hss.nodup', hss.nodup, fun a => (hss.mem a).symm⟩ c
    rw [k] at this
    refine ⟨this.1.symm, fun hn => ?_⟩
    have q := this.2 (this.1.trans hn)
    exact ⟨q.rest.symm, q.nodup', q.nodup, fun a => (q.mem a).symm⟩
  have e0 : Stats.SameSet {} {} := ⟨rfl, List.nodup_nil, List.nodup_nil, fun _ => Iff.rfl⟩
  have fin : ∀ s s' : Stats, s.SameSet s' → statsReport m.humanize (m.stringOrder s.files) (averageAge (s.ages m.sortDates)) s =
      statsReport m.humanize (m.stringOrder s'.files) (averageAge (s'.ages m.sortDates)) s' := by
    intro s s' k
    have hf : s.files = s'.files := (congrArg Stats.files k.rest : s.forget.files = s'.forget.files)
    have ha : s.ages m.sortDates = s'.ages m.sortDates := by
      have q1 : s.income = s'.income := (congrArg Stats.income k.rest : s.forget.income = s'.forget.income)
      have q2 : s.expense = s'.expense := (congrArg Stats.expense k.rest : s.forget.expense = s'.forget.expense)
      unfold Stats.ages
      rw [q1, q2]
    rw [ha, hf]
    have hl : s'.accounts.length = s.accounts.length := ((List.perm_ext_iff_of_nodup k.nodup' k.nodup).2 fun a => (k.mem a).symm).length_eq
    exact statsReport_accounts _ _ _ (congrArg Stats.first k.rest : s.forget.first = s'.forget.first).symm (congrArg Stats.last k.rest : s.forget.last = s'.forget.last).symm
      (congrArg Stats.count k.rest : s.forget.count = s'.forget.count).symm (congrArg Stats.payees k.rest : s.forget.payees = s'.forget.payees).symm hf.symm hl
  cases hd : (e.at (clock 0)).dateError with
  | some x =>
    have k : ∀ n, (e.at (clock n)).statsHandlers = (e.at (clock 0)).statsHandlers := by
      intro n
      unfold Env.statsHandlers
      congr 2
      funext u t f
      simp only [Env.statsHandler, (hsel n).check_error (by rw [hd]; simp)]
    rw [tickParse_still (clock := clock) (H := fun w => (e.at w).statsHandlers) k]
    rfl
  | none =>
    rcases tickParse_pair clock (fun w => (e.at w).statsHandlers) (e.at (clock 0)).statsHandlers (fun _ => rfl) (fun _ _ => rfl)
      (fun _ => Stats.SameSet) m.fs m.maxOpen bytes path (u := {}) (v := {})
      (fun before c _ n u v r => hcall n u v r c)
      (fun g hg => by
        rcases ((stats_usual _).replay _ {}).1 g hg with h | ⟨x, hx, _⟩
        · exact h
        · rw [hd] at hx; cases hx) e0 with ⟨f, h1, h2⟩ | ⟨s, s', h1, h2, r⟩
    · rw [h1, h2]; rfl
    · rw [h1, h2]
      simp only [Except.map, fin s s' r]
      rfl

/-- The two ways of being steady that `C118_current_partial` and `C118_dates_partial` name. -/
theorem steady_current {m : Machine} {o : Options} {clock : Nat → Moment} (hc : o.current = true) {k : Int} (h0 : 0 ≤ k)
    (hk : ∀ n, k * nsPerDay < (clock n).tomorrow ∧ (clock n).tomorrow ≤ (k + 1) * nsPerDay) (ho : ∀ n l, ((clock n).order l).Perm l) : Steady m o clock :=
  ⟨fun n => sameRange_current hc h0 (hk n) (hk 0), ho⟩

theorem steady_dates {m : Machine} {o : Options} {clock : Nat → Moment} (hc : o.current = false)
    (hy : (∀ n, (clock n).year = (clock 0).year) ∨ ¬ Yearless o.beginDate ∧ ¬ Yearless o.endDate) (ho : ∀ n l, ((clock n).order l).Perm l) : Steady m o clock :=
  ⟨fun n => sameRange_dates hc (hy.imp_left fun h => h n), ho⟩

/-- A journal whose two transactions mix commodities below `A`. -/
def mixedTwice : Machine := matchAll "2020-01-01 x\n  A:B  $1\n  A:C  EUR1\n  D  -2\n\n2020-01-01 y\n  E:B  $1\n  E:C  EUR1\n  D  -2\n" id id

/-- With the map as written for the first and reversed for the second, there is a report that neither order gives for both. -/
example :
    letI := asciiUnicode
    Steady mixedTwice { file := str "f" } noonClock ∧
    str "               $2.00  A\n               $1.00    B\n             EUR1.00    C\n               -4.00  D\n             EUR2.00  E\n               $1.00    B\n             EUR1.00    C\n" <:+:
      (mixedTwice.runTicking noonClock { file := str "f" } .balance [str "A"]).stdout ∧
    str "               $2.00  E\n" <:+: ((mixedTwice.at (noonClock 0)).run { file := str "f" } .balance [str "A"]).stdout := by
  refine ⟨steady_dates rfl (Or.inl fun _ => rfl) fun n l => ?_, ?_⟩
  · simp only [noonClock]
    split
    · exact List.Perm.refl _
    · exact List.reverse_perm l
  · decide +kernel

end Gledger
