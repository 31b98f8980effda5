/-
C109: what a command is not asked about has no influence on what it does.
-/
import Verif.Props.Rearranged
import Verif.Props.Sources

namespace Gledger

set_option maxRecDepth 100000

variable {σ τ : Type}

/-- Seen through `π`, what a call does depends only on what is seen before. -/
def SeenThrough (H : Handlers σ) (π : σ → τ) : Prop :=
  ∀ (u v : σ) (c : Call), π u = π v → π (H.call u c).1 = π (H.call v c).1 ∧ (H.call u c).2 = (H.call v c).2

/-- Seen through `π`, the call does nothing. -/
def Idles (H : Handlers σ) (π : σ → τ) (c : Call) : Prop := ∀ u, π (H.call u c).1 = π u ∧ (H.call u c).2 = none

theorem replay_heeds {H : Handlers σ} {π : σ → τ} (hS : SeenThrough H π) (keep : Call → Bool) : ∀ (calls : List Call),
    (∀ c ∈ calls, keep c = false → Idles H π c) → ∀ u v, π u = π v →
    π (H.replay calls u).1 = π (H.replay (calls.filter keep) v).1 ∧ (H.replay calls u).2 = (H.replay (calls.filter keep) v).2 := by
  intro calls
  induction calls with
  | nil => intro _ u v h; exact ⟨h, rfl⟩
  | cons c cs ih =>
    intro hi u v h
    have ih := ih fun x hx => hi x (List.mem_cons_of_mem _ hx)
    cases hk : keep c with
    | true =>
      rw [List.filter_cons_of_pos hk, Handlers.replay, Handlers.replay]
      obtain ⟨h1, h2⟩ := hS u v c h
      generalize H.call u c = x at h1 h2
      generalize H.call v c = y at h1 h2
      obtain ⟨u', f⟩ := x
      obtain ⟨v', f'⟩ := y
      simp only at h1 h2
      subst h2
      cases f with
      | none => exact ih u' v' h1
      | some f => exact ⟨h1, rfl⟩
    | false =>
      rw [List.filter_cons_of_neg (by simp [hk]), Handlers.replay]
      obtain ⟨h1, h2⟩ := hi c (by simp) hk u
      generalize H.call u c = x at h1 h2
      obtain ⟨u', f⟩ := x
      simp only at h1 h2
      subst h2
      exact ih u' v (h1.trans h)

theorem prints_heeds {H : Handlers σ} {π : σ → τ} (hS : SeenThrough H π) {out : σ → Transaction → Str} {pout : σ → PeriodicTransaction → Str}
    (ho : ∀ u v t, π u = π v → out u t = out v t) (hp : ∀ u v t, π u = π v → pout u t = pout v t) (keep : Call → Bool) : ∀ (calls : List Call),
    (∀ c ∈ calls, keep c = false → Idles H π c ∧ ∀ u, H.callOut out pout u c = []) → ∀ u v, π u = π v →
    H.prints out pout calls u = H.prints out pout (calls.filter keep) v := by
  intro calls
  induction calls with
  | nil => intro _ u v h; rfl
  | cons c cs ih =>
    intro hi u v h
    have ih := ih fun x hx => hi x (List.mem_cons_of_mem _ hx)
    cases hk : keep c with
    | true =>
      rw [List.filter_cons_of_pos hk, Handlers.prints, Handlers.prints]
      have h0 : H.callOut out pout u c = H.callOut out pout v c := by
        cases c with
        | normal t f => simp only [Handlers.callOut, ho u v t h]
        | periodic pt f => simp only [Handlers.callOut, hp u v pt h]
      obtain ⟨h1, h2⟩ := hS u v c h
      rw [h0]
      generalize H.call u c = x at h1 h2
      generalize H.call v c = y at h1 h2
      obtain ⟨u', f⟩ := x
      obtain ⟨v', f'⟩ := y
      simp only at h1 h2
      subst h2
      cases f with
      | none => simp only [ih u' v' h1]
      | some f => rfl
    | false =>
      rw [List.filter_cons_of_neg (by simp [hk]), Handlers.prints]
      obtain ⟨h0, h3⟩ := hi c (by simp) hk
      obtain ⟨h1, h2⟩ := h0 u
      rw [h3 u]
      generalize H.call u c = x at h1 h2
      obtain ⟨u', f⟩ := x
      simp only at h1 h2
      subst h2
      exact ih u' v (h1.trans h)

theorem seen_id (H : Handlers σ) : SeenThrough H (id : σ → σ) := by
  rintro u v c rfl
  exact ⟨rfl, rfl⟩

theorem addPostings_heap (t : Transaction) : ∀ (ps : List Posting) (j j' : Journal), j.heap = j'.heap →
    (addPostings t ps j).map Journal.heap = (addPostings t ps j').map Journal.heap := by
  intro ps
  induction ps with
  | nil => intro j j' h; simp [addPostings, h]
  | cons p ps ih =>
    intro j j' h
    simp only [addPostings, Journal.addPosting, h]
    cases wireUpPosting j'.heap 0 t p with
    | none => rfl
    | some x =>
      simp only [Option.map_some, Option.bind_some]
      exact ih _ _ rfl

theorem balance_seen (e : Env) : SeenThrough e.balanceHandlers Journal.heap := by
  intro u v c hu
  cases c with
  | periodic pt f => exact ⟨hu, rfl⟩
  | normal t f =>
    simp only [Handlers.call, Env.balanceHandlers, Env.balanceHandler]
    rcases e.checkAgainstFilters t with err | ⟨m, ps⟩
    · exact ⟨hu, rfl⟩
    · simp only
      split
      · exact ⟨hu, rfl⟩
      · have h1 : (u.addTransaction t f).heap = (v.addTransaction t f).heap := hu
        have h2 := addPostings_heap t ps _ _ h1
        cases h3 : addPostings t ps (u.addTransaction t f) with
        | none =>
          cases h4 : addPostings t ps (v.addTransaction t f) with
          | none => exact ⟨h1, rfl⟩
          | some j => rw [h3, h4] at h2; cases h2
        | some j =>
          cases h4 : addPostings t ps (v.addTransaction t f) with
          | none => rw [h3, h4] at h2; cases h2
          | some j' => rw [h3, h4] at h2; exact ⟨Option.some.inj h2, rfl⟩

/-- The check of flags and filters, where the flags can be read. -/
theorem check_cases (e : Env) (ho : ∀ l, (e.mapOrder l).Perm l) (hd : e.dateError = none) (t : Transaction) (f : Str) :
    ∃ m ps, e.checkAgainstFilters t = .ok (m, ps) ∧ ((m = true ∨ 0 < ps.length) ↔ e.InRange t ∧ e.Wanted t) ∧
      ps.Perm (e.selectedOf (.normal t f)) := by
  obtain ⟨⟨m, ps⟩, h⟩ := (checkAgainstFilters_dateError e t).2 hd
  obtain ⟨h1, h2, h3⟩ := check_picks e ho t m ps h
  refine ⟨m, ps, h, h2, ?_⟩
  rcases h1 with h1 | h1
  · have : e.selectedOf (.normal t f) = selection e.filters t := by
      show (if e.withinDateRange t = .ok true then selection e.filters t else []) = _
      exact if_pos h1
    rw [this]
    exact h3 h1
  · rw [C44_out_of_range e t h1] at h
    cases h
    simp [Env.selectedOf, h1]

theorem idle_call [Unicode] {e : Env} (ho : ∀ l, (e.mapOrder l).Perm l) (hd : e.dateError = none) (x : Call) :
    (¬ Command.accounts.Heeds e x → Idles e.accountsHandlers id x) ∧
    (¬ Command.payees.Heeds e x → Idles e.payeesHandlers id x) ∧
    (¬ Command.print.Heeds e x → Idles e.printHandlers id x) ∧
    (¬ Command.statistics.Heeds e x → Idles e.statsHandlers id x) ∧
    (¬ Command.balance.Heeds e x → Idles e.balanceHandlers Journal.heap x) ∧
    (¬ Command.budget.Heeds e x → Idles e.budgetHandlers id x) := by
  cases x with
  | periodic pt f =>
    refine ⟨fun _ u => ⟨rfl, rfl⟩, fun _ u => ⟨rfl, rfl⟩, fun _ u => ⟨rfl, rfl⟩, fun _ u => ⟨rfl, rfl⟩, fun _ u => ⟨rfl, rfl⟩, fun h u => ?_⟩
    simp only [Command.Heeds, Env.filedOf, ne_eq, not_not] at h
    simp only [Handlers.call, Env.budgetHandlers]
    rw [budgetPeriodicHandler, PeriodicTransaction.run]
    by_cases hi : pt.period.interval = .none
    · rw [if_pos hi] at h ⊢
      simp only [addEnvelopes_filed, h, Budget.addEach]
      exact ⟨trivial, trivial⟩
    · rw [if_neg hi]
      exact ⟨rfl, rfl⟩
  | normal t f =>
    obtain ⟨m, ps, k1, k2, k3⟩ := check_cases e ho hd t f
    obtain ⟨r, hr⟩ := (withinDateRange_dateError e t).2 hd
    refine ⟨?_, ?_, ?_, ?_, ?_, ?_⟩
    · intro h u
      simp only [Handlers.call, Env.accountsHandlers, Env.dateChecked, hr]
      cases r with
      | true => exact absurd hr h
      | false => exact ⟨rfl, rfl⟩
    · intro h u
      simp only [Handlers.call, Env.payeesHandlers, Env.dateChecked, hr]
      cases r with
      | true => exact absurd hr h
      | false => exact ⟨rfl, rfl⟩
    · intro h u
      simp only [Handlers.call, Env.printHandlers, Env.printHandler, k1]
      rw [if_neg fun hn => h (k2.1 hn)]
      exact ⟨rfl, rfl⟩
    · intro h u
      simp only [Handlers.call, Env.statsHandlers, Env.statsHandler, k1]
      have : ¬ (m = true ∨ 0 < ps.length) := fun hn => h (k2.1 hn)
      rw [if_pos (by push Not at this; exact ⟨by simpa using this.1, by omega⟩)]
      exact ⟨rfl, rfl⟩
    · intro h u
      simp only [Command.Heeds, ne_eq, not_not] at h
      rw [h] at k3
      have := List.perm_nil.1 k3
      subst this
      simp only [Handlers.call, Env.balanceHandlers, Env.balanceHandler, k1]
      split
      · exact ⟨rfl, rfl⟩
      · exact ⟨rfl, rfl⟩
    · intro h u
      simp only [Command.Heeds, Env.filedOf, ne_eq, not_not] at h
      have hp := List.perm_nil.1 ((k3.filterMap fun p => if p.components.headD [] = expensesID then some (⟨t.date, p, .expense⟩ : Filed)
        else if p.components.headD [] = incomeID then some ⟨t.date, p, .income⟩ else none).trans (by rw [h]))
      simp only [Handlers.call, Env.budgetHandlers, Env.budgetHandler, k1]
      split
      · exact ⟨rfl, rfl⟩
      · rw [addPostings_filed, hp]
        exact ⟨rfl, rfl⟩

theorem budgetOut_none {t : Transaction} : ∀ {ps : List Posting} (_ : ∀ p ∈ ps, p.components.headD [] ≠ expensesID ∧ p.components.headD [] ≠ incomeID) (b : Budget),
    budgetAddPostingsOut t.date ps b = [] := by
  intro ps
  induction ps with
  | nil => intro _ b; rfl
  | cons p ps ih =>
    intro h b
    obtain ⟨h1, h2⟩ := h p (by simp)
    rw [budgetAddPostingsOut]
    have : (split ':' p.accountPath) = p.components := rfl
    rw [this, if_neg h1, if_neg h2]
    exact ih (fun q hq => h q (List.mem_cons_of_mem _ hq)) b

section
variable [Unicode] {m : Machine} {e : Env} {o : Options} {args : List Str} {path : Str} {bytes bytes' : List UInt8}

theorem quiet_call (ho : ∀ l, (e.mapOrder l).Perm l) (hd : e.dateError = none) {fs : FileSystem} {n : Nat} (x : Call) (hx : x ∈ delivered fs n bytes path) :
    (¬ Command.balance.Heeds e x → ∀ u, e.balanceHandlers.callOut e.balanceOut (fun _ pt => pt.runOut) u x = []) ∧
    (¬ Command.budget.Heeds e x → ∀ u, e.budgetHandlers.callOut e.budgetOut budgetPeriodicOut u x = []) := by
  cases x with
  | periodic pt f =>
    rw [delivered_calls] at hx
    have hi : pt.period.interval = .none := (C65_delivered_period fs recorder n bytes path [] pt f hx).1.2.2.2.2.2
    have hr : pt.runOut = [] := by unfold PeriodicTransaction.runOut; rw [if_pos hi]
    refine ⟨fun _ u => ?_, fun h u => ?_⟩
    · simp [Handlers.callOut, hr]
    · simp only [Command.Heeds, Env.filedOf, ne_eq, not_not, if_pos hi, List.map_eq_nil_iff] at h
      simp only [Handlers.callOut, budgetPeriodicOut, hr, PeriodicTransaction.run, if_pos hi, List.head?_cons, Option.elim_some, h, budgetAddEnvelopesOut]
      simp
  | normal t f =>
    obtain ⟨m, ps, k1, k2, k3⟩ := check_cases e ho hd t f
    refine ⟨fun h u => ?_, fun h u => ?_⟩
    · simp only [Command.Heeds, ne_eq, not_not] at h
      rw [h] at k3
      have := List.perm_nil.1 k3
      subst this
      simp [Handlers.callOut, Env.balanceOut, k1, addPostingsOut]
    · simp only [Command.Heeds, Env.filedOf, ne_eq, not_not] at h
      simp only [Handlers.callOut, Env.budgetOut, k1]
      rw [budgetOut_none]
      · simp
      · intro p hp
        have := List.filterMap_eq_nil_iff.1 h p (k3.mem_iff.1 hp)
        constructor
        · intro hc; rw [if_pos hc] at this; cases this
        · intro hc
          split at this
          · cases this
          · cases this

/-- Reading two accepted journals that hold the same of what the handlers heed. -/
theorem runParse_heeds {fs : FileSystem} {n : Nat} {H : Handlers σ} {π : σ → τ} (hS : SeenThrough H π) {keep : Call → Bool} {u : σ}
    (hr : rejection fs n bytes path = none) (hr' : rejection fs n bytes' path = none)
    (hi : ∀ c, keep c = false → Idles H π c)
    (hk : (delivered fs n bytes path).filter keep = (delivered fs n bytes' path).filter keep)
    (hp : ∀ g, (H.replay (delivered fs n bytes path) u).2 = some g → g = .panic .unusablePosting) :
    (∃ f, runParse fs n bytes path H u = .error f ∧ runParse fs n bytes' path H u = .error f) ∨
    ∃ s s', runParse fs n bytes path H u = .ok s ∧ runParse fs n bytes' path H u = .ok s' ∧ π s = π s' := by
  obtain ⟨a1, a2⟩ := replay_heeds hS keep (delivered fs n bytes path) (fun c _ => hi c) u u rfl
  obtain ⟨b1, b2⟩ := replay_heeds hS keep (delivered fs n bytes' path) (fun c _ => hi c) u u rfl
  rw [hk, ← b1] at a1
  rw [hk, ← b2] at a2
  obtain ⟨-, c2, c3⟩ := runParse_cases fs n bytes path H u
  obtain ⟨-, d2, d3⟩ := runParse_cases fs n bytes' path H u
  cases hs : (H.replay (delivered fs n bytes path) u).2 with
  | none => exact Or.inr ⟨_, _, c2 hs hr, d2 (a2 ▸ hs) hr', a1⟩
  | some g =>
    left
    obtain ⟨f, h1, h2⟩ := c3 g hs
    obtain ⟨f', h1', h2'⟩ := d3 g (a2 ▸ hs)
    rw [hp g hs] at h1 h1'
    rw [core_panic h1] at h2
    rw [core_panic h1'] at h2'
    exact ⟨_, h2, h2'⟩

/-- Two accepted journals which hold, in the same order, the same of what a command is asked about: its runs are the same. -/
theorem C109_heeded (ho : ∀ l, (e.mapOrder l).Perm l) (hd : e.dateError = none) (hr : rejection m.fs m.maxOpen bytes path = none)
    (hr' : rejection m.fs m.maxOpen bytes' path = none) (c : Command)
    (hk : (delivered m.fs m.maxOpen bytes path).filter (c.Heeds e) = (delivered m.fs m.maxOpen bytes' path).filter (c.Heeds e)) :
    m.runOn e o args bytes path c = m.runOn e o args bytes' path c := by
  have panics : c ≠ .version → ∀ g, c.stopped e (delivered m.fs m.maxOpen bytes path) = some g → g = .panic .unusablePosting := by
    intro hv g hg
    rcases (stopped_cases e _ hv).1 g hg with ⟨h, _⟩ | ⟨x, hx, _⟩
    · exact h
    · rw [hd] at hx; cases hx
  have idle := fun x => idle_call ho hd x
  cases c with
  | version => rfl
  | accounts =>
    rcases runParse_heeds (seen_id _) hr hr' (fun x h => (idle x).1 (of_decide_eq_false h)) hk (panics (by decide)) with ⟨f, h1, h2⟩ | ⟨s, s', h1, h2, h3⟩
    · simp only [Machine.runOn, accountsCmd, h1, h2]
    · simp only [id] at h3
      simp only [Machine.runOn, accountsCmd, h1, h2, h3]
  | payees =>
    rcases runParse_heeds (seen_id _) hr hr' (fun x h => (idle x).2.1 (of_decide_eq_false h)) hk (panics (by decide)) with ⟨f, h1, h2⟩ | ⟨s, s', h1, h2, h3⟩
    · simp only [Machine.runOn, payeesCmd, h1, h2]
    · simp only [id] at h3
      simp only [Machine.runOn, payeesCmd, h1, h2, h3]
  | print =>
    rcases runParse_heeds (seen_id _) hr hr' (fun x h => (idle x).2.2.1 (of_decide_eq_false h)) hk (panics (by decide)) with ⟨f, h1, h2⟩ | ⟨s, s', h1, h2, h3⟩
    · simp only [Machine.runOn, printCmd, h1, h2]
    · simp only [id] at h3
      simp only [Machine.runOn, printCmd, h1, h2, h3]
  | statistics =>
    rcases runParse_heeds (seen_id _) hr hr' (fun x h => (idle x).2.2.2.1 (of_decide_eq_false h)) hk (panics (by decide)) with ⟨f, h1, h2⟩ | ⟨s, s', h1, h2, h3⟩
    · simp only [Machine.runOn, statsCmd, h1, h2]
    · simp only [id] at h3
      simp only [Machine.runOn, statsCmd, h1, h2, h3]
  | balance =>
    have hw : printedBy m.fs m.maxOpen bytes path e.balancePrinting newJournal = printedBy m.fs m.maxOpen bytes' path e.balancePrinting newJournal := by
      unfold Env.balancePrinting
      have q1 : ∀ (u v : Journal) (t : Transaction), u.heap = v.heap → e.balanceOut u t = e.balanceOut v t := by
        intro u v t h
        unfold Env.balanceOut
        rcases e.checkAgainstFilters t with err | ⟨m, ps⟩
        · rfl
        · exact addPostingsOut_unfiled t ps u v h
      rw [printed_replay, printed_replay,
        prints_heeds (balance_seen e) q1 (fun _ _ _ _ => rfl) (Command.balance.Heeds e) _
          (fun x hx h => ⟨(idle x).2.2.2.2.1 (of_decide_eq_false h), (quiet_call ho hd x hx).1 (of_decide_eq_false h)⟩) newJournal newJournal rfl, hk,
        ← prints_heeds (balance_seen e) q1 (fun _ _ _ _ => rfl) (Command.balance.Heeds e) _
          (fun x hx h => ⟨(idle x).2.2.2.2.1 (of_decide_eq_false h), (quiet_call ho hd x hx).1 (of_decide_eq_false h)⟩) newJournal newJournal rfl]
    rcases runParse_heeds (balance_seen e) hr hr' (fun x h => (idle x).2.2.2.2.1 (of_decide_eq_false h)) hk (panics (by decide)) with
      ⟨f, h1, h2⟩ | ⟨s, s', h1, h2, h3⟩
    · simp only [Machine.runOn, balanceCmd, h1, h2, hw]
    · simp only [Machine.runOn, balanceCmd, h1, h2, hw, Except.map, h3]
  | budget =>
    have hw : printedBy m.fs m.maxOpen bytes path e.budgetPrinting [] = printedBy m.fs m.maxOpen bytes' path e.budgetPrinting [] := by
      unfold Env.budgetPrinting
      rw [printed_replay, printed_replay,
        prints_heeds (seen_id _) (by rintro u v t rfl; rfl) (by rintro u v t rfl; rfl) (Command.budget.Heeds e) _
          (fun x hx h => ⟨(idle x).2.2.2.2.2 (of_decide_eq_false h), (quiet_call ho hd x hx).2 (of_decide_eq_false h)⟩) [] [] rfl, hk,
        ← prints_heeds (seen_id _) (by rintro u v t rfl; rfl) (by rintro u v t rfl; rfl) (Command.budget.Heeds e) _
          (fun x hx h => ⟨(idle x).2.2.2.2.2 (of_decide_eq_false h), (quiet_call ho hd x hx).2 (of_decide_eq_false h)⟩) [] [] rfl]
    rcases runParse_heeds (seen_id _) hr hr' (fun x h => (idle x).2.2.2.2.2 (of_decide_eq_false h)) hk (panics (by decide)) with ⟨f, h1, h2⟩ | ⟨s, s', h1, h2, h3⟩
    · simp only [Machine.runOn, budgetCmd, h1, h2, hw]
    · simp only [id] at h3
      simp only [Machine.runOn, budgetCmd, h1, h2, hw, h3]

/-- A paragraph of a journal that holds nothing a command is asked about might as well not be there. -/
theorem C109_passage (ho : ∀ l, (e.mapOrder l).Perm l) (hd : e.dateError = none) {ps qs : List (List UInt8)} {p : List UInt8} {c : Command}
    (hps : ∀ q ∈ ps ++ p :: qs, Passage m.fs m.maxOpen path q) (hp : ∀ x ∈ delivered m.fs m.maxOpen p path, ¬ c.Heeds e x) :
    m.runOn e o args (passages (ps ++ p :: qs)) path c = m.runOn e o args (passages (ps ++ qs)) path c := by
  obtain ⟨a1, a2⟩ := delivered_passages m.fs m.maxOpen path _ hps
  obtain ⟨b1, b2⟩ := delivered_passages m.fs m.maxOpen path (ps ++ qs) fun q hq => hps q (by
    rcases List.mem_append.1 hq with h | h
    · exact List.mem_append_left _ h
    · exact List.mem_append_right _ (List.mem_cons_of_mem _ h))
  refine C109_heeded ho hd a2 b2 c ?_
  rw [a1, b1]
  simp only [List.flatMap_append, List.flatMap_cons, List.filter_append]
  have : (delivered m.fs m.maxOpen p path).filter (c.Heeds e) = [] := by
    rw [List.filter_eq_nil_iff]
    intro x hx
    simpa using hp x hx
  rw [this, List.nil_append]

end

/-- Up to January 2020, with filters: paragraphs that are out of range or match no filter change nothing, whatever is wrong with their postings; a filter for
what one of them holds brings it in. -/
example :
    letI := asciiUnicode
    let m : Machine := { wholeMachine with sortTransactions := List.insertionSort fun a b => a.date.dayNumber ≤ b.date.dayNumber }
    let p := utf8 "2020-01-01 x\n  Expenses:Food  $1\n  A\n"
    let q := utf8 "2020-03-01 y\n  Expenses:Food  $3\n  B  $-3\n  C\n"
    let r := utf8 "2020-01-02 z\n  D  EUR2\n  C\n"
    let e := m.env { endDate := str "2020-02" } [wholeFilter]
    let run (ps : List (List UInt8)) := m.runOn e {} [str "Food"] (passages ps) (str "f")
    (∀ x ∈ [p, q, r], Passage m.fs m.maxOpen (str "f") x) ∧ e.dateError = none ∧
    (∀ c ∈ allCommands, ∀ x ∈ delivered m.fs m.maxOpen q (str "f"), ¬ c.Heeds e x) ∧
    (∀ c ∈ [.print, .statistics, .balance, .budget], ∀ x ∈ delivered m.fs m.maxOpen r (str "f"), ¬ Command.Heeds e c x) ∧
    (∀ c ∈ allCommands, run [p, q] c = run [p] c) ∧
    (run [r, p, q] .balance).stdout = str "               $1.00  Expenses\n               $1.00    Food\n--------------------\n                1.00\n" ∧
    m.runOn e {} [] (passages [r, p]) (str "f") .payees ≠ m.runOn e {} [] (passages [p]) (str "f") .payees := by
  unfold Passage
  decide +kernel

end Gledger
