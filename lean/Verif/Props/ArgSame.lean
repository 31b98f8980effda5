/-
C152: arguments matter through the postings they select.
-/
import Verif.Props.ArgOrder
import Verif.Props.ArgParts
import Verif.Props.Archive

namespace Gledger

/-- Two lists of filters select the same of a transaction. -/
def SelectAlike (F G : List Filter) (t : Transaction) : Prop := selection F t = selection G t ∧ (WantedBy F t ↔ WantedBy G t)

section
variable {e : Env} {F : List Filter} (ho : ∀ l, (e.mapOrder l).Perm l)
include ho

theorem check_alike {t : Transaction} (hF : e.InRange t → SelectAlike e.filters F t) :
    (∃ x, e.checkAgainstFilters t = .error x ∧ Env.checkAgainstFilters { e with filters := F } t = .error x) ∨
    ∃ b b' ps qs, ps.Perm qs ∧ ((b = true ∨ 0 < ps.length) ↔ (b' = true ∨ 0 < qs.length)) ∧ e.checkAgainstFilters t = .ok (b, ps) ∧
      Env.checkAgainstFilters { e with filters := F } t = .ok (b', qs) := by
  have hw : Env.withinDateRange { e with filters := F } t = e.withinDateRange t := rfl
  rcases hr : e.withinDateRange t with x | b
  · refine Or.inl ⟨x, ?_, ?_⟩
    · simp only [Env.checkAgainstFilters, hr]
    · simp only [Env.checkAgainstFilters, hw, hr]
  · right
    cases b with
    | false => exact ⟨false, false, [], [], List.Perm.nil, Iff.rfl, C44_out_of_range e t hr, C44_out_of_range { e with filters := F } t (hw.trans hr)⟩
    | true =>
      obtain ⟨k1, k2⟩ := hF hr
      obtain ⟨ps, p1, p2⟩ := C44_any_of e ho t hr
      obtain ⟨qs, q1, q2⟩ := C44_any_of { e with filters := F } ho t (hw.trans hr)
      obtain ⟨_, a2, _⟩ := check_picks e ho t _ ps p1
      obtain ⟨_, b2, _⟩ := check_picks { e with filters := F } ho t _ qs q1
      exact ⟨_, _, ps, qs, p2.trans (k1 ▸ q2.symm), a2.trans ((and_congr_right fun _ => k2).trans b2.symm), p1, q1⟩

theorem print_alike {calls : List Call} (hF : ∀ t f, Call.normal t f ∈ calls → e.InRange t → SelectAlike e.filters F t) (u : List Transaction) :
    e.printHandlers.replay calls u = (Env.printHandlers { e with filters := F }).replay calls u := by
  induction calls generalizing u with
  | nil => rfl
  | cons c calls ih =>
    rw [Handlers.replay, Handlers.replay]
    have hc : e.printHandlers.call u c = (Env.printHandlers { e with filters := F }).call u c := by
      cases c with
      | periodic pt f => rfl
      | normal t f =>
        simp only [Handlers.call, Env.printHandlers, Env.printHandler]
        rcases check_alike ho (hF t f (by simp)) with ⟨x, h1, h2⟩ | ⟨b, b', ps, qs, hp, hb, h1, h2⟩
        · rw [h1, h2]
        · rw [h1, h2]
          simp only [hb]
    rw [hc]
    obtain ⟨v, _ | g⟩ := (Env.printHandlers { e with filters := F }).call u c
    · exact ih (fun t f h => hF t f (List.mem_cons_of_mem _ h)) v
    · rfl

theorem stats_step_alike {s s' : Stats} (hs : s.SameSet s')
    {c : Call} (hF : ∀ t f, c = .normal t f → e.InRange t → SelectAlike e.filters F t) : (e.statsHandlers.call s c).2 = ((Env.statsHandlers { e with filters := F }).call s' c).2 ∧
      ((e.statsHandlers.call s c).2 = none → (e.statsHandlers.call s c).1.SameSet ((Env.statsHandlers { e with filters := F }).call s' c).1) := by
  cases c with
  | periodic pt f => exact ⟨rfl, fun _ => hs⟩
  | normal t f =>
    simp only [Handlers.call, Env.statsHandlers, Env.statsHandler]
    rcases check_alike ho (hF t f rfl) with ⟨x, h1, h2⟩ | ⟨b, b', ps, qs, hp, hb, h1, h2⟩
    · rw [h1, h2]; exact ⟨rfl, fun hn => by cases hn⟩
    · rw [h1, h2]
      simp only
      have hno : ∀ (b : Bool) (l : List Posting), (b = false ∧ l.length = 0) ↔ ¬ (b = true ∨ 0 < l.length) := by
        intro b l
        cases b <;> simp
      simp only [hno, ← hb]
      split
      · exact ⟨rfl, fun _ => hs⟩
      · obtain ⟨f1, l1, c1, a1, y1, g1, i1, x1⟩ := s
        obtain ⟨f2, l2, c2, a2, y2, g2, i2, x2⟩ := s'
        obtain ⟨r0, n1, n2, mm⟩ := hs
        simp only [Stats.forget, Stats.mk.injEq, true_and] at r0
        obtain ⟨rfl, rfl, rfl, rfl, rfl, rfl, rfl⟩ := r0
        simp only at n1 n2 mm
        obtain ⟨k1, k2⟩ := addKeys_spec Posting.accountPath ps a1 n1
        obtain ⟨k3, k4⟩ := addKeys_spec Posting.accountPath qs a2 n2
        have e1 := addBuckets_forget t.date ps (ps.foldl (fun k (p : Posting) => addKey k p.accountPath) a1)
          { first := if f1.isZero || t.date.before f1 then t.date else f1, last := if l1.isZero || t.date.after l1 then t.date else l1,
            count := c1 + 1, accounts := [], payees := addKey y1 t.payee, files := addKey g1 f, income := i1, expense := x1 }
        have e2 := addBuckets_forget t.date qs (qs.foldl (fun k (p : Posting) => addKey k p.accountPath) a2)
          { first := if f1.isZero || t.date.before f1 then t.date else f1, last := if l1.isZero || t.date.after l1 then t.date else l1,
            count := c1 + 1, accounts := [], payees := addKey y1 t.payee, files := addKey g1 f, income := i1, expense := x1 }
        simp only at e1 e2
        rw [e1, e2, addBuckets_perm t.date hp]
        rcases Stats.addBuckets t.date qs _ with _ | z
        · exact ⟨rfl, fun hn => by cases hn⟩
        · refine ⟨rfl, fun _ => ⟨rfl, k1, k3, fun a => ?_⟩⟩
          refine (k2 a).trans (Iff.trans ?_ (k4 a).symm)
          simp only [mm a, hp.mem_iff]

theorem stats_replay_alike {calls : List Call} (hF : ∀ t f, Call.normal t f ∈ calls → e.InRange t → SelectAlike e.filters F t) :
    ∀ s s' : Stats, s.SameSet s' → (e.statsHandlers.replay calls s).2 = ((Env.statsHandlers { e with filters := F }).replay calls s').2 ∧
      ((e.statsHandlers.replay calls s).2 = none →
        (e.statsHandlers.replay calls s).1.SameSet ((Env.statsHandlers { e with filters := F }).replay calls s').1) := by
  induction calls with
  | nil => intro s s' hs; exact ⟨rfl, fun _ => hs⟩
  | cons c calls ih =>
    intro s s' hs
    rw [Handlers.replay, Handlers.replay]
    obtain ⟨h1, h2⟩ := stats_step_alike ho hs (c := c) fun t f h => hF t f (by rw [h]; simp)
    generalize e.statsHandlers.call s c = x at h1 h2
    generalize (Env.statsHandlers { e with filters := F }).call s' c = y at h1 h2
    obtain ⟨v, _ | g⟩ := x
    · obtain ⟨v', _ | g'⟩ := y
      · exact ih (fun t f h => hF t f (List.mem_cons_of_mem _ h)) v v' (h2 rfl)
      · cases h1
    · obtain ⟨v', _ | g'⟩ := y
      · cases h1
      · exact ⟨h1, fun hn => by cases hn⟩

variable [Unicode] (m : Machine) (o : Options) (args args' : List Str) (bytes : List UInt8) (path : Str)

theorem print_run_alike (hF : ∀ t f, Call.normal t f ∈ delivered m.fs m.maxOpen bytes path → e.InRange t → SelectAlike e.filters F t) :
    m.runOn e o args bytes path .print = m.runOn { e with filters := F } o args' bytes path .print := by
  simp only [Machine.runOn, printCmd]
  cases hd : e.dateError with
  | some x =>
    have hh : Env.printHandlers { e with filters := F } = e.printHandlers := by
      unfold Env.printHandlers
      congr 2
      funext u t f
      have k2 := (checkAgainstFilters_dateError e t).1 x hd
      have k3 := (checkAgainstFilters_dateError { e with filters := F } t).1 x hd
      simp only [Env.printHandler, k2, k3]
    rw [hh]
  | none =>
    have k := print_alike ho hF []
    rcases runParse_pair m.fs m.maxOpen bytes path e.printHandlers (Env.printHandlers { e with filters := F }) [] [] (congrArg Prod.snd k) (fun g hg => by
        rcases (stopped_cases e (delivered m.fs m.maxOpen bytes path) (c := .print) (by decide)).1 g hg with ⟨h, _⟩ | ⟨x, hx, _⟩
        · exact h
        · rw [hd] at hx; cases hx) with ⟨f, h1, h2⟩ | ⟨h0, h1, h2⟩
    · rw [h1, h2]
    · rw [h1, h2, k]

attribute [local irreducible] statsReport averageAge Stats.ages

theorem stats_run_alike (hF : ∀ t f, Call.normal t f ∈ delivered m.fs m.maxOpen bytes path → e.InRange t → SelectAlike e.filters F t) :
    m.runOn e o args bytes path .statistics = m.runOn { e with filters := F } o args' bytes path .statistics := by
  simp only [Machine.runOn, statsCmd]
  cases hd : e.dateError with
  | some x =>
    have hh : Env.statsHandlers { e with filters := F } = e.statsHandlers := by
      unfold Env.statsHandlers
      congr 2
      funext u t f
      have k2 := (checkAgainstFilters_dateError e t).1 x hd
      have k3 := (checkAgainstFilters_dateError { e with filters := F } t).1 x hd
      simp only [Env.statsHandler, k2, k3]
    rw [hh]
  | none =>
    obtain ⟨k1, k2⟩ := stats_replay_alike ho hF {} {} ⟨rfl, List.nodup_nil, List.nodup_nil, fun _ => Iff.rfl⟩
    rcases runParse_pair m.fs m.maxOpen bytes path e.statsHandlers (Env.statsHandlers { e with filters := F }) ({} : Stats) ({} : Stats) k1 (fun g hg => by
        rcases (stopped_cases e (delivered m.fs m.maxOpen bytes path) (c := .statistics) (by decide)).1 g hg with ⟨h, _⟩ | ⟨x, hx, _⟩
        · exact h
        · rw [hd] at hx; cases hx) with ⟨f, h1, h2⟩ | ⟨h0, h1, h2⟩
    · rw [h1, h2]
    · rw [h1, h2]
      have k := k2 h0
      generalize (e.statsHandlers.replay (delivered m.fs m.maxOpen bytes path) {}).1 = s at k
      generalize ((Env.statsHandlers { e with filters := F }).replay (delivered m.fs m.maxOpen bytes path) {}).1 = s' at k
      have hf : s.files = s'.files := (congrArg Stats.files k.rest : s.forget.files = s'.forget.files)
      have ha : s.ages m.sortDates = s'.ages m.sortDates := by
        have q1 : s.income = s'.income := (congrArg Stats.income k.rest : s.forget.income = s'.forget.income)
        have q2 : s.expense = s'.expense := (congrArg Stats.expense k.rest : s.forget.expense = s'.forget.expense)
        unfold Stats.ages
        rw [q1, q2]
      have hl : s.accounts.length = s'.accounts.length := ((List.perm_ext_iff_of_nodup k.nodup k.nodup').2 k.mem).length_eq
      have hrep := statsReport_accounts m.humanize (m.stringOrder s'.files) (averageAge (s'.ages m.sortDates)) (s := s) (s' := s')
        (congrArg Stats.first k.rest : s.forget.first = s'.forget.first) (congrArg Stats.last k.rest : s.forget.last = s'.forget.last)
        (congrArg Stats.count k.rest : s.forget.count = s'.forget.count) (congrArg Stats.payees k.rest : s.forget.payees = s'.forget.payees) hf hl
      simp only [Except.map, ha, hf, hrep]

theorem balance_run_alike {c : Str} (hF : ∀ t f, Call.normal t f ∈ delivered m.fs m.maxOpen bytes path → e.InRange t → SelectAlike e.filters F t)
    (hone : ∀ p ∈ e.selected (delivered m.fs m.maxOpen bytes path), ∀ a ∈ p.amount, a.commodity = c) :
    m.runOn e o args bytes path .balance = m.runOn { e with filters := F } o args' bytes path .balance := by
  have hsel : e.selected (delivered m.fs m.maxOpen bytes path) = Env.selected { e with filters := F } (delivered m.fs m.maxOpen bytes path) := by
    unfold Env.selected
    generalize delivered m.fs m.maxOpen bytes path = calls at hF
    clear hone
    induction calls with
    | nil => rfl
    | cons c calls ih =>
      rw [List.flatMap_cons, List.flatMap_cons, ih fun t f h => hF t f (List.mem_cons_of_mem _ h)]
      congr 1
      cases c with
      | periodic pt f => rfl
      | normal t f =>
        show (if e.withinDateRange t = .ok true then selection e.filters t else []) = if e.withinDateRange t = .ok true then selection F t else []
        split
        · next hr => exact (hF t f (by simp) hr).1
        · rfl
  have w1 := C73_one_commodity e ho m.fs m.maxOpen bytes path c hone
  have w2 := C73_one_commodity { e with filters := F } ho m.fs m.maxOpen bytes path c (by rw [← hsel]; exact hone)
  simp only [Machine.runOn, w1, w2]
  congr 1
  have hready : e.Ready (delivered m.fs m.maxOpen bytes path) ↔ Env.Ready { e with filters := F } (delivered m.fs m.maxOpen bytes path) := by
    unfold Env.Ready
    rw [← hsel]
    rfl
  cases hd : e.dateError with
  | some x =>
    have hh : Env.balanceHandlers { e with filters := F } = e.balanceHandlers := by
      unfold Env.balanceHandlers
      congr 2
      funext u t f
      have k2 := (checkAgainstFilters_dateError e t).1 x hd
      have k3 := (checkAgainstFilters_dateError { e with filters := F } t).1 x hd
      simp only [Env.balanceHandler, k2, k3]
    simp only [balanceCmd, hh]
  | none =>
    have panics : ∀ e : Env, e.dateError = none → ∀ g, (e.balanceHandlers.replay (delivered m.fs m.maxOpen bytes path) newJournal).2 = some g →
        g = .panic .unusablePosting := by
      intro e hd g hg
      rcases (stopped_cases e (delivered m.fs m.maxOpen bytes path) (c := .balance) (by decide)).1 g hg with ⟨h, _⟩ | ⟨x, hx, _⟩
      · exact h
      · rw [hd] at hx; cases hx
    have r1 := balance_ready e ho (delivered m.fs m.maxOpen bytes path) newJournal [] (newAccount_books _)
    have r2 := balance_ready { e with filters := F } ho (delivered m.fs m.maxOpen bytes path) newJournal [] (newAccount_books _)
    rw [← hready, ← r1] at r2
    have h2 : (e.balanceHandlers.replay (delivered m.fs m.maxOpen bytes path) newJournal).2 =
        ((Env.balanceHandlers { e with filters := F }).replay (delivered m.fs m.maxOpen bytes path) newJournal).2 := by
      cases h1 : (e.balanceHandlers.replay (delivered m.fs m.maxOpen bytes path) newJournal).2 with
      | none => exact (r2.2 h1).symm
      | some g =>
        cases h3 : ((Env.balanceHandlers { e with filters := F }).replay (delivered m.fs m.maxOpen bytes path) newJournal).2 with
        | none => rw [r2.1 h3] at h1; cases h1
        | some g' => rw [panics e hd g h1, panics { e with filters := F } hd g' h3]
    rcases runParse_pair m.fs m.maxOpen bytes path e.balanceHandlers (Env.balanceHandlers { e with filters := F }) newJournal newJournal h2 (panics e hd) with
      ⟨f, h3, h4⟩ | ⟨_, h3, h4⟩
    · simp only [balanceCmd, h3, h4]
    · cases h5 : balanceCmd e o.showZero o.flatten o.collapse m.fs m.maxOpen bytes path with
      | error f => simp only [balanceCmd, h3, Except.map] at h5; cases h5
      | ok text =>
        cases h6 : balanceCmd { e with filters := F } o.showZero o.flatten o.collapse m.fs m.maxOpen bytes path with
        | error f => simp only [balanceCmd, h4, Except.map] at h6; cases h6
        | ok text' => exact congrArg Except.ok (balance_text_unique (e := e) (e' := { e with filters := F }) ho ho _ _ _ hsel hone h5 h6)

end

/-- Of a transaction with postings, what is selected tells whether any of it is wanted. -/
theorem wanted_selection {F : List Filter} {t : Transaction} (h : t.postings ≠ []) : WantedBy F t ↔ selection F t ≠ [] := by
  unfold WantedBy selection
  split
  · next hw => exact ⟨fun _ => h, fun _ => Or.inl hw⟩
  · next hw =>
    rw [or_iff_right hw, Ne, List.filter_eq_nil_iff]
    simp

/-- The journal named by the flags, if it can be opened. -/
def Machine.Opens (m : Machine) (o : Options) (path : Str) (bytes : List UInt8) : Prop := m.rootPath o = some path ∧ m.fs path = some bytes

/-- Two lists of arguments select the same postings of every transaction on the days asked for. -/
def SameSelections [Unicode] (m : Machine) (o : Options) (F F' : List Filter) : Prop :=
  ∀ path bytes, m.Opens o path bytes → ∀ t f, Call.normal t f ∈ delivered m.fs m.maxOpen bytes path → (m.env o F).InRange t → selection F t = selection F' t

theorem run_alike [Unicode] {m : Machine} (o : Options) {c : Command} {args args' : List Str} {F F' : List Filter}
    (hF : List.Forall₂ (IsFilterOf m.engine) args F) (hF' : List.Forall₂ (IsFilterOf m.engine) args' F') (hs : SameSelections m o F F')
    (k : ∀ path bytes, m.Opens o path bytes →
      (∀ t f, Call.normal t f ∈ delivered m.fs m.maxOpen bytes path → (m.env o F).InRange t → SelectAlike (m.env o F).filters F' t) →
      m.runOn (m.env o F) o args bytes path c = m.runOn { m.env o F with filters := F' } o args' bytes path c) : m.run o c args = m.run o c args' := by
  simp only [Machine.run, (makeFilters_iff _ _ _).2 hF, (makeFilters_iff _ _ _).2 hF', Machine.runFiltered]
  split
  · rfl
  · cases hp : m.rootPath o with
    | none => rfl
    | some p =>
      simp only
      cases hb : m.fs p with
      | none => rfl
      | some bytes =>
        refine k p bytes ⟨hp, hb⟩ fun t f ht hr => ?_
        have h1 := hs p bytes ⟨hp, hb⟩ t f ht hr
        have h2 : t.postings ≠ [] := by
          rw [← (idle_calls m.fs m.maxOpen bytes p).1] at ht
          exact (C65_delivered_sound _ _ _ _ _ _ t f ht).2
        exact ⟨h1, (wanted_selection h2).trans ((by rw [h1] : selection F t ≠ [] ↔ selection F' t ≠ []).trans (wanted_selection h2).symm)⟩

/-- The printed journal and the statistics depend on the arguments only through the postings these select. -/
theorem C152_reports [Unicode] {m : Machine} (hm : m.Fair) (o : Options) {c : Command} (hc : c = .print ∨ c = .statistics) {args args' : List Str} {F F' : List Filter}
    (hF : List.Forall₂ (IsFilterOf m.engine) args F) (hF' : List.Forall₂ (IsFilterOf m.engine) args' F') (hs : SameSelections m o F F') : m.run o c args = m.run o c args' := by
  refine run_alike o hF hF' hs fun path bytes _ h => ?_
  rcases hc with rfl | rfl
  · exact print_run_alike (e := m.env o F) hm.postings m o args args' bytes path h
  · exact stats_run_alike (e := m.env o F) hm.postings m o args args' bytes path h

/-- The same for balances, if what is asked for is in one commodity. -/
theorem C152_balance [Unicode] {m : Machine} (hm : m.Fair) (o : Options) {args args' : List Str} {F F' : List Filter} (hF : List.Forall₂ (IsFilterOf m.engine) args F)
    (hF' : List.Forall₂ (IsFilterOf m.engine) args' F') (hs : SameSelections m o F F') {com : Str}
    (hone : ∀ path bytes, m.Opens o path bytes → ∀ p ∈ (m.env o F).selected (delivered m.fs m.maxOpen bytes path), ∀ a ∈ p.amount, a.commodity = com) :
    m.run o .balance args = m.run o .balance args' :=
  run_alike o hF hF' hs fun path bytes h0 h => balance_run_alike (e := m.env o F) hm.postings m o args args' bytes path h (hone path bytes h0)

/-- The same for budgets in one commodity, except for warnings before the report, of which there are none without a commodity. -/
theorem C152_budget [Unicode] {m : Machine} {o : Options} {args args' : List Str} {bytes : List UInt8} {js : List (Meant × Str)} {F F' : List Filter}
    {admits : Date → Bool} {path c : Str} (g : Setting m o args bytes F admits path) (g' : Setting m o args' bytes F' admits path)
    (h : ∀ t, Meant.transaction t ∈ meanings js → admits t.date = true → selection F t = selection F' t) {pg : Page}
    (r : Reading m.fs m.lib m.maxOpen path bytes js (.ok pg)) (hs : ¬ Command.budget.Short F admits (meanings js)) (hc : OneCommodity c ((meanings js).flatMap (Meant.filed F admits))) :
    ∃ W W' text, m.run o .budget args = ⟨W ++ text, .exit 0⟩ ∧ m.run o .budget args' = ⟨W' ++ text, .exit 0⟩ ∧ (c = [] → W = [] ∧ W' = []) := by
  have e : (meanings js).flatMap (Meant.filed F admits) = (meanings js).flatMap (Meant.filed F' admits) := by
    generalize meanings js = xs at h
    induction xs with
    | nil => rfl
    | cons x xs ih =>
      rw [List.flatMap_cons, List.flatMap_cons, ih fun t ht => h t (List.mem_cons_of_mem _ ht)]
      congr 1
      cases x with
      | budget d ps => rfl
      | transaction t =>
        simp only [Meant.filed]
        split
        · next hd => rw [h t (by simp) hd]
        · rfl
  exact C145_runs g r g' r hs (by unfold Command.Short at hs ⊢; rw [← e]; exact hs) (by rw [← e]; exact SameSums.of_perm (List.Perm.refl _)) hc (by rw [← e]; exact hc)

/-- Arguments that match the same accounts, of those used on the days asked for, list the same accounts. -/
theorem C152_accounts [Unicode] {m : Machine} (hm : m.Fair) (o : Options) {args args' : List Str} {F F' : List Filter}
    (hF : List.Forall₂ (IsFilterOf m.engine) args F) (hF' : List.Forall₂ (IsFilterOf m.engine) args' F')
    (hs : ∀ path bytes, m.Opens o path bytes → ∀ t f, Call.normal t f ∈ delivered m.fs m.maxOpen bytes path → (m.env o F).InRange t → ∀ p ∈ t.postings,
      ((F = [] ∨ ∃ f ∈ F, f.regex p.accountPath = true) ↔ (F' = [] ∨ ∃ f ∈ F', f.regex p.accountPath = true))) :
    m.run o .accounts args = m.run o .accounts args' := by
  simp only [Machine.run, (makeFilters_iff _ _ _).2 hF, (makeFilters_iff _ _ _).2 hF', Machine.runFiltered]
  rw [if_neg (by decide), if_neg (by decide)]
  cases hp : m.rootPath o with
  | none => rfl
  | some path =>
    simp only
    cases hb : m.fs path with
    | none => rfl
    | some bytes =>
      simp only [Machine.runOn]
      congr 1
      have hh : (m.env o F').accountsHandlers = (m.env o F).accountsHandlers := rfl
      cases hr : runParse m.fs m.maxOpen bytes path (m.env o F).accountsHandlers [] with
      | error f => simp only [accountsCmd, hh, hr, Except.map]
      | ok keys =>
        have h1 : accountsCmd (m.env o F) m.stringOrder m.fs m.maxOpen bytes path = .ok (printLines ((m.env o F).accountsPrepare (m.stringOrder keys))) := by
          simp only [accountsCmd, hr, Except.map]
        have h2 : accountsCmd (m.env o F') m.stringOrder m.fs m.maxOpen bytes path = .ok (printLines ((m.env o F').accountsPrepare (m.stringOrder keys))) := by
          simp only [accountsCmd, hh, hr, Except.map]
        obtain ⟨L, l1, l2, l3⟩ := C51_accounts _ _ hm.strings _ _ _ _ _ h1
        obtain ⟨K, k1, k2, k3⟩ := C51_accounts _ _ hm.strings _ _ _ _ _ h2
        rw [h1, h2, l2, k2, pairwise_unique StrLt.irrefl (fun _ _ _ => StrLt.trans) l1 k1 fun a => ?_]
        rw [l3, k3]
        refine and_congr_right fun h => ?_
        obtain ⟨t, ht, p, hpt, rfl⟩ := h
        obtain ⟨ht, hd⟩ := List.mem_filter.1 ht
        obtain ⟨⟨t', f⟩, ht', rfl⟩ := List.mem_map.1 ht
        exact hs path bytes ⟨hp, hb⟩ t' f (mem_normals.1 ht') (of_decide_eq_true hd) p hpt

/-- Arguments that match the same payees, of those on the days asked for, list the same payees, if they can be read as patterns for payees. -/
theorem C152_payees [Unicode] {m : Machine} (hm : m.Fair) (o : Options) {args args' : List Str} {F F' : List Filter}
    (hF : List.Forall₂ (IsFilterOf m.engine) args F) (hF' : List.Forall₂ (IsFilterOf m.engine) args' F')
    (hv : ∀ a ∈ args, ∃ r, m.engine.compile (wholePattern a) = some r) (hv' : ∀ a ∈ args', ∃ r, m.engine.compile (wholePattern a) = some r)
    (hs : ∀ path bytes, m.Opens o path bytes → ∀ t f, Call.normal t f ∈ delivered m.fs m.maxOpen bytes path → (m.env o F).InRange t →
      ((args = [] ∨ PayeeMatch m.engine args t.payee) ↔ (args' = [] ∨ PayeeMatch m.engine args' t.payee))) :
    m.run o .payees args = m.run o .payees args' := by
  simp only [Machine.run, (makeFilters_iff _ _ _).2 hF, (makeFilters_iff _ _ _).2 hF', Machine.runFiltered]
  rw [if_neg (by decide), if_neg (by decide)]
  cases hp : m.rootPath o with
  | none => rfl
  | some path =>
    simp only
    cases hb : m.fs path with
    | none => rfl
    | some bytes =>
      simp only [Machine.runOn]
      congr 1
      have hh : (m.env o F').payeesHandlers = (m.env o F).payeesHandlers := rfl
      cases hr : runParse m.fs m.maxOpen bytes path (m.env o F).payeesHandlers [] with
      | error f => simp only [payeesCmd, hh, hr]
      | ok keys =>
        have get : ∀ as : List Str, (∀ a ∈ as, ∃ r, m.engine.compile (wholePattern a) = some r) → ∃ L, payeesPrepare m.engine as (m.stringOrder keys) = .ok L := by
          intro as hs
          unfold payeesPrepare
          split
          · exact ⟨_, rfl⟩
          · rcases compileArgs_spec m.engine as with ⟨rs, r1, _⟩ | ⟨a, r1, r2, _⟩
            · exact ⟨_, by rw [r1]; rfl⟩
            · obtain ⟨r, hr⟩ := hs a r1
              rw [wholePattern, ← smartCase_eq, r2] at hr
              cases hr
        obtain ⟨P, hP⟩ := get args hv
        obtain ⟨P', hP'⟩ := get args' hv'
        have h1 : payeesCmd (m.env o F) m.engine args m.stringOrder m.fs m.maxOpen bytes path = .ok (printLines P) := by
          simp only [payeesCmd, hr, hP, Except.map]
        have h2 : payeesCmd (m.env o F') m.engine args' m.stringOrder m.fs m.maxOpen bytes path = .ok (printLines P') := by
          simp only [payeesCmd, hh, hr, hP', Except.map]
        obtain ⟨L, l1, l2, l3⟩ := C52_payees _ _ _ _ hm.strings _ _ _ _ _ h1
        obtain ⟨K, k1, k2, k3⟩ := C52_payees _ _ _ _ hm.strings _ _ _ _ _ h2
        rw [h1, h2, l2, k2, pairwise_unique StrLt.irrefl (fun _ _ _ => StrLt.trans) l1 k1 fun a => ?_]
        rw [l3, k3]
        refine and_congr_right fun h => ?_
        obtain ⟨t, ht, rfl⟩ := h
        obtain ⟨ht, hd⟩ := List.mem_filter.1 ht
        obtain ⟨⟨t', f⟩, ht', rfl⟩ := List.mem_map.1 ht
        exact hs path bytes ⟨hp, hb⟩ t' f (mem_normals.1 ht') (of_decide_eq_true hd)

/-- Arguments that between them take every posting on the days asked for select what no arguments do. -/
theorem C152_covering [Unicode] {m : Machine} {o : Options} {F : List Filter}
    (hall : ∀ path bytes, m.Opens o path bytes → ∀ t f, Call.normal t f ∈ delivered m.fs m.maxOpen bytes path → (m.env o F).InRange t →
      ∀ p ∈ t.postings, ∃ f ∈ F, f.Takes p) : SameSelections m o F [] := by
  intro path bytes h0 t f ht hr
  have h1 := hall path bytes h0 t f ht hr
  have hw : WholeSelected [] t := Or.inl rfl
  unfold selection
  simp only [hw, if_true]
  split
  · rfl
  · exact List.filter_eq_self.2 fun p hp => decide_eq_true (h1 p hp)

/-- Such arguments could as well be left out. -/
theorem C152_all [Unicode] {m : Machine} (hm : m.Fair) (o : Options) {c : Command} (hc : c = .print ∨ c = .statistics) {args : List Str} {F : List Filter}
    (hF : List.Forall₂ (IsFilterOf m.engine) args F)
    (hall : ∀ path bytes, m.Opens o path bytes → ∀ t f, Call.normal t f ∈ delivered m.fs m.maxOpen bytes path → (m.env o F).InRange t →
      ∀ p ∈ t.postings, ∃ f ∈ F, f.Takes p) : m.run o c args = m.run o c [] :=
  C152_reports hm o hc hF List.Forall₂.nil (C152_covering hall)

/-! ### Witnesses -/

def pairText : List UInt8 := utf8 "2020-01-01 X\n  A:B  $1\n  A:C\n"

def pairMachine : Machine :=
  { wholeMachine with
    fs := fun _ => some pairText }

theorem pairFair : pairMachine.Fair := ⟨wholeFair.postings, wholeFair.strings, wholeFair.byDate, wholeFair.dates⟩

/-- The filter of an argument in capitals. -/
def pairFilter (s : String) : Filter := { regex := fun a => (str s).isSuffixOf a, ftype := .accountName }

theorem pairFilters : letI := asciiUnicode
    List.Forall₂ (IsFilterOf pairMachine.engine) [str "B"] [pairFilter "B"] ∧
    List.Forall₂ (IsFilterOf pairMachine.engine) [str "C", str "B"] [pairFilter "C", pairFilter "B"] := by
  let := asciiUnicode
  have k : ∀ s : String, str s ≠ [] → argField (str s) = .accountName → argPattern (str s) = str s → (∃ c ∈ str s, Unicode.isUpper c = true) →
      IsFilterOf pairMachine.engine (str s) (pairFilter s) := by
    intro s h1 h2 h3 h4
    refine ⟨h1, h2.symm, ?_⟩
    rw [h3, if_pos h4]
    rfl
  have kB := k "B" (by decide) (by decide) (by decide) (by decide)
  have kC := k "C" (by decide) (by decide) (by decide) (by decide)
  exact ⟨.cons kB .nil, .cons kC (.cons kB .nil)⟩

theorem pair_opens {path : Str} {bytes : List UInt8} (h : pairMachine.Opens { file := str "f" } path bytes) : path = str "f" ∧ bytes = pairText := by
  obtain ⟨h1, h2⟩ := h
  exact ⟨(Option.some.inj h1).symm, (Option.some.inj h2).symm⟩

set_option maxRecDepth 100000 in
/-- The two arguments take both postings. -/
theorem pairCovers : letI := asciiUnicode
    ∀ path bytes, pairMachine.Opens { file := str "f" } path bytes → ∀ t f, Call.normal t f ∈ delivered pairMachine.fs pairMachine.maxOpen bytes path →
      ∀ p ∈ t.postings, ∃ f ∈ [pairFilter "C", pairFilter "B"], f.Takes p := by
  intro path bytes h t f ht
  obtain ⟨rfl, rfl⟩ := pair_opens h
  have k : letI := asciiUnicode
      ((delivered pairMachine.fs pairMachine.maxOpen pairText (str "f")).all fun c => match c with
        | .normal t _ => decide (∀ p ∈ t.postings, ∃ f ∈ [pairFilter "C", pairFilter "B"], f.Takes p)
        | .periodic _ _ => true) = true := by decide +kernel
  exact of_decide_eq_true (List.all_eq_true.1 k _ ht)

/-- All hypotheses of `C152_all`, and so of `C152_reports`, hold of it. -/
example : letI := asciiUnicode
    pairMachine.run { file := str "f" } .statistics [str "C", str "B"] = pairMachine.run { file := str "f" } .statistics [] :=
  letI := asciiUnicode
  C152_all pairFair _ (Or.inr rfl) pairFilters.2 fun path bytes h t f ht _ => pairCovers path bytes h t f ht

set_option maxRecDepth 100000 in
/-- And those of `C152_balance`. -/
example : letI := asciiUnicode
    pairMachine.run { file := str "f" } .balance [str "C", str "B"] = pairMachine.run { file := str "f" } .balance [] := by
  let := asciiUnicode
  refine C152_balance (com := str "$") pairFair _ pairFilters.2 .nil (C152_covering fun path bytes h t f ht _ => pairCovers path bytes h t f ht) ?_
  intro path bytes h p hp a ha
  obtain ⟨rfl, rfl⟩ := pair_opens h
  have k : letI := asciiUnicode
      (((pairMachine.env { file := str "f" } [pairFilter "C", pairFilter "B"]).selected (delivered pairMachine.fs pairMachine.maxOpen pairText (str "f"))).all fun p =>
        decide (∀ a ∈ p.amount, a.commodity = str "$")) = true := by decide +kernel
  exact of_decide_eq_true (List.all_eq_true.1 k p hp) a ha

set_option maxRecDepth 100000 in
/-- It is the postings that count, not the transactions: arguments that let the same transactions through need not give the same statistics. -/
theorem C152_transactions_false :
    ¬ ∀ (U : Unicode) (m : Machine) (o : Options) (args args' : List Str) (F F' : List Filter), m.Fair →
      List.Forall₂ (@IsFilterOf U m.engine) args F → List.Forall₂ (@IsFilterOf U m.engine) args' F' →
      (∀ path bytes, m.Opens o path bytes → ∀ t f, Call.normal t f ∈ @delivered U m.fs m.maxOpen bytes path → (WantedBy F t ↔ WantedBy F' t)) →
      @Machine.run U m o .statistics args = @Machine.run U m o .statistics args' := by
  intro h
  let := asciiUnicode
  have := h asciiUnicode pairMachine { file := str "f" } [str "B"] [str "C", str "B"] [pairFilter "B"] [pairFilter "C", pairFilter "B"] pairFair pairFilters.1 pairFilters.2 (by
    intro path bytes h t f ht
    obtain ⟨rfl, rfl⟩ := pair_opens h
    have k : letI := asciiUnicode
        ((delivered pairMachine.fs pairMachine.maxOpen pairText (str "f")).all fun c => match c with
          | .normal t _ => decide (WantedBy [pairFilter "B"] t ↔ WantedBy [pairFilter "C", pairFilter "B"] t)
          | .periodic _ _ => true) = true := by decide +kernel
    exact of_decide_eq_true (List.all_eq_true.1 k _ ht))
  revert this
  decide +kernel

set_option maxRecDepth 100000 in
/-- What is printed does depend on the arguments. -/
example : letI := asciiUnicode
    pairMachine.run { file := str "f" } .balance [str "B"] ≠ pairMachine.run { file := str "f" } .balance [] ∧
    pairMachine.run { file := str "f" } .print [str "D"] ≠ pairMachine.run { file := str "f" } .print [str "C"] := by
  decide +kernel

/-- The hypotheses of `C152_budget`: `Food` and `Bank` between them take all postings up to January 2020. -/
example : letI := asciiUnicode
    Setting wholeMachine wholeOptions [] (journalText wholeJournal) [] wholeDays (str "f") ∧
    (∀ t, Meant.transaction t ∈ wholeMeaning → wholeDays t.date = true → selection ([wholeFilter] ++ [bankFilter]) t = selection [] t) ∧
    ¬ Command.budget.Short ([wholeFilter] ++ [bankFilter]) wholeDays wholeMeaning ∧ OneCommodity (str "£") (wholeMeaning.flatMap (Meant.filed ([wholeFilter] ++ [bankFilter]) wholeDays)) := by
  let := asciiUnicode
  have g := wholeGiven
  refine ⟨⟨g.fair, g.file, g.text, .nil, g.days⟩, ?_, ?_, ?_⟩
  · intro t ht hd
    have k : (wholeMeaning.all fun x => match x with
        | .transaction t => decide (wholeDays t.date = true → selection ([wholeFilter] ++ [bankFilter]) t = selection [] t)
        | .budget _ _ => true) = true := by decide +kernel
    exact of_decide_eq_true (List.all_eq_true.1 k _ ht) hd
  · have k : ∀ x ∈ wholeMeaning.flatMap (Meant.filed ([wholeFilter] ++ [bankFilter]) wholeDays), x.Fileable := by decide +kernel
    exact fun ⟨x, hx, hn⟩ => hn (k x hx)
  · have k : ∀ e ∈ wholeMeaning.flatMap (Meant.filed ([wholeFilter] ++ [bankFilter]) wholeDays), e.posting.amount.map Amount.commodity = some (str "£") := by decide +kernel
    exact fun e he => Option.map_eq_some_iff.1 (k e he)

set_option maxRecDepth 100000 in
/-- The hypothesis of `C152_accounts`: both arguments match all accounts, as does none. -/
example : letI := asciiUnicode
    pairMachine.run { file := str "f" } .accounts [str "C", str "B"] = pairMachine.run { file := str "f" } .accounts [] := by
  let := asciiUnicode
  refine C152_accounts pairFair _ pairFilters.2 .nil fun path bytes h t f ht _ => ?_
  obtain ⟨rfl, rfl⟩ := pair_opens h
  have k : letI := asciiUnicode
      ((delivered pairMachine.fs pairMachine.maxOpen pairText (str "f")).all fun c => match c with
        | .normal t _ => decide (∀ p ∈ t.postings, ∃ f ∈ [pairFilter "C", pairFilter "B"], f.regex p.accountPath = true)
        | .periodic _ _ => true) = true := by decide +kernel
  have k := of_decide_eq_true (List.all_eq_true.1 k _ ht)
  exact fun p hp => ⟨fun _ => Or.inl rfl, fun _ => Or.inr (k p hp)⟩

set_option maxRecDepth 100000 in
/-- And that of `C152_payees`: the one payee is matched. -/
example : letI := asciiUnicode
    pairMachine.run { file := str "f" } .payees [str "X"] = pairMachine.run { file := str "f" } .payees [] := by
  let := asciiUnicode
  have hf : IsFilterOf pairMachine.engine (str "X") (pairFilter "X") := ⟨by decide, by decide, by rw [if_pos (by decide)]; rfl⟩
  refine C152_payees pairFair _ (.cons hf .nil) .nil (fun a _ => ⟨_, rfl⟩) (fun a ha => by cases ha) fun path bytes h t f ht _ => ?_
  obtain ⟨rfl, rfl⟩ := pair_opens h
  have k : letI := asciiUnicode
      ((delivered pairMachine.fs pairMachine.maxOpen pairText (str "f")).all fun c => match c with
        | .normal t _ => decide (t.payee = str "X")
        | .periodic _ _ => true) = true := by decide +kernel
  have k : t.payee = str "X" := of_decide_eq_true (List.all_eq_true.1 k _ ht)
  refine ⟨fun _ => Or.inl rfl, fun _ => Or.inr ?_⟩
  rw [k]
  refine ⟨str "X", by simp, _, rfl, ?_⟩
  decide +kernel

end Gledger
