/-
C151: the order of the arguments, and repeating them, does not matter.
-/
import Verif.Props.ArgLists
import Verif.Props.MapOrders
import Verif.Props.NamesCounted
import Verif.Props.BudgetSums

namespace Gledger

/-- The same arguments, in another order or another number of times. -/
def SameArguments (args args' : List Str) : Prop := ∀ a, a ∈ args ↔ a ∈ args'

theorem filters_same [Unicode] {R : RegexEngine} {args args' : List Str} {F F' : List Filter} (h : SameArguments args args') (hF : List.Forall₂ (IsFilterOf R) args F)
    (hF' : List.Forall₂ (IsFilterOf R) args' F') : ∀ f, f ∈ F ↔ f ∈ F' := by
  have key : ∀ {as bs : List Str} {A B : List Filter}, (∀ a ∈ as, a ∈ bs) → List.Forall₂ (IsFilterOf R) as A → List.Forall₂ (IsFilterOf R) bs B → ∀ f ∈ A, f ∈ B := by
    intro as bs A B hs hA hB f hf
    obtain ⟨a, ha, h1⟩ := forall₂_mem_right' hA hf
    obtain ⟨g, hg, h2⟩ := forall₂_mem_left' hB (hs a ha)
    have : f = g := by
      have e1 := (isFilterOf_iff R a f).1 h1
      rw [(isFilterOf_iff R a g).1 h2] at e1
      cases e1
      rfl
    rw [this]
    exact hg
  exact fun f => ⟨key (fun a ha => (h a).1 ha) hF hF' f, key (fun a ha => (h a).2 ha) hF' hF f⟩

section
variable {e : Env} {F : List Filter} (ho : ∀ l, (e.mapOrder l).Perm l) (hF : ∀ f, f ∈ e.filters ↔ f ∈ F)
include ho hF

theorem check_same (t : Transaction) :
    (∃ x, e.checkAgainstFilters t = .error x ∧ Env.checkAgainstFilters { e with filters := F } t = .error x) ∨
    ∃ b ps qs, ps.Perm qs ∧ e.checkAgainstFilters t = .ok (b, ps) ∧ Env.checkAgainstFilters { e with filters := F } t = .ok (b, qs) := by
  have hw : Env.withinDateRange { e with filters := F } t = e.withinDateRange t := rfl
  rcases hr : e.withinDateRange t with x | b
  · refine Or.inl ⟨x, ?_, ?_⟩
    · simp only [Env.checkAgainstFilters, hr]
    · simp only [Env.checkAgainstFilters, hw, hr]
  · right
    cases b with
    | false => exact ⟨false, [], [], List.Perm.nil, C44_out_of_range e t hr, C44_out_of_range { e with filters := F } t (hw.trans hr)⟩
    | true =>
      obtain ⟨ps, p1, p2⟩ := C44_any_of e ho t hr
      obtain ⟨qs, q1, q2⟩ := C44_any_of { e with filters := F } ho t (hw.trans hr)
      obtain ⟨k1, k2⟩ := C44_order e.filters F t hF
      refine ⟨decide (WholeSelected e.filters t), ps, qs, p2.trans (k1 ▸ q2.symm), p1, ?_⟩
      rw [q1]
      have : decide (WholeSelected F t) = decide (WholeSelected e.filters t) := decide_eq_decide.2 k2.symm
      rw [← this]

theorem print_same : e.printHandlers = Env.printHandlers { e with filters := F } := by
  unfold Env.printHandlers
  congr 2
  funext u t f
  simp only [Env.printHandler]
  rcases check_same ho hF t with ⟨x, h1, h2⟩ | ⟨b, ps, qs, hp, h1, h2⟩
  · rw [h1, h2]
  · rw [h1, h2]
    simp only [hp.length_eq]

theorem stats_step_same {s s' : Stats} (hs : s.SameSet s')
    (c : Call) : (e.statsHandlers.call s c).2 = ((Env.statsHandlers { e with filters := F }).call s' c).2 ∧
      ((e.statsHandlers.call s c).2 = none → (e.statsHandlers.call s c).1.SameSet ((Env.statsHandlers { e with filters := F }).call s' c).1) := by
  cases c with
  | periodic pt f => exact ⟨rfl, fun _ => hs⟩
  | normal t f =>
    simp only [Handlers.call, Env.statsHandlers, Env.statsHandler]
    rcases check_same ho hF t with ⟨x, h1, h2⟩ | ⟨b, ps, qs, hp, h1, h2⟩
    · rw [h1, h2]; exact ⟨rfl, fun hn => by cases hn⟩
    · rw [h1, h2]
      simp only [hp.length_eq]
      split
      · exact ⟨rfl, fun _ => hs⟩
      · obtain ⟨f1, l1, c1, a1, y1, g1, i1, x1⟩ := s
        obtain ⟨f2, l2, c2, a2, y2, g2, i2, x2⟩ := s'
        obtain ⟨r0, n1, n2, mm⟩ := hs
        simp only [Stats.forget, Stats.mk.injEq, true_and] at r0
        obtain ⟨rfl, rfl, rfl, rfl, rfl, rfl, rfl⟩ := r0
        simp only at n1 n2 mm
        obtain ⟨k1, k2⟩ := addKeys_spec Posting.accountPath ps a1 n1
        obtain ⟨k3, k4⟩ := addKeys_spec Posting.accountPath qs a2 n2
        have e1 := addBuckets_forget t.date ps (ps.foldl (fun k (p : Posting) => addKey k p.accountPath) a1)
          { first := if f1.isZero || t.date.before f1 then t.date else f1, last := if l1.isZero || t.date.after l1 then t.date else l1,
            count := c1 + 1, accounts := [], payees := addKey y1 t.payee, files := addKey g1 f, income := i1, expense := x1 }
        have e2 := addBuckets_forget t.date qs (qs.foldl (fun k (p : Posting) => addKey k p.accountPath) a2)
          { first := if f1.isZero || t.date.before f1 then t.date else f1, last := if l1.isZero || t.date.after l1 then t.date else l1,
            count := c1 + 1, accounts := [], payees := addKey y1 t.payee, files := addKey g1 f, income := i1, expense := x1 }
        simp only at e1 e2
        rw [e1, e2, addBuckets_perm t.date hp]
        rcases Stats.addBuckets t.date qs _ with _ | z
        · exact ⟨rfl, fun hn => by cases hn⟩
        · refine ⟨rfl, fun _ => ⟨rfl, k1, k3, fun a => ?_⟩⟩
          refine (k2 a).trans (Iff.trans ?_ (k4 a).symm)
          simp only [mm a, hp.mem_iff]

theorem stats_replay_same (calls : List Call) :
    ∀ s s' : Stats, s.SameSet s' → (e.statsHandlers.replay calls s).2 = ((Env.statsHandlers { e with filters := F }).replay calls s').2 ∧
      ((e.statsHandlers.replay calls s).2 = none →
        (e.statsHandlers.replay calls s).1.SameSet ((Env.statsHandlers { e with filters := F }).replay calls s').1) := by
  induction calls with
  | nil => intro s s' hs; exact ⟨rfl, fun _ => hs⟩
  | cons c calls ih =>
    intro s s' hs
    rw [Handlers.replay, Handlers.replay]
    obtain ⟨h1, h2⟩ := stats_step_same ho hF hs c
    generalize e.statsHandlers.call s c = x at h1 h2
    generalize (Env.statsHandlers { e with filters := F }).call s' c = y at h1 h2
    obtain ⟨v, _ | g⟩ := x
    · obtain ⟨v', _ | g'⟩ := y
      · exact ih v v' (h2 rfl)
      · cases h1
    · obtain ⟨v', _ | g'⟩ := y
      · cases h1
      · exact ⟨h1, fun hn => by cases hn⟩

attribute [local irreducible] statsReport averageAge Stats.ages

theorem stats_same [Unicode] (m : Machine) (o : Options) (args args' : List Str) (bytes : List UInt8) (path : Str) :
    m.runOn e o args bytes path .statistics = m.runOn { e with filters := F } o args' bytes path .statistics := by
  simp only [Machine.runOn, statsCmd]
  cases hd : e.dateError with
  | some x =>
    have hh : Env.statsHandlers { e with filters := F } = e.statsHandlers := by
      unfold Env.statsHandlers
      congr 2
      funext u t f
      have k2 := (checkAgainstFilters_dateError e t).1 x hd
      have k3 := (checkAgainstFilters_dateError { e with filters := F } t).1 x hd
      simp only [Env.statsHandler, k2, k3]
    rw [hh]
  | none =>
    obtain ⟨k1, k2⟩ := stats_replay_same ho hF (delivered m.fs m.maxOpen bytes path) {} {} ⟨rfl, List.nodup_nil, List.nodup_nil, fun _ => Iff.rfl⟩
    rcases runParse_pair m.fs m.maxOpen bytes path e.statsHandlers (Env.statsHandlers { e with filters := F }) ({} : Stats) ({} : Stats) k1 (fun g hg => by
        rcases (stopped_cases e (delivered m.fs m.maxOpen bytes path) (c := .statistics) (by decide)).1 g hg with ⟨h, _⟩ | ⟨x, hx, _⟩
        · exact h
        · rw [hd] at hx; cases hx) with ⟨f, h1, h2⟩ | ⟨h0, h1, h2⟩
    · rw [h1, h2]
    · rw [h1, h2]
      have k := k2 h0
      generalize (e.statsHandlers.replay (delivered m.fs m.maxOpen bytes path) {}).1 = s at k
      generalize ((Env.statsHandlers { e with filters := F }).replay (delivered m.fs m.maxOpen bytes path) {}).1 = s' at k
      have hf : s.files = s'.files := (congrArg Stats.files k.rest : s.forget.files = s'.forget.files)
      have ha : s.ages m.sortDates = s'.ages m.sortDates := by
        have q1 : s.income = s'.income := (congrArg Stats.income k.rest : s.forget.income = s'.forget.income)
        have q2 : s.expense = s'.expense := (congrArg Stats.expense k.rest : s.forget.expense = s'.forget.expense)
        unfold Stats.ages
        rw [q1, q2]
      have hl : s.accounts.length = s'.accounts.length := ((List.perm_ext_iff_of_nodup k.nodup k.nodup').2 k.mem).length_eq
      have hrep := statsReport_accounts m.humanize (m.stringOrder s'.files) (averageAge (s'.ages m.sortDates)) (s := s) (s' := s')
        (congrArg Stats.first k.rest : s.forget.first = s'.forget.first) (congrArg Stats.last k.rest : s.forget.last = s'.forget.last)
        (congrArg Stats.count k.rest : s.forget.count = s'.forget.count) (congrArg Stats.payees k.rest : s.forget.payees = s'.forget.payees) hf hl
      simp only [Except.map, ha, hf, hrep]

theorem balance_same [Unicode] (m : Machine) (o : Options) (args args' : List Str) (bytes : List UInt8) (path : Str) {c : Str}
    (hone : ∀ p ∈ e.selected (delivered m.fs m.maxOpen bytes path), ∀ a ∈ p.amount, a.commodity = c) :
    m.runOn e o args bytes path .balance = m.runOn { e with filters := F } o args' bytes path .balance := by
  have hsel : e.selected (delivered m.fs m.maxOpen bytes path) = Env.selected { e with filters := F } (delivered m.fs m.maxOpen bytes path) := by
    unfold Env.selected
    congr 1
    funext c
    cases c with
    | periodic pt f => rfl
    | normal t f =>
      show (if e.withinDateRange t = .ok true then selection e.filters t else []) = if e.withinDateRange t = .ok true then selection F t else []
      rw [(C44_order e.filters F t hF).1]
  have w1 := C73_one_commodity e ho m.fs m.maxOpen bytes path c hone
  have w2 := C73_one_commodity { e with filters := F } ho m.fs m.maxOpen bytes path c (by rw [← hsel]; exact hone)
  simp only [Machine.runOn, w1, w2]
  congr 1
  have hready : e.Ready (delivered m.fs m.maxOpen bytes path) ↔ Env.Ready { e with filters := F } (delivered m.fs m.maxOpen bytes path) := by
    unfold Env.Ready
    rw [← hsel]
    rfl
  cases hd : e.dateError with
  | some x =>
    have hh : Env.balanceHandlers { e with filters := F } = e.balanceHandlers := by
      unfold Env.balanceHandlers
      congr 2
      funext u t f
      have k2 := (checkAgainstFilters_dateError e t).1 x hd
      have k3 := (checkAgainstFilters_dateError { e with filters := F } t).1 x hd
      simp only [Env.balanceHandler, k2, k3]
    simp only [balanceCmd, hh]
  | none =>
    have panics : ∀ e : Env, e.dateError = none → ∀ g, (e.balanceHandlers.replay (delivered m.fs m.maxOpen bytes path) newJournal).2 = some g →
        g = .panic .unusablePosting := by
      intro e hd g hg
      rcases (stopped_cases e (delivered m.fs m.maxOpen bytes path) (c := .balance) (by decide)).1 g hg with ⟨h, _⟩ | ⟨x, hx, _⟩
      · exact h
      · rw [hd] at hx; cases hx
    have r1 := balance_ready e ho (delivered m.fs m.maxOpen bytes path) newJournal [] (newAccount_books _)
    have r2 := balance_ready { e with filters := F } ho (delivered m.fs m.maxOpen bytes path) newJournal [] (newAccount_books _)
    rw [← hready, ← r1] at r2
    have h2 : (e.balanceHandlers.replay (delivered m.fs m.maxOpen bytes path) newJournal).2 =
        ((Env.balanceHandlers { e with filters := F }).replay (delivered m.fs m.maxOpen bytes path) newJournal).2 := by
      cases h1 : (e.balanceHandlers.replay (delivered m.fs m.maxOpen bytes path) newJournal).2 with
      | none => exact (r2.2 h1).symm
      | some g =>
        cases h3 : ((Env.balanceHandlers { e with filters := F }).replay (delivered m.fs m.maxOpen bytes path) newJournal).2 with
        | none => rw [r2.1 h3] at h1; cases h1
        | some g' => rw [panics e hd g h1, panics { e with filters := F } hd g' h3]
    rcases runParse_pair m.fs m.maxOpen bytes path e.balanceHandlers (Env.balanceHandlers { e with filters := F }) newJournal newJournal h2 (panics e hd) with
      ⟨f, h3, h4⟩ | ⟨_, h3, h4⟩
    · simp only [balanceCmd, h3, h4]
    · cases h5 : balanceCmd e o.showZero o.flatten o.collapse m.fs m.maxOpen bytes path with
      | error f => simp only [balanceCmd, h3, Except.map] at h5; cases h5
      | ok text =>
        cases h6 : balanceCmd { e with filters := F } o.showZero o.flatten o.collapse m.fs m.maxOpen bytes path with
        | error f => simp only [balanceCmd, h4, Except.map] at h6; cases h6
        | ok text' => exact congrArg Except.ok (balance_text_unique (e := e) (e' := { e with filters := F }) ho ho _ _ _ hsel hone h5 h6)

end

/-- A run with arguments that all stand for filters. -/
theorem run_same [Unicode] {m : Machine} (o : Options) {c : Command} {args args' : List Str} (h : SameArguments args args') (hv : ∀ a ∈ args, ¬ NoFilter m.engine a)
    (k : ∀ F F' : List Filter, List.Forall₂ (IsFilterOf m.engine) args F → (∀ f, f ∈ F ↔ f ∈ F') → ∀ path bytes, m.rootPath o = some path → m.fs path = some bytes →
      m.runOn (m.env o F) o args bytes path c = m.runOn { m.env o F with filters := F' } o args' bytes path c) :
    m.run o c args = m.run o c args' := by
  have get : ∀ as : List Str, (∀ a ∈ as, ¬ NoFilter m.engine a) → ∃ F, List.Forall₂ (IsFilterOf m.engine) as F := by
    intro as hs
    rcases C95_complete m.engine as with h | ⟨good, bad, rest, rfl, _, hb⟩
    · exact h
    · exact absurd hb (hs bad (by simp))
  obtain ⟨F, hF⟩ := get args hv
  obtain ⟨F', hF'⟩ := get args' fun a ha => hv a ((h a).2 ha)
  simp only [Machine.run, (makeFilters_iff _ _ _).2 hF, (makeFilters_iff _ _ _).2 hF', Machine.runFiltered]
  split
  · rfl
  · cases hp : m.rootPath o with
    | none => rfl
    | some p =>
      simp only
      cases hb : m.fs p with
      | none => rfl
      | some bytes => exact k F F' hF (filters_same h hF hF') p bytes hp hb

/-- The list of accounts, the printed journal and the statistics depend on which arguments are given, not on their order and repetition. -/
theorem C151_reports [Unicode] {m : Machine} (hm : m.Fair) (o : Options) {c : Command} (hc : c = .accounts ∨ c = .print ∨ c = .statistics ∨ c = .version) {args args' : List Str}
    (h : SameArguments args args') (hv : ∀ a ∈ args, ¬ NoFilter m.engine a) : m.run o c args = m.run o c args' := by
  refine run_same o h hv fun F F' _ hF path bytes _ _ => ?_
  have ho : ∀ l, ((m.env o F).mapOrder l).Perm l := hm.postings
  have hn : F.length = 0 ↔ F'.length = 0 := by
    rw [List.length_eq_zero_iff, List.length_eq_zero_iff, List.eq_nil_iff_forall_not_mem, List.eq_nil_iff_forall_not_mem]
    simp only [hF]
  rcases hc with rfl | rfl | rfl | rfl
  · simp only [Machine.runOn, accountsCmd]
    have h0 : (Env.accountsHandlers { m.env o F with filters := F' }) = (m.env o F).accountsHandlers := rfl
    have h1 : (m.env o F).accountsPrepare = Env.accountsPrepare { m.env o F with filters := F' } := by
      funext keys
      show (if F.length = 0 then sortStrings keys else sortStrings (keys.filter fun a => F.any fun f => f.regex a)) =
        if F'.length = 0 then sortStrings keys else sortStrings (keys.filter fun a => F'.any fun f => f.regex a)
      by_cases hz : F.length = 0
      · rw [if_pos hz, if_pos (hn.1 hz)]
      · rw [if_neg hz, if_neg (hz ∘ hn.2)]
        congr 2
        funext a
        rw [Bool.eq_iff_iff, List.any_eq_true, List.any_eq_true]
        simp only [hF]
    rw [h0, h1]
  · simp only [Machine.runOn, printCmd, print_same ho hF]
  · exact stats_same ho hF m o args args' bytes path
  · rfl

/-- The same for payees, if the arguments can also be read as patterns for payees. -/
theorem C151_payees [Unicode] {m : Machine} (o : Options) {args args' : List Str} (h : SameArguments args args') (hv : ∀ a ∈ args, ¬ NoFilter m.engine a)
    (hp : ∀ a ∈ args, ∃ r, m.engine.compile (wholePattern a) = some r) : m.run o .payees args = m.run o .payees args' := by
  refine run_same o h hv fun F F' _ hF path bytes _ _ => ?_
  have h0 : (Env.payeesHandlers { m.env o F with filters := F' }) = (m.env o F).payeesHandlers := rfl
  simp only [Machine.runOn, payeesCmd, h0]
  have h1 : payeesPrepare m.engine args = payeesPrepare m.engine args' := by
    funext keys
    have hn : args.length = 0 ↔ args'.length = 0 := by
      rw [List.length_eq_zero_iff, List.length_eq_zero_iff, List.eq_nil_iff_forall_not_mem, List.eq_nil_iff_forall_not_mem]
      simp only [h _]
    have get : ∀ as : List Str, (∀ a ∈ as, ∃ r, m.engine.compile (wholePattern a) = some r) →
        ∃ rs, compileArgs m.engine as = .ok rs ∧ ∀ r, r ∈ rs ↔ ∃ a ∈ as, m.engine.compile (wholePattern a) = some r := by
      intro as hs
      rcases compileArgs_spec m.engine as with ⟨rs, r1, r2⟩ | ⟨a, r1, r2, _⟩
      · refine ⟨rs, r1, fun r => ?_⟩
        have : some r ∈ rs.map some ↔ ∃ a ∈ as, m.engine.compile (wholePattern a) = some r := by
          rw [← r2, List.mem_map]
          simp only [wholePattern, smartCase_eq]
        rw [← this]
        simp
      · obtain ⟨r, hr⟩ := hs a r1
        rw [wholePattern, ← smartCase_eq, r2] at hr
        cases hr
    obtain ⟨rs, r1, r2⟩ := get args hp
    obtain ⟨rs', r1', r2'⟩ := get args' fun a ha => hp a ((h a).2 ha)
    unfold payeesPrepare
    by_cases hz : args.length = 0
    · rw [if_pos hz, if_pos (hn.1 hz)]
    · rw [if_neg hz, if_neg (hz ∘ hn.2), r1, r1']
      simp only [Except.map]
      congr 3
      funext p
      rw [Bool.eq_iff_iff, List.any_eq_true, List.any_eq_true]
      simp only [r2, r2', h _]
  rw [h1]

/-- The same for balances, if what is asked for is in one commodity. -/
theorem C151_balance [Unicode] {m : Machine} (hm : m.Fair) (o : Options) {args args' : List Str} (h : SameArguments args args') (hv : ∀ a ∈ args, ¬ NoFilter m.engine a) {com : Str}
    (hone : ∀ F path bytes, List.Forall₂ (IsFilterOf m.engine) args F → m.rootPath o = some path → m.fs path = some bytes →
      ∀ p ∈ (m.env o F).selected (delivered m.fs m.maxOpen bytes path), ∀ a ∈ p.amount, a.commodity = com) : m.run o .balance args = m.run o .balance args' :=
  run_same o h hv fun F _ h1 hF path bytes h2 h3 => balance_same (e := m.env o F) hm.postings hF m o args args' bytes path (hone F path bytes h1 h2 h3)

/-- The same for budgets in one commodity, except for warnings before the report, of which there are none without a commodity. -/
theorem C151_budget [Unicode] {m : Machine} {o : Options} {args args' : List Str} (h : SameArguments args args') {bytes : List UInt8} {js : List (Meant × Str)} {F F' : List Filter}
    {admits : Date → Bool} {path c : Str} (g : Setting m o args bytes F admits path) (g' : Setting m o args' bytes F' admits path) {pg : Page}
    (r : Reading m.fs m.lib m.maxOpen path bytes js (.ok pg)) (hs : ¬ Command.budget.Short F admits (meanings js)) (hc : OneCommodity c ((meanings js).flatMap (Meant.filed F admits))) :
    ∃ W W' text, m.run o .budget args = ⟨W ++ text, .exit 0⟩ ∧ m.run o .budget args' = ⟨W' ++ text, .exit 0⟩ ∧ (c = [] → W = [] ∧ W' = []) := by
  have hF := filters_same h g.filters g'.filters
  have e : (meanings js).flatMap (Meant.filed F admits) = (meanings js).flatMap (Meant.filed F' admits) := by
    congr 1
    funext x
    cases x with
    | budget d ps => rfl
    | transaction t => simp only [Meant.filed, (C44_order F F' t hF).1]
  exact C145_runs g r g' r hs (by unfold Command.Short at hs ⊢; rw [← e]; exact hs) (by rw [← e]; exact SameSums.of_perm (List.Perm.refl _)) hc (by rw [← e]; exact hc)

/-- Mixed commodities: the first of them is shown, and which is first may depend on the order of the arguments. -/
theorem C151_mixed_false :
    ¬ ∀ (U : Unicode) (m : Machine) (o : Options) (args args' : List Str), m.Fair → SameArguments args args' → (∀ a ∈ args, ¬ @NoFilter U m.engine a) →
      @Machine.run U m o .balance args = @Machine.run U m o .balance args' := by
  intro h
  let := asciiUnicode
  have hfair : Machine.Fair { wholeMachine with postingOrder := id, fs := fun _ => some (utf8 "2020-01-01 x\n  A:B  $1\n  A:C  EUR1\n  D  -2\n") } :=
    ⟨fun l => List.Perm.refl l, wholeFair.strings, wholeFair.byDate, wholeFair.dates⟩
  have := h asciiUnicode { wholeMachine with postingOrder := id, fs := fun _ => some (utf8 "2020-01-01 x\n  A:B  $1\n  A:C  EUR1\n  D  -2\n") } { file := str "f" }
    [str "B", str "C"] [str "C", str "B"] hfair (fun a => by simp [or_comm]) (by
      intro a ha hn
      have hne : a ≠ [] := by
        rintro rfl
        revert ha
        decide
      exact hn ⟨_, argField a⟩ ⟨hne, rfl, rfl⟩)
  revert this
  decide +kernel

/-! ### Witnesses -/

example : SameArguments [str "Food", str "Bank"] [str "Bank", str "Food", str "Bank"] := by
  intro a
  simp only [List.mem_cons, List.not_mem_nil, or_false]
  tauto

/-- All arguments stand for filters. -/
example : letI := asciiUnicode; ∀ a ∈ [str "Food", str "Bank"], ¬ NoFilter wholeMachine.engine a := by
  let := asciiUnicode
  intro a ha hn
  have hne : a ≠ [] := by
    rintro rfl
    revert ha
    decide
  exact hn ⟨_, argField a⟩ ⟨hne, rfl, rfl⟩

set_option maxRecDepth 100000 in
example :
    letI := asciiUnicode
    suffixMachine.run { file := str "f" } .accounts [str "Bank", str "Food", str "Bank"] = ⟨str "Assets:Bank\nExpenses:Food\n", .exit 0⟩ ∧
    suffixMachine.run { file := str "f" } .accounts [str "Food", str "Bank"] = ⟨str "Assets:Bank\nExpenses:Food\n", .exit 0⟩ ∧
    suffixMachine.run { file := str "f" } .payees [str "y", str "op", str "op"] = suffixMachine.run { file := str "f" } .payees [str "op", str "y"] ∧
    wholeMachine.run wholeOptions .balance [str "Bank", str "Food", str "Bank"] = wholeMachine.run wholeOptions .balance [str "Food", str "Bank"] := by
  decide +kernel

end Gledger
