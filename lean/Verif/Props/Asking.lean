/-
C125: asking about an account shows it as it is shown among the others.
-/
import Verif.Spec.Asking
import Verif.Props.Monotone

namespace Gledger

set_option maxRecDepth 100000

theorem below_asked {e : Env} {calls : List Call} {cs : List Str} (h : e.AsksFor calls cs) :
    below cs (e.selected calls) = below cs (e.unfiltered.selected calls) := by
  unfold Env.selected below
  rw [List.filter_flatMap, List.filter_flatMap]
  refine flatMap_congr_mem fun c hc => ?_
  cases c with
  | periodic pt f => rfl
  | normal t f =>
    simp only [Env.selectedOf]
    rw [show e.unfiltered.withinDateRange t = e.withinDateRange t from rfl]
    split
    case isFalse => rfl
    case isTrue hr =>
      have h0 : selection e.unfiltered.filters t = t.postings := if_pos (Or.inl rfl)
      rw [h0]
      unfold selection
      split
      · rfl
      case isFalse hw =>
        rw [List.filter_filter]
        refine List.filter_congr fun p hp => ?_
        by_cases hb : cs <+: p.components
        · rcases h t f hc hr p hp hb with h1 | h1
          · exact absurd h1 hw
          · simp [hb, h1]
        · simp [hb]

theorem unfiltered_wholly (e : Env) (calls : List Call) : e.unfiltered.Wholly calls := fun _ _ _ => Or.inl (Or.inl rfl)

theorem unfiltered_asks (e : Env) : e.Asks e.unfiltered := ⟨fun _ h => h, Or.inl rfl⟩

section
variable [Unicode] {m : Machine} {e : Env} {o : Options} {bytes : List UInt8} {path text : Str}

/-- If the balance command gives a report without filters, it gives one with them; and if these leave out nothing that is posted to a top-level account and below it, then the lines
about it are the same in both. If they take nothing else, these lines, if any, are the report, up to its footer. (With filters that pick single postings, what is posted there has to be in one
commodity.) -/
theorem C125_balance (ho : ∀ l, (e.mapOrder l).Perm l) (h : balanceCmd e.unfiltered o.showZero o.flatten o.collapse m.fs m.maxOpen bytes path = .ok text) :
    ∃ (text' : Str) (ps : List Posting) (ls ls' : List (List Str × Str)),
      balanceCmd e o.showZero o.flatten o.collapse m.fs m.maxOpen bytes path = .ok text' ∧ ps.Perm (e.selected (delivered m.fs m.maxOpen bytes path)) ∧
      BalanceLines o.showZero ps text' ls' ∧ BalanceLines o.showZero (e.unfiltered.selected (delivered m.fs m.maxOpen bytes path)) text ls ∧
      ∀ x, e.AsksFor (delivered m.fs m.maxOpen bytes path) [x] →
        (e.Wholly (delivered m.fs m.maxOpen bytes path) ∨
          ∃ c, ∀ p ∈ below [x] (e.unfiltered.selected (delivered m.fs m.maxOpen bytes path)), ∀ a ∈ p.amount, a.commodity = c) →
        linesOf x ls' = linesOf x ls ∧
        (e.AsksOnlyFor (delivered m.fs m.maxOpen bytes path) [x] → linesOf x ls ≠ [] →
          text' = joinLines ((linesOf x ls).map Prod.snd) ++ footer (tally ps)) := by
  have hj : ∃ j, runParse m.fs m.maxOpen bytes path e.unfiltered.balanceHandlers newJournal = .ok j := by
    unfold balanceCmd at h
    cases hj : runParse m.fs m.maxOpen bytes path e.unfiltered.balanceHandlers newJournal with
    | error f => rw [hj] at h; cases h
    | ok j => exact ⟨j, rfl⟩
  obtain ⟨r1, r2, r3⟩ := (C61_runs_iff e.unfiltered ho m.fs m.maxOpen bytes path).1 hj
  obtain ⟨j, hj'⟩ := (C61_runs_iff e ho m.fs m.maxOpen bytes path).2 ⟨r1, r2, fun p hp =>
    r3 p ((asks_selected (unfiltered_asks e) (List.Sublist.refl _)).subset hp)⟩
  obtain ⟨text', h'⟩ : ∃ text', balanceCmd e o.showZero o.flatten o.collapse m.fs m.maxOpen bytes path = .ok text' := by
    unfold balanceCmd
    rw [hj']
    exact ⟨_, rfl⟩
  obtain ⟨qss, g1, g2, g3⟩ := C73_balance_output m e ho o [] bytes path text' h'
  obtain ⟨qss', g1', g2', g3'⟩ := C73_balance_output m e.unfiltered ho o [] bytes path text h
  rw [gives_wholly g1' (unfiltered_wholly e _)] at g3'
  have p1 : qss.flatten.Perm (e.selected (delivered m.fs m.maxOpen bytes path)) := flatten_perm_flatMap (g1.imp fun _ _ h => h.perm)
  obtain ⟨ls', ls, k1, k2, k3⟩ := C120_reports g3 g3'
  refine ⟨text', qss.flatten, ls, ls', h', p1, k1, k2, fun x hx hc => ?_⟩
  have hl : linesOf x ls' = linesOf x ls := by
    have hb := below_asked hx
    have hp : (below [x] qss.flatten).Perm (below [x] (e.unfiltered.selected (delivered m.fs m.maxOpen bytes path))) := hb ▸ p1.filter _
    refine k3 x hp fun cs hcs => ?_
    rcases hc with hc | ⟨c, hc⟩
    · rw [gives_wholly g1 hc, below_head hcs, hb, ← below_head hcs]
    · have := tally_one (c := c) (hp.filter fun p => decide (cs <+: p.components)) fun p hq => hc p (hp.mem_iff.1 (List.mem_of_mem_filter hq))
      rw [below_head hcs, below_head hcs (e.unfiltered.selected _)]
      exact congrArg Amount.commodity this
  refine ⟨hl, fun hon hne => ?_⟩
  have hall : linesOf x ls' = ls' := by
    unfold linesOf
    rw [List.filter_eq_self]
    intro l hm
    simp only [decide_eq_true_eq]
    cases hn : l.1 with
    | nil =>
      exfalso
      rw [← hl] at hne
      obtain ⟨l', hl'⟩ := List.exists_mem_of_ne_nil _ hne
      obtain ⟨m1, m2⟩ := List.mem_filter.1 hl'
      have m2 : l'.1.head? = some x := by simpa using m2
      refine k1.root l hm hn x ((k1.shown l' m1).up ?_)
      cases h1 : l'.1 with
      | nil => rw [h1] at m2; cases m2
      | cons a as => rw [h1] at m2; cases m2; exact ⟨as, rfl⟩
    | cons a as =>
      obtain ⟨p, hp, hq⟩ := (k1.shown l hm).1.resolve_left (by rw [hn]; simp)
      have := hon p (p1.mem_iff.1 hp)
      obtain ⟨bs, hb⟩ := this
      rw [hn, ← hb] at hq
      obtain ⟨ds, hd⟩ := hq
      simp only [List.cons_append, List.nil_append, List.cons.injEq] at hd
      rw [hd.1]
      rfl
  rw [← hl, hall]
  exact k1.text_eq

end

/-! ### Budgets -/

theorem categoryCommodity_any {es es' : List Filed} (h : es.Perm es') {c : Str} (hc : ∀ x ∈ es, ∃ a, x.posting.amount = some a ∧ a.commodity = c) (cs : List Str) :
    categoryCommodity cs es = categoryCommodity cs es' := by
  have hp : (es.filter fun e => decide (e.category = some cs)).Perm (es'.filter fun e => decide (e.category = some cs)) := h.filter _
  have key : ∀ l : List Filed, (∀ x ∈ l, ∃ a, x.posting.amount = some a ∧ a.commodity = c) →
      (((l.getLast?).bind fun e => e.posting.amount).map Amount.commodity).getD [] = if l = [] then [] else c := by
    intro l hl
    cases hg : l.getLast? with
    | none => rw [List.getLast?_eq_none_iff.1 hg]; rfl
    | some x =>
      obtain ⟨a, h1, h2⟩ := hl x (List.mem_of_getLast? hg)
      rw [if_neg (by rintro rfl; cases hg)]
      simp only [Option.bind_some, h1, Option.map_some, h2, Option.getD_some]
  unfold categoryCommodity
  rw [key _ fun x hx => hc x (List.mem_of_mem_filter hx), key _ fun x hx => hc x (h.mem_iff.2 (List.mem_of_mem_filter hx))]
  simp only [← List.length_eq_zero_iff, hp.length_eq]

/-- The line of a category is the same in two reports if the same is filed under it, in whatever order if in one commodity. -/
theorem categoryLine_same {k : Str} {es es' : List Filed} (h : (filedUnder k es).Perm (filedUnder k es')) {c : Str}
    (hc : ∀ x ∈ filedUnder k es, ∃ a, x.posting.amount = some a ∧ a.commodity = c) : categoryLine k es = categoryLine k es' := by
  rw [categoryLine_under k es, categoryLine_under k es']
  unfold categoryLine figures
  rw [spent_perm h, budgeted_perm h, categoryCommodity_any h hc]

theorem filed_asked {e : Env} {calls : List Call} {k : Str} (h : e.AsksFor calls [expensesID, k]) (d : Date) :
    filedUnder k (inMonth d.year d.month (e.filed calls)) = filedUnder k (inMonth d.year d.month (e.unfiltered.filed calls)) := by
  unfold filedUnder inMonth
  rw [List.filter_filter, List.filter_filter]
  unfold Env.filed
  rw [List.filter_flatMap, List.filter_flatMap]
  refine flatMap_congr_mem fun c hc => ?_
  cases c with
  | periodic pt f => rfl
  | normal t f =>
    simp only [Env.filedOf, Env.selectedOf]
    rw [show e.unfiltered.withinDateRange t = e.withinDateRange t from rfl]
    split
    case isFalse => rfl
    case isTrue hr =>
      have h0 : selection e.unfiltered.filters t = t.postings := if_pos (Or.inl rfl)
      rw [h0]
      unfold selection
      split
      · rfl
      case isFalse hw =>
        have key : ∀ ps : List Posting, (∀ p ∈ ps, [expensesID, k] <+: p.components → ∃ g ∈ e.filters, g.Takes p) →
            ((ps.filter fun p => decide (∃ g ∈ e.filters, g.Takes p)).filterMap fun p =>
              if p.components.headD [] = expensesID then some (⟨t.date, p, .expense⟩ : Filed)
              else if p.components.headD [] = incomeID then some ⟨t.date, p, .income⟩ else none).filter
                (fun x => decide (x.Under [k]) && decide (x.date.year = d.year ∧ x.date.month = d.month)) =
            (ps.filterMap fun p =>
              if p.components.headD [] = expensesID then some (⟨t.date, p, .expense⟩ : Filed)
              else if p.components.headD [] = incomeID then some ⟨t.date, p, .income⟩ else none).filter
                (fun x => decide (x.Under [k]) && decide (x.date.year = d.year ∧ x.date.month = d.month)) := by
          intro ps hps
          induction ps with
          | nil => rfl
          | cons p ps ih =>
            have ih := ih fun q hq => hps q (List.mem_cons_of_mem _ hq)
            by_cases hg : ∃ g ∈ e.filters, g.Takes p
            · rw [List.filter_cons_of_pos (by simpa using hg), List.filterMap_cons, List.filterMap_cons]
              split
              · exact ih
              · rw [List.filter_cons, List.filter_cons, ih]
            · rw [List.filter_cons_of_neg (by simpa using hg), ih, List.filterMap_cons]
              by_cases h1 : p.components.headD [] = expensesID
              · simp only [h1, if_true]
                rw [List.filter_cons_of_neg]
                have : ¬ (⟨t.date, p, .expense⟩ : Filed).Under [k] := by
                  rw [under_iff]
                  rintro ⟨ds, hds⟩
                  refine hg (hps p (by simp) ?_)
                  simp only [Filed.category, Option.some.injEq] at hds
                  cases hcs : p.components with
                  | nil => rw [hcs] at hds; cases hds
                  | cons a as =>
                    rw [hcs] at hds h1
                    simp only [List.drop_succ_cons, List.drop_zero] at hds
                    subst hds
                    cases h1
                    exact ⟨ds, rfl⟩
                simp [this]
              · rw [if_neg h1]
                split
                · rfl
                case h_2 x hx =>
                  split at hx
                  · cases hx
                    rw [List.filter_cons_of_neg]
                    have : ¬ (⟨t.date, p, .income⟩ : Filed).Under [k] := by
                      rw [under_iff]
                      rintro ⟨ds, hds⟩
                      cases hds
                    simp [this]
                  · cases hx
        exact key _ fun p hp hb => (h t f hc hr p hp hb).resolve_left hw

section
variable [Unicode] {m : Machine} {e : Env} {o : Options} {bytes : List UInt8} {path text : Str}

/-- If the budget command gives a report without filters, it gives one with them; and if these leave out nothing that is spent on a category and those below it, then the lines about it are the
same in both, month by month. (With filters that pick single postings, what is filed there in the month has to be in one commodity.) -/
theorem C125_budget (hs : SortsMonths m.sortDates) (ho : ∀ l, (e.mapOrder l).Perm l) (hd : e.dateError = none)
    (h : budgetCmd e.unfiltered m.sortDates m.fs m.maxOpen bytes path = .ok text) :
    ∃ (text' : Str) (es : List Filed) (ms ms' : List MonthText),
      budgetCmd e m.sortDates m.fs m.maxOpen bytes path = .ok text' ∧ es.Perm (e.filed (delivered m.fs m.maxOpen bytes path)) ∧
      BudgetMonths es text' ms' ∧ BudgetMonths (e.unfiltered.filed (delivered m.fs m.maxOpen bytes path)) text ms ∧
      ∀ k d, e.AsksFor (delivered m.fs m.maxOpen bytes path) [expensesID, k] →
        (e.Wholly (delivered m.fs m.maxOpen bytes path) ∨
          ∃ c, ∀ x ∈ filedUnder k (inMonth d.year d.month (e.unfiltered.filed (delivered m.fs m.maxOpen bytes path))), ∀ a ∈ x.posting.amount, a.commodity = c) →
        ∀ l, (∃ t ∈ ms', t.month = d ∧ (k, l) ∈ t.lines) ↔ ∃ t ∈ ms, t.month = d ∧ (k, l) ∈ t.lines := by
  obtain ⟨r1, r2⟩ := (budgetCmd_ok_iff (e := e.unfiltered) ho hd m.sortDates m.fs m.maxOpen).1 ⟨_, h⟩
  have sub := asks_filed (unfiltered_asks e) (List.Sublist.refl (delivered m.fs m.maxOpen bytes path))
  obtain ⟨text', h'⟩ := (budgetCmd_ok_iff ho hd m.sortDates m.fs m.maxOpen).2 ⟨r1, fun ⟨x, hx, hf⟩ => r2 ⟨x, sub.subset hx, hf⟩⟩
  have fine : ∀ x ∈ e.unfiltered.filed (delivered m.fs m.maxOpen bytes path), x.posting.amount ≠ none := by
    intro x hx hn
    refine r2 ⟨x, hx, fun hf => hf.2.1 hn⟩
  obtain ⟨xss, g1, g2, g3⟩ := C75_budget_output m hs e ho {} [] bytes path text' h'
  obtain ⟨xss', g1', g2', g3'⟩ := C75_budget_output m hs e.unfiltered ho {} [] bytes path text h
  rw [filed_wholly g1' (unfiltered_wholly e _)] at g3'
  have p1 : xss.flatten.Perm (e.filed (delivered m.fs m.maxOpen bytes path)) := flatten_perm_flatMap (g1.imp fun _ _ h => h.perm)
  obtain ⟨L, ns, a1, a2, a3, a4, a5⟩ := g3
  obtain ⟨L', ns', b1, b2, b3, b4, b5⟩ := g3'
  refine ⟨text', xss.flatten, _, _, h', p1, budgetMonths_of a1 a2 a3 a4 a5, budgetMonths_of b1 b2 b3 b4 b5, fun k d hk hc l => ?_⟩
  have hb := filed_asked hk d
  have hp : (filedUnder k (inMonth d.year d.month xss.flatten)).Perm
      (filedUnder k (inMonth d.year d.month (e.unfiltered.filed (delivered m.fs m.maxOpen bytes path)))) := by
    rw [← hb]
    exact (p1.filter _).filter _
  have hline : categoryLine k (inMonth d.year d.month xss.flatten) =
      categoryLine k (inMonth d.year d.month (e.unfiltered.filed (delivered m.fs m.maxOpen bytes path))) := by
    rcases hc with hc | ⟨c, hc⟩
    · rw [categoryLine_under k, filed_wholly g1 hc, hb, ← categoryLine_under]
    · refine categoryLine_same hp (c := c) fun x hx => ?_
      have hx := hp.mem_iff.1 hx
      obtain ⟨a, ha⟩ := Option.ne_none_iff_exists'.1 (fine x (List.mem_of_mem_filter (List.mem_of_mem_filter hx)))
      exact ⟨a, ha, hc x hx a ha⟩
  have key : ∀ {es es' : List Filed} {L L' : List Date} {ns ns' : Date → List Str},
      (filedUnder k (inMonth d.year d.month es)).Perm (filedUnder k (inMonth d.year d.month es')) →
      categoryLine k (inMonth d.year d.month es) = categoryLine k (inMonth d.year d.month es') →
      (∀ m, m ∈ L ↔ m.day = 1 ∧ inMonth m.year m.month es ≠ []) → (∀ m, m ∈ L' ↔ m.day = 1 ∧ inMonth m.year m.month es' ≠ []) →
      (∀ m ∈ L, (ns m).Pairwise StrLt ∧ ∀ k, k ∈ ns m ↔ ∃ e ∈ inMonth m.year m.month es, ∃ ds, e.category = some (k :: ds)) →
      (∀ m ∈ L', (ns' m).Pairwise StrLt ∧ ∀ k, k ∈ ns' m ↔ ∃ e ∈ inMonth m.year m.month es', ∃ ds, e.category = some (k :: ds)) →
      (∃ t ∈ (L.map fun m => (⟨m, summary m (incomeOf (inMonth m.year m.month es)), (ns m).map fun k => (k, categoryLine k (inMonth m.year m.month es))⟩ : MonthText)),
        t.month = d ∧ (k, l) ∈ t.lines) →
      ∃ t ∈ (L'.map fun m => (⟨m, summary m (incomeOf (inMonth m.year m.month es')), (ns' m).map fun k => (k, categoryLine k (inMonth m.year m.month es'))⟩ : MonthText)),
        t.month = d ∧ (k, l) ∈ t.lines := by
    rintro es es' L L' ns ns' hk hline a3 b3 a4 b4 ⟨t, ht, rfl, hl⟩
    obtain ⟨m, hm, rfl⟩ := List.mem_map.1 ht
    obtain ⟨k', hk', he⟩ := List.mem_map.1 hl
    obtain ⟨rfl, rfl⟩ := Prod.mk.inj he
    have h0 := names_iff.1 (((a4 m hm).2 k').1 hk')
    have h0' : filedUnder k' (inMonth m.year m.month es') ≠ [] := fun h => h0 (List.perm_nil.1 (h ▸ hk))
    have hm' : m ∈ L' := by
      rw [b3]
      refine ⟨((a3 m).1 hm).1, fun hnil => h0' ?_⟩
      rw [hnil]; rfl
    exact ⟨_, List.mem_map.2 ⟨m, hm', rfl⟩, rfl, List.mem_map.2 ⟨k', ((b4 m hm').2 k').2 (names_iff.2 h0'), by rw [hline]⟩⟩
  exact ⟨key hp hline a3 b3 a4 b4, key hp.symm hline.symm b3 a3 b4 a4⟩

end

/-- Filters that leave nothing out can be checked call by call. -/
theorem asksFor_of_all {e : Env} {calls : List Call} {cs : List Str}
    (h : (calls.all fun c => match c with
      | .normal t _ => t.postings.all fun p => decide (cs <+: p.components → WholeSelected e.filters t ∨ ∃ g ∈ e.filters, g.Takes p)
      | .periodic _ _ => true) = true) : e.AsksFor calls cs := by
  intro t f hc _ p hp
  have := List.all_eq_true.1 (List.all_eq_true.1 h _ hc) p hp
  exact of_decide_eq_true this

/-- A filter of account names that begin with a text. -/
def namesFrom (s : String) : Filter := ⟨fun a => (str s).isPrefixOf a, .accountName⟩

/-- A journal, and the balance asked for Assets. -/
def assetsJournal : List UInt8 := utf8 "2020-01-01 x\n  Assets:A  $1\n  Cash\n\n2020-01-02 y\n  Food  $3\n  Assets:B\n"

/-- The hypotheses of `C125_balance` are met, and the report about Assets is that part of the report about everything. -/
example :
    letI := asciiUnicode
    let m := shelfMachine
    let e := m.env {} [namesFrom "Assets"]
    let D := delivered m.fs m.maxOpen assetsJournal (str "f")
    e.AsksFor D [str "Assets"] ∧ e.AsksOnlyFor D [str "Assets"] ∧
    (∀ p ∈ below [str "Assets"] (e.unfiltered.selected D), ∀ a ∈ p.amount, a.commodity = str "$") ∧
    (m.runOn e.unfiltered {} [] assetsJournal (str "f") .balance).stdout =
      str "              $-2.00  Assets\n               $1.00    A\n              $-3.00    B\n              $-1.00  Cash\n               $3.00  Food\n--------------------\n                0.00\n" ∧
    (m.runOn e {} [] assetsJournal (str "f") .balance).stdout =
      str "              $-2.00  Assets\n               $1.00    A\n              $-3.00    B\n--------------------\n               -2.00\n" := by
  refine ⟨asksFor_of_all (by decide +kernel), ?_, ?_, ?_, ?_⟩
  · unfold Env.AsksOnlyFor; decide +kernel
  · decide +kernel
  · decide +kernel
  · decide +kernel

/-- A budget, and the spending asked for Food. -/
example :
    letI := asciiUnicode
    let m := shelfMachine
    let e := m.env {} [namesFrom "Expenses:Food"]
    let b := utf8 "~ 2020-01\n  Food  $5\n  Rent  $9\n\n2020-01-02 y\n  Expenses:Food:Out  $3\n  Expenses:Rent  $8\n  Cash\n"
    let D := delivered m.fs m.maxOpen b (str "f")
    e.AsksFor D [expensesID, str "Food"] ∧
    (∀ x ∈ filedUnder (str "Food") (inMonth 2020 1 (e.unfiltered.filed D)), ∀ a ∈ x.posting.amount, a.commodity = str "$") ∧
    str "Food                           |                -3.00 |                 5.00 |                $2.00 |\n" <:+:
      (m.runOn e.unfiltered {} [] b (str "f") .budget).stdout ∧
    str "Food                           |                -3.00 |                 5.00 |                $2.00 |\n" <:+:
      (m.runOn e {} [] b (str "f") .budget).stdout ∧
    str "Rent                           |                -8.00 |                 9.00 |                $1.00 |\n" <:+:
      (m.runOn e.unfiltered {} [] b (str "f") .budget).stdout ∧
    str "Rent                           |                 0.00 |                 9.00 |                $9.00 |\n" <:+:
      (m.runOn e {} [] b (str "f") .budget).stdout := by
  refine ⟨asksFor_of_all (by decide +kernel), by decide +kernel, by decide +kernel, by decide +kernel, by decide +kernel, by decide +kernel⟩

end Gledger
