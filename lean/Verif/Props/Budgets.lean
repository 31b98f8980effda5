import Verif.Lemmas.Budget
import Verif.Props.Lists
import Verif.Props.Delivered
import Verif.Lemmas.Reports
import Verif.Spec.BudgetText

set_option maxRecDepth 100000

namespace Gledger

/-! ### A budget holds the postings put into it -/

theorem Budget.get_put_month (b : Budget) (k : Date) (bm : BudgetMonth) (k' : Date) :
    (b.put k bm).get k' = if k = k' then some bm else b.get k' := by
  induction b with
  | nil =>
    unfold Budget.put Budget.get
    by_cases hk : k = k' <;> simp [hk]
  | cons x xs ih =>
    obtain ⟨k1, m1⟩ := x
    unfold Budget.put
    by_cases h1 : k1 = k
    · subst h1
      unfold Budget.get
      by_cases hk : k1 = k' <;> simp [hk]
    · rw [if_neg h1]
      unfold Budget.get at ih ⊢
      by_cases h2 : k1 = k'
      · have : k ≠ k' := fun hc => h1 (h2.trans hc.symm)
        simp [h2, this]
      · simp only [List.find?_cons, h2, decide_false]
        exact ih

theorem normalise_eq {d : Date} (hd : 1 ≤ d.day) : normaliseToMonth d = ⟨d.year, d.month, 1⟩ := by
  unfold normaliseToMonth
  congr 1
  omega

/-- One posting is added if and only if it can be filed, and then the budget holds it too. -/
theorem budget_step {b : Budget} {es : List Filed} (H : b.Holds es) (e : Filed) (hd : 1 ≤ e.date.day) :
    (e.Fileable → ∃ b', b.addPosting e.date e.posting e.type = some b' ∧ b'.Holds (es ++ [e])) ∧
    (¬ e.Fileable → b.addPosting e.date e.posting e.type = none) := by
  set bm := (b.get ⟨e.date.year, e.date.month, 1⟩).getD newBudgetMonth with hbm
  have hm : bm.Holds (inMonth e.date.year e.date.month es) := by
    have := H e.date.year e.date.month
    revert this
    cases hg : b.get ⟨e.date.year, e.date.month, 1⟩ with
    | none =>
      intro h
      simp only at h
      rw [hbm, hg, h]
      exact newBudgetMonth_holds
    | some m =>
      intro h
      rw [hbm, hg]
      exact h.2
  have hput : ∀ bm', bm'.Holds (inMonth e.date.year e.date.month es ++ [e]) → (b.put ⟨e.date.year, e.date.month, 1⟩ bm').Holds (es ++ [e]) := by
    intro bm' hb y m
    rw [Budget.get_put_month]
    by_cases hk : (⟨e.date.year, e.date.month, 1⟩ : Date) = ⟨y, m, 1⟩
    · rw [if_pos hk]
      obtain ⟨rfl, rfl⟩ : e.date.year = y ∧ e.date.month = m := by simpa using hk
      have : inMonth e.date.year e.date.month (es ++ [e]) = inMonth e.date.year e.date.month es ++ [e] := by
        unfold inMonth; simp
      rw [this]
      exact ⟨by simp, hb⟩
    · rw [if_neg hk]
      have : inMonth y m (es ++ [e]) = inMonth y m es := by
        unfold inMonth
        rw [List.filter_append]
        have : ¬ (e.date.year = y ∧ e.date.month = m) := fun hc => hk (by rw [hc.1, hc.2])
        simp only [List.filter_cons, decide_eq_true_eq, if_neg this, List.filter_nil, List.append_nil]
      rw [this]
      exact H y m
  have hcomp : split ':' e.posting.accountPath = e.posting.components := rfl
  refine ⟨?_, ?_⟩
  · rintro ⟨h1, h2, h3⟩
    obtain ⟨a, ha⟩ := Option.ne_none_iff_exists'.1 h2
    unfold Budget.addPosting
    simp only [h1, ha, normalise_eq hd, hcomp, Bool.true_eq_false, if_false]
    cases ht : e.type with
    | income => exact ⟨_, rfl, hput _ (holds_income hm ha ht)⟩
    | envelope =>
      simp only
      by_cases hr : e.posting.accountPath = budgetRootID
      · rw [if_pos hr]
        exact ⟨_, rfl, hput _ (holds_root hm ha ht (by unfold Filed.category; rw [ht]; simp [hr]))⟩
      · rw [if_neg hr]
        obtain ⟨bm', e1, e2⟩ := holds_envelope hm ha ht (cs := e.posting.components)
          (by unfold Filed.category; rw [ht]; simp [hr]) e.posting.components_ne
        rw [e1]
        exact ⟨_, rfl, hput _ e2⟩
    | expense =>
      simp only
      have hc : e.category = some (e.posting.components.drop 1) := by unfold Filed.category; rw [ht]
      obtain ⟨bm', e1, e2⟩ := holds_expense hm ha ht hc (fun hn => h3 (by rw [hc, hn]))
      rw [e1]
      exact ⟨_, rfl, hput _ e2⟩
  · intro hn
    unfold Budget.addPosting
    by_cases h1 : e.posting.linked = true
    swap
    · simp [h1]
    · cases ha : e.posting.amount with
      | none => simp [h1]
      | some a =>
        have hc : e.category = some [] := by
          by_contra hc
          exact hn ⟨h1, by rw [ha]; simp, hc⟩
        have hty : e.type = .expense ∧ e.posting.components.drop 1 = [] := by
          unfold Filed.category at hc
          cases ht : e.type with
          | income => simp [ht] at hc
          | envelope =>
            by_cases hr : e.posting.accountPath = budgetRootID
            · simp [ht, hr] at hc
            · simp only [ht, hr, if_false, Option.some.injEq] at hc
              exact absurd hc e.posting.components_ne
          | expense =>
            simp only [ht, Option.some.injEq] at hc
            exact ⟨rfl, hc⟩
        simp only [h1, Bool.true_eq_false, if_false, hcomp, hty.1, hty.2]
        rfl

/-- The postings `es'` added to a budget holding `es`. -/
theorem budget_adds (es' : List Filed) : ∀ {b : Budget} {es : List Filed}, b.Holds es → (∀ e ∈ es', 1 ≤ e.date.day) →
    ((∀ e ∈ es', e.Fileable) → ∃ b', Budget.addEach es' b = some b' ∧ b'.Holds (es ++ es')) ∧
    ((∃ e ∈ es', ¬ e.Fileable) → Budget.addEach es' b = none) := by
  induction es' with
  | nil =>
    intro b es H _
    exact ⟨fun _ => ⟨b, rfl, by simpa using H⟩, fun ⟨e, he, _⟩ => by cases he⟩
  | cons e es' ih =>
    intro b es H hd
    obtain ⟨s1, s2⟩ := budget_step H e (hd e (by simp))
    refine ⟨fun hf => ?_, fun hf => ?_⟩
    · obtain ⟨b1, e1, H1⟩ := s1 (hf e (by simp))
      obtain ⟨b2, e2, H2⟩ := (ih H1 (fun x hx => hd x (by simp [hx]))).1 (fun x hx => hf x (by simp [hx]))
      exact ⟨b2, by rw [Budget.addEach, e1]; exact e2, by simpa using H2⟩
    · rw [Budget.addEach]
      by_cases he : e.Fileable
      · obtain ⟨b1, e1, H1⟩ := s1 he
        rw [e1]
        obtain ⟨x, hx, hxf⟩ := hf
        refine (ih H1 (fun x hx => hd x (by simp [hx]))).2 ⟨x, ?_, hxf⟩
        rcases List.mem_cons.1 hx with rfl | hx
        · exact absurd he hxf
        · exact hx
      · rw [s2 he]; rfl

theorem empty_holds : Budget.Holds [] [] := fun _ _ => rfl

/-- What a budget made from a list of postings holds. -/
theorem budget_holds {es : List Filed} (hd : ∀ e ∈ es, 1 ≤ e.date.day) {b : Budget} (h : Budget.addEach es [] = some b) :
    b.Holds es ∧ ∀ e ∈ es, e.Fileable := by
  have hf : ∀ e ∈ es, e.Fileable := by
    by_contra hc
    push Not at hc
    rw [(budget_adds es empty_holds hd).2 hc] at h
    cases h
  obtain ⟨b', e1, H⟩ := (budget_adds es empty_holds hd).1 hf
  rw [h] at e1
  cases e1
  exact ⟨by simpa using H, hf⟩

theorem month_holds {es : List Filed} (hd : ∀ e ∈ es, 1 ≤ e.date.day) {b : Budget} (h : Budget.addEach es [] = some b)
    {y : Int} {m : Nat} {bm : BudgetMonth} (hb : b.get ⟨y, m, 1⟩ = some bm) : bm.Holds (inMonth y m es) := by
  have := (budget_holds hd h).1 y m
  rw [hb] at this
  exact this.2

/-! ### The postings the command files -/

theorem addPostings_filed (date : Date) (ps : List Posting) : ∀ b, budgetAddPostings date ps b = Budget.addEach (ps.filterMap fun p =>
      if p.components.headD [] = expensesID then some ⟨date, p, .expense⟩
      else if p.components.headD [] = incomeID then some ⟨date, p, .income⟩
      else none) b := by
  induction ps with
  | nil => intro b; rfl
  | cons p ps ih =>
    intro b
    rw [budgetAddPostings, List.filterMap_cons]
    simp only [show split ':' p.accountPath = p.components from rfl]
    by_cases h1 : p.components.headD [] = expensesID
    · simp only [h1, if_true, Budget.addEach]
      congr 1; funext b'; exact ih b'
    · by_cases h2 : p.components.headD [] = incomeID
      · simp only [if_neg h1, if_pos h2, Budget.addEach]
        congr 1; funext b'; exact ih b'
      · simp only [if_neg h1, if_neg h2]
        exact ih b

theorem addEnvelopes_filed (date : Date) (ps : List Posting) : ∀ b, budgetAddEnvelopes date ps b =
    Budget.addEach (ps.map fun p => ⟨date, p, .envelope⟩) b := by
  induction ps with
  | nil => intro b; rfl
  | cons p ps ih =>
    intro b
    rw [budgetAddEnvelopes, List.map_cons, Budget.addEach]
    congr 1; funext b'; exact ih b'

theorem addEach_append (es es' : List Filed) : ∀ b, Budget.addEach (es ++ es') b = (Budget.addEach es b).bind (Budget.addEach es') := by
  induction es with
  | nil => intro b; rfl
  | cons e es ih =>
    intro b
    rw [List.cons_append, Budget.addEach, Budget.addEach, Option.bind_assoc]
    congr 1; funext b'; exact ih b'

/-- The handlers of the budget command file the postings of the calls. -/
theorem budget_replay (e : Env) (ho : ∀ l, (e.mapOrder l).Perm l) (calls : List Call) : ∀ (b b' : Budget),
    e.budgetHandlers.replay calls b = (b', none) → ∃ es, es.Perm (e.filed calls) ∧ Budget.addEach es b = some b' := by
  induction calls with
  | nil => intro b b' h; cases h; exact ⟨[], List.Perm.nil, rfl⟩
  | cons c calls ih =>
    intro b b' h
    rw [Handlers.replay] at h
    have step : ∀ b1, e.budgetHandlers.call b c = (b1, none) → ∃ es, es.Perm (e.filedOf c) ∧ Budget.addEach es b = some b1 := by
      intro b1 h1
      cases c with
      | normal t f =>
        simp only [Handlers.call, Env.budgetHandlers] at h1
        rw [Env.budgetHandler] at h1
        rcases hr : e.withinDateRange t with err | _ | _
        · simp only [Env.checkAgainstFilters, hr] at h1
          cases h1
        · rw [C44_out_of_range e t hr] at h1
          simp only [List.length_nil, and_self, if_true] at h1
          cases h1
          exact ⟨[], by simp [Env.filedOf, Env.selectedOf, hr], rfl⟩
        · obtain ⟨qs, k1, k2⟩ := C44_any_of e ho t hr
          rw [k1] at h1
          simp only at h1
          have hso : e.selectedOf (.normal t f) = selection e.filters t := by simp [Env.selectedOf, hr]
          split at h1
          · rename_i hc
            have h0 : qs = [] := by simpa using hc.2
            rw [h0] at k2
            cases h1
            refine ⟨[], ?_, rfl⟩
            rw [Env.filedOf, hso, List.nil_perm.1 k2]
            exact List.Perm.nil
          · rw [addPostings_filed] at h1
            rw [Env.filedOf, hso]
            refine ⟨_, k2.filterMap _, ?_⟩
            cases ha : Budget.addEach (qs.filterMap fun p =>
              if p.components.headD [] = expensesID then some ⟨t.date, p, .expense⟩
              else if p.components.headD [] = incomeID then some ⟨t.date, p, .income⟩
              else none) b with
            | none => rw [ha] at h1; cases h1
            | some b2 => rw [ha] at h1; cases h1; rfl
      | periodic pt f =>
        simp only [Handlers.call, Env.budgetHandlers] at h1
        rw [budgetPeriodicHandler, PeriodicTransaction.run] at h1
        rw [Env.filedOf]
        split
        · rename_i hi
          rw [if_pos hi] at h1
          simp only [addEnvelopes_filed] at h1
          refine ⟨_, List.Perm.refl _, ?_⟩
          cases ha : Budget.addEach (pt.transaction.postings.map fun p => ⟨pt.period.startDate, p, .envelope⟩) b with
          | none => rw [ha] at h1; cases h1
          | some b2 => rw [ha] at h1; cases h1; rfl
        · rename_i hi
          rw [if_neg hi] at h1
          cases h1
          exact ⟨[], List.Perm.nil, rfl⟩
    cases hr : e.budgetHandlers.call b c with
    | mk b1 o =>
      rw [hr] at h
      cases o with
      | some f => cases h
      | none =>
        obtain ⟨es1, p1, e1⟩ := step b1 hr
        obtain ⟨es2, p2, e2⟩ := ih b1 b' h
        refine ⟨es1 ++ es2, ?_, ?_⟩
        · unfold Env.filed; rw [List.flatMap_cons]; exact p1.append p2
        · rw [addEach_append, e1]; exact e2

theorem filed_days [Unicode] (e : Env) (fs : FileSystem) (maxOpen : Nat) (bytes : List UInt8) (path : Str) :
    ∀ x ∈ e.filed (delivered fs maxOpen bytes path), 1 ≤ x.date.day := by
  intro x hx
  unfold Env.filed at hx
  obtain ⟨c, hc, hx⟩ := List.mem_flatMap.1 hx
  rw [delivered_calls] at hc
  cases c with
  | normal t f =>
    have hs := (C65_delivered_sound fs recorder maxOpen bytes path [] t f hc).1.1.1
    rw [Env.filedOf] at hx
    obtain ⟨p, _, hp⟩ := List.mem_filterMap.1 hx
    split at hp
    · cases hp; exact hs
    · split at hp
      · cases hp; exact hs
      · cases hp
  | periodic pt f =>
    have hs := (C65_delivered_period fs recorder maxOpen bytes path [] pt f hc).1.1.1
    rw [Env.filedOf] at hx
    split at hx
    · obtain ⟨p, _, rfl⟩ := List.mem_map.1 hx
      exact hs
    · cases hx

/-- What the budget command collects from a journal: exactly the filed postings, in some order. -/
theorem budget_command [Unicode] (e : Env) (ho : ∀ l, (e.mapOrder l).Perm l) (fs : FileSystem) (maxOpen : Nat) (bytes : List UInt8) (path : Str)
    (b : Budget) (h : runParse fs maxOpen bytes path e.budgetHandlers [] = .ok b) :
    ∃ es, es.Perm (e.filed (delivered fs maxOpen bytes path)) ∧ Budget.addEach es [] = some b ∧ ∀ x ∈ es, 1 ≤ x.date.day := by
  obtain ⟨es, h1, h2⟩ := budget_replay e ho _ [] b (runParse_replay.1 h).2
  exact ⟨es, h1, h2, fun x hx => filed_days e fs maxOpen bytes path x (h1.mem_iff.1 hx)⟩

/-! ### C55 The report finds an expense line for every envelope -/

/-- In every month of a budget the envelopes and the expense categories have the same paths. -/
theorem C55_same_paths {es : List Filed} (hd : ∀ e ∈ es, 1 ≤ e.date.day) {b : Budget} (h : Budget.addEach es [] = some b)
    {year : Int} {month : Nat} {bm : BudgetMonth} (hb : b.get ⟨year, month, 1⟩ = some bm) (cs : List Str) :
    bm.envelope.Has cs ↔ bm.expense.Has cs := by
  have H := month_holds hd h hb
  rw [H.envelopes, H.expenses]

/-- The cells of a line of the report. -/
def rowOf (k : Str) (es : List Filed) : List Str :=
  [k, displayQuantity (- spent [k] es), displayQuantity (budgeted [k] es),
    categoryCommodity [k] es ++ displayQuantity (budgeted [k] es - spent [k] es)]


theorem child_has {h : Heap} {k : Str} : (∃ c, h.child 0 k = some c) ↔ h.Has [k] := by
  unfold Heap.Has Heap.at Heap.walk
  cases h.child 0 k with
  | none => simp
  | some c => simp [Heap.walk]

theorem child_amount {h : Heap} {k : Str} {c : Ref} (hc : h.child 0 k = some c) : h.amt [k] = (h.node c).amount := by
  unfold Heap.amt Heap.at
  simp [Heap.walk, hc]

/-- The row of a month that holds `es`. -/
theorem row_text {bm : BudgetMonth} {es : List Filed} (H : bm.Holds es) {k : Str} (hk : bm.envelope.Has [k]) :
    budgetRow bm k = some [k, displayQuantity (- spent [k] es), displayQuantity (budgeted [k] es),
      categoryCommodity [k] es ++ displayQuantity (budgeted [k] es - spent [k] es)] := by
  have hx : bm.expense.Has [k] := by rw [H.expenses, ← H.envelopes]; exact hk
  obtain ⟨er, he⟩ := child_has.2 hk
  obtain ⟨xr, hxr⟩ := child_has.2 hx
  have a1 := child_amount he
  have a2 := child_amount hxr
  rw [H.budgeted [k] (by simp)] at a1
  rw [H.spent [k] (by simp)] at a2
  unfold budgetRow
  rw [he, hxr]
  simp only [Option.bind_some, Option.map_some, ← a1, ← a2, Amount.display, Amount.add, Bool.false_eq_true, if_false, if_true, sub_eq_add_neg]

/-- The names of the rows. -/
theorem row_names {bm : BudgetMonth} {es : List Filed} (H : bm.Holds es) :
    (bm.envelope.sortedChildNames 0).Pairwise StrLt ∧
    ∀ k, k ∈ bm.envelope.sortedChildNames 0 ↔ ∃ e ∈ es, ∃ ds, e.category = some (k :: ds) := by
  have ht := H.full.1.toTree
  refine ⟨sortStrings_strict (ht.keys 0), fun k => ?_⟩
  rw [mem_sortedChildNames ht, child_has, H.envelopes]
  simp only [List.cons_ne_nil, false_or, Filed.Under, Option.mem_def]
  constructor
  · rintro ⟨e, he, ds, hds, rest, rfl⟩
    exact ⟨e, he, rest, by simpa using hds⟩
  · rintro ⟨e, he, ds, hds⟩
    exact ⟨e, he, _, hds, ⟨ds, rfl⟩⟩

theorem names_have {bm : BudgetMonth} {es : List Filed} (H : bm.Holds es) {k : Str} (hk : k ∈ bm.envelope.sortedChildNames 0) :
    bm.envelope.Has [k] := child_has.1 ((mem_sortedChildNames H.full.1.toTree).1 hk)

/-- The report of a month has one row per top-level category of the month's budget and expense postings, in ascending order of
the names, and none is missing. -/
theorem C55_report_complete {es : List Filed} (hd : ∀ e ∈ es, 1 ≤ e.date.day) {b : Budget} (h : Budget.addEach es [] = some b)
    {year : Int} {month : Nat} {bm : BudgetMonth} (hb : b.get ⟨year, month, 1⟩ = some bm) :
    none ∉ budgetRows bm ∧
    ∃ names : List Str, names.Pairwise StrLt ∧ (budgetRows bm).map (fun r => (r.getD []).head?) = names.map some ∧
      ∀ k, k ∈ names ↔ ∃ e ∈ inMonth year month es, ∃ ds, e.category = some (k :: ds) := by
  have H := month_holds hd h hb
  refine ⟨?_, bm.envelope.sortedChildNames 0, (row_names H).1, ?_, (row_names H).2⟩
  · unfold budgetRows
    rw [List.mem_map]
    rintro ⟨k, hk, hn⟩
    rw [row_text H (names_have H hk)] at hn
    cases hn
  · unfold budgetRows
    rw [List.map_map]
    refine List.map_congr_left fun k hk => ?_
    simp only [Function.comp_apply]
    rw [row_text H (names_have H hk)]
    rfl

/-! ### C56 Budget amounts are the month's sums -/

/-- The amounts of a month that is in the budget, and which months are. -/
theorem C56_month_sums {es : List Filed} (hd : ∀ e ∈ es, 1 ≤ e.date.day) {b : Budget} (h : Budget.addEach es [] = some b)
    (year : Int) (month : Nat) :
    (b.get ⟨year, month, 1⟩ = none ↔ inMonth year month es = []) ∧
    ∀ bm, b.get ⟨year, month, 1⟩ = some bm →
      (∀ cs, cs ≠ [] → (bm.envelope.amt cs).quantity = budgeted cs (inMonth year month es)) ∧
      (∀ cs, cs ≠ [] → (bm.expense.amt cs).quantity = - spent cs (inMonth year month es)) ∧
      bm.income.quantity = earned (inMonth year month es) ∧
      ∀ cs, bm.envelope.own cs = filedTo .envelope cs (inMonth year month es) ∧ bm.expense.own cs = filedTo .expense cs (inMonth year month es) := by
  have := (budget_holds hd h).1 year month
  refine ⟨?_, fun bm hb => ?_⟩
  · cases hb : b.get ⟨year, month, 1⟩ with
    | none => rw [hb] at this; simpa using this
    | some bm => rw [hb] at this; simpa using this.1
  · have H := month_holds hd h hb
    exact ⟨fun cs hc => by rw [H.budgeted cs hc], fun cs hc => by rw [H.spent cs hc], H.income, fun cs => ⟨H.envelopePostings cs, H.expensePostings cs⟩⟩

/-- A posting changes no month but its own. -/
theorem C56_other_months (b b' : Budget) (date : Date) (hd : 1 ≤ date.day) (p : Posting) (pt : PostingType) (h : b.addPosting date p pt = some b')
    (year : Int) (month : Nat) (hm : ¬ (date.year = year ∧ date.month = month)) : b'.get ⟨year, month, 1⟩ = b.get ⟨year, month, 1⟩ := by
  have hk : (⟨date.year, date.month, 1⟩ : Date) ≠ ⟨year, month, 1⟩ := fun hc => hm (by simpa using hc)
  have key : ∀ bm, (b.put ⟨date.year, date.month, 1⟩ bm).get ⟨year, month, 1⟩ = b.get ⟨year, month, 1⟩ := by
    intro bm
    rw [Budget.get_put_month, if_neg hk]
  unfold Budget.addPosting at h
  rw [normalise_eq hd] at h
  split at h
  · cases h
  · simp only at h
    cases ha : p.amount with
    | none => rw [ha] at h; cases h
    | some a =>
      rw [ha] at h
      simp only at h
      cases pt with
      | income => cases h; exact key _
      | envelope =>
        simp only at h
        split at h
        · cases h; exact key _
        · obtain ⟨bm, _, rfl⟩ := Option.map_eq_some_iff.1 h
          exact key bm
      | expense =>
        obtain ⟨bm, _, rfl⟩ := Option.map_eq_some_iff.1 h
        exact key bm

/-- Adding postings crashes if and only if one of them has no amount, belongs to no transaction or is spending without a
category. -/
theorem C56_crashes {es : List Filed} (hd : ∀ e ∈ es, 1 ≤ e.date.day) : Budget.addEach es [] = none ↔ ∃ e ∈ es, ¬ e.Fileable := by
  constructor
  · intro h
    by_contra hc
    push Not at hc
    obtain ⟨b, hb, _⟩ := (budget_adds es empty_holds hd).1 hc
    rw [h] at hb
    cases hb
  · exact (budget_adds es empty_holds hd).2

theorem worth_perm {es es' : List Filed} (h : es.Perm es') : worth es = worth es' := by
  unfold worth
  exact (h.map _).sum_eq

/-- The budget command's months hold the sums over the postings that the flags and filters select. -/
theorem C56_command [Unicode] (e : Env) (ho : ∀ l, (e.mapOrder l).Perm l) (fs : FileSystem) (maxOpen : Nat) (bytes : List UInt8) (path : Str)
    (b : Budget) (h : runParse fs maxOpen bytes path e.budgetHandlers [] = .ok b) (year : Int) (month : Nat) :
    let es := inMonth year month (e.filed (delivered fs maxOpen bytes path))
    (b.get ⟨year, month, 1⟩ = none ↔ es = []) ∧
    ∀ bm, b.get ⟨year, month, 1⟩ = some bm →
      (∀ cs, cs ≠ [] → (bm.envelope.amt cs).quantity = budgeted cs es) ∧
      (∀ cs, cs ≠ [] → (bm.expense.amt cs).quantity = - spent cs es) ∧
      bm.income.quantity = earned es := by
  intro es
  obtain ⟨xs, p1, a1, d1⟩ := budget_command e ho fs maxOpen bytes path b h
  have hp : (inMonth year month xs).Perm es := p1.filter _
  obtain ⟨k1, k2⟩ := C56_month_sums d1 a1 year month
  refine ⟨?_, fun bm hb => ?_⟩
  · rw [k1]
    constructor
    · intro h0; rw [h0] at hp; exact List.nil_perm.1 hp
    · intro h0; rw [h0] at hp; exact List.perm_nil.1 hp
  · obtain ⟨q1, q2, q3, _⟩ := k2 bm hb
    refine ⟨fun cs hc => ?_, fun cs hc => ?_, ?_⟩
    · rw [q1 cs hc]; exact worth_perm (hp.filter _)
    · rw [q2 cs hc]; unfold spent; rw [worth_perm (hp.filter _)]
    · rw [q3]; unfold earned; rw [worth_perm (hp.filter _)]

/-! ### C57 Budgeting moves funds, it does not create them -/

/-- If the month's budget postings sum to zero then the pool of unassigned funds is the month's income. -/
theorem C57_pool {es : List Filed} (hd : ∀ e ∈ es, 1 ≤ e.date.day) {b : Budget} (h : Budget.addEach es [] = some b)
    {year : Int} {month : Nat} {bm : BudgetMonth} (hb : b.get ⟨year, month, 1⟩ = some bm)
    (hz : worth ((inMonth year month es).filter fun e => e.type = .envelope) = 0) :
    (bm.envelope.amt []).quantity = bm.income.quantity := by
  have H := month_holds hd h hb
  rw [H.unassigned, H.income, hz, add_zero]

theorem worth_append (a b : List Filed) : worth (a ++ b) = worth a + worth b := by
  unfold worth; simp

theorem budget_calls_zero (e : Env) (year : Int) (month : Nat) (calls : List Call) (hb : ∀ c ∈ calls, c.transaction.Balanced) :
    worth ((inMonth year month (e.filed calls)).filter fun x => x.type = .envelope) = 0 := by
  induction calls with
  | nil => rfl
  | cons c calls ih =>
    have : e.filed (c :: calls) = e.filedOf c ++ e.filed calls := by simp [Env.filed]
    rw [this]
    unfold inMonth at ih ⊢
    rw [List.filter_append, List.filter_append, worth_append, ih (fun c hc => hb c (by simp [hc])), add_zero]
    cases c with
    | normal t f =>
      have : ((e.filedOf (.normal t f)).filter fun e => e.date.year = year ∧ e.date.month = month).filter (fun x => x.type = .envelope) = [] := by
        rw [List.filter_eq_nil_iff]
        intro x hx
        have hx := List.mem_of_mem_filter hx
        rw [Env.filedOf] at hx
        obtain ⟨p, _, hp⟩ := List.mem_filterMap.1 hx
        split at hp
        · cases hp; simp
        · split at hp
          · cases hp; simp
          · cases hp
      rw [this]
      rfl
    | periodic pt f =>
      rw [Env.filedOf]
      split
      · have hbal := hb (.periodic pt f) (by simp)
        by_cases hm : pt.period.startDate.year = year ∧ pt.period.startDate.month = month
        · rw [List.filter_eq_self.2, List.filter_eq_self.2]
          · unfold worth
            rw [List.map_map]
            exact hbal
          · intro x hx
            obtain ⟨p, _, rfl⟩ := List.mem_map.1 hx
            simpa using hm
          · intro x hx
            obtain ⟨p, _, rfl⟩ := List.mem_map.1 (List.mem_of_mem_filter hx)
            simp
        · rw [List.filter_eq_nil_iff.2]
          · rfl
          · intro x hx
            obtain ⟨p, _, rfl⟩ := List.mem_map.1 (List.mem_of_mem_filter hx)
            have := List.of_mem_filter hx
            simp only [decide_eq_true_eq] at this
            exact absurd this hm
      · rfl

/-- In every month of the budget command, what is left in the pool is exactly the month's income. -/
theorem C57_command [Unicode] (e : Env) (ho : ∀ l, (e.mapOrder l).Perm l) (fs : FileSystem) (maxOpen : Nat) (bytes : List UInt8) (path : Str)
    (b : Budget) (h : runParse fs maxOpen bytes path e.budgetHandlers [] = .ok b) (year : Int) (month : Nat) (bm : BudgetMonth)
    (hb : b.get ⟨year, month, 1⟩ = some bm) :
    (bm.envelope.amt []).quantity = bm.income.quantity ∧
      bm.income.quantity = earned (inMonth year month (e.filed (delivered fs maxOpen bytes path))) := by
  obtain ⟨xs, p1, a1, d1⟩ := budget_command e ho fs maxOpen bytes path b h
  refine ⟨C57_pool d1 a1 hb ?_, ((C56_command e ho fs maxOpen bytes path b h year month).2 bm hb).2.2⟩
  rw [worth_perm ((show (inMonth year month xs).Perm (inMonth year month (e.filed (delivered fs maxOpen bytes path))) from p1.filter _).filter _)]
  refine budget_calls_zero e year month _ ?_
  rw [delivered_calls]
  exact C01_delivered_balance fs recorder maxOpen bytes path []

/-! ### C58 The columns of the report -/

theorem some_getD {α : Type} {o : Option α} {d : α} (h : o.isSome = true) : o = some (o.getD d) := by
  cases o with
  | none => cases h
  | some a => rfl

/-- 10.00 and 5.00 budgeted for food and the rent, 3.00 spent on food, 20.00 earned. -/
def sampleFiled : List Filed :=
  [⟨⟨2020, 1, 1⟩, { linked := true, accountPath := str "Food", amount := some ⟨str "£", 1000⟩ }, .envelope⟩,
    ⟨⟨2020, 1, 1⟩, { linked := true, accountPath := str "Rent:Flat", amount := some ⟨str "£", 500⟩ }, .envelope⟩,
    ⟨⟨2020, 1, 1⟩, { linked := true, accountPath := budgetRootID, amount := some ⟨str "£", -1500⟩ }, .envelope⟩,
    ⟨⟨2020, 1, 20⟩, { linked := true, accountPath := str "Expenses:Food:Apples", amount := some ⟨str "£", 300⟩ }, .expense⟩,
    ⟨⟨2020, 1, 31⟩, { linked := true, accountPath := str "Income:Job", amount := some ⟨str "£", -2000⟩ }, .income⟩]

/-- The hypotheses of the theorems on budgets hold for it; its month, the rows of the report and the pool. -/
example :
    (∀ e ∈ sampleFiled, 1 ≤ e.date.day) ∧
    ((Budget.addEach sampleFiled []).bind fun b => (b.get ⟨2020, 1, 1⟩).map budgetRows) =
      some [some [str "Food", str "-3.00", str "10.00", str "£7.00"], some [str "Rent", str "0.00", str "5.00", str "5.00"]] ∧
    ((Budget.addEach sampleFiled []).bind fun b => (b.get ⟨2020, 1, 1⟩).map fun bm => (bm.envelope.amt [], bm.income)) =
      some (⟨str "£", 2000⟩, ⟨str "£", 2000⟩) := by
  decide

/-- The headings do not say what the columns show: with 10.00 budgeted for food and 3.00 spent, the column headed Budgeted shows
-3.00. -/
theorem C58_columns_false :
    ¬ ∀ (es : List Filed) (b : Budget) (bm : BudgetMonth), Budget.addEach es [] = some b → b.get ⟨2020, 1, 1⟩ = some bm →
      ∀ row ∈ budgetRows bm, ∀ cells ∈ row, ∀ k ∈ (budgetHeadings.zip cells).lookup (str "Category"),
        (budgetHeadings.zip cells).lookup (str "Budgeted") = some (displayQuantity (budgeted [k] (inMonth 2020 1 es))) := by
  intro h
  have := h sampleFiled _ _ (some_getD (d := []) (by decide)) (some_getD (d := newBudgetMonth) (by decide))
  revert this
  decide

/-- What holds: each row shows the name, minus what was spent under the heading Budgeted, what was budgeted under the heading
Activity, and the difference as Available. Missing: the two columns should be the other way round. -/
theorem C58_columns_partial {es : List Filed} (hd : ∀ e ∈ es, 1 ≤ e.date.day) {b : Budget} (h : Budget.addEach es [] = some b)
    {year : Int} {month : Nat} {bm : BudgetMonth} (hb : b.get ⟨year, month, 1⟩ = some bm) :
    ∀ row ∈ budgetRows bm, ∃ k, ∃ cells ∈ row, cells.head? = some k ∧
      budgetHeadings.zip cells =
        [(str "Category", k), (str "Budgeted", displayQuantity (- spent [k] (inMonth year month es))),
          (str "Activity", displayQuantity (budgeted [k] (inMonth year month es))),
          (str "Available", categoryCommodity [k] (inMonth year month es) ++
            displayQuantity (budgeted [k] (inMonth year month es) - spent [k] (inMonth year month es)))] := by
  have H := month_holds hd h hb
  intro row hr
  unfold budgetRows at hr
  obtain ⟨k, hk, rfl⟩ := List.mem_map.1 hr
  refine ⟨k, _, row_text H (names_have H hk), rfl, rfl⟩

/-! ### C67 The budget report -/

theorem put_keys (b : Budget) (k : Date) (bm : BudgetMonth) :
    (b.put k bm).map (·.1) = if k ∈ b.map (·.1) then b.map (·.1) else b.map (·.1) ++ [k] := by
  induction b with
  | nil => rfl
  | cons x xs ih =>
    obtain ⟨k1, m1⟩ := x
    unfold Budget.put
    by_cases h1 : k1 = k
    · subst h1; simp
    · rw [if_neg h1, List.map_cons, ih]
      have hk : k ≠ k1 := fun h => h1 h.symm
      by_cases h2 : k ∈ xs.map (·.1)
      · rw [if_pos h2, if_pos (by simpa [hk] using h2), List.map_cons]
      · rw [if_neg h2, if_neg (by simpa [hk] using h2), List.map_cons]; rfl

/-- The months of a budget are the first days of months, each once. -/
def Budget.Monthly (b : Budget) : Prop := (b.map (·.1)).Nodup ∧ ∀ k ∈ b.map (·.1), k.day = 1

theorem put_monthly {b : Budget} (h : b.Monthly) (y : Int) (m : Nat) (bm : BudgetMonth) : (b.put ⟨y, m, 1⟩ bm).Monthly := by
  obtain ⟨h1, h2⟩ := h
  unfold Budget.Monthly
  rw [put_keys]
  split
  · exact ⟨h1, h2⟩
  · rename_i hn
    refine ⟨?_, ?_⟩
    · rw [List.nodup_append]
      exact ⟨h1, by simp, fun a ha b hb => by rw [List.mem_singleton] at hb; subst hb; exact fun hc => hn (hc ▸ ha)⟩
    · intro k hk
      rcases List.mem_append.1 hk with hk | hk
      · exact h2 k hk
      · rw [List.mem_singleton] at hk; subst hk; rfl

theorem addPosting_monthly {b b' : Budget} (hb : b.Monthly) {date : Date} (hd : 1 ≤ date.day) {p : Posting} {pt : PostingType}
    (h : b.addPosting date p pt = some b') : b'.Monthly := by
  unfold Budget.addPosting at h
  rw [normalise_eq hd] at h
  split at h
  · cases h
  · simp only at h
    cases ha : p.amount with
    | none => rw [ha] at h; cases h
    | some a =>
      rw [ha] at h
      simp only at h
      cases pt with
      | income => cases h; exact put_monthly hb _ _ _
      | envelope =>
        simp only at h
        split at h
        · cases h; exact put_monthly hb _ _ _
        · obtain ⟨bm, _, rfl⟩ := Option.map_eq_some_iff.1 h
          exact put_monthly hb _ _ _
      | expense =>
        obtain ⟨bm, _, rfl⟩ := Option.map_eq_some_iff.1 h
        exact put_monthly hb _ _ _

theorem addEach_monthly (es : List Filed) : ∀ {b b' : Budget}, b.Monthly → (∀ e ∈ es, 1 ≤ e.date.day) → Budget.addEach es b = some b' → b'.Monthly := by
  induction es with
  | nil => intro b b' hb _ h; cases h; exact hb
  | cons e es ih =>
    intro b b' hb hd h
    rw [Budget.addEach] at h
    obtain ⟨b1, h1, h2⟩ := Option.bind_eq_some_iff.1 h
    exact ih (addPosting_monthly hb (hd e (by simp)) h1) (fun x hx => hd x (by simp [hx])) h2

theorem mem_months {b : Budget} {k : Date} : k ∈ b.map (·.1) ↔ b.get k ≠ none := by
  unfold Budget.get
  rw [ne_eq, Option.map_eq_none_iff, List.find?_eq_none, List.mem_map]
  push Not
  constructor
  · rintro ⟨x, hx, rfl⟩; exact ⟨x, hx, by simp⟩
  · rintro ⟨x, hx, h⟩; exact ⟨x, hx, by simpa using h⟩

/-- A month that holds `es` has the same commodity in both accounts of a line, so printing the line prints no warning. -/
theorem row_silent {bm : BudgetMonth} {es : List Filed} (H : bm.Holds es) {k : Str} (hk : bm.envelope.Has [k]) : budgetRowOut bm k = [] := by
  have hx : bm.expense.Has [k] := by rw [H.expenses, ← H.envelopes]; exact hk
  obtain ⟨er, he⟩ := child_has.2 hk
  obtain ⟨xr, hxr⟩ := child_has.2 hx
  have a1 := child_amount he
  have a2 := child_amount hxr
  rw [H.budgeted [k] (by simp)] at a1
  rw [H.spent [k] (by simp)] at a2
  unfold budgetRowOut
  rw [he, hxr]
  simp [← a1, ← a2, Amount.addOut]

/-- The lines of a month that holds `es`. -/
theorem lines_text {bm : BudgetMonth} {es : List Filed} (H : bm.Holds es) (names : List Str) (hn : ∀ k ∈ names, bm.envelope.Has [k]) :
    budgetLines bm names = ((names.flatMap fun k => budgetLine (rowOf k es)) ++ str "\n", true) := by
  induction names with
  | nil => rfl
  | cons k ks ih =>
    rw [budgetLines, row_text H (hn k (by simp)), row_silent H (hn k (by simp))]
    simp only [List.nil_append, ih (fun x hx => hn x (by simp [hx])), List.flatMap_cons, List.append_assoc]
    rfl

/-- What `sort.Slice` with the comparison of the budget report has to do. -/
def SortsMonths (sort : List Date → List Date) : Prop := ∀ ms, (sort ms).Perm ms ∧ (sort ms).Pairwise fun a b => ¬ b.before a

theorem budgetHeader_eq (m : Date) (a : Amount) : budgetHeader m a = summary m a := by
  unfold budgetHeader summary monthLine
  rw [show fundsLine (str "Overspent in 2020-??") (str "£??.??") = str "          Overspent in 2020-?? |               £??.??\n" by decide,
    show fundsLine (str "Budgeted") (str "£??.??") = str "                      Budgeted |               £??.??\n" by decide,
    show fundsLine (str "Budgeted in the future") (str "£??.??") = str "        Budgeted in the future |               £??.??\n" by decide,
    show fundsLine (str "To be budgeted") (str "£??.??") = str "                To be budgeted |               £??.??\n" by decide,
    show fundsLine (str "Funds") (a.display true) = summaryLine (str "Funds") (a.commodity ++ displayQuantity a.quantity) from rfl]
  have e1 : List.replicate 53 '-' ++ str "\n" = str "-----------------------------------------------------\n" := by decide
  have e2 : padRight 30 (budgetHeadings.headD []) ++ ((budgetHeadings.drop 1).flatMap fun c => str " | " ++ padRight 20 c) ++ str " |\n" =
    str "Category                       | Budgeted             | Activity             | Available            |\n" := by decide
  have e3 : List.replicate 50 '-' ++ List.replicate 51 '-' ++ str "\n" =
    str "-----------------------------------------------------------------------------------------------------\n" := by decide
  rw [← e1, ← e2, ← e3]
  simp only [List.append_assoc]

theorem budgetLine_eq (k : Str) (es : List Filed) : budgetLine (rowOf k es) = categoryLine k es := rfl

/-- What is reported about a budget into which these postings have been put. -/
theorem budget_report {es : List Filed} {b : Budget} (d1 : ∀ x ∈ es, 1 ≤ x.date.day) (a1 : Budget.addEach es [] = some b) {sort : List Date → List Date}
    (hs : SortsMonths sort) : BudgetReport es (budgetMonths b (sort (b.map (·.1)))) := by
  obtain ⟨m1, m2⟩ := addEach_monthly es (b := []) ⟨by simp, by simp⟩ d1 a1
  obtain ⟨s1, s2⟩ := hs (b.map (·.1))
  have hget : ∀ m ∈ sort (b.map (·.1)), ∃ bm, b.get m = some bm ∧ bm.Holds (inMonth m.year m.month es) := by
    intro m hm
    have hm := s1.mem_iff.1 hm
    obtain ⟨bm, hbm⟩ := Option.ne_none_iff_exists'.1 (mem_months.1 hm)
    have hd := m2 m hm
    have : m = ⟨m.year, m.month, 1⟩ := by cases m; simp at hd; simp [hd]
    exact ⟨bm, hbm, month_holds d1 a1 (by rw [← this]; exact hbm)⟩
  refine ⟨sort (b.map (·.1)), fun m => ((b.get m).getD newBudgetMonth).envelope.sortedChildNames 0, s1.nodup_iff.2 m1, ?_, ?_, ?_, ?_⟩
  · refine s2.imp ?_
    intro x y hxy
    unfold Date.before at hxy
    simpa using hxy
  · intro m
    rw [s1.mem_iff]
    constructor
    · intro hm
      have hd := m2 m hm
      have : m = ⟨m.year, m.month, 1⟩ := by cases m; simp at hd; simp [hd]
      refine ⟨hd, fun h0 => mem_months.1 hm ?_⟩
      rw [this]
      exact (C56_month_sums d1 a1 m.year m.month).1.2 h0
    · rintro ⟨hd, hne⟩
      have : m = ⟨m.year, m.month, 1⟩ := by cases m; simp at hd; simp [hd]
      rw [mem_months, this]
      intro h0
      exact hne ((C56_month_sums d1 a1 m.year m.month).1.1 h0)
  · intro m hm
    obtain ⟨bm, hb, H⟩ := hget m hm
    simp only [hb, Option.getD_some]
    exact row_names H
  · show budgetMonths b (sort (b.map (·.1))) = _
    revert hget
    generalize sort (b.map (·.1)) = ms
    intro hget
    induction ms with
    | nil => rfl
    | cons m ms ih =>
      obtain ⟨bm, hb, H⟩ := hget m (by simp)
      rw [budgetMonths, List.flatMap_cons]
      simp only [hb, Option.getD_some, lines_text H _ (fun k hk => names_have H hk), if_true, budgetHeader_eq, budgetLine_eq]
      rw [ih (fun x hx => hget x (by simp [hx]))]
      rw [show bm.income = incomeOf (inMonth m.year m.month es) from amount_mk H.incomeCommodity H.income]
      simp

/-- The budget command prints, in calendar order, each month that has filed postings: the month's income, and one line for each
top-level category, in ascending order, with the month's sums. It never stops before the end. -/
theorem C67_budget_report [Unicode] (e : Env) (ho : ∀ l, (e.mapOrder l).Perm l) (sort : List Date → List Date) (hs : SortsMonths sort)
    (fs : FileSystem) (maxOpen : Nat) (bytes : List UInt8) (path text : Str) (h : budgetCmd e sort fs maxOpen bytes path = .ok text) :
    ∃ es : List Filed, es.Perm (e.filed (delivered fs maxOpen bytes path)) ∧ BudgetReport es text := by
  unfold budgetCmd at h
  cases hj : runParse fs maxOpen bytes path e.budgetHandlers [] with
  | error f => rw [hj] at h; cases h
  | ok b =>
    rw [hj] at h
    cases h
    obtain ⟨es, p1, a1, d1⟩ := budget_command e ho fs maxOpen bytes path b hj
    exact ⟨es, p1, budget_report d1 a1 hs⟩

/-- A journal with a month of income and allocations after a month of spending, and the end of its report. -/
example :
    letI := asciiUnicode
    let sort : List Date → List Date := fun ms => ms.insertionSort fun a b => !b.before a
    let text := utf8 "2020-02-01 pay\n  Assets:Bank  £50\n  Income:Job\n2020-01-03 shop\n  Expenses:Food:Out  £2.50\n  Assets:Bank\n~ 2020-02\n  Food  £10\n  Food:Out  £5\n  Rent  £7\n"
    ∃ out, budgetCmd {} sort (fun _ => none) 1 text (str "j") = .ok out ∧
      str "2020-01-01" <+: out ∧
      str "Food                           |                 0.00 |                15.00 |               £15.00 |\nRent                           |                 0.00 |                 7.00 |                £7.00 |\n\n" <:+ out := by
  refine ⟨_, rfl, ?_⟩
  decide +kernel

/-! ### C68 The commodity in the report -/

/-- The report can omit the commodity although every amount of the month has one: the line of the rent. -/
theorem C68_commodity_false :
    ¬ ∀ (es : List Filed) (b : Budget) (bm : BudgetMonth) (c : Str), Budget.addEach es [] = some b → b.get ⟨2020, 1, 1⟩ = some bm →
      (∀ e ∈ es, ∀ a ∈ e.posting.amount, a.commodity = c) →
      ∀ row ∈ budgetRows bm, ∀ cells ∈ row, ∀ x ∈ (budgetHeadings.zip cells).lookup (str "Available"), c <+: x := by
  intro h
  have := h sampleFiled _ _ (str "£") (some_getD (d := []) (by decide)) (some_getD (d := newBudgetMonth) (by decide)) (by decide)
  revert this
  decide

/-- What holds: the commodity shown is that of the last posting of the month to the top-level category itself, budgeted or
spent, and none if there is no such posting. Missing: postings to subcategories should count. -/
theorem C68_commodity_partial {es : List Filed} (hd : ∀ e ∈ es, 1 ≤ e.date.day) {b : Budget} (h : Budget.addEach es [] = some b)
    {year : Int} {month : Nat} {bm : BudgetMonth} (hb : b.get ⟨year, month, 1⟩ = some bm) (k : Str)
    (hk : ∃ e ∈ inMonth year month es, ∃ ds, e.category = some (k :: ds)) :
    ∃ cells, some cells ∈ budgetRows bm ∧ cells.head? = some k ∧
      ((∀ e ∈ inMonth year month es, e.category ≠ some [k]) →
        cells.getLast? = some (displayQuantity (budgeted [k] (inMonth year month es) - spent [k] (inMonth year month es)))) ∧
      ∀ pre x post, inMonth year month es = pre ++ x :: post → x.category = some [k] → (∀ e ∈ post, e.category ≠ some [k]) →
        ∀ a ∈ x.posting.amount,
          cells.getLast? = some (a.commodity ++ displayQuantity (budgeted [k] (inMonth year month es) - spent [k] (inMonth year month es))) := by
  have H := month_holds hd h hb
  have hm := (row_names H).2 k |>.2 hk
  refine ⟨_, List.mem_map.2 ⟨k, hm, row_text H (names_have H hm)⟩, rfl, ?_, ?_⟩
  · intro hn
    have : categoryCommodity [k] (inMonth year month es) = [] := by
      unfold categoryCommodity
      rw [List.filter_eq_nil_iff.2 (fun e he => by simpa using hn e he)]
      rfl
    rw [this]; rfl
  · intro pre x post he hx hp a ha
    have : categoryCommodity [k] (inMonth year month es) = a.commodity := by
      have hf : post.filter (fun e => decide (e.category = some [k])) = [] := List.filter_eq_nil_iff.2 (fun e he => by simpa using hp e he)
      unfold categoryCommodity
      rw [he, List.filter_append, List.filter_cons, if_pos (by simpa using hx), hf]
      rw [List.getLast?_append]
      rw [Option.mem_def] at ha
      simp [ha]
    rw [this]; rfl

end Gledger
