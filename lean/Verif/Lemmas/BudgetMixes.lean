import Verif.Lemmas.Mixes
import Mathlib.Data.List.TakeWhile

/-! What filing postings in a budget prints. -/

namespace Gledger

variable {h h' : Heap}

/-- The commodities of the roots of a month that holds `es`. -/
structure BudgetMonth.Roots (bm : BudgetMonth) (es : List Filed) : Prop where
  pool : (bm.envelope.amt []).commodity = poolCommodity es
  spending : (bm.expense.amt []).commodity = spendingCommodity es

theorem newBudgetMonth_roots : newBudgetMonth.Roots [] := ⟨rfl, rfl⟩

theorem poolCommodity_snoc (es : List Filed) {e : Filed} {a : Amount} (ha : e.posting.amount = some a) (h : e.type = .income ∨ e.category ≠ none) :
    poolCommodity (es ++ [e]) = if poolCommodity es = [] then a.commodity else poolCommodity es := by
  unfold poolCommodity
  rw [List.filter_append, List.map_append]
  simp only [List.filter_cons, List.filter_nil, h, decide_true, if_true, List.map_cons, List.map_nil]
  exact firstCommodity_snoc _ ha

theorem spendingCommodity_snoc (es : List Filed) {e : Filed} {a : Amount} (ha : e.posting.amount = some a) (h : e.category ≠ none) :
    spendingCommodity (es ++ [e]) = if spendingCommodity es = [] then a.commodity else spendingCommodity es := by
  unfold spendingCommodity
  rw [List.filter_append, List.map_append]
  have : decide (e.category ≠ none) = true := by simpa using h
  simp only [List.filter_cons, List.filter_nil, this, if_true, List.map_cons, List.map_nil]
  exact firstCommodity_snoc _ ha

theorem incomeCommodity_snoc (es : List Filed) {e : Filed} {a : Amount} (ha : e.posting.amount = some a) (h : e.type = .income) :
    incomeCommodity (es ++ [e]) = if incomeCommodity es = [] then a.commodity else incomeCommodity es := by
  unfold incomeCommodity
  rw [List.filter_append, List.map_append]
  simp only [List.filter_cons, List.filter_nil, h, decide_true, if_true, List.map_cons, List.map_nil]
  exact firstCommodity_snoc _ ha

/-- Walking up from an opened account. -/
theorem Opened.walkOut {cs : List Str} {c : Str} {x : Ref} (o : Opened h cs c h') (hx : h'.at cs = some x) (hcs : cs ≠ [])
    (verb : Str) (out : Amount → Str) (hout : ∀ a : Amount, out a = mixLine verb a.commodity c) :
    h'.walkOut x out = ((pathsUp cs).drop 1).flatMap fun ds =>
      mixLine verb (if ds = [] then (if (h.amt []).commodity = [] then c else (h.amt []).commodity) else (h.amt ds).commodity) c := by
  rw [walkOut_spec o.full.toTree hx]
  rcases List.eq_nil_or_concat' cs with rfl | ⟨bs, b, rfl⟩
  · exact absurd rfl hcs
  · rw [pathsUp_concat, List.flatMap_cons, List.drop_one, List.tail_cons]
    have h0 : out (h'.amt (bs ++ [b])) = [] := by
      rw [hout, o.com _ hcs, if_pos rfl]
      simp [mixLine]
    rw [h0, List.nil_append]
    refine flatMap_congr_mem fun ds hd => ?_
    rw [mem_pathsUp] at hd
    rw [hout]
    by_cases hn : ds = []
    · subst hn
      rw [if_pos rfl, o.root]
    · rw [if_neg hn, o.com ds hn, if_neg]
      rintro rfl
      have := hd.length_le
      simp at this

section step

variable {bm : BudgetMonth} {es : List Filed} {e : Filed} {a : Amount} {cs : List Str}

theorem out_envelope (H : bm.Holds es) (R : bm.Roots es) (ha : e.posting.amount = some a) (ht : e.type = .envelope)
    (hc : e.category = some cs) (hcs : cs ≠ []) :
    bm.addToOut .envelope cs a = budgetMix es e ∧ ∀ bm', bm.addTo .envelope cs e.posting a = some bm' → bm'.Roots (es ++ [e]) := by
  obtain ⟨y, h1, x, h2, e1, e2, w, o⟩ := opened_twice H.full.1 hcs a.commodity
  obtain ⟨z, h3, e3, w3, o3⟩ := opened H.full.2 hcs a.commodity
  have hcn : e.category ≠ none := by rw [hc]; simp
  refine ⟨?_, ?_⟩
  · unfold BudgetMonth.addToOut
    simp only [e1, Option.map_some, Option.bind_some, e2, e3, Option.getD_some]
    rw [o.walkOut w hcs (str "addition") _ (fun b => addOut_eq b a)]
    unfold budgetMix
    rw [ha, ht, hc]
    simp only
    rw [poolCommodity_snoc es ha (Or.inr hcn), ← R.pool]
    refine flatMap_congr_mem fun ds _ => ?_
    by_cases hn : ds = []
    · rw [if_pos hn, if_pos hn]
    · rw [if_neg hn, if_neg hn, H.budgeted ds hn]
  · intro bm' hb
    obtain ⟨bm2, f1, _, _, o4, _, _, _, _, _, r⟩ := addTo_envelope H.full.1 H.full.2 hcs e.posting a
    rw [hb] at f1
    cases f1
    refine ⟨?_, ?_⟩
    · rw [r, poolCommodity_snoc es ha (Or.inr hcn), R.pool]
    · rw [o4.root, spendingCommodity_snoc es ha hcn, R.spending]

theorem out_expense (H : bm.Holds es) (R : bm.Roots es) (ha : e.posting.amount = some a) (ht : e.type = .expense)
    (hc : e.category = some cs) (hcs : cs ≠ []) :
    bm.addToOut .expense cs a = budgetMix es e ∧ ∀ bm', bm.addTo .expense cs e.posting a = some bm' → bm'.Roots (es ++ [e]) := by
  obtain ⟨y, h1, x, h2, e1, e2, w, o⟩ := opened_twice H.full.2 hcs a.commodity
  obtain ⟨z, h3, e3, w3, o3⟩ := opened H.full.1 hcs a.commodity
  have hcn : e.category ≠ none := by rw [hc]; simp
  refine ⟨?_, ?_⟩
  · unfold BudgetMonth.addToOut
    simp only [e1, Option.map_some, Option.bind_some, e2, e3, Option.getD_some]
    rw [o.walkOut w hcs (str "subtraction") _ (fun b => subtractOut_eq b a)]
    unfold budgetMix
    rw [ha, ht, hc]
    simp only
    rw [spendingCommodity_snoc es ha hcn, ← R.spending]
    refine flatMap_congr_mem fun ds _ => ?_
    by_cases hn : ds = []
    · rw [if_pos hn, if_pos hn]
    · rw [if_neg hn, if_neg hn, H.spent ds hn]
  · intro bm' hb
    obtain ⟨bm2, f1, _, _, o4, _, _, _, _, _, r⟩ := addTo_expense H.full.1 H.full.2 hcs e.posting a
    rw [hb] at f1
    cases f1
    refine ⟨?_, ?_⟩
    · rw [o4.root, poolCommodity_snoc es ha (Or.inr hcn), R.pool]
    · rw [r, spendingCommodity_snoc es ha hcn, R.spending]

theorem out_root (H : bm.Holds es) (R : bm.Roots es) (ha : e.posting.amount = some a) (ht : e.type = .envelope) (hc : e.category = none) :
    bm.addToRootOut a = budgetMix es e ∧ (bm.addToRoot a).Roots (es ++ [e]) := by
  have h0 : (bm.envelope.node 0).amount = bm.envelope.amt [] := (Heap.amt_at (show bm.envelope.at [] = some 0 from rfl)).symm
  refine ⟨?_, ?_, ?_⟩
  · unfold BudgetMonth.addToRootOut budgetMix
    rw [addOut_eq, h0, R.pool, ha, ht, hc]
  · have : poolCommodity (es ++ [e]) = poolCommodity es := by
      unfold poolCommodity
      rw [List.filter_append]
      simp [ht, hc]
    rw [this, ← R.pool]
    obtain ⟨_, _, a2, _⟩ := modify_data H.full.1.toTree (show bm.envelope.at [] = some 0 from rfl) (fun n => { n with amount := n.amount.add a })
      (fun n => ⟨rfl, rfl, rfl, rfl, rfl⟩)
    rw [show (bm.addToRoot a).envelope = bm.envelope.modify 0 fun n => { n with amount := n.amount.add a } from rfl, a2, ← h0]
    rfl
  · have : spendingCommodity (es ++ [e]) = spendingCommodity es := by
      unfold spendingCommodity
      rw [List.filter_append]
      simp [hc]
    rw [this, ← R.spending]
    rfl

theorem out_income (H : bm.Holds es) (R : bm.Roots es) (ha : e.posting.amount = some a) (ht : e.type = .income) :
    bm.addIncomeOut a = budgetMix es e ∧ (bm.addIncome e.posting a).Roots (es ++ [e]) := by
  have hc : e.category = none := by unfold Filed.category; rw [ht]
  have h0 : ((bm.envelope.defaultCommodity 0 a.commodity).node 0).amount = (bm.envelope.defaultCommodity 0 a.commodity).amt [] :=
    (Heap.amt_at (show (bm.envelope.defaultCommodity 0 a.commodity).at [] = some 0 from rfl)).symm
  have hroot : ((bm.envelope.defaultCommodity 0 a.commodity).amt []).commodity = poolCommodity (es ++ [e]) := by
    rw [Heap.default_root H.full.1, poolCommodity_snoc es ha (Or.inl ht), R.pool]
  refine ⟨?_, ?_, ?_⟩
  · unfold BudgetMonth.addIncomeOut budgetMix
    simp only [subtractOut_eq, h0, hroot, ha, ht]
    congr 1
    rw [incomeCommodity_snoc es ha ht, incomeCommodity, ← H.incomeCommodity]
    by_cases hi : bm.income.commodity = [] <;> simp [hi]
  · rw [← hroot]
    obtain ⟨_, _, a2, _⟩ := modify_data ((Heap.default_spec H.full.1 a.commodity).1.shape.full H.full.1).toTree
      (show (bm.envelope.defaultCommodity 0 a.commodity).at [] = some 0 from rfl) (fun n => { n with amount := n.amount.subtract a })
      (fun n => ⟨rfl, rfl, rfl, rfl, rfl⟩)
    rw [show (bm.addIncome e.posting a).envelope =
      (bm.envelope.defaultCommodity 0 a.commodity).modify 0 fun n => { n with amount := n.amount.subtract a } from rfl, a2, ← h0]
    rfl
  · have : spendingCommodity (es ++ [e]) = spendingCommodity es := by
      unfold spendingCommodity
      rw [List.filter_append]
      simp [hc]
    rw [this, ← R.spending]
    rfl

end step

/-- The commodities of the roots of all months. -/
def Budget.Roots (b : Budget) (es : List Filed) : Prop :=
  ∀ year month, ∀ bm, b.get ⟨year, month, 1⟩ = some bm → bm.Roots (inMonth year month es)

/-- What filing one posting prints. -/
theorem budget_out {b : Budget} {es : List Filed} (H : b.Holds es) (R : b.Roots es) (e : Filed) (hd : 1 ≤ e.date.day) (hf : e.Fileable) :
    b.addPostingOut e.date e.posting e.type = budgetMix (inMonth e.date.year e.date.month es) e ∧
    ∀ b', b.addPosting e.date e.posting e.type = some b' → b'.Roots (es ++ [e]) := by
  set bm := (b.get ⟨e.date.year, e.date.month, 1⟩).getD newBudgetMonth with hbm
  have hm : bm.Holds (inMonth e.date.year e.date.month es) ∧ bm.Roots (inMonth e.date.year e.date.month es) := by
    have := H e.date.year e.date.month
    revert this
    cases hg : b.get ⟨e.date.year, e.date.month, 1⟩ with
    | none =>
      intro h
      simp only at h
      rw [hbm, hg, h]
      exact ⟨newBudgetMonth_holds, newBudgetMonth_roots⟩
    | some m =>
      intro h
      rw [hbm, hg]
      exact ⟨h.2, R _ _ m hg⟩
  have hput : ∀ bm', bm'.Roots (inMonth e.date.year e.date.month es ++ [e]) → (b.put ⟨e.date.year, e.date.month, 1⟩ bm').Roots (es ++ [e]) := by
    intro bm' hb y m bm2
    rw [Budget.get_put_month]
    by_cases hk : (⟨e.date.year, e.date.month, 1⟩ : Date) = ⟨y, m, 1⟩
    · rw [if_pos hk]
      obtain ⟨rfl, rfl⟩ : e.date.year = y ∧ e.date.month = m := by simpa using hk
      have : inMonth e.date.year e.date.month (es ++ [e]) = inMonth e.date.year e.date.month es ++ [e] := by
        unfold inMonth; simp
      rw [this]
      intro h
      cases h
      exact hb
    · rw [if_neg hk]
      have : inMonth y m (es ++ [e]) = inMonth y m es := by
        unfold inMonth
        rw [List.filter_append]
        have : ¬ (e.date.year = y ∧ e.date.month = m) := fun hc => hk (by rw [hc.1, hc.2])
        simp only [List.filter_cons, decide_eq_true_eq, if_neg this, List.filter_nil, List.append_nil]
      rw [this]
      exact R y m bm2
  have hcomp : split ':' e.posting.accountPath = e.posting.components := rfl
  obtain ⟨h1, h2, h3⟩ := hf
  obtain ⟨a, ha⟩ := Option.ne_none_iff_exists'.1 h2
  unfold Budget.addPosting Budget.addPostingOut
  simp only [h1, ha, normalise_eq hd, hcomp, Bool.true_eq_false, if_false, ← hbm]
  cases ht : e.type with
  | income =>
    obtain ⟨k1, k2⟩ := out_income hm.1 hm.2 ha ht
    exact ⟨k1, fun b' hb => by cases hb; exact hput _ k2⟩
  | envelope =>
    simp only
    by_cases hr : e.posting.accountPath = budgetRootID
    · rw [if_pos hr, if_pos hr]
      obtain ⟨k1, k2⟩ := out_root hm.1 hm.2 ha ht (by unfold Filed.category; rw [ht]; simp [hr])
      exact ⟨k1, fun b' hb => by cases hb; exact hput _ k2⟩
    · rw [if_neg hr, if_neg hr]
      obtain ⟨k1, k2⟩ := out_envelope hm.1 hm.2 ha ht (cs := e.posting.components)
        (by unfold Filed.category; rw [ht]; simp [hr]) e.posting.components_ne
      refine ⟨k1, fun b' hb => ?_⟩
      obtain ⟨bm', hb1, rfl⟩ := Option.map_eq_some_iff.1 hb
      exact hput _ (k2 bm' hb1)
  | expense =>
    simp only
    have hc : e.category = some (e.posting.components.drop 1) := by unfold Filed.category; rw [ht]
    obtain ⟨k1, k2⟩ := out_expense hm.1 hm.2 ha ht hc (fun hn => h3 (by rw [hc, hn]))
    refine ⟨k1, fun b' hb => ?_⟩
    obtain ⟨bm', hb1, rfl⟩ := Option.map_eq_some_iff.1 hb
    exact hput _ (k2 bm' hb1)

/-- What filing postings prints, up to the first that cannot be filed. -/
def Budget.addEachOut : List Filed → Budget → Str
  | [], _ => []
  | e :: es, b =>
    match b.addPosting e.date e.posting e.type with
    | none => []
    | some b' => b.addPostingOut e.date e.posting e.type ++ Budget.addEachOut es b'

theorem addEachOut_eq (es : List Filed) : ∀ {b : Budget} {before : List Filed}, b.Holds before → b.Roots before → (∀ e ∈ es, 1 ≤ e.date.day) →
    Budget.addEachOut es b = budgetMixes before (es.takeWhile fun e => e.Fileable) ∧
    ∀ b', Budget.addEach es b = some b' → b'.Holds (before ++ es) ∧ b'.Roots (before ++ es) ∧ ∀ e ∈ es, e.Fileable := by
  induction es with
  | nil =>
    intro b before H R _
    exact ⟨rfl, fun b' hb => by cases hb; exact ⟨by simpa using H, by simpa using R, by simp⟩⟩
  | cons e es ih =>
    intro b before H R hd
    obtain ⟨s1, s2⟩ := budget_step H e (hd e (by simp))
    by_cases hf : e.Fileable
    · obtain ⟨b1, e1, H1⟩ := s1 hf
      obtain ⟨o1, R1⟩ := budget_out H R e (hd e (by simp)) hf
      obtain ⟨i1, i2⟩ := ih H1 (R1 b1 e1) fun x hx => hd x (by simp [hx])
      refine ⟨?_, fun b' hb => ?_⟩
      · rw [Budget.addEachOut, e1, List.takeWhile_cons]
        simp only [hf, decide_true, if_true]
        rw [budgetMixes, o1, i1]
      · rw [Budget.addEach, e1] at hb
        obtain ⟨j1, j2, j3⟩ := i2 b' hb
        exact ⟨by simpa using j1, by simpa using j2, by simpa [hf] using j3⟩
    · refine ⟨?_, fun b' hb => ?_⟩
      · rw [Budget.addEachOut, s2 hf, List.takeWhile_cons]
        simp [hf, budgetMixes]
      · rw [Budget.addEach, s2 hf] at hb
        cases hb

theorem addPostingsOut_filed (date : Date) (ps : List Posting) : ∀ b, budgetAddPostingsOut date ps b = Budget.addEachOut (ps.filterMap fun p =>
      if p.components.headD [] = expensesID then some ⟨date, p, .expense⟩
      else if p.components.headD [] = incomeID then some ⟨date, p, .income⟩
      else none) b := by
  induction ps with
  | nil => intro b; rfl
  | cons p ps ih =>
    intro b
    rw [budgetAddPostingsOut, List.filterMap_cons]
    simp only [show split ':' p.accountPath = p.components from rfl]
    by_cases h1 : p.components.headD [] = expensesID
    · simp only [h1, if_true, Budget.addEachOut, ih]
      rfl
    · by_cases h2 : p.components.headD [] = incomeID
      · simp only [if_neg h1, if_pos h2, Budget.addEachOut, ih]
        rfl
      · simp only [if_neg h1, if_neg h2]
        exact ih b

theorem addEnvelopesOut_filed (date : Date) (ps : List Posting) : ∀ b, budgetAddEnvelopesOut date ps b =
    Budget.addEachOut (ps.map fun p => ⟨date, p, .envelope⟩) b := by
  induction ps with
  | nil => intro b; rfl
  | cons p ps ih =>
    intro b
    rw [budgetAddEnvelopesOut, List.map_cons, Budget.addEachOut]
    simp only [ih]
    rfl

theorem budgetMixes_append (es fs : List Filed) : ∀ before, budgetMixes before (es ++ fs) = budgetMixes before es ++ budgetMixes (before ++ es) fs := by
  induction es with
  | nil => intro before; simp [budgetMixes]
  | cons e es ih => intro before; simp [budgetMixes, ih]

theorem Env.FiledAs.perm {e : Env} {xs : List Filed} {c : Call} (h : e.FiledAs xs c) : xs.Perm (e.filedOf c) := by
  cases c with
  | normal t f => exact h.1
  | periodic pt f => rw [show xs = _ from h]

/-- What a call of the budget command prints, and what it files. -/
theorem budget_call (e : Env) (ho : ∀ l, (e.mapOrder l).Perm l) (c : Call) (hc : ∀ pt f, c = .periodic pt f → pt.period.interval = .none) (b : Budget) :
    (∃ err, e.budgetHandlers.call b c = (b, some (.err err)) ∧ e.budgetHandlers.callOut e.budgetOut budgetPeriodicOut b c = []) ∨
    ∃ xs, e.FiledAs xs c ∧ e.budgetHandlers.callOut e.budgetOut budgetPeriodicOut b c = Budget.addEachOut xs b ∧
      ((e.budgetHandlers.call b c).2 = none → Budget.addEach xs b = some (e.budgetHandlers.call b c).1) := by
  cases c with
  | normal t f =>
    simp only [Handlers.call, Handlers.callOut]
    rw [show e.budgetHandlers.th = some e.budgetHandler from rfl]
    simp only [Option.isSome_some, if_true]
    rw [Env.budgetHandler, Env.budgetOut]
    rcases hr : e.withinDateRange t with err | _ | _
    · simp only [Env.checkAgainstFilters, hr]
      exact Or.inl ⟨err, rfl, trivial⟩
    · rw [C44_out_of_range e t hr]
      simp only [List.length_nil, and_self, if_true]
      exact Or.inr ⟨[], by simp [Env.FiledAs, Env.filedOf, Env.selectedOf, hr], rfl, fun _ => rfl⟩
    · obtain ⟨qs, k1, k2⟩ := C44_any_of e ho t hr
      rw [k1]
      simp only
      have hso : e.selectedOf (.normal t f) = selection e.filters t := by simp [Env.selectedOf, hr]
      refine Or.inr ⟨_, ?_, addPostingsOut_filed t.date qs b, ?_⟩
      · rw [Env.FiledAs, Env.filedOf, hso]
        refine ⟨k2.filterMap _, fun hw => ?_⟩
        obtain ⟨w1, w2⟩ := C44_whole e t hr hw
        rw [k1] at w1
        rw [w2, (Prod.mk.inj (Except.ok.inj w1)).2]
      · split
        · rename_i hc
          have h0 : qs = [] := by simpa using hc.2
          intro _
          rw [h0]
          rfl
        · rw [addPostings_filed]
          split
          · rename_i b1 hb1
            intro _
            rw [hb1]
          · intro hn; cases hn
  | periodic pt f =>
    have hi := hc pt f rfl
    simp only [Handlers.call, Handlers.callOut]
    rw [show e.budgetHandlers.ph = some budgetPeriodicHandler from rfl]
    simp only [Option.isSome_some, if_true]
    rw [budgetPeriodicHandler, budgetPeriodicOut, PeriodicTransaction.run, PeriodicTransaction.runOut, if_pos hi, if_pos hi]
    simp only [List.head?_cons, Option.elim_some, List.nil_append, addEnvelopes_filed, addEnvelopesOut_filed]
    refine Or.inr ⟨_, ?_, rfl, ?_⟩
    · rw [Env.FiledAs, Env.filedOf, if_pos hi]
    · split
      · rename_i b1 hb1
        intro _
        rw [hb1]
      · intro hn; cases hn

/-- What the calls of the budget command print. -/
theorem budget_prints (e : Env) (ho : ∀ l, (e.mapOrder l).Perm l) (calls : List Call) : ∀ (b : Budget) (before : List Filed),
    b.Holds before → b.Roots before → (∀ c ∈ calls, ∀ pt f, c = .periodic pt f → pt.period.interval = .none) →
    (∀ x ∈ e.filed calls, 1 ≤ x.date.day) →
    ((e.budgetHandlers.replay calls b).2 = none → ∃ xss : List (List Filed), List.Forall₂ e.FiledAs xss calls ∧
      e.budgetHandlers.prints e.budgetOut budgetPeriodicOut calls b = budgetMixes before xss.flatten ∧
      Budget.addEach xss.flatten b = some (e.budgetHandlers.replay calls b).1) ∧
    ∃ xs : List Filed, (∀ x ∈ xs, x ∈ e.filed calls ∧ x.Fileable) ∧
      e.budgetHandlers.prints e.budgetOut budgetPeriodicOut calls b = budgetMixes before xs := by
  induction calls with
  | nil =>
    intro b before _ _ _ _
    exact ⟨fun _ => ⟨[], List.Forall₂.nil, rfl, rfl⟩, [], by simp, rfl⟩
  | cons c calls ih =>
    intro b before H R hp hd
    have hfc : e.filed (c :: calls) = e.filedOf c ++ e.filed calls := by simp [Env.filed]
    rw [hfc] at hd ⊢
    rw [Handlers.replay, Handlers.prints]
    rcases budget_call e ho c (hp c (by simp)) b with ⟨err, c1, c2⟩ | ⟨xs, x1, x2, x3⟩
    · rw [c1, c2]
      exact ⟨fun h => by simp [Step.andThen] at h, [], by simp, rfl⟩
    · obtain ⟨o1, o2⟩ := addEachOut_eq xs H R fun x hx => hd x (List.mem_append_left _ (x1.perm.mem_iff.1 hx))
      rw [x2, o1]
      have hmem : ∀ x ∈ xs.takeWhile (fun e => decide e.Fileable), x ∈ e.filedOf c ++ e.filed calls ∧ x.Fileable := by
        intro x hx
        refine ⟨List.mem_append_left _ (x1.perm.mem_iff.1 ((List.takeWhile_prefix _).subset hx)), ?_⟩
        simpa using List.mem_takeWhile_imp hx
      rcases hr : e.budgetHandlers.call b c with ⟨b1, _ | f⟩
      · rw [hr] at x3
        obtain ⟨H1, R1, F1⟩ := o2 b1 (x3 rfl)
        obtain ⟨i1, ys, i2, i3⟩ := ih b1 (before ++ xs) H1 R1 (fun c' hc' => hp c' (by simp [hc'])) fun x hx => hd x (List.mem_append_right _ hx)
        have ht : xs.takeWhile (fun e => decide e.Fileable) = xs := List.takeWhile_eq_self_iff.2 fun x hx => by simpa using F1 x hx
        rw [ht] at hmem ⊢
        simp only [Step.andThen]
        refine ⟨fun h => ?_, xs ++ ys, ?_, ?_⟩
        · obtain ⟨xss, q1, q2, q3⟩ := i1 h
          exact ⟨xs :: xss, List.Forall₂.cons x1 q1, by rw [q2, List.flatten_cons, budgetMixes_append],
            by rw [List.flatten_cons, addEach_append, x3 rfl]; exact q3⟩
        · intro x hx
          rcases List.mem_append.1 hx with hx | hx
          · exact hmem x hx
          · exact ⟨List.mem_append_right _ (i2 x hx).1, (i2 x hx).2⟩
        · rw [i3, budgetMixes_append]
      · simp only [Step.andThen, List.append_nil]
        exact ⟨fun h => by simp at h, _, hmem, rfl⟩

end Gledger
