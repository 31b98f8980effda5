/-
C140: commodities are only names in balances and budgets: under other names the same lines are printed, and the same warnings.
-/
import Verif.Props.Mirror
import Verif.Props.Categories

namespace Gledger

/-! ### Amounts under other commodity names -/

/-- The amount with another name for its commodity. -/
def Amount.recoined (f : Str → Str) (a : Amount) : Amount := { a with commodity := f a.commodity }

/-- The one posting is the other one with another name for the commodity, whatever else may differ. -/
def Posting.Recoined (f : Str → Str) (p' p : Posting) : Prop := p'.components = p.components ∧ p'.amount = p.amount.map (Amount.recoined f)

section
variable {f : Str → Str} {ps ps' : List Posting}

theorem below_recoined (h : List.Forall₂ (Posting.Recoined f) ps' ps) (cs : List Str) : List.Forall₂ (Posting.Recoined f) (below cs ps') (below cs ps) := by
  unfold below
  induction h with
  | nil => exact .nil
  | cons h1 _ ih =>
    rw [List.filter_cons, List.filter_cons, h1.1]
    split
    · exact .cons h1 ih
    · exact ih

theorem written_recoined (h0 : ∀ c, f c = [] ↔ c = []) (h : List.Forall₂ (Posting.Recoined f) ps' ps) : writtenCommodities ps' = (writtenCommodities ps).map f := by
  unfold writtenCommodities
  induction h with
  | nil => rfl
  | @cons p' p _ _ h1 _ ih =>
    rw [List.filterMap_cons, List.filterMap_cons, h1.2]
    cases p.amount with
    | none => exact ih
    | some a =>
      simp only [Option.map_some, Amount.recoined, List.filter_cons, ih]
      by_cases hc : a.commodity = []
      · simp [hc, (h0 []).2 rfl]
      · simp [hc, mt (h0 a.commodity).1 hc]

theorem first_recoined (h0 : ∀ c, f c = [] ↔ c = []) (h : List.Forall₂ (Posting.Recoined f) ps' ps) : firstCommodity ps' = f (firstCommodity ps) := by
  unfold firstCommodity
  rw [written_recoined h0 h]
  cases writtenCommodities ps with
  | nil => exact ((h0 []).2 rfl).symm
  | cons c cs => rfl

theorem tally_recoined (h0 : ∀ c, f c = [] ↔ c = []) (h : List.Forall₂ (Posting.Recoined f) ps' ps) : tally ps' = (tally ps).recoined f := by
  have e1 : ps'.map Posting.value = ps.map Posting.value := by
    clear h0
    induction h with
    | nil => rfl
    | @cons p' p _ _ h1 _ ih =>
      have hv : p'.value = p.value := by
        unfold Posting.value
        rw [h1.2]
        cases p.amount <;> rfl
      rw [List.map_cons, List.map_cons, ih, hv]
  unfold tally Amount.recoined
  rw [first_recoined h0 h, e1]

/-- Postings under other commodity names: the same lines, in the same order, under the other names. -/
theorem C140_reports (h0 : ∀ c, f c = [] ↔ c = []) (h : List.Forall₂ (Posting.Recoined f) ps' ps) {sz flatten collapse : Bool} {text text' : Str}
    (R : BalanceReport sz flatten collapse ps text) (R' : BalanceReport sz flatten collapse ps' text') :
    ∃ ls : List BalanceLine, (∀ l ∈ ls, l.amount = tally (below l.account ps)) ∧
      text = joinLines (ls.map BalanceLine.text) ++ footer (tally ps) ∧
      text' = joinLines (ls.map fun l => BalanceLine.text { l with amount := l.amount.recoined f }) ++ footer (tally ps) := by
  have ht : ∀ cs, tally (below cs ps') = (tally (below cs ps)).recoined f := fun cs => tally_recoined h0 (below_recoined h cs)
  have hv : ∀ cs, valueOf (below cs ps') = valueOf (below cs ps) := fun cs => congrArg Amount.quantity (ht cs)
  have hc : ∀ cs, (∃ p ∈ ps', cs <+: p.components) ↔ ∃ p ∈ ps, cs <+: p.components := by
    intro cs
    constructor
    · rintro ⟨p, hp, hpre⟩
      obtain ⟨b, hb, hr⟩ := forall₂_mem_left h hp
      exact ⟨b, hb, hr.1 ▸ hpre⟩
    · rintro ⟨p, hp, hpre⟩
      obtain ⟨b, hb, hr⟩ := forall₂_mem_left h.flip hp
      exact ⟨b, hb, hr.1 ▸ hpre⟩
  obtain ⟨ls, l1, l2, l3⟩ := same_shown_lines (fun cs => by unfold Shown; simp only [hc, hv]) R R'
  refine ⟨ls, l1, l2, ?_⟩
  have hfoot : footer (tally ps') = footer (tally ps) := by
    rw [tally_recoined h0 h]
    rfl
  rw [l3, hfoot]
  congr 2
  exact List.map_congr_left fun l hl => by rw [ht, l1 l hl]

/-! ### Warnings -/

/-- Warnings about additions, by the commodity kept and the commodity given. -/
def mixTexts (ws : List (Str × Str)) : Str := ws.flatMap fun w => mixLine (str "addition") w.1 w.2

theorem mixLine_drop (v : Str) (ws : List (Str × Str)) :
    (ws.filter fun w => w.1 ≠ w.2).flatMap (fun w => mixLine v w.1 w.2) = ws.flatMap fun w => mixLine v w.1 w.2 := by
  induction ws with
  | nil => rfl
  | cons w ws ih =>
    by_cases h : w.1 = w.2
    · rw [List.filter_cons_of_neg (by simpa using h), ih, List.flatMap_cons]
      simp [mixLine, h]
    · rw [List.filter_cons_of_pos (by simpa using h), List.flatMap_cons, List.flatMap_cons, ih]

/-- The warnings are about the same pairs of commodities, under the other names. -/
theorem mixes_recoined (h0 : ∀ c, f c = [] ↔ c = []) (h : List.Forall₂ (Posting.Recoined f) ps' ps) :
    ∀ {before before' : List Posting}, List.Forall₂ (Posting.Recoined f) before' before →
      ∃ ws : List (Str × Str), balanceMixes before ps = mixTexts ws ∧ balanceMixes before' ps' = mixTexts (ws.map fun w => (f w.1, f w.2)) := by
  induction h with
  | nil => exact fun _ => ⟨[], rfl, rfl⟩
  | @cons p' p qs' qs h1 _ ih =>
    intro before before' hb
    have hb' : List.Forall₂ (Posting.Recoined f) (before' ++ [p']) (before ++ [p]) := List.rel_append hb (.cons h1 .nil)
    obtain ⟨ws, w1, w2⟩ := ih hb'
    rw [balanceMixes, balanceMixes, w1, w2]
    unfold balanceMix
    rw [h1.2, h1.1]
    cases p.amount with
    | none => exact ⟨ws, rfl, rfl⟩
    | some a =>
      refine ⟨((pathsUp p.components).map fun cs => (firstCommodity (below cs (before ++ [p])), a.commodity)) ++ ws, ?_, ?_⟩
      · simp [mixTexts, List.flatMap_map]
      · simp only [mixTexts, List.map_append, List.flatMap_append, List.map_map, List.flatMap_map, Option.map_some, Function.comp_def]
        congr 1
        congr 1
        funext cs
        rw [first_recoined h0 (below_recoined hb' cs)]
        rfl

/-- The same with only the pairs that differ, so that each is a line. -/
theorem C140_warnings (h0 : ∀ c, f c = [] ↔ c = []) (hf : Function.Injective f) (h : List.Forall₂ (Posting.Recoined f) ps' ps) :
    ∃ ws : List (Str × Str), (∀ w ∈ ws, w.1 ≠ w.2) ∧ balanceMixes [] ps = mixTexts ws ∧
      balanceMixes [] ps' = mixTexts (ws.map fun w => (f w.1, f w.2)) := by
  obtain ⟨ws, w1, w2⟩ := mixes_recoined h0 h (before := []) .nil
  refine ⟨ws.filter fun w => w.1 ≠ w.2, fun w hw => by simpa using (List.mem_filter.1 hw).2, ?_, ?_⟩
  · rw [w1]
    exact (mixLine_drop _ ws).symm
  · have e : ((ws.filter fun w => w.1 ≠ w.2).map fun w => (f w.1, f w.2)) = (ws.map fun w => (f w.1, f w.2)).filter fun w => w.1 ≠ w.2 := by
      rw [List.filter_map]
      congr 1
      apply List.filter_congr
      intro w _
      simp [hf.eq_iff]
    rw [w2, e]
    exact (mixLine_drop _ _).symm

end

/-! ### Budgets -/

/-- The same filed on the same day, for the same category, with another name for the commodity. -/
def Filed.Recoined (f : Str → Str) (e' e : Filed) : Prop :=
  e'.date = e.date ∧ e'.type = e.type ∧ e'.posting.amount = e.posting.amount.map (Amount.recoined f) ∧ e'.category = e.category

/-- What is printed about a month: its income, and for each category its name, what has been spent and budgeted, and what is left. -/
structure MonthFigures where
  month : Date
  income : Amount
  rows : List (Str × I64 × I64 × Amount)

/-- How it looks. -/
def MonthFigures.text (x : MonthFigures) : Str :=
  summary x.month x.income ++
    (x.rows.flatMap fun r => leftAligned 30 r.1 ++ (([displayQuantity r.2.1, displayQuantity r.2.2.1, r.2.2.2.commodity ++ displayQuantity r.2.2.2.quantity] : List Str).flatMap fun c => str " | " ++ rightAligned 20 c) ++
      str " |\n") ++ str "\n"

/-- With other names for the commodities. -/
def MonthFigures.recoined (f : Str → Str) (x : MonthFigures) : MonthFigures :=
  { x with income := x.income.recoined f, rows := x.rows.map fun r => (r.1, r.2.1, r.2.2.1, r.2.2.2.recoined f) }

/-- Warnings by what is done, the commodity kept and the commodity given. -/
def verbTexts (ws : List (Str × Str × Str)) : Str := ws.flatMap fun w => mixLine w.1 w.2.1 w.2.2

section
variable {f : Str → Str} {es es' : List Filed}

theorem inMonth_recoined (h : List.Forall₂ (Filed.Recoined f) es' es) (y : Int) (m : Nat) : List.Forall₂ (Filed.Recoined f) (inMonth y m es') (inMonth y m es) :=
  forall₂_filter h fun a b hab => by rw [hab.1]

theorem worth_recoined (h : List.Forall₂ (Filed.Recoined f) es' es) : worth es' = worth es := by
  unfold worth
  induction h with
  | nil => rfl
  | @cons a b _ _ h1 _ ih =>
    have hv : a.posting.value = b.posting.value := by
      unfold Posting.value
      rw [h1.2.2.1]
      cases b.posting.amount <;> rfl
    rw [List.map_cons, List.map_cons, List.sum_cons, List.sum_cons, ih, hv]

theorem filed_first_recoined (h0 : ∀ c, f c = [] ↔ c = []) (h : List.Forall₂ (Filed.Recoined f) es' es) :
    firstCommodity (es'.map Filed.posting) = f (firstCommodity (es.map Filed.posting)) := by
  have hw : writtenCommodities (es'.map Filed.posting) = (writtenCommodities (es.map Filed.posting)).map f := by
    unfold writtenCommodities
    induction h with
    | nil => rfl
    | @cons a b _ _ h1 _ ih =>
      rw [List.map_cons, List.map_cons, List.filterMap_cons, List.filterMap_cons, h1.2.2.1]
      cases b.posting.amount with
      | none => exact ih
      | some a =>
        simp only [Option.map_some, Amount.recoined, List.filter_cons, ih]
        by_cases hc : a.commodity = []
        · simp [hc, (h0 []).2 rfl]
        · simp [hc, mt (h0 a.commodity).1 hc]
  unfold firstCommodity
  rw [hw]
  cases writtenCommodities (es.map Filed.posting) with
  | nil => exact ((h0 []).2 rfl).symm
  | cons c cs => rfl

theorem last_recoined (h : List.Forall₂ (Filed.Recoined f) es' es) :
    (es'.getLast?.bind fun e => e.posting.amount) = (es.getLast?.bind fun e => e.posting.amount).map (Amount.recoined f) := by
  induction h with
  | nil => rfl
  | @cons a b l k h1 h2 ih =>
    cases h2 with
    | nil => simpa using h1.2.2.1
    | cons h3 h4 => rw [List.getLast?_cons_cons, List.getLast?_cons_cons, ih]

theorem categoryCommodity_recoined (h0 : ∀ c, f c = [] ↔ c = []) (h : List.Forall₂ (Filed.Recoined f) es' es) (cs : List Str) :
    categoryCommodity cs es' = f (categoryCommodity cs es) := by
  unfold categoryCommodity
  rw [last_recoined (forall₂_filter (q := fun e => decide (e.category = some cs)) h fun a b hab => by rw [hab.2.2.2])]
  cases ((es.filter fun e => e.category = some cs).getLast?).bind fun e => e.posting.amount with
  | none => exact ((h0 []).2 rfl).symm
  | some a => rfl

/-- The figures of a month. -/
def monthFigures (m : Date) (ks : List Str) (es : List Filed) : MonthFigures :=
  ⟨m, incomeOf es, ks.map fun k => (k, - spent [k] es, budgeted [k] es, ⟨categoryCommodity [k] es, budgeted [k] es - spent [k] es⟩)⟩

theorem monthFigures_text (m : Date) (ks : List Str) (es : List Filed) :
    (monthFigures m ks es).text = summary m (incomeOf es) ++ (ks.flatMap fun k => categoryLine k es) ++ str "\n" := by
  unfold monthFigures MonthFigures.text
  rw [List.flatMap_map]
  rfl

theorem monthFigures_recoined (h0 : ∀ c, f c = [] ↔ c = []) (h : List.Forall₂ (Filed.Recoined f) es' es) (m : Date) (ks : List Str) :
    monthFigures m ks es' = (monthFigures m ks es).recoined f := by
  have hu : ∀ {a b : Filed}, a.Recoined f b → ∀ cs, a.Under cs ↔ b.Under cs := fun hab cs => by unfold Filed.Under; rw [hab.2.2.2]
  have e1 : ∀ k, budgeted [k] es' = budgeted [k] es := fun k =>
    worth_recoined (forall₂_filter h fun a b hab => decide_eq_decide.2 (by rw [hab.2.1, hu hab]))
  have e2 : ∀ k, spent [k] es' = spent [k] es := fun k =>
    worth_recoined (forall₂_filter h fun a b hab => decide_eq_decide.2 (by rw [hab.2.1, hu hab]))
  have k : List.Forall₂ (Filed.Recoined f) (es'.filter fun e => decide (e.type = .income)) (es.filter fun e => decide (e.type = .income)) :=
    forall₂_filter h fun a b hab => by rw [hab.2.1]
  have e3 : incomeOf es' = (incomeOf es).recoined f := by
    unfold incomeOf earned Amount.recoined
    rw [filed_first_recoined h0 k, worth_recoined k]
  simp only [monthFigures, MonthFigures.recoined, e1, e2, e3, categoryCommodity_recoined h0 h, List.map_map, Function.comp_def, Amount.recoined]

/-- Budgets made of the same under other commodity names: the same months, categories and figures, under the other names. -/
theorem C140_budgets (h0 : ∀ c, f c = [] ↔ c = []) (h : List.Forall₂ (Filed.Recoined f) es' es) (hr : ∀ e ∈ es, e.date.Real) {text text' : Str}
    (R : BudgetReport es text) (R' : BudgetReport es' text') :
    ∃ xs : List MonthFigures, text = xs.flatMap MonthFigures.text ∧ text' = xs.flatMap fun x => (x.recoined f).text := by
  have hr' : ∀ e ∈ es', e.date.Real := fun e he => by
    obtain ⟨b, hb, hab⟩ := forall₂_mem_left h he
    rw [hab.1]
    exact hr b hb
  have hin : ∀ y m, inMonth y m es' = [] ↔ inMonth y m es = [] := fun y m => by
    have := (inMonth_recoined h y m).length_eq
    rw [← List.length_eq_zero_iff, ← List.length_eq_zero_iff, this]
  obtain ⟨ms, ns, n1, o1, c1, k1, e1⟩ := R
  have he2 : text' = ms.flatMap fun m => summary m (incomeOf (inMonth m.year m.month es')) ++
      ((ns m).flatMap fun k => categoryLine k (inMonth m.year m.month es')) ++ str "\n" := by
    refine budgetReport_unique hr' R' ⟨ms, ns, n1, o1, fun m => ?_, fun m hm => ⟨(k1 m hm).1, fun k => ?_⟩, rfl⟩
    · rw [c1, ne_eq, ne_eq, hin]
    · rw [(k1 m hm).2]
      have hl := inMonth_recoined h m.year m.month
      constructor
      · rintro ⟨e, he, ds, hd⟩
        obtain ⟨b, hb, hab⟩ := forall₂_mem_left hl.flip he
        exact ⟨b, hb, ds, by rw [← hd]; exact hab.2.2.2⟩
      · rintro ⟨e, he, ds, hd⟩
        obtain ⟨b, hb, hab⟩ := forall₂_mem_left hl he
        exact ⟨b, hb, ds, by rw [← hd]; exact hab.2.2.2.symm⟩
  refine ⟨ms.map fun m => monthFigures m (ns m) (inMonth m.year m.month es), ?_, ?_⟩
  · rw [e1, List.flatMap_map]
    exact flatMap_congr_mem fun m _ => (monthFigures_text _ _ _).symm
  · rw [he2, List.flatMap_map]
    exact flatMap_congr_mem fun m _ => by rw [← monthFigures_recoined h0 (inMonth_recoined h m.year m.month), monthFigures_text]

/-- What is warned about when something is filed. -/
theorem budgetMix_recoined (h0 : ∀ c, f c = [] ↔ c = []) (h : List.Forall₂ (Filed.Recoined f) es' es) {e e' : Filed} (he : e'.Recoined f e) :
    ∃ ws : List (Str × Str × Str), budgetMix es e = verbTexts ws ∧ budgetMix es' e' = verbTexts (ws.map fun w => (w.1, f w.2.1, f w.2.2)) := by
  have h1 : List.Forall₂ (Filed.Recoined f) (es' ++ [e']) (es ++ [e]) := List.rel_append h (.cons he .nil)
  have i1 : ∀ {l l'}, List.Forall₂ (Filed.Recoined f) l' l → incomeCommodity l' = f (incomeCommodity l) := fun h => by
    unfold incomeCommodity
    exact filed_first_recoined h0 (forall₂_filter h fun a b hab => by rw [hab.2.1])
  have i2 : ∀ {l l'}, List.Forall₂ (Filed.Recoined f) l' l → poolCommodity l' = f (poolCommodity l) := fun h => by
    unfold poolCommodity
    exact filed_first_recoined h0 (forall₂_filter h fun a b hab => by rw [hab.2.1, hab.2.2.2])
  have i3 : ∀ {l l'}, List.Forall₂ (Filed.Recoined f) l' l → spendingCommodity l' = f (spendingCommodity l) := fun h => by
    unfold spendingCommodity
    exact filed_first_recoined h0 (forall₂_filter h fun a b hab => by rw [hab.2.2.2])
  unfold budgetMix
  rw [he.2.1, he.2.2.1, he.2.2.2]
  cases e.posting.amount with
  | none => exact ⟨[], rfl, rfl⟩
  | some a =>
    simp only [Option.map_some]
    cases e.type with
    | income =>
      refine ⟨[(str "subtraction", incomeCommodity (es ++ [e]), a.commodity), (str "subtraction", poolCommodity (es ++ [e]), a.commodity)], ?_, ?_⟩
      · simp [verbTexts]
      · simp [verbTexts, i1 h1, i2 h1, Amount.recoined]
    | envelope =>
      cases e.category with
      | none =>
        refine ⟨[(str "addition", poolCommodity es, a.commodity)], ?_, ?_⟩
        · simp [verbTexts]
        · simp [verbTexts, i2 h, Amount.recoined]
      | some cs =>
        refine ⟨((pathsUp cs).drop 1).map fun ds => (str "addition", if ds = [] then poolCommodity (es ++ [e]) else categoryCommodity ds es, a.commodity), ?_, ?_⟩
        · simp only [verbTexts, List.flatMap_map]
        · simp only [verbTexts, List.flatMap_map, List.map_map, Function.comp_def, Amount.recoined, i2 h1, categoryCommodity_recoined h0 h, apply_ite f]
    | expense =>
      cases e.category with
      | none =>
        refine ⟨[(str "addition", poolCommodity es, a.commodity)], ?_, ?_⟩
        · simp [verbTexts]
        · simp [verbTexts, i2 h, Amount.recoined]
      | some cs =>
        refine ⟨((pathsUp cs).drop 1).map fun ds => (str "subtraction", if ds = [] then spendingCommodity (es ++ [e]) else categoryCommodity ds es, a.commodity), ?_, ?_⟩
        · simp only [verbTexts, List.flatMap_map]
        · simp only [verbTexts, List.flatMap_map, List.map_map, Function.comp_def, Amount.recoined, i3 h1, categoryCommodity_recoined h0 h, apply_ite f]

theorem budgetMixes_recoined (h0 : ∀ c, f c = [] ↔ c = []) (h : List.Forall₂ (Filed.Recoined f) es' es) :
    ∀ {b b' : List Filed}, List.Forall₂ (Filed.Recoined f) b' b →
      ∃ ws : List (Str × Str × Str), budgetMixes b es = verbTexts ws ∧ budgetMixes b' es' = verbTexts (ws.map fun w => (w.1, f w.2.1, f w.2.2)) := by
  induction h with
  | nil => exact fun _ => ⟨[], rfl, rfl⟩
  | @cons e' e _ _ h1 _ ih =>
    intro b b' hb
    obtain ⟨ws, w1, w2⟩ := ih (List.rel_append hb (.cons h1 .nil))
    obtain ⟨vs, v1, v2⟩ := budgetMix_recoined h0 (inMonth_recoined hb e.date.year e.date.month) h1
    refine ⟨vs ++ ws, ?_, ?_⟩
    · rw [budgetMixes, w1, v1]
      simp [verbTexts]
    · rw [budgetMixes, w2, h1.1, v2]
      simp [verbTexts]

theorem verbTexts_drop (ws : List (Str × Str × Str)) : verbTexts (ws.filter fun w => w.2.1 ≠ w.2.2) = verbTexts ws := by
  unfold verbTexts
  induction ws with
  | nil => rfl
  | cons w ws ih =>
    by_cases h : w.2.1 = w.2.2
    · rw [List.filter_cons_of_neg (by simpa using h), ih, List.flatMap_cons]
      simp [mixLine, h]
    · rw [List.filter_cons_of_pos (by simpa using h), List.flatMap_cons, List.flatMap_cons, ih]

/-- The warnings, each a line. -/
theorem C140_budget_warnings (h0 : ∀ c, f c = [] ↔ c = []) (hf : Function.Injective f) (h : List.Forall₂ (Filed.Recoined f) es' es) :
    ∃ ws : List (Str × Str × Str), (∀ w ∈ ws, w.2.1 ≠ w.2.2) ∧ budgetMixes [] es = verbTexts ws ∧
      budgetMixes [] es' = verbTexts (ws.map fun w => (w.1, f w.2.1, f w.2.2)) := by
  obtain ⟨ws, w1, w2⟩ := budgetMixes_recoined h0 h (b := []) .nil
  refine ⟨ws.filter fun w => w.2.1 ≠ w.2.2, fun w hw => by simpa using (List.mem_filter.1 hw).2, by rw [w1, verbTexts_drop], ?_⟩
  rw [w2, ← verbTexts_drop, List.filter_map]
  congr 2
  apply List.filter_congr
  intro w _
  simp [hf.eq_iff]

end

/-! ### Runs -/

section
variable [Unicode] {m m' : Machine} {o o' : Options} {args args' : List Str} {bytes bytes' : List UInt8} {js js' : List (Meant × Str)}
  {admits admits' : Date → Bool} {path path' : Str} {f : Str → Str}

omit [Unicode] in
/-- Without arguments the postings are taken in the order in which they are written. -/
theorem taken_all {qss : List (List Posting)} {ts : List Transaction} (h : List.Forall₂ (Taken []) qss ts) : qss.flatten = ts.flatMap (selection []) := by
  induction h with
  | nil => rfl
  | cons h1 _ ih =>
    have hw : ∀ t : Transaction, selection [] t = t.postings := fun t => if_pos (Or.inl rfl)
    rw [List.flatten_cons, List.flatMap_cons, ih, h1.2 (Or.inl rfl), hw]

/-- Two runs of `balance` in the same form without arguments, on whatever journals, where the same is posted in any number of commodities under
other names, one to one (no commodity staying no commodity): the same warnings and the same lines in the same order, under the other names. -/
theorem C140_runs (hf : Function.Injective f) (h0 : f [] = []) (g : Setting m o args bytes [] admits path) {pg pg' : Page}
    (r : Reading m.fs m.lib m.maxOpen path bytes js (.ok pg)) (hs : ¬ Command.balance.Short [] admits (meanings js))
    (g' : Setting m' o' args' bytes' [] admits' path') (r' : Reading m'.fs m'.lib m'.maxOpen path' bytes' js' (.ok pg'))
    (hs' : ¬ Command.balance.Short [] admits' (meanings js')) (e0 : o.showZero = o'.showZero) (e1 : o.flatten = o'.flatten) (e2 : o.collapse = o'.collapse)
    (h : List.Forall₂ (Posting.Recoined f) (askedPostings [] admits' (meanings js')) (askedPostings [] admits (meanings js))) :
    ∃ (ws : List (Str × Str)) (ls : List BalanceLine) (total : Amount), (∀ w ∈ ws, w.1 ≠ w.2) ∧
      (∀ l ∈ ls, l.amount = tally (below l.account (askedPostings [] admits (meanings js)))) ∧ total = tally (askedPostings [] admits (meanings js)) ∧
      m.run o .balance args = ⟨mixTexts ws ++ (joinLines (ls.map BalanceLine.text) ++ footer total), .exit 0⟩ ∧
      m'.run o' .balance args' = ⟨mixTexts (ws.map fun w => (f w.1, f w.2)) ++
        (joinLines (ls.map fun l => BalanceLine.text { l with amount := l.amount.recoined f }) ++ footer total), .exit 0⟩ := by
  have hn : ∀ c, f c = [] ↔ c = [] := fun c => ⟨fun e => hf (e.trans h0.symm), fun e => by rw [e, h0]⟩
  obtain ⟨d1, d2, _⟩ := C99_parsed r
  obtain ⟨qss, text, q1, q2, q3⟩ := Heard.balance (js := js) ⟨g, d1⟩ (d2 pg rfl) hs
  obtain ⟨d1', d2', _⟩ := C99_parsed r'
  obtain ⟨qss', text', q1', q2', q3'⟩ := Heard.balance (js := js') ⟨g', d1'⟩ (d2' pg' rfl) hs'
  have p1 : qss.flatten = askedPostings [] admits (meanings js) := taken_all q1
  have p2 : qss'.flatten = askedPostings [] admits' (meanings js') := taken_all q1'
  rw [p1] at q2 q3
  rw [p2] at q2' q3'
  rw [← e0, ← e1, ← e2] at q2'
  obtain ⟨ws, w0, w1, w2⟩ := C140_warnings hn hf h
  obtain ⟨ls, l1, l2, l3⟩ := C140_reports hn h q2 q2'
  exact ⟨ws, ls, _, w0, l1, rfl, by rw [q3, w1, l2], by rw [q3', w2, l3]⟩

/-- Two runs of `budget` without arguments, on whatever journals, that file the same under other commodity names, one to one: the same warnings, months,
categories and figures, under the other names. -/
theorem C140_budget_runs (hf : Function.Injective f) (h0 : f [] = []) (g : Setting m o args bytes [] admits path) {pg pg' : Page}
    (r : Reading m.fs m.lib m.maxOpen path bytes js (.ok pg)) (hs : ¬ Command.budget.Short [] admits (meanings js))
    (g' : Setting m' o' args' bytes' [] admits' path') (r' : Reading m'.fs m'.lib m'.maxOpen path' bytes' js' (.ok pg'))
    (hs' : ¬ Command.budget.Short [] admits' (meanings js'))
    (h : List.Forall₂ (Filed.Recoined f) ((meanings js').flatMap (Meant.filed [] admits')) ((meanings js).flatMap (Meant.filed [] admits))) :
    ∃ (ws : List (Str × Str × Str)) (xs : List MonthFigures), (∀ w ∈ ws, w.2.1 ≠ w.2.2) ∧
      m.run o .budget args = ⟨verbTexts ws ++ xs.flatMap MonthFigures.text, .exit 0⟩ ∧
      m'.run o' .budget args' = ⟨verbTexts (ws.map fun w => (w.1, f w.2.1, f w.2.2)) ++ xs.flatMap fun x => (x.recoined f).text, .exit 0⟩ := by
  have hn : ∀ c, f c = [] ↔ c = [] := fun c => ⟨fun e => hf (e.trans h0.symm), fun e => by rw [e, h0]⟩
  obtain ⟨d1, d2, _⟩ := C99_parsed r
  obtain ⟨xss, text, q1, q2, q3⟩ := Heard.budget (js := js) ⟨g, d1⟩ (d2 pg rfl) hs
  obtain ⟨d1', d2', _⟩ := C99_parsed r'
  obtain ⟨xss', text', q1', q2', q3'⟩ := Heard.budget (js := js') ⟨g', d1'⟩ (d2' pg' rfl) hs'
  rw [filedAs_whole q1] at q2 q3
  rw [filedAs_whole q1'] at q2' q3'
  obtain ⟨ws, w0, w1, w2⟩ := C140_budget_warnings hn hf h
  obtain ⟨xs, e1, e2⟩ := C140_budgets hn h (filed_dates r) q2 q2'
  exact ⟨ws, xs, w0, by rw [q3, w1, e1], by rw [q3', w2, e2]⟩

end

/-- What is posted and filed in the cases below, with kroner for dollars and marks for pounds. -/
example :
    let f : Str → Str := (Equiv.swap (str "$") (str "kr")).trans (Equiv.swap (str "£") (str "M"))
    let posting (a : String) (c : String) (q : Int) : Posting := { accountPath := str a, amount := some ⟨str c, BitVec.ofInt 64 q⟩ }
    Function.Injective f ∧ f [] = [] ∧
      List.Forall₂ (Posting.Recoined f) [posting "A" "kr" 100, posting "B" "M" 250, posting "C" "M" (-350)] [posting "A" "$" 100, posting "B" "£" 250, posting "C" "£" (-350)] ∧
      List.Forall₂ (Filed.Recoined f) [⟨⟨2020, 1, 1⟩, posting "Food" "kr" 1000, .envelope⟩, ⟨⟨2020, 1, 2⟩, posting "Expenses:Food" "M" 300, .expense⟩]
        [⟨⟨2020, 1, 1⟩, posting "Food" "$" 1000, .envelope⟩, ⟨⟨2020, 1, 2⟩, posting "Expenses:Food" "£" 300, .expense⟩] := by
  refine ⟨Equiv.injective _, by decide +kernel, ?_, ?_⟩
  · refine .cons ⟨rfl, ?_⟩ (.cons ⟨rfl, ?_⟩ (.cons ⟨rfl, ?_⟩ .nil)) <;> decide +kernel
  · refine .cons ⟨rfl, rfl, ?_, rfl⟩ (.cons ⟨rfl, rfl, ?_, rfl⟩ .nil) <;> decide +kernel

set_option maxRecDepth 100000 in
/-- If two commodities get the same name, which is not one to one, there are fewer warnings. -/
theorem C140_merged_false :
    letI := asciiUnicode
    let a := machineWith (str "f") "2020-01-02 x\n  A  $1\n  B  £2.50\n  C\n"
    let b := machineWith (str "f") "2020-01-02 x\n  A  $1\n  B  $2.50\n  C\n"
    str "unhandled" <+: (a.run { file := str "f" } .balance []).stdout ∧ ¬ str "unhandled" <:+: (b.run { file := str "f" } .balance []).stdout := by
  decide +kernel

set_option maxRecDepth 100000 in
/-- Dollars and pounds, and the same in kroner and marks. -/
example :
    letI := asciiUnicode
    let a := machineWith (str "f") "2020-01-02 x\n  A  $1\n  B  £2.50\n  C\n"
    let b := machineWith (str "f") "2020-01-02 x\n  A  kr1\n  B  M2.50\n  C\n"
    (a.run { file := str "f" } .balance []).stdout ≠ (b.run { file := str "f" } .balance []).stdout ∧
      str "               $1.00  A\n               £2.50  B\n" <:+: (a.run { file := str "f" } .balance []).stdout ∧
      str "              kr1.00  A\n               M2.50  B\n" <:+: (b.run { file := str "f" } .balance []).stdout ∧
      str "unhandled addition of unmatched commodities: '$' and '£'\n" <+: (a.run { file := str "f" } .balance []).stdout ∧
      str "unhandled addition of unmatched commodities: 'kr' and 'M'\n" <+: (b.run { file := str "f" } .balance []).stdout := by
  decide +kernel

end Gledger
