/-
C142: if all amounts are multiplied by the same number, so are all figures of a budget, and nothing else changes.
-/
import Verif.Props.Scale

namespace Gledger

/-- The same filed on the same day, for the same category, so many times. -/
def Filed.Times (k : I64) (e' e : Filed) : Prop :=
  e'.date = e.date ∧ e'.type = e.type ∧ e'.posting.amount = e.posting.amount.map (Amount.times k) ∧ e'.category = e.category

/-- The figures of a month so many times. -/
def MonthFigures.times (k : I64) (x : MonthFigures) : MonthFigures :=
  { x with income := x.income.times k, rows := x.rows.map fun r => (r.1, k * r.2.1, k * r.2.2.1, r.2.2.2.times k) }

section
variable {k : I64} {es es' : List Filed}

theorem inMonth_times (h : List.Forall₂ (Filed.Times k) es' es) (y : Int) (m : Nat) : List.Forall₂ (Filed.Times k) (inMonth y m es') (inMonth y m es) :=
  forall₂_filter h fun a b hab => by rw [hab.1]

theorem worth_times (h : List.Forall₂ (Filed.Times k) es' es) : worth es' = k * worth es := by
  unfold worth
  induction h with
  | nil => simp
  | @cons a b _ _ h1 _ ih =>
    have hv : a.posting.value = k * b.posting.value := by
      unfold Posting.value
      rw [h1.2.2.1]
      cases b.posting.amount <;> simp [Amount.times]
    rw [List.map_cons, List.map_cons, List.sum_cons, List.sum_cons, ih, hv, BitVec.mul_add]

theorem filed_first_times (h : List.Forall₂ (Filed.Times k) es' es) : firstCommodity (es'.map Filed.posting) = firstCommodity (es.map Filed.posting) := by
  unfold firstCommodity writtenCommodities
  congr 2
  induction h with
  | nil => rfl
  | @cons a b _ _ h1 _ ih =>
    rw [List.map_cons, List.map_cons, List.filterMap_cons, List.filterMap_cons, ih, h1.2.2.1]
    cases b.posting.amount <;> rfl

theorem last_times (h : List.Forall₂ (Filed.Times k) es' es) :
    (es'.getLast?.bind fun e => e.posting.amount) = (es.getLast?.bind fun e => e.posting.amount).map (Amount.times k) := by
  induction h with
  | nil => rfl
  | @cons a b l _ h1 h2 ih =>
    cases h2 with
    | nil => simpa using h1.2.2.1
    | cons h3 h4 => rw [List.getLast?_cons_cons, List.getLast?_cons_cons, ih]

theorem categoryCommodity_times (h : List.Forall₂ (Filed.Times k) es' es) (cs : List Str) : categoryCommodity cs es' = categoryCommodity cs es := by
  unfold categoryCommodity
  rw [last_times (forall₂_filter (q := fun e => decide (e.category = some cs)) h fun a b hab => by rw [hab.2.2.2])]
  cases ((es.filter fun e => e.category = some cs).getLast?).bind fun e => e.posting.amount <;> rfl

theorem monthFigures_times (h : List.Forall₂ (Filed.Times k) es' es) (m : Date) (ks : List Str) : monthFigures m ks es' = (monthFigures m ks es).times k := by
  have hu : ∀ {a b : Filed}, a.Times k b → ∀ cs, a.Under cs ↔ b.Under cs := fun hab cs => by unfold Filed.Under; rw [hab.2.2.2]
  have e1 : ∀ c, budgeted [c] es' = k * budgeted [c] es := fun c =>
    worth_times (forall₂_filter h fun a b hab => decide_eq_decide.2 (by rw [hab.2.1, hu hab]))
  have e2 : ∀ c, spent [c] es' = k * spent [c] es := fun c =>
    worth_times (forall₂_filter h fun a b hab => decide_eq_decide.2 (by rw [hab.2.1, hu hab]))
  have hi : List.Forall₂ (Filed.Times k) (es'.filter fun e => decide (e.type = .income)) (es.filter fun e => decide (e.type = .income)) :=
    forall₂_filter h fun a b hab => by rw [hab.2.1]
  have neg : ∀ a b : I64, -(a * b) = a * -b := fun a b => (BitVec.mul_neg ..).symm
  have sub : ∀ a b : I64, k * a - k * b = k * (a - b) := fun a b => by
    rw [BitVec.sub_eq_add_neg, BitVec.sub_eq_add_neg, BitVec.mul_add, neg]
  have e3 : incomeOf es' = (incomeOf es).times k := by
    unfold incomeOf earned Amount.times
    rw [filed_first_times hi, worth_times hi, neg]
  simp only [monthFigures, MonthFigures.times, e1, e2, e3, categoryCommodity_times h, List.map_map, Function.comp_def, Amount.times, neg, sub]

/-- Budgets made of multiples: the same months and categories with the multiples of the figures. -/
theorem C142_reports (h : List.Forall₂ (Filed.Times k) es' es) (hr : ∀ e ∈ es, e.date.Real) {text text' : Str}
    (R : BudgetReport es text) (R' : BudgetReport es' text') :
    ∃ xs : List MonthFigures, text = xs.flatMap MonthFigures.text ∧ text' = xs.flatMap fun x => (x.times k).text := by
  have hr' : ∀ e ∈ es', e.date.Real := fun e he => by
    obtain ⟨b, hb, hab⟩ := forall₂_mem_left h he
    rw [hab.1]
    exact hr b hb
  have hin : ∀ y m, inMonth y m es' = [] ↔ inMonth y m es = [] := fun y m => by
    have := (inMonth_times h y m).length_eq
    rw [← List.length_eq_zero_iff, ← List.length_eq_zero_iff, this]
  obtain ⟨ms, ns, n1, o1, c1, k1, e1⟩ := R
  have he2 : text' = ms.flatMap fun m => summary m (incomeOf (inMonth m.year m.month es')) ++
      ((ns m).flatMap fun c => categoryLine c (inMonth m.year m.month es')) ++ str "\n" := by
    refine budgetReport_unique hr' R' ⟨ms, ns, n1, o1, fun m => ?_, fun m hm => ⟨(k1 m hm).1, fun c => ?_⟩, rfl⟩
    · rw [c1, ne_eq, ne_eq, hin]
    · rw [(k1 m hm).2]
      have hl := inMonth_times h m.year m.month
      constructor
      · rintro ⟨e, he, ds, hd⟩
        obtain ⟨b, hb, hab⟩ := forall₂_mem_left hl.flip he
        exact ⟨b, hb, ds, by rw [← hd]; exact hab.2.2.2⟩
      · rintro ⟨e, he, ds, hd⟩
        obtain ⟨b, hb, hab⟩ := forall₂_mem_left hl he
        exact ⟨b, hb, ds, by rw [← hd]; exact hab.2.2.2.symm⟩
  refine ⟨ms.map fun m => monthFigures m (ns m) (inMonth m.year m.month es), ?_, ?_⟩
  · rw [e1, List.flatMap_map]
    exact flatMap_congr_mem fun m _ => (monthFigures_text _ _ _).symm
  · rw [he2, List.flatMap_map]
    exact flatMap_congr_mem fun m _ => by rw [← monthFigures_times (inMonth_times h m.year m.month), monthFigures_text]

theorem budgetMix_times (h : List.Forall₂ (Filed.Times k) es' es) {e e' : Filed} (he : e'.Times k e) : budgetMix es' e' = budgetMix es e := by
  have h1 : List.Forall₂ (Filed.Times k) (es' ++ [e']) (es ++ [e]) := List.rel_append h (.cons he .nil)
  have i1 : ∀ {l l'}, List.Forall₂ (Filed.Times k) l' l → incomeCommodity l' = incomeCommodity l := fun h => by
    unfold incomeCommodity
    exact filed_first_times (forall₂_filter h fun a b hab => by rw [hab.2.1])
  have i2 : ∀ {l l'}, List.Forall₂ (Filed.Times k) l' l → poolCommodity l' = poolCommodity l := fun h => by
    unfold poolCommodity
    exact filed_first_times (forall₂_filter h fun a b hab => by rw [hab.2.1, hab.2.2.2])
  have i3 : ∀ {l l'}, List.Forall₂ (Filed.Times k) l' l → spendingCommodity l' = spendingCommodity l := fun h => by
    unfold spendingCommodity
    exact filed_first_times (forall₂_filter h fun a b hab => by rw [hab.2.2.2])
  unfold budgetMix
  rw [he.2.1, he.2.2.1, he.2.2.2]
  cases e.posting.amount with
  | none => rfl
  | some a =>
    simp only [Option.map_some, i1 h1, i2 h1, i2 h, i3 h1, categoryCommodity_times h, Amount.times]

theorem budgetMixes_times (h : List.Forall₂ (Filed.Times k) es' es) {b b' : List Filed} (hb : List.Forall₂ (Filed.Times k) b' b) :
    budgetMixes b' es' = budgetMixes b es := by
  induction h generalizing b b' with
  | nil => rfl
  | @cons e' e _ _ h1 _ ih =>
    rw [budgetMixes, budgetMixes, ih (List.rel_append hb (.cons h1 .nil)), h1.1, budgetMix_times (inMonth_times hb _ _) h1]

end

section
variable [Unicode] {m m' : Machine} {o o' : Options} {args args' : List Str} {bytes bytes' : List UInt8} {js js' : List (Meant × Str)}
  {admits admits' : Date → Bool} {path path' : Str} {k : I64}

/-- Two runs of `budget` without arguments, on whatever journals, where the one files a multiple of what the other files: the same warnings, months and
categories, with the multiples of the figures. -/
theorem C142_runs (g : Setting m o args bytes [] admits path) {pg pg' : Page}
    (r : Reading m.fs m.lib m.maxOpen path bytes js (.ok pg)) (hs : ¬ Command.budget.Short [] admits (meanings js))
    (g' : Setting m' o' args' bytes' [] admits' path') (r' : Reading m'.fs m'.lib m'.maxOpen path' bytes' js' (.ok pg'))
    (hs' : ¬ Command.budget.Short [] admits' (meanings js'))
    (h : List.Forall₂ (Filed.Times k) ((meanings js').flatMap (Meant.filed [] admits')) ((meanings js).flatMap (Meant.filed [] admits))) :
    ∃ (W : Str) (xs : List MonthFigures), W = budgetMixes [] ((meanings js).flatMap (Meant.filed [] admits)) ∧
      m.run o .budget args = ⟨W ++ xs.flatMap MonthFigures.text, .exit 0⟩ ∧
      m'.run o' .budget args' = ⟨W ++ xs.flatMap fun x => (x.times k).text, .exit 0⟩ := by
  obtain ⟨d1, d2, _⟩ := C99_parsed r
  obtain ⟨xss, text, q1, q2, q3⟩ := Heard.budget (js := js) ⟨g, d1⟩ (d2 pg rfl) hs
  obtain ⟨d1', d2', _⟩ := C99_parsed r'
  obtain ⟨xss', text', q1', q2', q3'⟩ := Heard.budget (js := js') ⟨g', d1'⟩ (d2' pg' rfl) hs'
  rw [filedAs_whole q1] at q2 q3
  rw [filedAs_whole q1'] at q2' q3'
  obtain ⟨xs, e1, e2⟩ := C142_reports h (filed_dates r) q2 q2'
  exact ⟨_, xs, rfl, by rw [q3, e1], by rw [q3', budgetMixes_times h .nil, e2]⟩

end

set_option maxRecDepth 100000 in
/-- Twice as much. -/
example :
    letI := asciiUnicode
    let a := machineWith (str "f") "~ 2020-01\n  Food  $10\n\n2020-01-02 x\n  Expenses:Food  $3\n  Assets\n"
    let b := machineWith (str "f") "~ 2020-01\n  Food  $20\n\n2020-01-02 x\n  Expenses:Food  $6\n  Assets\n"
    str "Food                           |                -3.00 |                10.00 |                $7.00 |\n" <:+: (a.run { file := str "f" } .budget []).stdout ∧
    str "Food                           |                -6.00 |                20.00 |               $14.00 |\n" <:+: (b.run { file := str "f" } .budget []).stdout := by
  decide +kernel

/-- What is filed there. -/
example :
    let posting (a : String) (q : Int) : Posting := { accountPath := str a, amount := some ⟨str "$", BitVec.ofInt 64 q⟩ }
    List.Forall₂ (Filed.Times 2) [⟨⟨2020, 1, 1⟩, posting "Food" 2000, .envelope⟩, ⟨⟨2020, 1, 2⟩, posting "Expenses:Food" 600, .expense⟩]
      [⟨⟨2020, 1, 1⟩, posting "Food" 1000, .envelope⟩, ⟨⟨2020, 1, 2⟩, posting "Expenses:Food" 300, .expense⟩] := by
  refine .cons ⟨rfl, rfl, ?_, rfl⟩ (.cons ⟨rfl, rfl, ?_, rfl⟩ .nil) <;> decide +kernel

end Gledger
