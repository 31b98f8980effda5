/-
C145: budgets show the sums and nothing else.
-/
import Verif.Props.BudgetParts
import Verif.Props.AlikeToo

namespace Gledger

/-- In every month the same is filed altogether: something or nothing, income or none, under the same categories, for the same categories themselves, and the sums are
the same. -/
structure SameSums (es es' : List Filed) : Prop where
  filed : ∀ y m, inMonth y m es = [] ↔ inMonth y m es' = []
  income : ∀ y m, (∃ e ∈ inMonth y m es, e.type = .income) ↔ ∃ e ∈ inMonth y m es', e.type = .income
  listed : ∀ y m k, (∃ e ∈ inMonth y m es, ∃ ds, e.category = some (k :: ds)) ↔ ∃ e ∈ inMonth y m es', ∃ ds, e.category = some (k :: ds)
  own : ∀ y m k, (∃ e ∈ inMonth y m es, e.category = some [k]) ↔ ∃ e ∈ inMonth y m es', e.category = some [k]
  earned : ∀ y m, earned (inMonth y m es) = earned (inMonth y m es')
  spent : ∀ y m k, spent [k] (inMonth y m es) = spent [k] (inMonth y m es')
  budgeted : ∀ y m k, budgeted [k] (inMonth y m es) = budgeted [k] (inMonth y m es')

theorem SameSums.of_perm {es es' : List Filed} (h : es.Perm es') : SameSums es es' := by
  have hm : ∀ y m, (inMonth y m es).Perm (inMonth y m es') := fun y m => h.filter _
  refine ⟨fun y m => ?_, fun y m => ?_, fun y m k => ?_, fun y m k => ?_, fun y m => ?_, fun y m k => ?_, fun y m k => ?_⟩
  · rw [← List.length_eq_zero_iff, (hm y m).length_eq, List.length_eq_zero_iff]
  · simp only [(hm y m).mem_iff]
  · simp only [(hm y m).mem_iff]
  · simp only [(hm y m).mem_iff]
  · unfold Gledger.earned
    rw [worth_perm ((hm y m).filter _)]
  · exact worth_perm ((hm y m).filter _)
  · exact worth_perm ((hm y m).filter _)

theorem SameSums.symm {es es' : List Filed} (h : SameSums es es') : SameSums es' es :=
  ⟨fun y m => (h.filed y m).symm, fun y m => (h.income y m).symm, fun y m k => (h.listed y m k).symm, fun y m k => (h.own y m k).symm, fun y m => (h.earned y m).symm,
    fun y m k => (h.spent y m k).symm, fun y m k => (h.budgeted y m k).symm⟩

theorem SameSums.trans {es es' fs : List Filed} (h : SameSums es es') (g : SameSums es' fs) : SameSums es fs :=
  ⟨fun y m => (h.filed y m).trans (g.filed y m), fun y m => (h.income y m).trans (g.income y m), fun y m k => (h.listed y m k).trans (g.listed y m k),
    fun y m k => (h.own y m k).trans (g.own y m k), fun y m => (h.earned y m).trans (g.earned y m),
    fun y m k => (h.spent y m k).trans (g.spent y m k), fun y m k => (h.budgeted y m k).trans (g.budgeted y m k)⟩

section
variable {c : Str} {es : List Filed}

/-- All amounts are in this commodity. -/
def OneCommodity (c : Str) (es : List Filed) : Prop := ∀ e ∈ es, ∃ a, e.posting.amount = some a ∧ a.commodity = c

theorem first_single (h : OneCommodity c es) : firstCommodity (es.map Filed.posting) = if es = [] then [] else c := by
  unfold firstCommodity writtenCommodities
  cases es with
  | nil => rfl
  | cons e es =>
    obtain ⟨a, ha, hc⟩ := h e (by simp)
    rw [if_neg (by simp)]
    by_cases h0 : c = []
    · have : ((List.map Filed.posting (e :: es)).filterMap fun p => p.amount.map Amount.commodity).filter (fun x => decide (x ≠ [])) = [] := by
        rw [List.filter_eq_nil_iff]
        intro x hx
        obtain ⟨p, hp, hx⟩ := List.mem_filterMap.1 hx
        obtain ⟨f, hf, rfl⟩ := List.mem_map.1 hp
        obtain ⟨b, hb, hd⟩ := h f hf
        rw [hb] at hx
        cases hx
        simp [hd, h0]
      rw [this, h0]
      rfl
    · simp [ha, hc, h0]

theorem incomeOf_single (h : OneCommodity c es) : incomeOf es = ⟨if (∃ e ∈ es, e.type = .income) then c else [], earned es⟩ := by
  unfold incomeOf
  rw [first_single (c := c) fun e he => h e (List.mem_of_mem_filter he)]
  congr 1
  by_cases hi : ∃ e ∈ es, e.type = .income
  · obtain ⟨e, he, ht⟩ := hi
    rw [if_neg (List.ne_nil_of_mem (List.mem_filter.2 ⟨he, by simp [ht]⟩)), if_pos ⟨e, he, ht⟩]
  · rw [if_pos (List.filter_eq_nil_iff.2 fun e he ht => hi ⟨e, he, of_decide_eq_true ht⟩), if_neg hi]

theorem categoryCommodity_single (h : OneCommodity c es) (cs : List Str) : categoryCommodity cs es = if (∃ e ∈ es, e.category = some cs) then c else [] := by
  unfold categoryCommodity
  by_cases hi : ∃ e ∈ es, e.category = some cs
  · rw [if_pos hi]
    obtain ⟨e, he, ht⟩ := hi
    cases hl : (es.filter fun e => decide (e.category = some cs)).getLast? with
    | none => exact absurd (List.getLast?_eq_none_iff.1 hl) (List.ne_nil_of_mem (List.mem_filter.2 ⟨he, by simp [ht]⟩))
    | some x =>
      obtain ⟨a, ha, hc⟩ := h x (List.mem_of_mem_filter (List.mem_of_getLast? hl))
      simp [ha, hc]
  · rw [if_neg hi, List.filter_eq_nil_iff.2 fun e he ht => hi ⟨e, he, of_decide_eq_true ht⟩]
    rfl

end

/-- Two budgets in one commodity with the same sums look the same. -/
theorem C145_reports {c : Str} {es es' : List Filed} (h : SameSums es es') (hc : OneCommodity c es) (hc' : OneCommodity c es') (hr : ∀ e ∈ es', e.date.Real) {text text' : Str}
    (R : BudgetReport es text) (R' : BudgetReport es' text') : text = text' := by
  obtain ⟨ms, ns, n1, o1, c1, k1, e1⟩ := R
  refine budgetReport_unique hr ⟨ms, ns, n1, o1, fun m => ?_, fun m hm => ⟨(k1 m hm).1, fun k => ?_⟩, ?_⟩ R'
  · rw [c1, ne_eq, ne_eq, h.filed]
  · rw [(k1 m hm).2, h.listed]
  · rw [e1]
    refine flatMap_congr_mem fun m _ => ?_
    have i1 : OneCommodity c (inMonth m.year m.month es) := fun e he => hc e (List.mem_of_mem_filter he)
    have i2 : OneCommodity c (inMonth m.year m.month es') := fun e he => hc' e (List.mem_of_mem_filter he)
    rw [← monthFigures_text, ← monthFigures_text]
    unfold monthFigures
    congr 2
    · rw [incomeOf_single i1, incomeOf_single i2, h.earned]
      simp only [h.income]
    · refine List.map_congr_left fun k _ => ?_
      rw [categoryCommodity_single i1, categoryCommodity_single i2, h.spent, h.budgeted]
      simp only [h.own]

section
variable [Unicode] {m m' : Machine} {o o' : Options} {args args' : List Str} {bytes bytes' : List UInt8} {js js' : List (Meant × Str)}
  {filters filters' : List Filter} {admits admits' : Date → Bool} {path path' : Str} {c : Str}

/-- Two runs of `budget`, on whatever journals, with whatever filters and dates, whose filed postings have the same sums in one commodity: the reports are the same (there may
be different warnings before them; without a commodity there are none). -/
theorem C145_runs (g : Setting m o args bytes filters admits path) {pg pg' : Page} (r : Reading m.fs m.lib m.maxOpen path bytes js (.ok pg))
    (g' : Setting m' o' args' bytes' filters' admits' path') (r' : Reading m'.fs m'.lib m'.maxOpen path' bytes' js' (.ok pg'))
    (hs : ¬ Command.budget.Short filters admits (meanings js)) (hs' : ¬ Command.budget.Short filters' admits' (meanings js'))
    (h : SameSums ((meanings js).flatMap (Meant.filed filters admits)) ((meanings js').flatMap (Meant.filed filters' admits')))
    (hc : OneCommodity c ((meanings js).flatMap (Meant.filed filters admits))) (hc' : OneCommodity c ((meanings js').flatMap (Meant.filed filters' admits'))) :
    ∃ W W' text, m.run o .budget args = ⟨W ++ text, .exit 0⟩ ∧ m'.run o' .budget args' = ⟨W' ++ text, .exit 0⟩ ∧ (c = [] → W = [] ∧ W' = []) := by
  obtain ⟨d1, d2, _⟩ := C99_parsed r
  obtain ⟨d1', d2', _⟩ := C99_parsed r'
  obtain ⟨xss, text, q1, q2, q3⟩ := Heard.budget (js := js) ⟨g, d1⟩ (d2 pg rfl) hs
  obtain ⟨xss', text', q1', q2', q3'⟩ := Heard.budget (js := js') ⟨g', d1'⟩ (d2' pg' rfl) hs'
  have p := filedAs_perm q1
  have p' := filedAs_perm q1'
  have s1 : OneCommodity c xss.flatten := fun e he => hc e (p.mem_iff.1 he)
  have s2 : OneCommodity c xss'.flatten := fun e he => hc' e (p'.mem_iff.1 he)
  have e := C145_reports ((SameSums.of_perm p).trans (h.trans (SameSums.of_perm p').symm)) s1 s2 (fun e he => filed_dates r' e (p'.mem_iff.1 he)) q2 q2'
  subst e
  refine ⟨_, _, text, q3, q3', fun h0 => ⟨budgetMixes_blank fun e he a ha => ?_, budgetMixes_blank fun e he a ha => ?_⟩⟩
  · obtain ⟨b, hb, hd⟩ := s1 e (by simpa using he)
    rw [hb] at ha
    cases ha
    rw [hd, h0]
  · obtain ⟨b, hb, hd⟩ := s2 e (by simpa using he)
    rw [hb] at ha
    cases ha
    rw [hd, h0]

end

set_option maxRecDepth 100000 in
/-- Two purchases, and one of the same amount; an envelope filled in two steps. -/
example :
    letI := asciiUnicode
    let a := machineWith (str "f") "~ 2020-01\n  Food  10\n\n2020-01-02 x\n  Expenses:Food  3\n  Assets\n\n2020-01-03 x\n  Expenses:Food  4\n  Assets\n"
    let b := machineWith (str "f") "~ 2020-01\n  Food  4\n  Food  6\n\n2020-01-31 y\n  Expenses:Food  7\n  Assets\n"
    a.run { file := str "f" } .budget [] = b.run { file := str "f" } .budget [] ∧
      str "Food                           |                -7.00 |                10.00 |                 3.00 |\n" <:+: (a.run { file := str "f" } .budget []).stdout := by
  decide +kernel

/-- What is filed there has the same sums. -/
example :
    let posting (a : String) (q : Int) : Posting := { accountPath := str a, amount := some ⟨[], BitVec.ofInt 64 q⟩ }
    let es : List Filed := [⟨⟨2020, 1, 2⟩, posting "Expenses:Food" 300, .expense⟩, ⟨⟨2020, 1, 3⟩, posting "Expenses:Food" 400, .expense⟩]
    let es' : List Filed := [⟨⟨2020, 1, 31⟩, posting "Expenses:Food" 700, .expense⟩]
    SameSums es es' ∧ OneCommodity [] es ∧ OneCommodity [] es' := by
  intro posting es es'
  have hcat : ∀ e ∈ es ++ es', e.category = some [str "Food"] ∧ e.type = .expense ∧ e.date.year = 2020 ∧ e.date.month = 1 := by decide +kernel
  have hone : ∀ e ∈ es ++ es', e.posting.amount.map Amount.commodity = some [] := by decide +kernel
  have hin : ∀ y m, (inMonth y m es = es ∧ inMonth y m es' = es') ∨ (inMonth y m es = [] ∧ inMonth y m es' = []) := fun y m => by
    by_cases h : y = 2020 ∧ m = 1
    · obtain ⟨rfl, rfl⟩ := h
      exact Or.inl ⟨by decide +kernel, by decide +kernel⟩
    · refine Or.inr ⟨List.filter_eq_nil_iff.2 fun e he => ?_, List.filter_eq_nil_iff.2 fun e he => ?_⟩
      · obtain ⟨_, _, h1, h2⟩ := hcat e (List.mem_append_left _ he)
        rw [h1, h2]
        simp only [decide_eq_true_eq]
        exact fun q => h ⟨q.1.symm, q.2.symm⟩
      · obtain ⟨_, _, h1, h2⟩ := hcat e (List.mem_append_right _ he)
        rw [h1, h2]
        simp only [decide_eq_true_eq]
        exact fun q => h ⟨q.1.symm, q.2.symm⟩
  have hn : es ≠ [] ∧ es' ≠ [] := ⟨by simp [es], by simp [es']⟩
  have hex : ∀ P : Filed → Prop, (∀ a ∈ es ++ es', ∀ b ∈ es ++ es', P a → P b) → ((∃ e ∈ es, P e) ↔ ∃ e ∈ es', P e) := by
    intro P hP
    obtain ⟨x, hx⟩ := List.exists_mem_of_ne_nil _ hn.1
    obtain ⟨y, hy⟩ := List.exists_mem_of_ne_nil _ hn.2
    exact ⟨fun ⟨e, he, h⟩ => ⟨y, hy, hP e (List.mem_append_left _ he) y (List.mem_append_right _ hy) h⟩,
      fun ⟨e, he, h⟩ => ⟨x, hx, hP e (List.mem_append_right _ he) x (List.mem_append_left _ hx) h⟩⟩
  have hspent : ∀ (pt : PostingType) (k : Str), worth (es.filter fun e => e.type = pt ∧ e.Under [k]) = worth (es'.filter fun e => e.type = pt ∧ e.Under [k]) := by
    intro pt k
    have hu : ∀ e ∈ es ++ es', (e.type = pt ∧ e.Under [k]) ↔ (pt = .expense ∧ k = str "Food") := fun e he => by
      obtain ⟨h1, h2, _⟩ := hcat e he
      rw [under_one, h1, h2]
      constructor
      · rintro ⟨rfl, ds, h⟩
        exact ⟨rfl, ((List.cons.inj (Option.some.inj h)).1).symm⟩
      · rintro ⟨rfl, rfl⟩
        exact ⟨rfl, [], rfl⟩
    by_cases h : pt = .expense ∧ k = str "Food"
    · rw [List.filter_eq_self.2 fun e he => decide_eq_true ((hu e (List.mem_append_left _ he)).2 h),
        List.filter_eq_self.2 fun e he => decide_eq_true ((hu e (List.mem_append_right _ he)).2 h)]
      decide +kernel
    · rw [List.filter_eq_nil_iff.2 fun e he q => h ((hu e (List.mem_append_left _ he)).1 (of_decide_eq_true q)),
        List.filter_eq_nil_iff.2 fun e he q => h ((hu e (List.mem_append_right _ he)).1 (of_decide_eq_true q))]
  refine ⟨⟨fun y m => ?_, fun y m => ?_, fun y m k => ?_, fun y m k => ?_, fun y m => ?_, fun y m k => ?_, fun y m k => ?_⟩, fun e he => ?_, fun e he => ?_⟩
  · rcases hin y m with ⟨h1, h2⟩ | ⟨h1, h2⟩ <;> rw [h1, h2]
    simp [hn.1, hn.2]
  · rcases hin y m with ⟨h1, h2⟩ | ⟨h1, h2⟩ <;> rw [h1, h2]
    exact hex _ fun a ha b hb => by rw [(hcat a ha).2.1, (hcat b hb).2.1]; exact id
  · rcases hin y m with ⟨h1, h2⟩ | ⟨h1, h2⟩ <;> rw [h1, h2]
    exact hex _ fun a ha b hb => by rw [(hcat a ha).1, (hcat b hb).1]; exact id
  · rcases hin y m with ⟨h1, h2⟩ | ⟨h1, h2⟩ <;> rw [h1, h2]
    exact hex _ fun a ha b hb => by rw [(hcat a ha).1, (hcat b hb).1]; exact id
  · rcases hin y m with ⟨h1, h2⟩ | ⟨h1, h2⟩ <;> rw [h1, h2]
    decide +kernel
  · rcases hin y m with ⟨h1, h2⟩ | ⟨h1, h2⟩ <;> rw [h1, h2]
    exact hspent _ _
  · rcases hin y m with ⟨h1, h2⟩ | ⟨h1, h2⟩ <;> rw [h1, h2]
    exact hspent _ _
  · obtain ⟨a, ha, hc⟩ := Option.map_eq_some_iff.1 (hone e (List.mem_append_left _ he))
    exact ⟨a, ha, hc⟩
  · obtain ⟨a, ha, hc⟩ := Option.map_eq_some_iff.1 (hone e (List.mem_append_right _ he))
    exact ⟨a, ha, hc⟩

end Gledger
