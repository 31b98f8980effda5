/-
C133: the names of budget categories are only names: under other names the same months, figures and warnings appear.
-/
import Verif.Props.RenamedTexts

namespace Gledger

/-! ### Specification: sections of a budget report -/

/-- A line of the table of a budget: a category and its figures. -/
abbrev BudgetRow := Str × List Str

/-- How it looks. -/
def BudgetRow.text (r : BudgetRow) : Str := leftAligned 30 r.1 ++ (r.2.flatMap fun f => str " | " ++ rightAligned 20 f) ++ str " |\n"

/-- The lines of a budget: for each month the summary, the table, and a blank line. -/
def budgetText (secs : List (Str × List BudgetRow)) : Str := secs.flatMap fun s => s.1 ++ s.2.flatMap BudgetRow.text ++ str "\n"

/-- The row under another name. -/
def BudgetRow.rename (f : Str → Str) (r : BudgetRow) : BudgetRow := (f r.1, r.2)

/-- The one is filed as the other, in a category with other names. -/
def Filed.Renamed (f : Str → Str) (e' e : Filed) : Prop :=
  e'.date = e.date ∧ e'.type = e.type ∧ e'.posting.amount = e.posting.amount ∧ e'.category = e.category.map (List.map f)

/-! ### Lists with renamed categories -/

section
variable {f : Str → Str} {es es' : List Filed}

theorem forall₂_filter {α β : Type} {R : α → β → Prop} {l : List α} {k : List β} (h : List.Forall₂ R l k) {p : α → Bool} {q : β → Bool}
    (hpq : ∀ a b, R a b → p a = q b) : List.Forall₂ R (l.filter p) (k.filter q) := by
  induction h with
  | nil => exact .nil
  | @cons a b _ _ h1 _ ih =>
    rw [List.filter_cons, List.filter_cons, hpq a b h1]
    split
    · exact .cons h1 ih
    · exact ih

theorem inMonth_renamed (h : List.Forall₂ (Filed.Renamed f) es' es) (y : Int) (m : Nat) : List.Forall₂ (Filed.Renamed f) (inMonth y m es') (inMonth y m es) :=
  forall₂_filter h fun a b hab => by rw [hab.1]

theorem worth_renamed (h : List.Forall₂ (Filed.Renamed f) es' es) : worth es' = worth es := by
  unfold worth
  congr 1
  induction h with
  | nil => rfl
  | cons h1 _ ih => rw [List.map_cons, List.map_cons, ih]; unfold Posting.value; rw [h1.2.2.1]

theorem first_renamed (h : List.Forall₂ (Filed.Renamed f) es' es) : firstCommodity (es'.map Filed.posting) = firstCommodity (es.map Filed.posting) := by
  unfold firstCommodity writtenCommodities
  congr 2
  induction h with
  | nil => rfl
  | cons h1 _ ih => rw [List.map_cons, List.map_cons, List.filterMap_cons, List.filterMap_cons, ih, h1.2.2.1]

theorem under_renamed (hf : Function.Injective f) {e e' : Filed} (h : e'.Renamed f e) (cs : List Str) : e'.Under (cs.map f) ↔ e.Under cs := by
  unfold Filed.Under
  rw [h.2.2.2]
  cases e.category with
  | none => simp
  | some ds => simp [map_prefix_map hf]

theorem category_renamed (hf : Function.Injective f) {e e' : Filed} (h : e'.Renamed f e) (cs : List Str) : e'.category = some (cs.map f) ↔ e.category = some cs := by
  rw [h.2.2.2]
  cases e.category with
  | none => simp
  | some ds => simp [hf.list_map.eq_iff]

theorem last_renamed (h : List.Forall₂ (Filed.Renamed f) es' es) :
    (es'.getLast?.bind fun e => e.posting.amount) = es.getLast?.bind fun e => e.posting.amount := by
  induction h with
  | nil => rfl
  | @cons a b l k h1 h2 ih =>
    cases h2 with
    | nil => simpa using h1.2.2.1
    | cons h3 h4 => rw [List.getLast?_cons_cons, List.getLast?_cons_cons, ih]

theorem categoryCommodity_renamed (hf : Function.Injective f) (h : List.Forall₂ (Filed.Renamed f) es' es) (cs : List Str) :
    categoryCommodity (cs.map f) es' = categoryCommodity cs es := by
  unfold categoryCommodity
  rw [last_renamed (forall₂_filter h fun a b hab => decide_eq_decide.2 (category_renamed hf hab cs))]

theorem figures_renamed (hf : Function.Injective f) (h : List.Forall₂ (Filed.Renamed f) es' es) (k : Str) : figures (f k) es' = figures k es := by
  unfold figures budgeted spent
  have e1 := worth_renamed (forall₂_filter (p := fun e => decide (e.type = .envelope ∧ e.Under ([k].map f))) (q := fun e => decide (e.type = .envelope ∧ e.Under [k]))
    h fun a b hab => decide_eq_decide.2 (by rw [hab.2.1, under_renamed hf hab]))
  have e2 := worth_renamed (forall₂_filter (p := fun e => decide (e.type = .expense ∧ e.Under ([k].map f))) (q := fun e => decide (e.type = .expense ∧ e.Under [k]))
    h fun a b hab => decide_eq_decide.2 (by rw [hab.2.1, under_renamed hf hab]))
  have e3 := categoryCommodity_renamed hf h [k]
  rw [List.map_cons, List.map_nil] at e1 e2 e3
  rw [e1, e2, e3]

theorem incomeOf_renamed (h : List.Forall₂ (Filed.Renamed f) es' es) : incomeOf es' = incomeOf es := by
  have k := forall₂_filter (p := fun e => decide (e.type = .income)) (q := fun e => decide (e.type = .income)) h fun a b hab => by rw [hab.2.1]
  unfold incomeOf earned
  rw [first_renamed k, worth_renamed k]

theorem pathsUp_map (cs : List Str) : pathsUp (cs.map f) = (pathsUp cs).map (List.map f) := by
  unfold pathsUp
  rw [List.map_reverse]
  congr 1
  induction cs with
  | nil => rfl
  | cons c cs ih => simp [ih, Function.comp_def]

theorem budgetMix_renamed (hf : Function.Injective f) (h : List.Forall₂ (Filed.Renamed f) es' es) {e e' : Filed} (he : e'.Renamed f e) :
    budgetMix es' e' = budgetMix es e := by
  have h1 : List.Forall₂ (Filed.Renamed f) (es' ++ [e']) (es ++ [e]) := List.rel_append h (.cons he .nil)
  have i1 : ∀ {l l'}, List.Forall₂ (Filed.Renamed f) l' l → incomeCommodity l' = incomeCommodity l := fun h => by
    unfold incomeCommodity
    exact first_renamed (forall₂_filter h fun a b hab => by rw [hab.2.1])
  have hn : ∀ {a b : Filed}, a.Renamed f b → (a.category = none ↔ b.category = none) := fun hab => by rw [hab.2.2.2]; simp
  have i2 : ∀ {l l'}, List.Forall₂ (Filed.Renamed f) l' l → poolCommodity l' = poolCommodity l := fun h => by
    unfold poolCommodity
    exact first_renamed (forall₂_filter h fun a b hab => decide_eq_decide.2 (by rw [hab.2.1, ne_eq, ne_eq, hn hab]))
  have i3 : ∀ {l l'}, List.Forall₂ (Filed.Renamed f) l' l → spendingCommodity l' = spendingCommodity l := fun h => by
    unfold spendingCommodity
    exact first_renamed (forall₂_filter h fun a b hab => decide_eq_decide.2 (by rw [ne_eq, ne_eq, hn hab]))
  unfold budgetMix
  rw [he.2.1, he.2.2.1, he.2.2.2]
  cases e.posting.amount with
  | none => rfl
  | some a =>
    dsimp only
    cases e.type with
    | income => simp only [i1 h1, i2 h1]
    | envelope =>
      cases e.category with
      | none => simp only [Option.map_none, i2 h]
      | some cs =>
        simp only [Option.map_some, pathsUp_map, ← List.map_drop, List.flatMap_map, List.map_eq_nil_iff, i2 h1, categoryCommodity_renamed hf h]
    | expense =>
      cases e.category with
      | none => simp only [Option.map_none, i2 h]
      | some cs =>
        simp only [Option.map_some, pathsUp_map, ← List.map_drop, List.flatMap_map, List.map_eq_nil_iff, i3 h1, categoryCommodity_renamed hf h]

theorem budgetMixes_renamed (hf : Function.Injective f) (h : List.Forall₂ (Filed.Renamed f) es' es) {b b' : List Filed} (hb : List.Forall₂ (Filed.Renamed f) b' b) :
    budgetMixes b' es' = budgetMixes b es := by
  induction h generalizing b b' with
  | nil => rfl
  | @cons e' e _ _ h1 _ ih =>
    rw [budgetMixes, budgetMixes, ih (List.rel_append hb (.cons h1 .nil)), h1.1, budgetMix_renamed hf (inMonth_renamed hb _ _) h1]

end

/-! ### The claim -/

theorem flatMap_sections {α : Type} (months : List α) (g : α → Str × List BudgetRow) :
    budgetText (months.map g) = months.flatMap fun m => (g m).1 ++ (g m).2.flatMap BudgetRow.text ++ str "\n" := by
  unfold budgetText
  rw [List.flatMap_map]

theorem rows_text (es : List Filed) (ks : List Str) : (ks.map fun k => ((k, figures k es) : BudgetRow)).flatMap BudgetRow.text = ks.flatMap fun k => categoryLine k es := by
  rw [List.flatMap_map]
  rfl

/-- Two budgets made of the same, in categories with other names: the same months with the same summaries, and in each the same categories with the same
figures, under the other names, in alphabetical order. -/
theorem C133_reports {f : Str → Str} (hf : Function.Injective f) {es es' : List Filed} (h : List.Forall₂ (Filed.Renamed f) es' es)
    (hr : ∀ e ∈ es, e.date.Real) {text text' : Str} (R : BudgetReport es text) (R' : BudgetReport es' text') :
    ∃ secs : List (Str × List BudgetRow × List BudgetRow),
      (∀ s ∈ secs, (∃ month income, s.1 = summary month income) ∧ s.2.2.Perm (s.2.1.map (BudgetRow.rename f)) ∧
        (s.2.1.map Prod.fst).Pairwise StrLt ∧ (s.2.2.map Prod.fst).Pairwise StrLt ∧
        ((∀ a b, StrLt a b → StrLt (f a) (f b)) → s.2.2 = s.2.1.map (BudgetRow.rename f))) ∧
      text = budgetText (secs.map fun s => (s.1, s.2.1)) ∧ text' = budgetText (secs.map fun s => (s.1, s.2.2)) := by
  have hr' : ∀ e ∈ es', e.date.Real := fun e he => by
    obtain ⟨b, hb, hab⟩ := forall₂_mem_left h he
    rw [hab.1]
    exact hr b hb
  have hin : ∀ y m, inMonth y m es' = [] ↔ inMonth y m es = [] := fun y m => by
    have := (inMonth_renamed h y m).length_eq
    rw [← List.length_eq_zero_iff, ← List.length_eq_zero_iff, this]
  obtain ⟨ms, ns, n1, o1, c1, k1, e1⟩ := R
  have R2 := R'
  obtain ⟨ms', ns', n2, o2, c2, k2, e2⟩ := R2
  have he2 : text' = ms.flatMap fun m => summary m (incomeOf (inMonth m.year m.month es')) ++
      ((ns' m).flatMap fun k => categoryLine k (inMonth m.year m.month es')) ++ str "\n" := by
    refine budgetReport_unique hr' R' ⟨ms, ns', n1, o1, fun m => ?_, fun m hm => k2 m ?_, rfl⟩
    · rw [c1, ne_eq, ne_eq, hin]
    · rw [c2, ne_eq, hin]
      exact (c1 m).1 hm
  have hk' : ∀ m ∈ ms, (ns' m).Pairwise StrLt ∧ ∀ k, k ∈ ns' m ↔ k ∈ (ns m).map f := by
    intro m hm
    have hm' : m ∈ ms' := by
      rw [c2, ne_eq, hin]
      exact (c1 m).1 hm
    refine ⟨(k2 m hm').1, fun k => ?_⟩
    rw [(k2 m hm').2, List.mem_map]
    have hl := inMonth_renamed h m.year m.month
    constructor
    · rintro ⟨e, he, ds, hd⟩
      obtain ⟨b, hb, hab⟩ := forall₂_mem_left hl he
      rw [hab.2.2.2] at hd
      cases hc : b.category with
      | none => rw [hc] at hd; cases hd
      | some cs =>
        rw [hc, Option.map_some, Option.some.injEq] at hd
        cases cs with
        | nil => cases hd
        | cons c cs =>
          rw [List.map_cons, List.cons.injEq] at hd
          exact ⟨c, ((k1 m hm).2 c).2 ⟨b, hb, cs, hc⟩, hd.1⟩
    · rintro ⟨c, hc, rfl⟩
      obtain ⟨b, hb, cs, hbc⟩ := ((k1 m hm).2 c).1 hc
      obtain ⟨e, he, hab⟩ := forall₂_mem_left hl.flip hb
      exact ⟨e, he, cs.map f, by rw [hab.2.2.2, hbc]; rfl⟩
  refine ⟨ms.map fun m => (summary m (incomeOf (inMonth m.year m.month es)), (ns m).map fun k => (k, figures k (inMonth m.year m.month es)),
    (ns' m).map fun k => (k, figures k (inMonth m.year m.month es'))), ?_, ?_, ?_⟩
  · intro s hs
    obtain ⟨m, hm, rfl⟩ := List.mem_map.1 hs
    have hl := inMonth_renamed h m.year m.month
    have hnd : ∀ {l : List Str}, l.Pairwise StrLt → l.Nodup := fun hl => hl.imp fun {a b} hab e => by
      subst e
      exact StrLt.irrefl a hab
    have hfig : ((ns m).map f).map (fun k => ((k, figures k (inMonth m.year m.month es')) : BudgetRow)) =
        ((ns m).map fun k => ((k, figures k (inMonth m.year m.month es)) : BudgetRow)).map (BudgetRow.rename f) := by
      rw [List.map_map, List.map_map]
      exact List.map_congr_left fun k _ => by simp only [Function.comp, BudgetRow.rename, figures_renamed hf hl]
    refine ⟨⟨m, _, rfl⟩, ?_, ?_, ?_, ?_⟩
    · rw [← hfig]
      refine List.Perm.map _ ((List.perm_ext_iff_of_nodup (hnd (hk' m hm).1) ?_).2 (hk' m hm).2)
      exact (List.nodup_map_iff hf).2 (hnd (k1 m hm).1)
    · simpa [List.map_map, Function.comp_def] using (k1 m hm).1
    · simpa [List.map_map, Function.comp_def] using (hk' m hm).1
    · intro hmono
      rw [← hfig, pairwise_unique StrLt.irrefl (fun _ _ _ => StrLt.trans) (hk' m hm).1 (List.pairwise_map.2 ((k1 m hm).1.imp fun hab => hmono _ _ hab)) (hk' m hm).2]
  · rw [e1, List.map_map, flatMap_sections]
    exact flatMap_congr_mem fun m _ => by simp only [Function.comp, rows_text]
  · rw [he2, List.map_map, flatMap_sections]
    exact flatMap_congr_mem fun m _ => by simp only [Function.comp, rows_text, incomeOf_renamed (inMonth_renamed h m.year m.month)]

section
variable [Unicode] {m m' : Machine} {o o' : Options} {args args' : List Str} {bytes bytes' : List UInt8} {js js' : List (Meant × Str)}
  {filters : List Filter} {admits admits' : Date → Bool} {path path' : Str}

omit [Unicode] in
theorem filedAs_whole {xss : List (List Filed)} {ms : List Meant} (h : List.Forall₂ (Meant.FiledAs [] admits) xss ms) :
    xss.flatten = ms.flatMap (Meant.filed [] admits) := by
  induction h with
  | nil => rfl
  | @cons xs x _ _ h1 _ ih =>
    rw [List.flatten_cons, List.flatMap_cons, ih]
    congr 1
    cases x with
    | transaction t => exact h1.2 (Or.inl rfl)
    | budget d ps => exact h1

theorem filed_dates {lib : Err → Str} {out : Except Report Page} (h : Reading m.fs lib m.maxOpen path bytes js out) :
    ∀ e ∈ (meanings js).flatMap (Meant.filed filters admits), e.date.Real := by
  intro e he
  obtain ⟨x, hx, he⟩ := List.mem_flatMap.1 he
  obtain ⟨⟨y, f⟩, hy, rfl⟩ := List.mem_map.1 hx
  cases y with
  | transaction t =>
    have hs := read_transaction h hy
    obtain ⟨p, _, he⟩ := List.mem_filterMap.1 he
    have e1 : e.date = t.date := by
      split at he
      · cases he; rfl
      · split at he
        · cases he; rfl
        · cases he
    rw [e1]
    exact hs.1
  | budget d ps =>
    obtain ⟨p, _, rfl⟩ := List.mem_map.1 he
    exact (read_budget h hy).1

/-- Two runs of `budget`, on whatever journals, over whatever days, that are about the same in categories with other names: the same warnings, the same months
with the same summaries, and in each the same categories with the same figures, under the other names, in alphabetical order. -/
theorem C133_runs {f : Str → Str} (hf : Function.Injective f) (g : Setting m o args bytes [] admits path) {pg pg' : Page}
    (r : Reading m.fs m.lib m.maxOpen path bytes js (.ok pg)) (hs : ¬ Command.budget.Short [] admits (meanings js))
    (g' : Setting m' o' args' bytes' [] admits' path') (r' : Reading m'.fs m'.lib m'.maxOpen path' bytes' js' (.ok pg'))
    (hs' : ¬ Command.budget.Short [] admits' (meanings js'))
    (h : List.Forall₂ (Filed.Renamed f) ((meanings js').flatMap (Meant.filed [] admits')) ((meanings js).flatMap (Meant.filed [] admits))) :
    ∃ (W : Str) (secs : List (Str × List BudgetRow × List BudgetRow)),
      W = budgetMixes [] ((meanings js).flatMap (Meant.filed [] admits)) ∧
      (∀ s ∈ secs, (∃ month income, s.1 = summary month income) ∧ s.2.2.Perm (s.2.1.map (BudgetRow.rename f)) ∧
        (s.2.1.map Prod.fst).Pairwise StrLt ∧ (s.2.2.map Prod.fst).Pairwise StrLt ∧
        ((∀ a b, StrLt a b → StrLt (f a) (f b)) → s.2.2 = s.2.1.map (BudgetRow.rename f))) ∧
      m.run o .budget args = ⟨W ++ budgetText (secs.map fun s => (s.1, s.2.1)), .exit 0⟩ ∧
      m'.run o' .budget args' = ⟨W ++ budgetText (secs.map fun s => (s.1, s.2.2)), .exit 0⟩ := by
  obtain ⟨d1, d2, _⟩ := C99_parsed r
  obtain ⟨xss, text, q1, q2, q3⟩ := Heard.budget (js := js) ⟨g, d1⟩ (d2 pg rfl) hs
  obtain ⟨d1', d2', _⟩ := C99_parsed r'
  obtain ⟨xss', text', q1', q2', q3'⟩ := Heard.budget (js := js') ⟨g', d1'⟩ (d2' pg' rfl) hs'
  rw [filedAs_whole q1] at q2 q3
  rw [filedAs_whole q1'] at q2' q3'
  obtain ⟨secs, e1, e2, e3⟩ := C133_reports hf h (filed_dates r) q2 q2'
  refine ⟨_, secs, rfl, e1, by rw [q3, e2], ?_⟩
  rw [q3', e3, budgetMixes_renamed hf h .nil]

end

set_option maxRecDepth 100000 in
/-- With `Zoo` for `Food`: the same warnings and figures, and the lines change places. -/
example :
    letI := asciiUnicode
    let a := machineWith (str "f") "~ 2020-01\n  Food  $10\n  Rent:x  $20\n\n2020-01-02 x\n  Expenses:Food  $3\n  Assets\n\n2020-01-03 y\n  Income:Job  £-5\n  Assets\n"
    let b := machineWith (str "f") "~ 2020-01\n  Zoo  $10\n  Rent:x  $20\n\n2020-01-02 x\n  Expenses:Zoo  $3\n  Assets\n\n2020-01-03 y\n  Income:Job  £-5\n  Assets\n"
    let w := str "unhandled addition of unmatched commodities: '' and '$'\nunhandled subtraction of unmatched commodities: '$' and '£'\n"
    let s := summary ⟨2020, 1, 1⟩ ⟨str "£", 500#64⟩
    let food : BudgetRow := (str "Food", [str "-3.00", str "10.00", str "$7.00"])
    let rent : BudgetRow := (str "Rent", [str "0.00", str "20.00", str "20.00"])
    (a.run { file := str "f" } .budget []).stdout = w ++ budgetText [(s, [food, rent])] ∧
      (b.run { file := str "f" } .budget []).stdout = w ++ budgetText [(s, [rent, food.rename (Equiv.swap (str "Food") (str "Zoo"))])] := by
  decide +kernel

/-- What is filed there. -/
example :
    let f : Str → Str := Equiv.swap (str "Food") (str "Zoo")
    let posting (a : String) (c : String) (q : Int) : Posting := { accountPath := str a, amount := some ⟨str c, BitVec.ofInt 64 q⟩ }
    Function.Injective f ∧ List.Forall₂ (Filed.Renamed f)
      [⟨⟨2020, 1, 1⟩, posting "Zoo" "$" 1000, .envelope⟩, ⟨⟨2020, 1, 2⟩, posting "Expenses:Zoo" "$" 300, .expense⟩, ⟨⟨2020, 1, 3⟩, posting "Income:Job" "£" (-500), .income⟩]
      [⟨⟨2020, 1, 1⟩, posting "Food" "$" 1000, .envelope⟩, ⟨⟨2020, 1, 2⟩, posting "Expenses:Food" "$" 300, .expense⟩, ⟨⟨2020, 1, 3⟩, posting "Income:Job" "£" (-500), .income⟩] := by
  refine ⟨Equiv.injective _, ?_⟩
  refine .cons ⟨rfl, rfl, rfl, ?_⟩ (.cons ⟨rfl, rfl, rfl, ?_⟩ (.cons ⟨rfl, rfl, rfl, ?_⟩ .nil)) <;> decide +kernel

end Gledger
