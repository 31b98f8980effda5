/-
C149: the balances for the parts of the arguments add up.
-/
import Verif.Props.SumsOnly
import Verif.Props.Adding
import Verif.Props.BudgetParts
import Verif.Props.AlikeToo

namespace Gledger

/-- No posting of these transactions is asked for by both. -/
def NoneTwice (F G : List Filter) (ts : List Transaction) : Prop := ∀ t ∈ ts, ∀ p ∈ t.postings, ¬ (p ∈ selection F t ∧ p ∈ selection G t)

theorem filter_or_perm {α : Type} (f g : α → Bool) (l : List α) (h : ∀ x ∈ l, ¬ (f x = true ∧ g x = true)) : (l.filter fun x => f x || g x).Perm (l.filter f ++ l.filter g) := by
  induction l with
  | nil => exact List.Perm.nil
  | cons x l ih =>
    have ih := ih fun y hy => h y (by simp [hy])
    have hx := h x (by simp)
    simp only [List.filter_cons]
    by_cases hf : f x = true <;> by_cases hg : g x = true
    · exact (hx ⟨hf, hg⟩).elim
    · simpa [hf, hg] using ih.cons x
    · simp only [hf, hg, Bool.or_true, if_true]
      exact (ih.cons x).trans List.perm_middle.symm
    · simpa [hf, hg] using ih

/-- Two lists of filters select what either of them selects. -/
theorem selection_two {F G : List Filter} (hF : F ≠ []) (hG : G ≠ []) {t : Transaction} (h : ∀ p ∈ t.postings, ¬ (p ∈ selection F t ∧ p ∈ selection G t)) :
    (selection (F ++ G) t).Perm (selection F t ++ selection G t) := by
  have hw : WholeSelected (F ++ G) t ↔ WholeSelected F t ∨ WholeSelected G t := by
    unfold WholeSelected
    simp only [List.append_eq_nil_iff, hF, hG, false_and, false_or, List.mem_append]
    constructor
    · rintro ⟨f, hf | hf, h⟩
      · exact Or.inl ⟨f, hf, h⟩
      · exact Or.inr ⟨f, hf, h⟩
    · rintro (⟨f, hf, h⟩ | ⟨f, hf, h⟩)
      · exact ⟨f, Or.inl hf, h⟩
      · exact ⟨f, Or.inr hf, h⟩
  have hsub : ∀ (K : List Filter) (p : Posting), p ∈ selection K t → p ∈ t.postings := fun K p hp => by
    unfold selection at hp
    split at hp
    · exact hp
    · exact List.mem_of_mem_filter hp
  have hall : ∀ K : List Filter, WholeSelected K t → selection K t = t.postings := fun K hK => if_pos hK
  by_cases h1 : WholeSelected F t
  · have e : selection G t = [] := List.eq_nil_iff_forall_not_mem.2 fun p hp => h p (hsub G p hp) ⟨by rw [hall F h1]; exact hsub G p hp, hp⟩
    rw [e, List.append_nil, hall F h1, hall _ (hw.2 (Or.inl h1))]
  · by_cases h2 : WholeSelected G t
    · have e : selection F t = [] := List.eq_nil_iff_forall_not_mem.2 fun p hp => h p (hsub F p hp) ⟨hp, by rw [hall G h2]; exact hsub F p hp⟩
      rw [e, List.nil_append, hall G h2, hall _ (hw.2 (Or.inr h2))]
    · have e0 : ∀ K : List Filter, ¬ WholeSelected K t → selection K t = t.postings.filter fun p => ∃ f ∈ K, f.Takes p := fun K hK => if_neg hK
      rw [e0 F h1, e0 G h2] at h ⊢
      rw [e0 (F ++ G) (fun q => (hw.1 q).elim h1 h2)]
      have e : (t.postings.filter fun p => decide (∃ f ∈ F ++ G, f.Takes p)) = t.postings.filter fun p => decide (∃ f ∈ F, f.Takes p) || decide (∃ f ∈ G, f.Takes p) := by
        refine List.filter_congr fun p _ => ?_
        rw [Bool.eq_iff_iff]
        simp only [List.mem_append, decide_eq_true_eq, Bool.or_eq_true]
        constructor
        · rintro ⟨f, hf | hf, h⟩
          · exact Or.inl ⟨f, hf, h⟩
          · exact Or.inr ⟨f, hf, h⟩
        · rintro (⟨f, hf, h⟩ | ⟨f, hf, h⟩)
          · exact ⟨f, Or.inl hf, h⟩
          · exact ⟨f, Or.inr hf, h⟩
      rw [e]
      exact filter_or_perm _ _ _ fun p hp q => h p hp ⟨List.mem_filter.2 ⟨hp, q.1⟩, List.mem_filter.2 ⟨hp, q.2⟩⟩

theorem selections_two {F G : List Filter} (hF : F ≠ []) (hG : G ≠ []) {ts : List Transaction} (h : NoneTwice F G ts) :
    (ts.flatMap (selection (F ++ G))).Perm (ts.flatMap (selection F) ++ ts.flatMap (selection G)) := by
  induction ts with
  | nil => exact List.Perm.nil
  | cons t ts ih =>
    rw [List.flatMap_cons, List.flatMap_cons, List.flatMap_cons]
    refine ((selection_two hF hG (h t (by simp))).append (ih fun u hu => h u (by simp [hu]))).trans ?_
    rw [List.append_assoc, List.append_assoc]
    refine List.Perm.append_left _ ?_
    rw [← List.append_assoc, ← List.append_assoc]
    exact List.Perm.append_right _ List.perm_append_comm

/-- The balances of postings `qs` add up from those of `ps` and `ps'`: the same accounts, and for each the sum. -/
structure BalancesAdd (qs ps ps' : List Posting) : Prop where
  accounts : ∀ cs : List Str, (∃ p ∈ qs, cs <+: p.components) ↔ (∃ p ∈ ps, cs <+: p.components) ∨ ∃ p ∈ ps', cs <+: p.components
  sums : ∀ cs : List Str, valueOf (below cs qs) = valueOf (below cs ps) + valueOf (below cs ps')

theorem BalancesAdd.of_perm {qs ps ps' : List Posting} (h : qs.Perm (ps ++ ps')) : BalancesAdd qs ps ps' := by
  refine ⟨fun cs => ?_, fun cs => ?_⟩
  · simp only [h.mem_iff, List.mem_append]
    constructor
    · rintro ⟨p, hp | hp, q⟩
      · exact Or.inl ⟨p, hp, q⟩
      · exact Or.inr ⟨p, hp, q⟩
    · rintro (⟨p, hp, q⟩ | ⟨p, hp, q⟩)
      · exact ⟨p, Or.inl hp, q⟩
      · exact ⟨p, Or.inr hp, q⟩
  · rw [below_perm h cs, below_append, valueOf_append]

section
variable [Unicode] {m m₁ m₂ : Machine} {o o₁ o₂ : Options} {args args₁ args₂ : List Str} {bytes : List UInt8} {js : List (Meant × Str)}
  {F G : List Filter} {admits : Date → Bool} {path : Str}

/-- Three runs of `balance` on the same journal for the same days, with arguments, with some of them and with the others (none of which is short of an amount): if no posting is asked for by both, the accounts of
the first report are those of the other two together, with the sums of their balances. -/
theorem C149_balance (hF : F ≠ []) (hG : G ≠ [])
    (g : Setting m o args bytes (F ++ G) admits path) (g₁ : Setting m₁ o₁ args₁ bytes F admits path) (g₂ : Setting m₂ o₂ args₂ bytes G admits path) {pg pg₁ pg₂ : Page}
    (r : Reading m.fs m.lib m.maxOpen path bytes js (.ok pg)) (r₁ : Reading m₁.fs m₁.lib m₁.maxOpen path bytes js (.ok pg₁)) (r₂ : Reading m₂.fs m₂.lib m₂.maxOpen path bytes js (.ok pg₂))
    (hs₁ : ¬ Command.balance.Short F admits (meanings js)) (hs₂ : ¬ Command.balance.Short G admits (meanings js))
    (h : NoneTwice F G (asked admits (meanings js))) :
    ∃ (W W₁ W₂ text text₁ text₂ : Str) (qs ps ps' : List Posting), m.run o .balance args = ⟨W ++ text, .exit 0⟩ ∧ m₁.run o₁ .balance args₁ = ⟨W₁ ++ text₁, .exit 0⟩ ∧
      m₂.run o₂ .balance args₂ = ⟨W₂ ++ text₂, .exit 0⟩ ∧ BalanceReport o.showZero o.flatten o.collapse qs text ∧ BalanceReport o₁.showZero o₁.flatten o₁.collapse ps text₁ ∧
      BalanceReport o₂.showZero o₂.flatten o₂.collapse ps' text₂ ∧ BalancesAdd qs ps ps' := by
  obtain ⟨d1, d2, _⟩ := C99_parsed r
  obtain ⟨d1₁, d2₁, _⟩ := C99_parsed r₁
  obtain ⟨d1₂, d2₂, _⟩ := C99_parsed r₂
  have hs : ¬ Command.balance.Short (F ++ G) admits (meanings js) := by
    rintro ⟨p, hp, ha⟩
    rcases List.mem_append.1 ((selections_two hF hG h).mem_iff.1 hp) with hp | hp
    · exact hs₁ ⟨p, hp, ha⟩
    · exact hs₂ ⟨p, hp, ha⟩
  obtain ⟨qss, text, q1, q2, q3⟩ := Heard.balance (js := js) ⟨g, d1⟩ (d2 pg rfl) hs
  obtain ⟨pss, text₁, a1, a2, a3⟩ := Heard.balance (js := js) ⟨g₁, d1₁⟩ (d2₁ pg₁ rfl) hs₁
  obtain ⟨pss', text₂, b1, b2, b3⟩ := Heard.balance (js := js) ⟨g₂, d1₂⟩ (d2₂ pg₂ rfl) hs₂
  refine ⟨_, _, _, text, text₁, text₂, qss.flatten, pss.flatten, pss'.flatten, q3, a3, b3, q2, a2, b2, BalancesAdd.of_perm ?_⟩
  exact (taken_perm q1).trans ((selections_two hF hG h).trans ((taken_perm a1).symm.append (taken_perm b1).symm))

omit [Unicode] in
/-- What is filed for two lists of filters: the same budget entries for each, and the rest shared out. -/
theorem filed_two (hF : F ≠ []) (hG : G ≠ []) (ms : List Meant) (h : NoneTwice F G (asked admits ms)) :
    ∃ E A B : List Filed, (∀ e ∈ E, e.type = .envelope) ∧ (∀ e ∈ A, e.type ≠ .envelope) ∧ (∀ e ∈ B, e.type ≠ .envelope) ∧
      (ms.flatMap (Meant.filed (F ++ G) admits)).Perm (E ++ (A ++ B)) ∧ (ms.flatMap (Meant.filed F admits)).Perm (E ++ A) ∧ (ms.flatMap (Meant.filed G admits)).Perm (E ++ B) := by
  induction ms with
  | nil => exact ⟨[], [], [], by simp, by simp, by simp, List.Perm.nil, List.Perm.nil, List.Perm.nil⟩
  | cons x ms ih =>
    cases x with
    | budget d ps =>
      obtain ⟨E, A, B, q1, q2, q3, q4, q5, q6⟩ := ih (by simpa [asked, transactionsOf] using h)
      refine ⟨(Meant.budget d ps).filed [] admits ++ E, A, B, ?_, q2, q3, ?_, ?_, ?_⟩
      · intro e he
        rcases List.mem_append.1 he with he | he
        · obtain ⟨p, _, rfl⟩ := List.mem_map.1 he
          rfl
        · exact q1 e he
      all_goals
        rw [List.flatMap_cons, List.append_assoc]
        exact List.Perm.append_left _ (by assumption)
    | transaction t =>
      have hrest : NoneTwice F G (asked admits ms) := by
        intro u hu
        refine h u ?_
        unfold asked transactionsOf at hu ⊢
        rw [List.filterMap_cons]
        obtain ⟨u1, u2⟩ := List.mem_filter.1 hu
        exact List.mem_filter.2 ⟨List.mem_cons_of_mem _ u1, u2⟩
      obtain ⟨E, A, B, q1, q2, q3, q4, q5, q6⟩ := ih hrest
      have hty : ∀ K : List Filter, ∀ i ∈ (Meant.transaction t).filed K admits, i.type ≠ .envelope := by
        intro K i hi
        obtain ⟨p, _, hp⟩ := List.mem_filterMap.1 hi
        split at hp
        · cases hp; exact PostingType.noConfusion
        · split at hp
          · cases hp; exact PostingType.noConfusion
          · cases hp
      have hsp : ((Meant.transaction t).filed (F ++ G) admits).Perm ((Meant.transaction t).filed F admits ++ (Meant.transaction t).filed G admits) := by
        simp only [Meant.filed]
        by_cases ha : admits t.date = true
        · rw [if_pos ha, if_pos ha, if_pos ha, ← List.filterMap_append]
          refine List.Perm.filterMap _ (selection_two hF hG (h t ?_))
          unfold asked transactionsOf
          rw [List.filterMap_cons]
          exact List.mem_filter.2 ⟨by simp, by simpa using ha⟩
        · rw [if_neg ha, if_neg ha, if_neg ha]
          exact List.Perm.nil
      refine ⟨E, (Meant.transaction t).filed F admits ++ A, (Meant.transaction t).filed G admits ++ B, q1, ?_, ?_, ?_, ?_, ?_⟩
      · exact fun i hi => (List.mem_append.1 hi).elim (hty F i) (q2 i)
      · exact fun i hi => (List.mem_append.1 hi).elim (hty G i) (q3 i)
      all_goals
        rw [List.flatMap_cons, List.perm_iff_count]
        intro i
        have := List.perm_iff_count.1 hsp i
        have := List.perm_iff_count.1 q4 i
        have := List.perm_iff_count.1 q5 i
        have := List.perm_iff_count.1 q6 i
        simp only [List.count_append] at *
        omega

/-- The same for `budget`: incomes and spendings add up, and what is budgeted is shown by each. -/
theorem C149_budget (hF : F ≠ []) (hG : G ≠ [])
    (g : Setting m o args bytes (F ++ G) admits path) (g₁ : Setting m₁ o₁ args₁ bytes F admits path) (g₂ : Setting m₂ o₂ args₂ bytes G admits path) {pg pg₁ pg₂ : Page}
    (r : Reading m.fs m.lib m.maxOpen path bytes js (.ok pg)) (r₁ : Reading m₁.fs m₁.lib m₁.maxOpen path bytes js (.ok pg₁)) (r₂ : Reading m₂.fs m₂.lib m₂.maxOpen path bytes js (.ok pg₂))
    (hs₁ : ¬ Command.budget.Short F admits (meanings js)) (hs₂ : ¬ Command.budget.Short G admits (meanings js))
    (h : NoneTwice F G (asked admits (meanings js))) :
    ∃ (W W₁ W₂ text text₁ text₂ : Str) (xs xs₁ xs₂ : List MonthFigures), m.run o .budget args = ⟨W ++ text, .exit 0⟩ ∧ m₁.run o₁ .budget args₁ = ⟨W₁ ++ text₁, .exit 0⟩ ∧
      m₂.run o₂ .budget args₂ = ⟨W₂ ++ text₂, .exit 0⟩ ∧ ShowsFigures text xs ∧ ShowsFigures text₁ xs₁ ∧ ShowsFigures text₂ xs₂ ∧ ∀ d,
      (d ∈ xs.map MonthFigures.month ↔ d ∈ xs₁.map MonthFigures.month ∨ d ∈ xs₂.map MonthFigures.month) ∧
      incomeIn xs d = incomeIn xs₁ d + incomeIn xs₂ d ∧ ∀ k,
        ((∃ x ∈ xs, x.month = d ∧ k ∈ x.rows.map Prod.fst) ↔ (∃ x ∈ xs₁, x.month = d ∧ k ∈ x.rows.map Prod.fst) ∨ ∃ x ∈ xs₂, x.month = d ∧ k ∈ x.rows.map Prod.fst) ∧
        (rowIn xs d k).1 = (rowIn xs₁ d k).1 + (rowIn xs₂ d k).1 ∧ (rowIn xs d k).2.1 = (rowIn xs₁ d k).2.1 ∧ (rowIn xs d k).2.1 = (rowIn xs₂ d k).2.1 := by
  obtain ⟨d1, d2, _⟩ := C99_parsed r
  obtain ⟨d1₁, d2₁, _⟩ := C99_parsed r₁
  obtain ⟨d1₂, d2₂, _⟩ := C99_parsed r₂
  obtain ⟨E, A, B, q1, q2, q3, q4, q5, q6⟩ := filed_two hF hG (meanings js) h
  have hs : ¬ Command.budget.Short (F ++ G) admits (meanings js) := by
    rintro ⟨e, he, ha⟩
    rcases List.mem_append.1 (q4.mem_iff.1 he) with hp | hp
    · exact hs₁ ⟨e, q5.mem_iff.2 (List.mem_append_left _ hp), ha⟩
    · rcases List.mem_append.1 hp with hp | hp
      · exact hs₁ ⟨e, q5.mem_iff.2 (List.mem_append_right _ hp), ha⟩
      · exact hs₂ ⟨e, q6.mem_iff.2 (List.mem_append_right _ hp), ha⟩
  obtain ⟨qss, text, x1, x2, x3⟩ := Heard.budget (js := js) ⟨g, d1⟩ (d2 pg rfl) hs
  obtain ⟨pss, text₁, a1, a2, a3⟩ := Heard.budget (js := js) ⟨g₁, d1₁⟩ (d2₁ pg₁ rfl) hs₁
  obtain ⟨pss', text₂, b1, b2, b3⟩ := Heard.budget (js := js) ⟨g₂, d1₂⟩ (d2₂ pg₂ rfl) hs₂
  obtain ⟨xs, xs₁, xs₂, y1, y2, y3, y4⟩ := C143_shared q1 q2 q3 ((filedAs_perm x1).trans q4) ((filedAs_perm a1).trans q5) ((filedAs_perm b1).trans q6) x2 a2 b2
  exact ⟨_, _, _, text, text₁, text₂, xs, xs₁, xs₂, x3, a3, b3, y1, y2, y3, y4⟩

end

/-- A posting asked for by both counts once, so without `NoneTwice` the balances need not add up. -/
theorem C149_overlap_false :
    ¬ ∀ (F G : List Filter) (ts : List Transaction), F ≠ [] → G ≠ [] → BalancesAdd (ts.flatMap (selection (F ++ G))) (ts.flatMap (selection F)) (ts.flatMap (selection G)) := by
  intro h
  have := (h [wholeFilter] [wholeFilter] (transactionsOf wholeMeaning) (by simp) (by simp)).sums [str "Expenses"]
  exact absurd this (by decide +kernel)

/-! ### Witnesses -/

/-- Postings of accounts whose names end in "Bank". -/
def bankFilter : Filter := { regex := fun s => (str "Bank").isSuffixOf s, ftype := .accountName }

example : NoneTwice [wholeFilter] [bankFilter] (asked wholeDays wholeMeaning) := by
  unfold NoneTwice
  decide +kernel

example : (asked wholeDays wholeMeaning).flatMap (selection [wholeFilter]) ≠ [] ∧ (asked wholeDays wholeMeaning).flatMap (selection [bankFilter]) ≠ [] := by decide +kernel

set_option maxRecDepth 100000 in
/-- Two arguments, and one at a time. -/
example :
    letI := asciiUnicode
    wholeMachine.run wholeOptions .balance [str "Food", str "Bank"] =
      ⟨str "              £-2.50  Assets\n              £-2.50    Bank\n               £2.50  Expenses\n               £2.50    Food\n--------------------\n                0.00\n", .exit 0⟩ ∧
    wholeMachine.run wholeOptions .balance [str "Food"] =
      ⟨str "               £2.50  Expenses\n               £2.50    Food\n--------------------\n                2.50\n", .exit 0⟩ ∧
    wholeMachine.run wholeOptions .balance [str "Bank"] =
      ⟨str "              £-2.50  Assets\n              £-2.50    Bank\n--------------------\n               -2.50\n", .exit 0⟩ ∧
    wholeMachine.run wholeOptions .balance [str "Food", str "Food"] = wholeMachine.run wholeOptions .balance [str "Food"] := by
  decide +kernel

/-- The circumstances of runs with two arguments, and with each of them. -/
theorem wholeSettings :
    letI := asciiUnicode
    Setting wholeMachine wholeOptions [str "Food", str "Bank"] (journalText wholeJournal) ([wholeFilter] ++ [bankFilter]) wholeDays (str "f") ∧
    Setting wholeMachine wholeOptions [str "Food"] (journalText wholeJournal) [wholeFilter] wholeDays (str "f") ∧
    Setting wholeMachine wholeOptions [str "Bank"] (journalText wholeJournal) [bankFilter] wholeDays (str "f") ∧
    ∃ pg, Reading wholeMachine.fs wholeMachine.lib wholeMachine.maxOpen (str "f") (journalText wholeJournal) (wholeMeaning.map fun x => (x, str "f")) (.ok pg) := by
  let := asciiUnicode
  have g := wholeGiven
  have hf : IsFilterOf wholeMachine.engine (str "Food") wholeFilter := by
    have := g.filters
    cases this
    assumption
  have hb : IsFilterOf wholeMachine.engine (str "Bank") bankFilter := ⟨by decide, by decide, by rw [if_pos (by decide)]; rfl⟩
  exact ⟨⟨g.fair, g.file, g.text, .cons hf (.cons hb .nil), g.days⟩, g.toSetting, ⟨g.fair, g.file, g.text, .cons hb .nil, g.days⟩, C99_well_formed g⟩

/-- No amount is missing. -/
example : ∀ K ∈ [[wholeFilter], [bankFilter]], ¬ Command.balance.Short K wholeDays wholeMeaning ∧ ¬ Command.statistics.Short K wholeDays wholeMeaning := by
  have : ∀ K ∈ [[wholeFilter], [bankFilter]], ∀ p ∈ askedPostings K wholeDays wholeMeaning, p.amount ≠ none := by
    intro K hK
    simp only [List.mem_cons, List.not_mem_nil, or_false] at hK
    rcases hK with rfl | rfl <;> decide +kernel
  exact fun K hK => ⟨fun ⟨p, hp, h⟩ => this K hK p hp h, fun ⟨p, hp, h, _⟩ => this K hK p hp h⟩

end Gledger
