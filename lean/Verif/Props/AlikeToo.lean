/-
C129: lists, statistics and budgets that look alike show the same.
-/
import Verif.Props.Tables
import Verif.Props.HowLong

set_option maxRecDepth 100000

namespace Gledger

theorem incomeOf_legible {es : List Filed} (h : ∀ e ∈ es, e.posting.Clear) : LegibleCommodity (incomeOf es).commodity :=
  (clear_commodities h).1 _

theorem mem_inMonth {year : Int} {month : Nat} {es : List Filed} {e : Filed} (h : e ∈ inMonth year month es) : e ∈ es ∧ e.date.year = year ∧ e.date.month = month := by
  unfold inMonth at h
  rw [List.mem_filter, decide_eq_true_eq] at h
  exact h

theorem month_real {es : List Filed} (hl : ∀ e ∈ es, e.Legible) {m : Date} (h : m.day = 1 ∧ inMonth m.year m.month es ≠ []) :
    m.Real ∧ 0 ≤ m.year ∧ m.year ≤ 9999 := by
  obtain ⟨e, he⟩ := List.exists_mem_of_ne_nil _ h.2
  obtain ⟨h1, h2, h3⟩ := mem_inMonth he
  obtain ⟨r, r0, r1⟩ := (hl e h1).date
  rw [h2] at r0 r1
  refine ⟨⟨by omega, ?_⟩, r0, r1⟩
  rw [h.1, ← h2, ← h3]
  exact le_trans r.1 r.2

theorem budgets_same {es es' : List Filed} {text text' : Str} (b : BudgetReport es text) (b' : BudgetReport es' text') (hl : ∀ e ∈ es, e.Legible)
    (hl' : ∀ e ∈ es', e.Legible) {W W' : List Str} (hW : ∀ w ∈ W, '\n' ∉ w ∧ w.head? = some 'u') (hW' : ∀ w ∈ W', '\n' ∉ w ∧ w.head? = some 'u')
    (h : (W.map (· ++ ['\n'])).flatten ++ text = (W'.map (· ++ ['\n'])).flatten ++ text') : W = W' ∧ BudgetsAlike es es' := by
  obtain ⟨months, names, _, _, n3, n4, rfl⟩ := b
  obtain ⟨months', names', _, _, n3', n4', rfl⟩ := b'
  rw [month_lines, month_lines, ← List.flatten_append, ← List.flatten_append, ← List.map_append, ← List.map_append] at h
  have clearIn : ∀ {es : List Filed}, (∀ e ∈ es, e.Legible) → ∀ y m, ∀ e ∈ inMonth y m es, e.posting.Clear := fun hl y m e he => (hl e (mem_inMonth he).1).clear
  -- the lines of a month
  have fine : ∀ {es : List Filed} {months : List Date} {names : Date → List Str}, (∀ e ∈ es, e.Legible) →
      (∀ m, m ∈ months ↔ m.day = 1 ∧ inMonth m.year m.month es ≠ []) →
      (∀ m ∈ months, (names m).Pairwise StrLt ∧ ∀ k, k ∈ names m ↔ ∃ e ∈ inMonth m.year m.month es, ∃ ds, e.category = some (k :: ds)) →
      ∀ b ∈ months.map (monthBlock names es), (b.1.length = 12 ∧ ∀ l ∈ b.2, l ≠ []) ∧ (∀ l ∈ b.1 ++ (b.2 ++ [[]]), '\n' ∉ l) ∧
        ∃ c s r, b.1 = (c :: s) :: r ∧ (isDigit c = true ∨ c = '-') := by
    intro es months names hl n3 n4 b hb
    obtain ⟨m, hm, rfl⟩ := List.mem_map.1 hb
    have hr := month_real hl ((n3 m).1 hm)
    have hc := clearIn hl m.year m.month
    have one : ∀ l ∈ (monthBlock names es m).2, '\n' ∉ l ∧ l ≠ [] := by
      intro l hlm
      obtain ⟨k, hk, rfl⟩ := List.mem_map.1 hlm
      obtain ⟨e, he, ds, hd⟩ := ((n4 m hm).2 k).1 hk
      exact tableLine_oneLine (legible_category (hl e (mem_inMonth he).1) hd).1 ((clear_commodities hc).2 _)
    refine ⟨⟨rfl, fun l h => (one l h).2⟩, ?_, ?_⟩
    · intro l hlm
      rw [List.mem_append, List.mem_append, List.mem_singleton] at hlm
      rcases hlm with h | h | rfl
      · exact summaryLines_oneLine hr (incomeOf_legible hc) l h
      · exact (one l h).1
      · simp
    · have hf := format_digits hr.1 hr.2.1 hr.2.2
      have hn := format_length hr.1 hr.2.1 hr.2.2
      unfold monthBlock summaryLines
      cases he : m.format with
      | nil => rw [he] at hn; cases hn
      | cons c s => exact ⟨c, s ++ str " 00:00:00 +0000 UTC", _, rfl, hf c (by rw [he]; simp)⟩
  have f1 := fine hl n3 n4
  have f2 := fine hl' n3' n4'
  have lines : ∀ {bs : List (List Str × List Str)} {W : List Str}, (∀ w ∈ W, '\n' ∉ w ∧ w.head? = some 'u') →
      (∀ b ∈ bs, (b.1.length = 12 ∧ ∀ l ∈ b.2, l ≠ []) ∧ (∀ l ∈ b.1 ++ (b.2 ++ [[]]), '\n' ∉ l) ∧ ∃ c s r, b.1 = (c :: s) :: r ∧ (isDigit c = true ∨ c = '-')) →
      (∀ l ∈ W ++ bs.flatMap (fun b => b.1 ++ (b.2 ++ [[]])), '\n' ∉ l) ∧ ∀ l ∈ (bs.flatMap (fun b => b.1 ++ (b.2 ++ [[]]))).head?, ¬ l.head? = some 'u' := by
    intro bs W hW hb
    constructor
    · intro l hm
      rcases List.mem_append.1 hm with hm | hm
      · exact (hW l hm).1
      · obtain ⟨b, hbm, hm⟩ := List.mem_flatMap.1 hm
        exact (hb b hbm).2.1 l hm
    · cases bs with
      | nil => intro l hm; cases hm
      | cons b bs =>
        obtain ⟨_, _, c, s, r, e, hc⟩ := hb b (by simp)
        intro l hm
        rw [List.flatMap_cons, e, List.append_assoc, List.cons_append, List.head?_cons, Option.mem_def, Option.some.injEq] at hm
        subst hm
        rw [List.head?_cons, Option.some.injEq]
        rintro rfl
        rcases hc with hc | hc <;> revert hc <;> decide
  obtain ⟨l1, l2⟩ := lines hW f1
  obtain ⟨l1', l2'⟩ := lines hW' f2
  obtain ⟨w, h⟩ := span_inj (p := fun l : Str => l.head? = some 'u') (fun w hw => (hW w hw).2) (fun w hw => (hW' w hw).2) l2 l2' (ended_inj l1 l1' h)
  have h := blocks_inj (fun b hb => (f1 b hb).1) (fun b hb => (f2 b hb).1) h
  refine ⟨w, ?_⟩
  -- month by month
  have same : ∀ {m m' : Date}, m ∈ months → m' ∈ months' → monthBlock names es m = monthBlock names' es' m' → m = m' ∧
      (incomeOf (inMonth m.year m.month es)).LooksLike (incomeOf (inMonth m.year m.month es')) ∧ names m = names' m ∧
      ∀ k ∈ names m, figures k (inMonth m.year m.month es) = figures k (inMonth m.year m.month es') ∧
        categoryCommodity [k] (inMonth m.year m.month es) = categoryCommodity [k] (inMonth m.year m.month es') := by
    intro m m' hm hm' e
    unfold monthBlock at e
    rw [Prod.mk.injEq] at e
    obtain ⟨e1, e2⟩ := e
    have hr := month_real hl ((n3 m).1 hm)
    have hr' := month_real hl' ((n3' m').1 hm')
    obtain ⟨e3, e4⟩ := summaryLines_inj (incomeOf_legible (clearIn hl _ _)) (incomeOf_legible (clearIn hl' _ _)) e1
    have e5 := format_inj hr.1 hr.2.1 hr.2.2 hr'.1 hr'.2.1 hr'.2.2 e3
    subst e5
    refine ⟨rfl, e4, ?_⟩
    have k1 := (n4 m hm).2
    have k2 := (n4' m hm').2
    have c1 := clear_commodities (clearIn hl m.year m.month)
    have c2 := clear_commodities (clearIn hl' m.year m.month)
    have g1 : ∀ k ∈ names m, k.getLast? ≠ some ' ' := by
      intro k hk
      obtain ⟨e, he, ds, hd⟩ := (k1 k).1 hk
      exact (legible_category (hl e (mem_inMonth he).1) hd).2
    have g2 : ∀ k ∈ names' m, k.getLast? ≠ some ' ' := by
      intro k hk
      obtain ⟨e, he, ds, hd⟩ := (k2 k).1 hk
      exact (legible_category (hl' e (mem_inMonth he).1) hd).2
    generalize names m = ns at e2 g1
    generalize names' m = ns' at e2 g2
    clear h e1 l1 l2 l1' l2' f1 f2 k1 k2
    induction ns generalizing ns' with
    | nil =>
      cases ns' with
      | nil => exact ⟨rfl, by simp⟩
      | cons => cases e2
    | cons k ns ih =>
      cases ns' with
      | nil => cases e2
      | cons k' ns' =>
        rw [List.map_cons, List.map_cons, List.cons.injEq] at e2
        obtain ⟨e3, e2⟩ := e2
        obtain ⟨i1, i2⟩ := ih (fun k hk => g1 k (by simp [hk])) ns' e2 (fun k hk => g2 k (by simp [hk]))
        obtain ⟨rfl, q1, q2, q3, q4⟩ := tableLine_inj (g1 k (by simp)) (g2 k' (by simp)) (c1.2 _) (c2.2 _) e3
        refine ⟨by rw [i1], fun j hj => ?_⟩
        rcases List.mem_cons.1 hj with rfl | hj
        · simp only at q3 q4
          unfold figures
          exact ⟨by rw [q1, q2, q3, q4], q3⟩
        · exact i2 j hj
  have pairs : ∀ {ms ms' : List Date}, (∀ m ∈ ms, m ∈ months) → (∀ m ∈ ms', m ∈ months') → ms.map (monthBlock names es) = ms'.map (monthBlock names' es') →
      ms = ms' ∧ ∀ m ∈ ms, monthBlock names es m = monthBlock names' es' m := by
    intro ms
    induction ms with
    | nil =>
      intro ms' _ _ e
      cases ms' with
      | nil => exact ⟨rfl, by simp⟩
      | cons => cases e
    | cons m ms ih =>
      intro ms' a b e
      cases ms' with
      | nil => cases e
      | cons m' ms' =>
        rw [List.map_cons, List.map_cons, List.cons.injEq] at e
        obtain ⟨rfl, _⟩ := same (a m (by simp)) (b m' (by simp)) e.1
        obtain ⟨i1, i2⟩ := ih (fun m hm => a m (by simp [hm])) (fun m hm => b m (by simp [hm])) e.2
        refine ⟨by rw [i1], fun j hj => ?_⟩
        rcases List.mem_cons.1 hj with rfl | hj
        · exact e.1
        · exact i2 j hj
  obtain ⟨rfl, hb⟩ := pairs (fun _ h => h) (fun _ h => h) h
  intro year month
  have iff : inMonth year month es ≠ [] ↔ inMonth year month es' ≠ [] := by
    have a := n3 ⟨year, month, 1⟩
    have b := n3' ⟨year, month, 1⟩
    simp only [true_and] at a b
    exact a.symm.trans b
  refine ⟨not_iff_not.1 iff, fun hne => ?_⟩
  have hm : (⟨year, month, 1⟩ : Date) ∈ months := (n3 _).2 ⟨rfl, hne⟩
  obtain ⟨_, s1, s2, s3⟩ := same hm hm (hb _ hm)
  have k1 := (n4 _ hm).2
  have k2 := (n4' _ hm).2
  refine ⟨s1, fun k => ⟨?_, fun hk => s3 k ((k1 k).2 hk)⟩⟩
  rw [← k1 k, ← k2 k, s2]

/-! ### Warnings -/

/-- Lines of warnings. -/
def WarningLines (s : Str) : Prop := ∃ W : List Str, s = (W.map (· ++ ['\n'])).flatten ∧ ∀ w ∈ W, '\n' ∉ w ∧ w.head? = some 'u'

theorem warningLines_nil : WarningLines [] := ⟨[], rfl, by simp⟩

theorem warningLines_append {s t : Str} (hs : WarningLines s) (ht : WarningLines t) : WarningLines (s ++ t) := by
  obtain ⟨W, rfl, h⟩ := hs
  obtain ⟨V, rfl, k⟩ := ht
  refine ⟨W ++ V, by simp, fun w hw => ?_⟩
  rcases List.mem_append.1 hw with hw | hw
  · exact h w hw
  · exact k w hw

theorem warningLines_flatMap {α : Type} {l : List α} {f : α → Str} (h : ∀ x ∈ l, WarningLines (f x)) : WarningLines (l.flatMap f) := by
  induction l with
  | nil => exact warningLines_nil
  | cons x l ih => exact warningLines_append (h x (by simp)) (ih fun y hy => h y (by simp [hy]))

theorem warningLines_mix {verb c d : Str} (hv : '\n' ∉ verb) (hc : LegibleCommodity c) (hd : LegibleCommodity d) : WarningLines (mixLine verb c d) := by
  unfold mixLine
  split
  · exact warningLines_nil
  · refine ⟨[str "unhandled " ++ verb ++ str " of unmatched commodities: '" ++ c ++ str "' and '" ++ d ++ str "'"], ?_, ?_⟩
    · have e : str "'\n" = str "'" ++ ['\n'] := by decide
      rw [e]
      simp only [List.map_cons, List.map_nil, List.flatten_cons, List.flatten_nil, List.append_assoc, List.append_nil]
    · intro w hw
      rw [List.mem_singleton] at hw
      subst hw
      refine ⟨?_, rfl⟩
      simp only [List.mem_append, not_or]
      exact ⟨⟨⟨⟨⟨⟨by decide, hv⟩, by decide⟩, hc.1⟩, by decide⟩, hd.1⟩, by decide⟩

theorem budgetMixes_lines : ∀ (es before : List Filed), (∀ e ∈ before ++ es, e.posting.Clear) → WarningLines (budgetMixes before es) := by
  intro es
  induction es with
  | nil => intro before _; exact warningLines_nil
  | cons e es ih =>
    intro before h
    rw [budgetMixes]
    refine warningLines_append ?_ (ih (before ++ [e]) (by simpa using h))
    have h1 : ∀ x ∈ inMonth e.date.year e.date.month before, x.posting.Clear := fun x hx => h x (by simp [(mem_inMonth hx).1])
    have h2 : ∀ x ∈ inMonth e.date.year e.date.month before ++ [e], x.posting.Clear := by
      intro x hx
      rcases List.mem_append.1 hx with hx | hx
      · exact h1 x hx
      · rw [List.mem_singleton] at hx; subst hx; exact h x (by simp)
    have he := h e (by simp)
    generalize inMonth e.date.year e.date.month before = bs at h1 h2
    have c1 := clear_commodities h1
    have c2 := clear_commodities h2
    have v1 : '\n' ∉ str "subtraction" := by decide
    have v2 : '\n' ∉ str "addition" := by decide
    unfold budgetMix
    split
    · exact warningLines_nil
    · rename_i a ha
      have ha := he a ha
      split
      · exact warningLines_append (warningLines_mix v1 (c2.1 _) ha) (warningLines_mix v1 (c2.1 _) ha)
      · exact warningLines_mix v2 (c1.1 _) ha
      · refine warningLines_flatMap fun ds _ => warningLines_mix v2 ?_ ha
        split
        · exact c2.1 _
        · exact c1.2 _
      · refine warningLines_flatMap fun ds _ => warningLines_mix v1 ?_ ha
        split
        · exact c2.1 _
        · exact c1.2 _

/-! ### What the reports of a journal are made of -/

section
variable [Unicode] {m : Machine} {o : Options} {args : List Str} {bytes : List UInt8} {js : List (Meant × Str)} {filters : List Filter}
  {admits : Date → Bool} {path : Str} {out : Except Report Page}

theorem read_transaction {lib : Err → Str} (h : Reading m.fs lib m.maxOpen path bytes js out) {t : Transaction} {f : Str} (ht : (Meant.transaction t, f) ∈ js) :
    t.Sound := by
  obtain ⟨c, hc, hyc⟩ := forall₂_mem_left (C99_parsed h).1 ht
  cases c with
  | periodic => exact hyc.elim
  | normal t' f' =>
    obtain ⟨rfl, _⟩ := hyc
    rw [delivered_calls] at hc
    exact (C65_delivered_sound m.fs recorder m.maxOpen bytes path [] t' f' hc).1

theorem read_budget {lib : Err → Str} (h : Reading m.fs lib m.maxOpen path bytes js out) {d : Date} {ps : List Posting} {f : Str}
    (ht : (Meant.budget d ps, f) ∈ js) : d.Real ∧ 0 ≤ d.year ∧ d.year ≤ 9999 := by
  obtain ⟨c, hc, hyc⟩ := forall₂_mem_left (C99_parsed h).1 ht
  cases c with
  | normal => exact hyc.elim
  | periodic pt f' =>
    obtain ⟨_, rfl, _⟩ := hyc
    rw [delivered_calls] at hc
    have := (C65_delivered_period m.fs recorder m.maxOpen bytes path [] pt f' hc).1
    exact ⟨this.1, this.2.2.1, this.2.2.2.1⟩

/-- What belongs in the budget is legible, apart from categories that end in a blank. -/
theorem filed_legible {lib : Err → Str} (h : Reading m.fs lib m.maxOpen path bytes js out) :
    ∀ e ∈ (meanings js).flatMap (Meant.filed filters admits), (∀ k ds, e.category = some (k :: ds) → k.getLast? ≠ some ' ') → e.Legible := by
  intro e he hk
  obtain ⟨x, hx, he⟩ := List.mem_flatMap.1 he
  obtain ⟨⟨y, f⟩, hy, rfl⟩ := List.mem_map.1 hx
  have c1 := C65_commodities h _ hy
  have c2 := C65_one_line h _ hy
  cases y with
  | transaction t =>
    have hs := read_transaction h hy
    obtain ⟨p, hp, he⟩ := List.mem_filterMap.1 he
    have hp : p ∈ t.postings := by
      split at hp
      · unfold selection at hp
        split at hp
        · exact hp
        · exact (List.mem_filter.1 hp).1
      · cases hp
    have e1 : e.date = t.date ∧ e.posting = p := by
      split at he
      · cases he; exact ⟨rfl, rfl⟩
      · split at he
        · cases he; exact ⟨rfl, rfl⟩
        · cases he
    refine ⟨?_, ?_, ?_, hk⟩
    · rw [e1.1]; exact ⟨hs.1, hs.2.1, hs.2.2.1⟩
    · rw [e1.2]; exact c1 p hp
    · rw [e1.2]; exact (c2.2.2.2 p hp).1
  | budget d ps =>
    obtain ⟨p, hp, rfl⟩ := List.mem_map.1 he
    exact ⟨read_budget h hy, c1 p hp, (c2 p hp).1, hk⟩

omit [Unicode] in
theorem filedAs_perm {xss : List (List Filed)} {ms : List Meant} (h : List.Forall₂ (Meant.FiledAs filters admits) xss ms) :
    xss.flatten.Perm (ms.flatMap (Meant.filed filters admits)) := by
  induction h with
  | nil => exact List.Perm.nil
  | @cons xs x _ _ h1 _ ih =>
    rw [List.flatten_cons, List.flatMap_cons]
    refine List.Perm.append ?_ ih
    cases x with
    | transaction t => exact h1.1
    | budget d ps => exact List.Perm.of_eq h1

variable {m' : Machine} {o' : Options} {args' : List Str} {bytes' : List UInt8} {js' : List (Meant × Str)} {filters' : List Filter}
  {admits' : Date → Bool} {path' : Str}

/-- If two runs of `budget` print the same, then they are about the same months, and in each month they show the same income, the same categories, and for each
the same figures and the same commodity: if no top category ends in a blank. -/
theorem C129_budget_partial (g : Setting m o args bytes filters admits path) {pg pg' : Page} (r : Reading m.fs m.lib m.maxOpen path bytes js (.ok pg))
    (hs : ¬ Command.budget.Short filters admits (meanings js))
    (g' : Setting m' o' args' bytes' filters' admits' path') (r' : Reading m'.fs m'.lib m'.maxOpen path' bytes' js' (.ok pg'))
    (hs' : ¬ Command.budget.Short filters' admits' (meanings js'))
    (hk : ∀ e ∈ (meanings js).flatMap (Meant.filed filters admits) ++ (meanings js').flatMap (Meant.filed filters' admits'),
      ∀ k ds, e.category = some (k :: ds) → k.getLast? ≠ some ' ')
    (he : (m.run o .budget args).stdout = (m'.run o' .budget args').stdout) :
    ∃ es es' : List Filed, es.Perm ((meanings js).flatMap (Meant.filed filters admits)) ∧ es'.Perm ((meanings js').flatMap (Meant.filed filters' admits')) ∧
      BudgetsAlike es es' := by
  have part : ∀ {m : Machine} {o : Options} {args : List Str} {bytes : List UInt8} {js : List (Meant × Str)} {filters : List Filter}
      {admits : Date → Bool} {path : Str} {pg : Page}, Setting m o args bytes filters admits path → Reading m.fs m.lib m.maxOpen path bytes js (.ok pg) →
      ¬ Command.budget.Short filters admits (meanings js) →
      (∀ e ∈ (meanings js).flatMap (Meant.filed filters admits), ∀ k ds, e.category = some (k :: ds) → k.getLast? ≠ some ' ') →
      ∃ (es : List Filed) (text : Str) (W : List Str), es.Perm ((meanings js).flatMap (Meant.filed filters admits)) ∧ BudgetReport es text ∧
        (m.run o .budget args).stdout = (W.map (· ++ ['\n'])).flatten ++ text ∧ (∀ w ∈ W, '\n' ∉ w ∧ w.head? = some 'u') ∧ ∀ e ∈ es, e.Legible := by
    intro m o args bytes js filters admits path pg g r hs hk
    obtain ⟨d1, d2, _⟩ := C99_parsed r
    obtain ⟨xss, text, q1, q2, q3⟩ := Heard.budget (js := js) ⟨g, d1⟩ (d2 pg rfl) hs
    have hp := filedAs_perm q1
    have hl : ∀ e ∈ xss.flatten, e.Legible := fun e h => filed_legible r e (hp.subset h) (hk e (hp.subset h))
    obtain ⟨W, w1, w2⟩ := budgetMixes_lines xss.flatten [] (fun e h => (hl e (by simpa using h)).clear)
    exact ⟨xss.flatten, text, W, hp, q2, by rw [q3, w1], w2, hl⟩
  obtain ⟨es, text, W, p1, b1, t1, w1, l1⟩ := part g r hs fun e h => hk e (List.mem_append_left _ h)
  obtain ⟨es', text', W', p2, b2, t2, w2, l2⟩ := part g' r' hs' fun e h => hk e (List.mem_append_right _ h)
  rw [t1, t2] at he
  exact ⟨es, es', p1, p2, (budgets_same b1 b2 l1 l2 w1 w2 he).2⟩

omit [Unicode] in
theorem lists_same {P Q : Str → Prop} {text : Str} (h1 : Lists P text) (h2 : Lists Q text) (hP : ∀ a, P a → '\n' ∉ a) (hQ : ∀ a, Q a → '\n' ∉ a) (a : Str) :
    P a ↔ Q a := by
  obtain ⟨L, _, l2, l3⟩ := h1
  obtain ⟨K, _, k2, k3⟩ := h2
  have : L = K := ended_inj (fun l h => hP l ((l2 l).1 h)) (fun l h => hQ l ((k2 l).1 h)) (l3.symm.trans k3)
  rw [← l2, ← k2, this]

omit [Unicode] in
theorem asked_mem {t : Transaction} (h : t ∈ asked admits (meanings js)) : ∃ f, (Meant.transaction t, f) ∈ js := by
  have ht := (List.mem_filter.1 h).1
  unfold transactionsOf meanings at ht
  rw [List.mem_filterMap] at ht
  obtain ⟨x, hx, he⟩ := ht
  obtain ⟨⟨y, f⟩, hy, rfl⟩ := List.mem_map.1 hx
  cases y with
  | budget => cases he
  | transaction t' => cases he; exact ⟨f, hy⟩

/-- If two runs of `accounts` print the same, then the same accounts were asked for. -/
theorem C129_accounts (g : Setting m o args bytes filters admits path) {pg pg' : Page} (r : Reading m.fs m.lib m.maxOpen path bytes js (.ok pg))
    (g' : Setting m' o' args' bytes' filters' admits' path') (r' : Reading m'.fs m'.lib m'.maxOpen path' bytes' js' (.ok pg'))
    (he : (m.run o .accounts args).stdout = (m'.run o' .accounts args').stdout) (a : Str) :
    ((∃ t ∈ asked admits (meanings js), ∃ p ∈ t.postings, p.accountPath = a) ∧ (filters = [] ∨ ∃ f ∈ filters, f.regex a = true)) ↔
    ((∃ t ∈ asked admits' (meanings js'), ∃ p ∈ t.postings, p.accountPath = a) ∧ (filters' = [] ∨ ∃ f ∈ filters', f.regex a = true)) := by
  obtain ⟨d1, d2, _⟩ := C99_parsed r
  obtain ⟨e1, e2, _⟩ := C99_parsed r'
  obtain ⟨text, t1, t2⟩ := Heard.accounts (js := js) ⟨g, d1⟩ (d2 pg rfl)
  obtain ⟨text', t1', t2'⟩ := Heard.accounts (js := js') ⟨g', e1⟩ (e2 pg' rfl)
  rw [t1, t1'] at he
  cases he
  have clean : ∀ {m : Machine} {bytes : List UInt8} {js : List (Meant × Str)} {admits : Date → Bool} {path : Str} {pg : Page} {a : Str} {Q : Prop},
      Reading m.fs m.lib m.maxOpen path bytes js (.ok pg) → (∃ t ∈ asked admits (meanings js), ∃ p ∈ t.postings, p.accountPath = a) ∧ Q → '\n' ∉ a := by
    rintro m bytes js admits path pg a Q r ⟨⟨t, ht, p, hp, rfl⟩, _⟩
    obtain ⟨f, hf⟩ := asked_mem ht
    exact ((C65_one_line r _ hf).2.2.2 p hp).1
  exact lists_same t2 t2' (fun a h => clean r h) (fun a h => clean r' h) a

/-- If two runs of `payees` print the same, then the same payees were asked for. -/
theorem C129_payees (g : Setting m o args bytes filters admits path) {pg pg' : Page} (r : Reading m.fs m.lib m.maxOpen path bytes js (.ok pg))
    (ha : ∀ a ∈ args, ∃ r, m.engine.compile (wholePattern a) = some r)
    (g' : Setting m' o' args' bytes' filters' admits' path') (r' : Reading m'.fs m'.lib m'.maxOpen path' bytes' js' (.ok pg'))
    (ha' : ∀ a ∈ args', ∃ r, m'.engine.compile (wholePattern a) = some r)
    (he : (m.run o .payees args).stdout = (m'.run o' .payees args').stdout) (a : Str) :
    ((∃ t ∈ asked admits (meanings js), t.payee = a) ∧ (args = [] ∨ PayeeMatch m.engine args a)) ↔
    ((∃ t ∈ asked admits' (meanings js'), t.payee = a) ∧ (args' = [] ∨ PayeeMatch m'.engine args' a)) := by
  obtain ⟨d1, d2, _⟩ := C99_parsed r
  obtain ⟨e1, e2, _⟩ := C99_parsed r'
  obtain ⟨text, t1, t2⟩ := Heard.payees (js := js) ⟨g, d1⟩ (d2 pg rfl) ha
  obtain ⟨text', t1', t2'⟩ := Heard.payees (js := js') ⟨g', e1⟩ (e2 pg' rfl) ha'
  rw [t1, t1'] at he
  cases he
  have clean : ∀ {m : Machine} {bytes : List UInt8} {js : List (Meant × Str)} {admits : Date → Bool} {path : Str} {pg : Page} {a : Str} {Q : Prop},
      Reading m.fs m.lib m.maxOpen path bytes js (.ok pg) → (∃ t ∈ asked admits (meanings js), t.payee = a) ∧ Q → '\n' ∉ a := by
    rintro m bytes js admits path pg a Q r ⟨⟨t, ht, rfl⟩, _⟩
    obtain ⟨f, hf⟩ := asked_mem ht
    exact (C65_one_line r _ hf).1
  exact lists_same t2 t2' (fun a h => clean r h) (fun a h => clean r' h) a

/-! ### Statistics -/

omit [Unicode] in
theorem natDigits_eq {n k : Nat} (h : natDigits n = natDigits k) : n = k := by
  rw [← natDigits_value n, h, natDigits_value]

omit [Unicode] in
theorem digits_end {n k : Nat} {r r' : Str} (hr : ∀ c ∈ r.head?, ¬ Digit c) (hr' : ∀ c ∈ r'.head?, ¬ Digit c)
    (h : natDigits n ++ r = natDigits k ++ r') : n = k ∧ r = r' := by
  obtain ⟨a, b⟩ := span_inj (p := Digit) (natDigits_digits n).2 (natDigits_digits k).2 hr hr' h
  exact ⟨natDigits_eq a, b⟩

omit [Unicode] in
theorem natDigits_line (n : Nat) : '\n' ∉ natDigits n := by
  intro h
  exact absurd ((natDigits_digits n).2 _ h) (by decide)

omit [Unicode] in
/-- Reports with the same lines have the same figures. -/
theorem lines_figures {h h' : Date → Str} {f f' : Figures} (d1 : f.first.Real ∧ 0 ≤ f.first.year ∧ f.first.year ≤ 9999)
    (d2 : f.last.Real ∧ 0 ≤ f.last.year ∧ f.last.year ≤ 9999) (d1' : f'.first.Real ∧ 0 ≤ f'.first.year ∧ f'.first.year ≤ 9999)
    (d2' : f'.last.Real ∧ 0 ≤ f'.last.year ∧ f'.last.year ≤ 9999) (e : f.lines h = f'.lines h') : f = f' := by
  have hl : f.files.length = f'.files.length := by
    have := congrArg List.length e
    simpa [Figures.lines] using this
  unfold Figures.lines at e
  obtain ⟨e1, e2⟩ := List.append_inj e (by simpa using hl)
  have e1 := (List.append_inj e1 rfl).2
  simp only [List.cons.injEq, and_true] at e2
  obtain ⟨a1, a2, a3, a4, a5, a6, a7⟩ := e2
  have k1 : f.files = f'.files := List.map_injective_iff.2 (fun a b h => by simpa using h) e1
  have day : ∀ {d d' : Date}, (d.Real ∧ 0 ≤ d.year ∧ d.year ≤ 9999) → (d'.Real ∧ 0 ≤ d'.year ∧ d'.year ≤ 9999) → ago h d = ago h' d' → d = d' := by
    rintro d d' ⟨x1, x2, x3⟩ ⟨y1, y2, y3⟩ ha
    unfold ago at ha
    simp only [List.append_assoc] at ha
    exact format_inj x1 x2 x3 y1 y2 y3 (List.append_inj ha (by rw [format_length x1 x2 x3, format_length y1 y2 y3])).1
  have k2 := day d1 d1' (List.append_cancel_left a1)
  have k3 := day d2 d2' (List.append_cancel_left a2)
  have k4 : f.days = f'.days := by
    rw [List.append_assoc, List.append_assoc] at a3
    exact (digits_end (by decide) (by decide) (List.append_cancel_left a3)).1
  have k5 : f.count = f'.count ∧ f.rate = f'.rate := by
    simp only [List.append_assoc] at a4
    obtain ⟨b1, b2⟩ := digits_end (by simp [str]; decide) (by simp [str]; decide) (List.append_cancel_left a4)
    exact ⟨b1, List.append_cancel_right (List.append_cancel_left b2)⟩
  have k6 := natDigits_eq (List.append_cancel_left a5)
  have k7 := natDigits_eq (List.append_cancel_left a6)
  have k8 : f.age = f'.age := by
    rw [List.append_assoc, List.append_assoc] at a7
    exact (digits_end (by decide) (by decide) (List.append_cancel_left a7)).1
  cases f
  cases f'
  simp only at k1 k2 k3 k4 k5 k6 k7 k8
  simp only [Figures.mk.injEq]
  exact ⟨k1, k2, k3, k4, k5.1, k5.2, k6, k7, k8⟩

omit [Unicode] in
theorem wanted_mem {tf : Transaction × Str} (h : tf ∈ wantedIn filters admits js) : (Meant.transaction tf.1, tf.2) ∈ js := by
  have ht := (List.mem_filter.1 h).1
  unfold attributed at ht
  rw [List.mem_filterMap] at ht
  obtain ⟨⟨y, f⟩, hy, he⟩ := ht
  cases y with
  | budget => cases he
  | transaction t' => cases he; exact hy

/-- If two runs of `statistics` print the same, then all the figures are the same: the same files, the same first and last day, and so on (`FiguresOf`).
If the path has no line feed in it, no transaction is of the first day of the year 1, and there are fewer than 2^48. -/
theorem C129_statistics (g : Setting m o args bytes filters admits path) {pg pg' : Page} (r : Reading m.fs m.lib m.maxOpen path bytes js (.ok pg))
    (hs : ¬ Command.statistics.Short filters admits (meanings js))
    (g' : Setting m' o' args' bytes' filters' admits' path') (r' : Reading m'.fs m'.lib m'.maxOpen path' bytes' js' (.ok pg'))
    (hs' : ¬ Command.statistics.Short filters' admits' (meanings js'))
    (hp : '\n' ∉ path ∧ '\n' ∉ path') (hh : ∀ d, '\n' ∉ m.humanize d ∧ '\n' ∉ m'.humanize d)
    (hz : ∀ tf ∈ wantedIn filters admits js ++ wantedIn filters' admits' js', ¬ tf.1.date.isZero)
    (hn : (wantedIn filters admits js).length < 2 ^ 48 ∧ (wantedIn filters' admits' js').length < 2 ^ 48)
    (he : (m.run o .statistics args).stdout = (m'.run o' .statistics args').stdout) :
    (wantedIn filters admits js = [] ↔ wantedIn filters' admits' js' = []) ∧
    (wantedIn filters admits js ≠ [] → ∃ f, FiguresOf filters (wantedIn filters admits js) f ∧ FiguresOf filters' (wantedIn filters' admits' js') f) := by
  have part : ∀ {m : Machine} {bytes : List UInt8} {js : List (Meant × Str)} {filters : List Filter} {admits : Date → Bool} {path : Str} {pg : Page}
      {f : Figures}, Reading m.fs m.lib m.maxOpen path bytes js (.ok pg) → '\n' ∉ path → (∀ d, '\n' ∉ m.humanize d) →
      (∀ tf ∈ wantedIn filters admits js, ¬ tf.1.date.isZero) → (wantedIn filters admits js).length < 2 ^ 48 → FiguresOf filters (wantedIn filters admits js) f →
      (f.first.Real ∧ 0 ≤ f.first.year ∧ f.first.year ≤ 9999) ∧ (f.last.Real ∧ 0 ≤ f.last.year ∧ f.last.year ≤ 9999) ∧ ∀ l ∈ f.lines m.humanize, '\n' ∉ l := by
    intro m bytes js filters admits path pg f r hp hh hz hn hf
    have date : ∀ {d : Date}, (∃ tf ∈ wantedIn filters admits js, tf.1.date = d) → d.Real ∧ 0 ≤ d.year ∧ d.year ≤ 9999 := by
      rintro d ⟨tf, ht, rfl⟩
      have := read_transaction r (wanted_mem ht)
      exact ⟨this.1, this.2.1, this.2.2.1⟩
    have d1 := date (hf.first hz).1
    have d2 := date (hf.last hz).1
    refine ⟨d1, d2, ?_⟩
    have day : ∀ {d : Date}, (d.Real ∧ 0 ≤ d.year ∧ d.year ≤ 9999) → '\n' ∉ ago m.humanize d := by
      intro d hd
      unfold ago
      simp only [List.mem_append, not_or]
      refine ⟨⟨⟨fun h => ?_, by decide⟩, hh d⟩, by decide⟩
      have := format_digits hd.1 hd.2.1 hd.2.2 _ h
      revert this
      decide
    have rate : '\n' ∉ f.rate := by
      rcases Nat.eq_zero_or_pos f.days with h0 | h0
      · rw [hf.rateZero h0]; decide
      · obtain ⟨k, e, _⟩ := hf.rate h0 (by rw [hf.count]; omega)
        rw [e]
        simp only [List.mem_append, not_or]
        exact ⟨⟨natDigits_line _, by decide⟩, natDigits_line _⟩
    have files : ∀ x ∈ f.files, '\n' ∉ x := by
      intro x hx
      obtain ⟨tf, ht, rfl⟩ := (hf.files.2 x).1 hx
      exact course_labels r hp hp hp _ (wanted_mem ht)
    intro l hl
    unfold Figures.lines at hl
    rcases List.mem_append.1 hl with hl | hl
    · rcases List.mem_append.1 hl with hl | hl
      · rw [List.mem_singleton] at hl
        subst hl
        simp only [List.mem_append, not_or]
        exact ⟨⟨by decide, natDigits_line _⟩, by decide⟩
      · obtain ⟨x, hx, rfl⟩ := List.mem_map.1 hl
        simp only [List.mem_append, not_or]
        exact ⟨by decide, files x hx⟩
    · simp only [List.mem_cons, List.not_mem_nil, or_false] at hl
      rcases hl with rfl | rfl | rfl | rfl | rfl | rfl | rfl <;> simp only [List.mem_append, not_or]
      · exact ⟨by decide, day d1⟩
      · exact ⟨by decide, day d2⟩
      · exact ⟨⟨by decide, natDigits_line _⟩, by decide⟩
      · exact ⟨⟨⟨⟨by decide, natDigits_line _⟩, by decide⟩, rate⟩, by decide⟩
      · exact ⟨by decide, natDigits_line _⟩
      · exact ⟨by decide, natDigits_line _⟩
      · exact ⟨⟨by decide, natDigits_line _⟩, by decide⟩
  obtain ⟨c1, c2, _⟩ := C99_parsed r
  obtain ⟨e1, e2, _⟩ := C99_parsed r'
  obtain ⟨text, t1, t2⟩ := Heard.statistics (js := js) ⟨g, c1⟩ (c2 pg rfl) hs
  obtain ⟨text', t1', t2'⟩ := Heard.statistics (js := js') ⟨g', e1⟩ (e2 pg' rfl) hs'
  rw [t1, t1'] at he
  have he : text = text' := he
  have starts : ∀ (h : Date → Str) (f : Figures), ((f.lines h).flatMap (· ++ str "\n")).head? = some 'T' := fun _ _ => rfl
  by_cases n1 : wantedIn filters admits js = [] <;> by_cases n2 : wantedIn filters' admits' js' = []
  · exact ⟨iff_of_true n1 n2, fun h => absurd n1 h⟩
  · rw [if_pos n1] at t2
    rw [if_neg n2] at t2'
    obtain ⟨f, _, rfl⟩ := t2'
    have := starts m'.humanize f
    rw [← he, t2] at this
    exact absurd this (by decide)
  · rw [if_neg n1] at t2
    rw [if_pos n2] at t2'
    obtain ⟨f, _, rfl⟩ := t2
    have := starts m.humanize f
    rw [he, t2'] at this
    exact absurd this (by decide)
  · rw [if_neg n1] at t2
    rw [if_neg n2] at t2'
    obtain ⟨f, f1, f2⟩ := t2
    obtain ⟨f', f1', f2'⟩ := t2'
    refine ⟨iff_of_false n1 n2, fun _ => ⟨f, f1, ?_⟩⟩
    obtain ⟨x1, x2, x3⟩ := part r hp.1 (fun d => (hh d).1) (fun tf h => hz tf (List.mem_append_left _ h)) hn.1 f1
    obtain ⟨y1, y2, y3⟩ := part r' hp.2 (fun d => (hh d).2) (fun tf h => hz tf (List.mem_append_right _ h)) hn.2 f1'
    have hl : f.lines m.humanize = f'.lines m'.humanize := ended_inj x3 y3 (by
      rw [← List.flatMap_def, ← List.flatMap_def]
      exact f2.symm.trans (he.trans f2'))
    rw [lines_figures x1 x2 y1 y2 hl]
    exact f1'

/-! ### Transactions -/

theorem Setting.printed (g : Setting m o args bytes filters admits path) {pg : Page} (r : Reading m.fs m.lib m.maxOpen path bytes js (.ok pg))
    (hp : ∀ t ∈ (asked admits (meanings js)).filter fun t => WantedBy filters t, t.Printable ∧ Fits t.written.lines) :
    ∃ ts : List Transaction, ts.Perm ((asked admits (meanings js)).filter fun t => WantedBy filters t) ∧
      delivered noFiles 0 (encode (m.run o .print args).stdout) [] = ts.map fun t => .normal t.plain [] := by
  obtain ⟨d1, d2, _⟩ := C99_parsed r
  have h : Heard m o args bytes js filters admits path := ⟨g, d1⟩
  have ha := d2 pg rfl
  have hst := h.stopped (c := .print) id
  have hr := (runParse_cases m.fs m.maxOpen bytes path (m.env o filters).printHandlers []).2.1 hst ha
  have ht : ∃ text, printCmd (m.env o filters) m.sortTransactions m.fs m.maxOpen bytes path = .ok text := by
    unfold printCmd
    rw [hr]
    exact ⟨_, rfl⟩
  obtain ⟨text, ht⟩ := ht
  have hw : ((m.env o filters).picked (delivered m.fs m.maxOpen bytes path)).map Prod.fst = (asked admits (meanings js)).filter fun t => WantedBy filters t := by
    have hfst := attributed_fst (fun t => decide (WantedBy filters t)) admits js
    simp only [decide_eq_true_eq] at hfst
    rw [h.asks.2.1, wantedIn, hfst]
  rw [← hw] at hp ⊢
  obtain ⟨ts, t1, -, -, t4, -⟩ := C66_printed_is_journal (m.env o filters) g.fair.postings m.sortTransactions g.fair.byDate m.fs noFiles m.maxOpen 0 bytes path [] text ht hp
  refine ⟨ts, t1, ?_⟩
  rw [h.run (by decide), Machine.runOn, ht]
  exact t4

/-- If two runs of `print` print the same, then they show the same transactions, up to which amounts were left out: if print can write them. -/
theorem C129_print_partial (g : Setting m o args bytes filters admits path) {pg pg' : Page} (r : Reading m.fs m.lib m.maxOpen path bytes js (.ok pg))
    (hp : ∀ t ∈ (asked admits (meanings js)).filter fun t => WantedBy filters t, t.Printable ∧ Fits t.written.lines)
    (g' : Setting m' o' args' bytes' filters' admits' path') (r' : Reading m'.fs m'.lib m'.maxOpen path' bytes' js' (.ok pg'))
    (hp' : ∀ t ∈ (asked admits' (meanings js')).filter fun t => WantedBy filters' t, t.Printable ∧ Fits t.written.lines)
    (he : (m.run o .print args).stdout = (m'.run o' .print args').stdout) :
    (((asked admits (meanings js)).filter fun t => WantedBy filters t).map Transaction.plain).Perm
      (((asked admits' (meanings js')).filter fun t => WantedBy filters' t).map Transaction.plain) := by
  obtain ⟨ts, t1, t2⟩ := g.printed r hp
  obtain ⟨ts', t1', t2'⟩ := g'.printed r' hp'
  rw [he, t2'] at t2
  have e : ts'.map Transaction.plain = ts.map Transaction.plain := by
    have inj : Function.Injective fun t : Transaction => Call.normal t [] := fun a b h => by cases h; rfl
    apply List.map_injective_iff.2 inj
    rw [List.map_map, List.map_map]
    exact t2
  exact (t1.map _).symm.trans ((List.Perm.of_eq e.symm).trans (t1'.map _))

end

/-! ### Where it fails -/

theorem single_report {y : Int} {mo : Nat} {p : Posting} {k : Str} {ds : List Str} (hc : (Filed.mk ⟨y, mo, 1⟩ p .envelope).category = some (k :: ds)) :
    BudgetReport [⟨⟨y, mo, 1⟩, p, .envelope⟩] (summary ⟨y, mo, 1⟩ (incomeOf [⟨⟨y, mo, 1⟩, p, .envelope⟩]) ++ categoryLine k [⟨⟨y, mo, 1⟩, p, .envelope⟩] ++ str "\n") := by
  have e1 : inMonth y mo [⟨⟨y, mo, 1⟩, p, .envelope⟩] = [⟨⟨y, mo, 1⟩, p, .envelope⟩] := by simp [inMonth]
  refine ⟨[⟨y, mo, 1⟩], fun _ => [k], by simp, by simp, ?_, ?_, by simp [e1]⟩
  · intro d
    rw [List.mem_singleton]
    constructor
    · rintro rfl
      rw [e1]
      simp
    · rintro ⟨h1, h2⟩
      cases d
      by_contra hne
      apply h2
      simp only [inMonth, List.filter_eq_nil_iff, List.mem_singleton, decide_eq_true_eq]
      rintro e rfl ⟨rfl, rfl⟩
      simp only at h1
      exact hne (by rw [h1])
  · intro d hd
    rw [List.mem_singleton] at hd
    subst hd
    refine ⟨by simp, fun k' => ?_⟩
    simp only [e1, List.mem_singleton, exists_eq_left, hc, Option.some.injEq, List.cons.injEq]
    constructor
    · rintro rfl; exact ⟨ds, rfl, rfl⟩
    · rintro ⟨_, rfl, _⟩; rfl

/-- Different categories can look alike: the names are padded with blanks, so blanks at their ends cannot be seen. -/
theorem C129_budget_false : ¬ ∀ (es es' : List Filed) (text : Str), BudgetReport es text → BudgetReport es' text → BudgetsAlike es es' := by
  intro h
  let food : Posting := { linked := true, accountPath := str "Food", amount := some ⟨[], 1000⟩ }
  let blank : Posting := { linked := true, accountPath := str "Food :b", amount := some ⟨[], 1000⟩ }
  have h1 := single_report (y := 2020) (mo := 1) (p := food) (k := str "Food") (ds := []) (by decide)
  have h2 := single_report (y := 2020) (mo := 1) (p := blank) (k := str "Food ") (ds := [str "b"]) (by decide)
  have e : summary ⟨2020, 1, 1⟩ (incomeOf [⟨⟨2020, 1, 1⟩, food, .envelope⟩]) ++ categoryLine (str "Food") [⟨⟨2020, 1, 1⟩, food, .envelope⟩] ++ str "\n" =
      summary ⟨2020, 1, 1⟩ (incomeOf [⟨⟨2020, 1, 1⟩, blank, .envelope⟩]) ++ categoryLine (str "Food ") [⟨⟨2020, 1, 1⟩, blank, .envelope⟩] ++ str "\n" := by
    decide +kernel
  rw [← e] at h2
  have := ((h _ _ _ h1 h2 2020 1).2 (by decide)).2 (str "Food")
  have hx := this.1.1 ⟨⟨⟨2020, 1, 1⟩, food, .envelope⟩, by decide, [], by decide⟩
  obtain ⟨x, hx, ds, hd⟩ := hx
  have hx : x = ⟨⟨2020, 1, 1⟩, blank, .envelope⟩ := List.mem_singleton.1 (List.mem_of_mem_filter hx)
  subst hx
  have : (Filed.mk ⟨2020, 1, 1⟩ blank .envelope).category = some [str "Food ", str "b"] := by decide
  rw [this] at hd
  injection hd with hd
  injection hd with hd
  exact absurd hd (by decide)

/-- So they do in runs. -/
example :
    letI := asciiUnicode
    let a := machineWith (str "f") "~ 2020-01\n  Food  10\n\n2020-01-02 x\n  Expenses:Food:b  1\n  B\n"
    let b := machineWith (str "f") "~ 2020-01\n  Food :c  10\n\n2020-01-02 x\n  Expenses:Food :b  1\n  B\n"
    let c := machineWith (str "f") "~ 2020-01\n  Food :c  10\n\n2020-01-02 x\n  Expenses:Food:b  1\n  B\n"
    (a.run { file := str "f" } .budget []).stdout = (b.run { file := str "f" } .budget []).stdout ∧
      (a.run { file := str "f" } .budget []).stdout ≠ (c.run { file := str "f" } .budget []).stdout := by
  decide +kernel

/-- Different transactions can be printed alike, so that even their balances are different: large amounts are not printed exactly. -/
theorem C129_print_false :
    ¬ ∀ (U : Unicode) (m m' : Machine) (o : Options), (@Machine.run U m o .print []).ending = .exit 0 →
      @Machine.run U m o .print [] = @Machine.run U m' o .print [] → @Machine.run U m o .balance [] = @Machine.run U m' o .balance [] := by
  intro h
  have := h asciiUnicode
    { shelfMachine with fs := fun _ => some (utf8 "2020-01-02 x\n  A  92233720368547758.07\n  B\n\n2020-01-03 y\n  A  -92233720368547758.07\n  B\n") }
    { shelfMachine with fs := fun _ => some (utf8 "2020-01-02 x\n  A  92233720368547758.07\n  B\n\n2020-01-03 y\n  A  -92233720368547758.06\n  B\n") }
    { file := str "f" }
  revert this
  decide +kernel

/-! ### Where it holds -/

/-- The words for how long ago a day was are on one line. -/
theorem sprintfRel_line {label : Str} {q : Int} (hl : '\n' ∉ label) : ∀ {f : Str}, '\n' ∉ f → '\n' ∉ sprintfRel label q f := by
  intro f
  induction f using sprintfRel.induct with
  | case1 => intro h; exact h
  | case2 rest ih =>
    intro h
    rw [sprintfRel]
    simp only [List.mem_append, not_or]
    exact ⟨hl, ih (by simp at h; exact h)⟩
  | case3 rest ih =>
    intro h
    rw [sprintfRel]
    simp only [List.mem_append, not_or]
    exact ⟨natDigits_line _, ih (by simp at h; exact h)⟩
  | case4 c rest h1 h2 ih =>
    intro h
    rw [sprintfRel]
    · simp only [List.mem_cons, not_or] at h ⊢
      exact ⟨h.1, ih h.2⟩
    · exact h1
    · exact h2

/-- As for every machine with a clock. -/
theorem humanize_line (now : Int) (d : Date) : '\n' ∉ humanizeTime now d := by
  have key : ∀ x ∈ magnitudes, '\n' ∉ x.format := by decide
  unfold humanizeTime relTime
  simp only
  split
  · rename_i x hx
    refine sprintfRel_line ?_ (key x (List.mem_of_getElem? hx))
    split <;> decide
  · simp

/-- The circumstances of the claims about runs. -/
example :
    letI := asciiUnicode
    let js := wholeMeaning.map fun x => (x, str "f")
    (∃ pg, Reading wholeMachine.fs wholeMachine.lib wholeMachine.maxOpen (str "f") (journalText wholeJournal) js (.ok pg)) ∧
      ¬ Command.budget.Short [wholeFilter] wholeDays (meanings js) ∧ ¬ Command.statistics.Short [wholeFilter] wholeDays (meanings js) ∧
      ((meanings js).flatMap (Meant.filed [wholeFilter] wholeDays)).map (·.posting.accountPath) = [str "Expenses:Food", str "Food", budgetRootID] ∧
      (∀ e ∈ (meanings js).flatMap (Meant.filed [wholeFilter] wholeDays), ∀ k ∈ e.category, (k.headD []).getLast? ≠ some ' ') ∧
      (∀ t ∈ (asked wholeDays (meanings js)).filter fun t => WantedBy [wholeFilter] t, t.Printable ∧ Fits t.written.lines) ∧
      (wantedIn [wholeFilter] wholeDays js).map (fun tf => (tf.1.date, tf.2)) = [(⟨2020, 1, 2⟩, str "f")] := by
  let := asciiUnicode
  refine ⟨C99_well_formed wholeGiven, ?_, ?_, by decide +kernel, by decide +kernel, by decide +kernel, by decide +kernel⟩
  · rintro ⟨x, hx, hn⟩
    have : ∀ x ∈ (meanings (wholeMeaning.map fun x => (x, str "f"))).flatMap (Meant.filed [wholeFilter] wholeDays), x.Fileable := by decide +kernel
    exact hn (this x hx)
  · rintro ⟨p, hp, hn, _⟩
    have : ∀ p ∈ askedPostings [wholeFilter] wholeDays (meanings (wholeMeaning.map fun x => (x, str "f"))), p.amount ≠ none := by decide +kernel
    exact this p hp hn

/-- Journals with the same lists of accounts and payees, and the same statistics on the same day; another payee, another account or another file
makes a difference. -/
example :
    letI := asciiUnicode
    let a := machineWith (str "f") "2020-01-02 x\n  A:b  $1\n  B\n\n2020-01-03 y\n  A:b  $2\n  B\n"
    let b := machineWith (str "f") "2020-01-02 y\n  B  $-3\n  A:b\n\n2020-01-03 x\n  A:b  $0\n  B  $0\n"
    let c := machineWith (str "f") "2020-01-02 x\n  A: b  $3\n  B\n\n2020-01-03 y \n  C  $0\n  B  $0\n"
    let o : Options := { file := str "f" }
    (a.run o .accounts []).stdout = (b.run o .accounts []).stdout ∧ (a.run o .payees []).stdout = (b.run o .payees []).stdout ∧
      (a.run o .statistics []).stdout = (b.run o .statistics []).stdout ∧ (a.run o .accounts []).stdout ≠ (c.run o .accounts []).stdout ∧
      (a.run o .statistics []).stdout ≠ (c.run o .statistics []).stdout := by
  decide +kernel

end Gledger
