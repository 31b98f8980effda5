/-
C147: names are only counted by statistics.
-/
import Verif.Props.UnitFree
import Verif.Props.Rearranged

namespace Gledger

/-- Incomes stay incomes, expenses stay expenses, and nothing else becomes one. -/
def KeepsKinds (g : Str → Str) : Prop :=
  ∀ a, ∀ top ∈ [str "Income", str "Expenses"], (split ':' (g a)).head? = some top ↔ (split ':' a).head? = some top

/-- The transaction of the same day with another payee, in another file, with the same figures for other accounts; everything else may differ. -/
structure UnderOtherNames (f g φ : Str → Str) (u t : Transaction × Str) : Prop where
  date : u.1.date = t.1.date
  payee : u.1.payee = f t.1.payee
  file : u.2 = φ t.2
  postings : List.Forall₂ (fun q p : Posting => q.accountPath = g p.accountPath ∧ q.value = p.value) u.1.postings t.1.postings

section
variable {f g φ : Str → Str} {ts us : List (Transaction × Str)}

theorem selection_none (t : Transaction) : selection [] t = t.postings := if_pos (Or.inl rfl)

theorem forall₂_mem_right' {α β : Type} {R : α → β → Prop} {l : List α} {l' : List β} (h : List.Forall₂ R l l') {b : β} (hb : b ∈ l') : ∃ a ∈ l, R a b := by
  induction h with
  | nil => cases hb
  | cons h1 _ ih =>
    rcases List.mem_cons.1 hb with rfl | hb
    · exact ⟨_, by simp, h1⟩
    · obtain ⟨a, ha, hr⟩ := ih hb
      exact ⟨a, by simp [ha], hr⟩

theorem forall₂_mem_left' {α β : Type} {R : α → β → Prop} {l : List α} {l' : List β} (h : List.Forall₂ R l l') {a : α} (ha : a ∈ l) : ∃ b ∈ l', R a b :=
  forall₂_mem_right' h.flip ha

theorem dayPostings_values (hk : KeepsKinds g) (h : List.Forall₂ (UnderOtherNames f g φ) us ts) {top : Str} (ht : top ∈ [str "Income", str "Expenses"]) (d : Date) :
    (dayPostings [] top us d).map Posting.value = (dayPostings [] top ts d).map Posting.value := by
  unfold dayPostings
  induction h with
  | nil => rfl
  | @cons u t us ts h1 _ ih =>
    rw [List.filter_cons, List.filter_cons, h1.date]
    split
    · rw [List.flatMap_cons, List.flatMap_cons, List.map_append, List.map_append, ih, selection_none, selection_none]
      congr 1
      have := h1.postings
      generalize u.1.postings = qs at this
      generalize t.1.postings = ps at this
      induction this with
      | nil => rfl
      | @cons q p qs ps h2 _ ih2 =>
        have hd : decide (q.components.head? = some top) = decide (p.components.head? = some top) := by
          refine decide_eq_decide.2 ?_
          unfold Posting.components
          rw [h2.1]
          exact hk _ top ht
        rw [List.filter_cons, List.filter_cons, hd]
        split
        · rw [List.map_cons, List.map_cons, ih2, h2.2]
        · exact ih2
    · exact ih

variable {us' : List (Transaction × Str)}

theorem perm_names {l l' : List Str} {k : Str → Str} (hk : Function.Injective k) (h : l.Nodup) (h' : l'.Nodup) (hm : ∀ x, x ∈ l' ↔ ∃ y ∈ l, k y = x) : l'.Perm (l.map k) := by
  rw [List.perm_ext_iff_of_nodup h' (h.map hk)]
  intro x
  rw [hm, List.mem_map]

/-- What is collected for the statistics is the same, under other names. -/
theorem C147_stats (hf : Function.Injective f) (hg : Function.Injective g) (hφ : Function.Injective φ) (hk : KeepsKinds g) (hts : ts ≠ []) (hr : ∀ tf ∈ ts, tf.1.date.Real)
    (hz : ∀ tf ∈ ts, ¬ tf.1.date.isZero) (hp : us'.Perm us) (h : List.Forall₂ (UnderOtherNames f g φ) us ts) {s s' : Stats} (S : StatsOf [] ts s) (S' : StatsOf [] us' s')
    {sort sort' : List Date → List Date} (h1 : SortsDates sort) (h1' : SortsDates sort') :
    s'.first = s.first ∧ s'.last = s.last ∧ s'.count = s.count ∧ s'.accounts.Perm (s.accounts.map g) ∧ s'.payees.Perm (s.payees.map f) ∧ s'.files.Perm (s.files.map φ) ∧
      s'.ages sort' = s.ages sort := by
  have hmem : ∀ {u}, u ∈ us' → ∃ t ∈ ts, UnderOtherNames f g φ u t := fun {u} hu => forall₂_mem_left' h (hp.mem_iff.1 hu)
  have hmem' : ∀ {t}, t ∈ ts → ∃ u ∈ us', UnderOtherNames f g φ u t := fun {t} ht => by
    obtain ⟨u, hu, hr⟩ := forall₂_mem_right' h ht
    exact ⟨u, hp.mem_iff.2 hu, hr⟩
  have hts' : us' ≠ [] := by
    obtain ⟨t, ht⟩ := List.exists_mem_of_ne_nil _ hts
    obtain ⟨u, hu, _⟩ := hmem' ht
    exact List.ne_nil_of_mem hu
  have hz' : ∀ tf ∈ us', ¬ tf.1.date.isZero := by
    intro u hu
    obtain ⟨t, ht, e⟩ := hmem hu
    rw [e.date]
    exact hz t ht
  have hr' : ∀ tf ∈ us', tf.1.date.Real := by
    intro u hu
    obtain ⟨t, ht, e⟩ := hmem hu
    rw [e.date]
    exact hr t ht
  obtain ⟨⟨a, a1, a2⟩, a3⟩ := S.first hz hts
  obtain ⟨⟨b, b1, b2⟩, b3⟩ := S.last hz hts
  obtain ⟨⟨a', a1', a2'⟩, a3'⟩ := S'.first hz' hts'
  obtain ⟨⟨b', b1', b2'⟩, b3'⟩ := S'.last hz' hts'
  obtain ⟨x, x1, x2⟩ := hmem a1'
  obtain ⟨y, y1, y2⟩ := hmem b1'
  obtain ⟨v, v1, v2⟩ := hmem' a1
  obtain ⟨w, w1, w2⟩ := hmem' b1
  have q1 := a3' v v1
  have q2 := b3' w w1
  have q3 := a3 x x1
  have q4 := b3 y y1
  rw [← a2', v2.date, x2.date] at q1
  rw [← b2', w2.date, y2.date] at q2
  rw [← a2] at q3
  rw [← b2] at q4
  have hv : ∀ {top : Str}, top ∈ [str "Income", str "Expenses"] → ∀ d, ((dayPostings [] top us' d).map Posting.value).Perm ((dayPostings [] top ts d).map Posting.value) := fun {top} ht d => by
    rw [← dayPostings_values hk h ht d]
    exact List.Perm.map _ ((hp.filter _).flatMap_right _)
  have hnil : ∀ {top : Str}, top ∈ [str "Income", str "Expenses"] → ∀ d, dayPostings [] top us' d ≠ [] ↔ dayPostings [] top ts d ≠ [] := fun {top} ht d => by
    have := (hv ht d).length_eq
    rw [List.length_map, List.length_map] at this
    rw [ne_eq, ne_eq, ← List.length_eq_zero_iff, this, List.length_eq_zero_iff]
  have hval : ∀ {top : Str}, top ∈ [str "Income", str "Expenses"] → ∀ d, valueOf (dayPostings [] top us' d) = valueOf (dayPostings [] top ts d) := fun {top} ht d => (hv ht d).sum_eq
  have hi : incomeID ∈ [str "Income", str "Expenses"] := by decide
  have he : expensesID ∈ [str "Income", str "Expenses"] := by decide
  refine ⟨?_, ?_, by rw [S.count, S'.count, hp.length_eq, h.length_eq], perm_names hg S.accounts.1 S'.accounts.1 fun z => ?_, perm_names hf S.payees.1 S'.payees.1 fun z => ?_,
    perm_names hφ S.files.1 S'.files.1 fun z => ?_, ?_⟩
  · rw [← a2', ← a2, x2.date]
    exact dayNumber_inj (hr x x1) (hr a a1) (by omega)
  · rw [← b2', ← b2, y2.date]
    exact dayNumber_inj (hr y y1) (hr b b1) (by omega)
  · rw [S'.accounts.2]
    constructor
    · rintro ⟨u, hu, q, hq, rfl⟩
      obtain ⟨t, ht, e⟩ := hmem hu
      rw [selection_none] at hq
      obtain ⟨p, hp, e1, _⟩ := forall₂_mem_left' e.postings hq
      exact ⟨p.accountPath, (S.accounts.2 _).2 ⟨t, ht, p, by rwa [selection_none], rfl⟩, e1.symm⟩
    · rintro ⟨y, hy, rfl⟩
      obtain ⟨t, ht, p, hp, rfl⟩ := (S.accounts.2 _).1 hy
      obtain ⟨u, hu, e⟩ := hmem' ht
      rw [selection_none] at hp
      obtain ⟨q, hq, e1, _⟩ := forall₂_mem_right' e.postings hp
      exact ⟨u, hu, q, by rwa [selection_none], e1⟩
  · rw [S'.payees.2]
    constructor
    · rintro ⟨u, hu, rfl⟩
      obtain ⟨t, ht, e⟩ := hmem hu
      exact ⟨t.1.payee, (S.payees.2 _).2 ⟨t, ht, rfl⟩, e.payee.symm⟩
    · rintro ⟨y, hy, rfl⟩
      obtain ⟨t, ht, rfl⟩ := (S.payees.2 _).1 hy
      obtain ⟨u, hu, e⟩ := hmem' ht
      exact ⟨u, hu, e.payee⟩
  · rw [S'.files.2]
    constructor
    · rintro ⟨u, hu, rfl⟩
      obtain ⟨t, ht, e⟩ := hmem hu
      exact ⟨t.2, (S.files.2 _).2 ⟨t, ht, rfl⟩, e.file.symm⟩
    · rintro ⟨y, hy, rfl⟩
      obtain ⟨t, ht, rfl⟩ := (S.files.2 _).1 hy
      obtain ⟨u, hu, e⟩ := hmem' ht
      exact ⟨u, hu, e.file⟩
  · obtain ⟨i1, i2⟩ := keys_sorted h1 S.income.2.1 fun d hd => day_real hr ((S.income.2.2 d).1 hd)
    obtain ⟨i1', i2'⟩ := keys_sorted h1' S'.income.2.1 fun d hd => day_real hr' ((S'.income.2.2 d).1 hd)
    obtain ⟨x1, x2⟩ := keys_sorted h1 S.expense.2.1 fun d hd => day_real hr ((S.expense.2.2 d).1 hd)
    obtain ⟨x1', x2'⟩ := keys_sorted h1' S'.expense.2.1 fun d hd => day_real hr' ((S'.expense.2.2 d).1 hd)
    have ei : sort' (s'.income.map Prod.fst) = sort (s.income.map Prod.fst) :=
      sorted_days_unique i1' i1 fun d => by rw [i2', i2, S'.income.2.2, S.income.2.2, hnil hi]
    have ee : sort' (s'.expense.map Prod.fst) = sort (s.expense.map Prod.fst) :=
      sorted_days_unique x1' x1 fun d => by rw [x2', x2, S'.expense.2.2, S.expense.2.2, hnil he]
    unfold Stats.ages
    rw [show (fun x : Date × I64 => x.1) = Prod.fst from rfl, ei, ee]
    refine ageOuter_congr _ _ (fun d => ?_) _ _ _ _ _ fun d => ?_
    · rw [S'.expense.1, S.expense.1, hval he]
    · rw [S'.income.1, S.income.1, hval hi]

variable [Unicode] {m m' : Machine} {o o' : Options} {args args' : List Str} {bytes bytes' : List UInt8} {js js' : List (Meant × Str)}
  {admits admits' : Date → Bool} {path path' : Str}

omit [Unicode] in
theorem wanted_all (admits : Date → Bool) (js : List (Meant × Str)) : wantedIn [] admits js = (attributed js).filter fun tf => admits tf.1.date := by
  unfold wantedIn
  refine List.filter_congr fun tf _ => ?_
  have : WantedBy [] tf.1 := Or.inl (Or.inl rfl)
  simp [this]

/-- Two runs of `statistics` without arguments, on whatever journals, where payees, accounts and files of the second are those of the first with other names, one to one, in whichever order (and other commodities, notes and states): the same report but for the names of the
files. -/
theorem C147_statistics (hf : Function.Injective f) (hg : Function.Injective g) (hφ : Function.Injective φ) (hk : KeepsKinds g)
    (G : Setting m o args bytes [] admits path) {pg pg' : Page} (r : Reading m.fs m.lib m.maxOpen path bytes js (.ok pg)) (hs : ¬ Command.statistics.Short [] admits (meanings js))
    (G' : Setting m' o' args' bytes' [] admits' path') (r' : Reading m'.fs m'.lib m'.maxOpen path' bytes' js' (.ok pg')) (hs' : ¬ Command.statistics.Short [] admits' (meanings js'))
    (hp : ((attributed js').filter fun tf => admits' tf.1.date).Perm us) (h : List.Forall₂ (UnderOtherNames f g φ) us ((attributed js).filter fun tf => admits tf.1.date))
    (hw : ∃ tf ∈ attributed js, admits tf.1.date = true) (hz : ∀ tf ∈ attributed js, ¬ tf.1.date.isZero) :
    ∃ (x : Figures) (files' : List Str), FiguresOf [] (wantedIn [] admits js) x ∧ files'.Perm (x.files.map φ) ∧ m.run o .statistics args = ⟨(x.lines m.humanize).flatMap (· ++ str "\n"), .exit 0⟩ ∧
      m'.run o' .statistics args' = ⟨(({ x with files := files' } : Figures).lines m'.humanize).flatMap (· ++ str "\n"), .exit 0⟩ := by
  obtain ⟨d1, d2, _⟩ := C99_parsed r
  obtain ⟨d1', d2', _⟩ := C99_parsed r'
  have H : Heard m o args bytes js [] admits path := ⟨G, d1⟩
  have H' : Heard m' o' args' bytes' js' [] admits' path' := ⟨G', d1'⟩
  have hp1 := (runParse_cases m.fs m.maxOpen bytes path (m.env o []).statsHandlers {}).2.1 (H.stopped (c := .statistics) hs) (d2 pg rfl)
  have hp1' := (runParse_cases m'.fs m'.maxOpen bytes' path' (m'.env o' []).statsHandlers {}).2.1 (H'.stopped (c := .statistics) hs') (d2' pg' rfl)
  have a1 := H.asks.2.1
  have a1' := H'.asks.2.1
  have hr : ∀ tf ∈ wantedIn [] admits js, tf.1.date.Real := by
    rw [← a1]
    exact fun tf htf => (picked_real _ htf).1
  have hw1 : wantedIn [] admits js ≠ [] := by
    obtain ⟨tf, h1, h2⟩ := hw
    rw [wanted_all]
    exact List.ne_nil_of_mem (List.mem_filter.2 ⟨h1, h2⟩)
  have hz1 : ∀ tf ∈ wantedIn [] admits js, ¬ tf.1.date.isZero := fun tf htf => hz tf (List.mem_of_mem_filter htf)
  rw [← wanted_all] at h hp
  have hw1' : wantedIn [] admits' js' ≠ [] := by
    intro h0
    rw [h0] at hp
    rw [hp.symm.eq_nil] at h
    exact hw1 (List.forall₂_nil_left_iff.1 h)
  have s1 := C53_statistics (m.env o []) G.fair.postings _ _ _ _ _ hp1
  have s1' := C53_statistics (m'.env o' []) G'.fair.postings _ _ _ _ _ hp1'
  obtain ⟨age, e1, e2, e3⟩ := stats_figures (m.env o []) G.fair.postings m.humanize m.stringOrder G.fair.strings m.sortDates G.fair.dates _ _ _ _ _ hp1 (by rw [a1]; exact hw1)
  obtain ⟨age', e1', e2', e3'⟩ := stats_figures (m'.env o' []) G'.fair.postings m'.humanize m'.stringOrder G'.fair.strings m'.sortDates G'.fair.dates _ _ _ _ _ hp1' (by rw [a1']; exact hw1')
  rw [a1] at s1 e2
  rw [a1'] at s1'
  obtain ⟨k1, k2, k4, k5, k6, k7, k8⟩ := C147_stats hf hg hφ hk hw1 hr hz1 hp h s1 s1' G.fair.dates G'.fair.dates
  have k9 : age' = age := by
    have := congrArg decimalValue (show natDigits age' = natDigits age by rw [← e1', ← e1, k8])
    rwa [natDigits_value, natDigits_value] at this
  refine ⟨_, _, e2, (G'.fair.strings _).trans (k7.trans ((G.fair.strings _).map φ).symm), ?_, ?_⟩
  · rw [H.run (by decide), Machine.runOn, statsCmd, hp1]
    simp only [Except.map]
    rw [e3]
    rfl
  · rw [H'.run (by decide), Machine.runOn, statsCmd, hp1']
    simp only [Except.map]
    rw [e3']
    have k3 : ∀ a b : Stats, a.first = b.first → a.last = b.last → a.days = b.days := fun a b h1 h2 => by unfold Stats.days; rw [h1, h2]
    have l5 := k5.length_eq
    have l6 := k6.length_eq
    rw [List.length_map] at l5 l6
    simp only [k1, k2, k3 _ _ k1 k2, k4, l5, l6, k9]
    rfl

end

/-- Two accounts change their names. -/
example : Function.Injective (Equiv.swap (str "Assets") (str "Expenditure")) ∧ KeepsKinds (Equiv.swap (str "Assets") (str "Expenditure")) := by
  refine ⟨Equiv.injective _, fun a top ht => ?_⟩
  have h1 : ∀ top ∈ [str "Income", str "Expenses"], (split ':' (str "Assets")).head? ≠ some top ∧ (split ':' (str "Expenditure")).head? ≠ some top := by decide
  rw [Equiv.swap_apply_def]
  split
  · rename_i h
    subst h
    exact iff_of_false (h1 top ht).2 (h1 top ht).1
  · split
    · rename_i h
      subst h
      exact iff_of_false (h1 top ht).1 (h1 top ht).2
    · exact Iff.rfl

/-- A transaction under other names. -/
example :
    let posting (a : String) (c : String) (q : Int) : Posting := { accountPath := str a, amount := some ⟨str c, BitVec.ofInt 64 q⟩ }
    let t : Transaction := { date := ⟨2020, 1, 11⟩, payee := str "y", postings := [posting "Expenses:B" "$" 200, posting "Assets" "$" (-200)] }
    let u : Transaction := { date := ⟨2020, 1, 11⟩, payee := str "z", postings := [posting "Expenses:B" "" 200, posting "Expenditure" "" (-200)] }
    UnderOtherNames (Equiv.swap (str "y") (str "z")) (Equiv.swap (str "Assets") (str "Expenditure")) id (u, str "f") (t, str "f") := by
  refine ⟨rfl, by decide +kernel, rfl, ?_⟩
  exact .cons ⟨by decide +kernel, by decide +kernel⟩ (.cons ⟨by decide +kernel, by decide +kernel⟩ .nil)

set_option maxRecDepth 100000 in
/-- The same statistics; but not if spending is called something else, since then it is not recognised. -/
theorem C147_kinds_false :
    letI := asciiUnicode
    let a := machineWith (str "f") "2020-01-01 x\n  A  10\n  Income:A\n\n2020-01-11 y\n  Expenses:B  2\n  A\n"
    let b := machineWith (str "f") "2020-01-01 v\n  B  £10\n  Income:A\n\n2020-01-11 w\n  Expenses:C  £2\n  B\n"
    let c := machineWith (str "f") "2020-01-01 x\n  A  10\n  Income:A\n\n2020-01-11 y\n  Ausgaben:B  2\n  A\n"
    a.run { file := str "f" } .statistics [] = b.run { file := str "f" } .statistics [] ∧
      str "Age of money:\t\t10 days\n" <:+ (b.run { file := str "f" } .statistics []).stdout ∧
      ¬ (str "Age of money:\t\t10 days\n" <:+ (c.run { file := str "f" } .statistics []).stdout) := by
  decide +kernel

end Gledger
