/-
C139: a journal some days later. Nothing that is reported depends on the particular days, except the days shown and months of budgets.
-/
import Verif.Props.Carry
import Verif.Props.Fit

namespace Gledger

/-- The same transaction, some days later. -/
def laterBy (k : Nat) (tf : Transaction × Str) : Transaction × Str := ({ tf.1 with date := Date.next^[k] tf.1.date }, tf.2)

theorem later_day {d : Date} (h : d.Real) (k : Nat) : (Date.next^[k] d).Real ∧ (Date.next^[k] d).dayNumber = d.dayNumber + k := by
  induction k with
  | zero => exact ⟨h, by simp⟩
  | succ k ih =>
    rw [Function.iterate_succ_apply']
    obtain ⟨h1, h2⟩ := dayNumber_next ih.1
    exact ⟨h1, by rw [h2, ih.2]; push_cast; ring⟩

theorem later_inj {a b : Date} (ha : a.Real) (hb : b.Real) {k : Nat} (h : Date.next^[k] a = Date.next^[k] b) : a = b := by
  have h1 := (later_day ha k).2
  have h2 := (later_day hb k).2
  rw [h, h2] at h1
  exact dayNumber_inj ha hb (by omega)

section
variable {σ : Date → Date} {K : List Date}

/-- The matching of incomes and expenses depends on the days only through what is earned and spent on them and on their order. -/
theorem ageInner_image (hσ : ∀ a ∈ K, ∀ b ∈ K, σ a = σ b → a = b) (ek : Date) : ∀ (iks : List Date), (∀ d ∈ iks, d ∈ K) → ∀ (x : I64) (b b' : Buckets)
    (ages : List (Date × Date)), (∀ d ∈ K, b'.get (σ d) = b.get d) →
    (ageInner (σ ek) (iks.map σ) x b' (ages.map (Prod.map σ σ))).2 = (ageInner ek iks x b ages).2.map (Prod.map σ σ) ∧
      ∀ d ∈ K, (ageInner (σ ek) (iks.map σ) x b' (ages.map (Prod.map σ σ))).1.get (σ d) = (ageInner ek iks x b ages).1.get d
  | [], _, _, _, _, _, hb => ⟨rfl, hb⟩
  | ik :: iks, hk, x, b, b', ages, hb => by
    have hik := hk ik (by simp)
    have hk' : ∀ d ∈ iks, d ∈ K := fun d hd => hk d (List.mem_cons_of_mem _ hd)
    have hput : ∀ v, ∀ d ∈ K, (b'.put (σ ik) v).get (σ d) = (b.put ik v).get d := by
      intro v d hd
      rw [Buckets.get_put, Buckets.get_put, hb d hd]
      by_cases h : d = ik
      · rw [if_pos h, if_pos (by rw [h])]
      · rw [if_neg h, if_neg fun e => h (hσ d hd ik hik e)]
    have hm : ages.map (Prod.map σ σ) ++ [(σ ek, σ ik)] = (ages ++ [(ek, ik)]).map (Prod.map σ σ) := by simp
    simp only [List.map_cons, ageInner, hb ik hik, hm]
    by_cases h0 : b.get ik = 0
    · rw [if_pos h0, if_pos h0]
      exact ageInner_image hσ ek iks hk' x b b' ages hb
    · rw [if_neg h0, if_neg h0]
      by_cases h1 : (b.get ik).toInt < x.toInt
      · rw [if_pos h1, if_pos h1]
        exact ageInner_image hσ ek iks hk' _ _ _ _ (hput 0)
      · rw [if_neg h1, if_neg h1]
        exact ⟨rfl, hput _⟩

theorem ageOuter_image (hσ : ∀ a ∈ K, ∀ b ∈ K, σ a = σ b → a = b) {iks : List Date} (hi : ∀ d ∈ iks, d ∈ K) {x x' : Buckets} (hx : ∀ d ∈ K, x'.get (σ d) = x.get d) :
    ∀ (eks : List Date), (∀ d ∈ eks, d ∈ K) → ∀ (b b' : Buckets) (ages : List (Date × Date)), (∀ d ∈ K, b'.get (σ d) = b.get d) →
    (ageOuter x' (iks.map σ) (eks.map σ) b' (ages.map (Prod.map σ σ))).2 = (ageOuter x iks eks b ages).2.map (Prod.map σ σ)
  | [], _, _, _, _, _ => rfl
  | ek :: eks, hk, b, b', ages, hb => by
    simp only [List.map_cons, ageOuter]
    rw [hx ek (hk ek (by simp))]
    obtain ⟨h1, h2⟩ := ageInner_image hσ ek iks hi (x.get ek) b b' ages hb
    rw [h1]
    exact ageOuter_image hσ hi hx eks (fun d hd => hk d (List.mem_cons_of_mem _ hd)) _ _ _ h2

end

theorem sorted_days_unique {l l' : List Date} (h : DaysSorted l) (h' : DaysSorted l') (e : ∀ d, d ∈ l ↔ d ∈ l') : l = l' := by
  unfold DaysSorted at h h'
  exact pairwise_unique (r := fun a b : Date => a.dayNumber < b.dayNumber) (fun a => lt_irrefl a.dayNumber) (fun a b c h1 h2 => lt_trans h1 h2) h h' e

section
variable {fs : List Filter} {ts ts' : List (Transaction × Str)} {k : Nat}

theorem dayPostings_later (hr : ∀ tf ∈ ts, tf.1.date.Real) (hp : ts'.Perm (ts.map (laterBy k))) (top : Str) {d : Date} (hd : d.Real) :
    (dayPostings fs top ts' (Date.next^[k] d)).Perm (dayPostings fs top ts d) := by
  unfold dayPostings
  refine ((hp.filter _).flatMap_right _).trans ?_
  rw [List.filter_map, List.flatMap_map]
  have e : ts.filter ((fun tf : Transaction × Str => decide (tf.1.date = Date.next^[k] d)) ∘ laterBy k) = ts.filter fun tf => tf.1.date = d := by
    refine List.filter_congr fun tf h => ?_
    exact decide_eq_decide.2 ⟨fun h' => later_inj (hr tf h) hd h', fun h' => congrArg _ h'⟩
  rw [e]
  exact List.Perm.refl _

theorem day_later (hp : ts'.Perm (ts.map (laterBy k))) {top : Str} {d' : Date} (h : dayPostings fs top ts' d' ≠ []) :
    ∃ tf ∈ ts, d' = Date.next^[k] tf.1.date := by
  obtain ⟨p, hp'⟩ := List.exists_mem_of_ne_nil _ h
  obtain ⟨tf', h1, _⟩ := List.mem_flatMap.1 hp'
  obtain ⟨h1, h2⟩ := List.mem_filter.1 h1
  obtain ⟨tf, h3, rfl⟩ := List.mem_map.1 (hp.mem_iff.1 h1)
  exact ⟨tf, h3, (of_decide_eq_true h2).symm⟩

theorem day_real (hr : ∀ tf ∈ ts, tf.1.date.Real) {top : Str} {d : Date} (h : dayPostings fs top ts d ≠ []) : d.Real := by
  obtain ⟨p, hp'⟩ := List.exists_mem_of_ne_nil _ h
  obtain ⟨tf, h1, _⟩ := List.mem_flatMap.1 hp'
  obtain ⟨h1, h2⟩ := List.mem_filter.1 h1
  rw [← of_decide_eq_true h2]
  exact hr tf h1

/-- The days of one kind of posting, in order, later. -/
theorem keys_later (hr : ∀ tf ∈ ts, tf.1.date.Real) (hp : ts'.Perm (ts.map (laterBy k))) {top : Str} {sort sort' : List Date → List Date} (h1 : SortsDates sort)
    (h1' : SortsDates sort') {b b' : Buckets} (hn : (b.map Prod.fst).Nodup) (hn' : (b'.map Prod.fst).Nodup)
    (hb : ∀ d, d ∈ b.map Prod.fst ↔ dayPostings fs top ts d ≠ []) (hb' : ∀ d, d ∈ b'.map Prod.fst ↔ dayPostings fs top ts' d ≠ []) :
    sort' (b'.map Prod.fst) = (sort (b.map Prod.fst)).map (Date.next^[k]) := by
  have hr' : ∀ tf ∈ ts', tf.1.date.Real := by
    intro tf htf
    obtain ⟨u, hu, rfl⟩ := List.mem_map.1 (hp.mem_iff.1 htf)
    exact (later_day (hr u hu) k).1
  obtain ⟨s1, s2⟩ := keys_sorted h1 hn fun d hd => day_real hr ((hb d).1 hd)
  obtain ⟨s1', s2'⟩ := keys_sorted h1' hn' fun d hd => day_real hr' ((hb' d).1 hd)
  refine sorted_days_unique s1' ?_ ?_
  · unfold DaysSorted at s1 ⊢
    rw [List.pairwise_map]
    refine s1.imp_of_mem fun {a c} ha hc h => ?_
    rw [(later_day (day_real hr ((hb a).1 ((s2 a).1 ha))) k).2, (later_day (day_real hr ((hb c).1 ((s2 c).1 hc))) k).2]
    omega
  · intro d'
    rw [s2', hb', List.mem_map]
    constructor
    · intro h
      obtain ⟨tf, htf, rfl⟩ := day_later hp h
      refine ⟨tf.1.date, (s2 _).2 ((hb _).2 ?_), rfl⟩
      intro h0
      exact h ((h0 ▸ dayPostings_later hr hp top (hr tf htf)).eq_nil)
    · rintro ⟨d, hd, rfl⟩
      have hd := (hb d).1 ((s2 d).1 hd)
      intro h0
      exact hd ((h0 ▸ (dayPostings_later hr hp top (day_real hr hd)).symm).eq_nil)

/-- The age of money is the same to the nanosecond, whatever is earned and spent, also where sums overflow. -/
theorem C139_age (hr : ∀ tf ∈ ts, tf.1.date.Real) (hp : ts'.Perm (ts.map (laterBy k))) {sort sort' : List Date → List Date} (h1 : SortsDates sort)
    (h1' : SortsDates sort') {s s' : Stats} (h : StatsOf fs ts s) (h' : StatsOf fs ts' s') : averageAge (s'.ages sort') = averageAge (s.ages sort) := by
  let K : List Date := ts.map fun tf => tf.1.date
  have hK : ∀ d ∈ K, d.Real := by
    intro d hd
    obtain ⟨tf, htf, rfl⟩ := List.mem_map.1 hd
    exact hr tf htf
  have hσ : ∀ a ∈ K, ∀ b ∈ K, Date.next^[k] a = Date.next^[k] b → a = b := fun a ha b hb e => later_inj (hK a ha) (hK b hb) e
  have mem : ∀ {top : Str} {d : Date}, dayPostings fs top ts d ≠ [] → d ∈ K := by
    intro top d hd
    obtain ⟨p, hp'⟩ := List.exists_mem_of_ne_nil _ hd
    obtain ⟨tf, k1, _⟩ := List.mem_flatMap.1 hp'
    obtain ⟨k1, k2⟩ := List.mem_filter.1 k1
    exact List.mem_map.2 ⟨tf, k1, of_decide_eq_true k2⟩
  have ei := keys_later hr hp h1 h1' h.income.2.1 h'.income.2.1 h.income.2.2 h'.income.2.2
  have ee := keys_later hr hp h1 h1' h.expense.2.1 h'.expense.2.1 h.expense.2.2 h'.expense.2.2
  have mi : ∀ d ∈ sort (s.income.map Prod.fst), d ∈ K := fun d hd => mem ((h.income.2.2 d).1 ((h1 _).1.mem_iff.1 hd))
  have me : ∀ d ∈ sort (s.expense.map Prod.fst), d ∈ K := fun d hd => mem ((h.expense.2.2 d).1 ((h1 _).1.mem_iff.1 hd))
  have hages : s'.ages sort' = (s.ages sort).map (Prod.map (Date.next^[k]) (Date.next^[k])) := by
    have := ageOuter_image hσ mi (x := s.expense) (x' := s'.expense)
      (fun d hd => by rw [h'.expense.1, h.expense.1, valueOf_perm (dayPostings_later hr hp expensesID (hK d hd))]) (sort (s.expense.map Prod.fst)) me s.income s'.income []
      (fun d hd => by rw [h'.income.1, h.income.1, valueOf_perm (dayPostings_later hr hp incomeID (hK d hd))])
    unfold Stats.ages
    rw [show (fun x : Date × I64 => x.1) = Prod.fst from rfl, ei, ee]
    exact this
  rw [hages]
  unfold averageAge
  simp only [List.length_map, ← List.map_take, List.map_map]
  congr 4
  refine List.map_congr_left fun a ha => ?_
  have hm : a.1 ∈ K ∧ a.2 ∈ K := by
    have ha : a ∈ s.ages sort := List.mem_of_mem_take ha
    rcases ageOuter_mem _ _ _ _ _ a ha with h | ⟨h1, h2⟩
    · cases h
    · exact ⟨me _ h1, mi _ h2⟩
  simp only [Function.comp, durationNs, Prod.map]
  rw [(later_day (hK _ hm.1) k).2, (later_day (hK _ hm.2) k).2]
  congr 3
  ring_nf

/-- The figures of the same transactions some days later, in whichever order: the first and the last day are so much later, everything else is the same. -/
theorem C139_stats (hts : ts ≠ []) (hr : ∀ tf ∈ ts, tf.1.date.Real) (hz : ∀ tf ∈ ts ++ ts', ¬ tf.1.date.isZero) (hp : ts'.Perm (ts.map (laterBy k))) {s s' : Stats}
    (h : StatsOf fs ts s) (h' : StatsOf fs ts' s') :
    s'.first = Date.next^[k] s.first ∧ s'.last = Date.next^[k] s.last ∧ s'.days = s.days ∧ s'.count = s.count ∧ s'.accounts.Perm s.accounts ∧ s'.payees.Perm s.payees ∧
      s'.files.Perm s.files := by
  have hts' : ts' ≠ [] := by
    rintro rfl
    exact hts (List.map_eq_nil_iff.1 hp.symm.eq_nil)
  have hmem : ∀ {tf}, tf ∈ ts' ↔ ∃ u ∈ ts, laterBy k u = tf := fun {tf} => by rw [hp.mem_iff, List.mem_map]
  obtain ⟨⟨a, a1, a2⟩, a3⟩ := h.first (fun tf h => hz tf (List.mem_append_left _ h)) hts
  obtain ⟨⟨b, b1, b2⟩, b3⟩ := h.last (fun tf h => hz tf (List.mem_append_left _ h)) hts
  obtain ⟨⟨a', a1', a2'⟩, a3'⟩ := h'.first (fun tf h => hz tf (List.mem_append_right _ h)) hts'
  obtain ⟨⟨b', b1', b2'⟩, b3'⟩ := h'.last (fun tf h => hz tf (List.mem_append_right _ h)) hts'
  obtain ⟨c, c1, rfl⟩ := hmem.1 a1'
  obtain ⟨d, d1, rfl⟩ := hmem.1 b1'
  have ha := a3' _ (hmem.2 ⟨a, a1, rfl⟩)
  have hb := b3' _ (hmem.2 ⟨b, b1, rfl⟩)
  have hc := a3 c c1
  have hd := b3 d d1
  have ra := later_day (hr a a1) k
  have rb := later_day (hr b b1) k
  have rc := later_day (hr c c1) k
  have rd := later_day (hr d d1) k
  simp only [laterBy] at ha hb a2' b2'
  rw [← a2', rc.2, ra.2] at ha
  rw [← b2', rd.2, rb.2] at hb
  rw [← a2] at hc
  rw [← b2] at hd
  have e1 : s'.first = Date.next^[k] s.first := by
    rw [← a2', ← a2]
    exact dayNumber_inj rc.1 ra.1 (by omega)
  have e2 : s'.last = Date.next^[k] s.last := by
    rw [← b2', ← b2]
    exact dayNumber_inj rd.1 rb.1 (by omega)
  have sel : ∀ u : Transaction × Str, selection fs (laterBy k u).1 = selection fs u.1 := fun u => rfl
  refine ⟨e1, e2, ?_, by rw [h.count, h'.count, hp.length_eq, List.length_map], ?_, ?_, ?_⟩
  · unfold Stats.days durationNs
    rw [e1, e2, ← a2, ← b2, ra.2, rb.2]
    congr 7
    ring_nf
  · rw [List.perm_ext_iff_of_nodup h'.accounts.1 h.accounts.1]
    intro x
    rw [h'.accounts.2, h.accounts.2]
    constructor
    · rintro ⟨tf, h1, h2⟩
      obtain ⟨u, hu, rfl⟩ := hmem.1 h1
      exact ⟨u, hu, h2⟩
    · rintro ⟨u, hu, h2⟩
      exact ⟨_, hmem.2 ⟨u, hu, rfl⟩, h2⟩
  · rw [List.perm_ext_iff_of_nodup h'.payees.1 h.payees.1]
    intro x
    rw [h'.payees.2, h.payees.2]
    constructor
    · rintro ⟨tf, h1, h2⟩
      obtain ⟨u, hu, rfl⟩ := hmem.1 h1
      exact ⟨u, hu, h2⟩
    · rintro ⟨u, hu, h2⟩
      exact ⟨_, hmem.2 ⟨u, hu, rfl⟩, h2⟩
  · rw [List.perm_ext_iff_of_nodup h'.files.1 h.files.1]
    intro x
    rw [h'.files.2, h.files.2]
    constructor
    · rintro ⟨tf, h1, h2⟩
      obtain ⟨u, hu, rfl⟩ := hmem.1 h1
      exact ⟨u, hu, h2⟩
    · rintro ⟨u, hu, h2⟩
      exact ⟨_, hmem.2 ⟨u, hu, rfl⟩, h2⟩

variable [Unicode] {m m' : Machine} {o o' : Options} {args args' : List Str} {bytes bytes' : List UInt8} {js js' : List (Meant × Str)} {filters : List Filter}
  {admits admits' : Date → Bool} {path path' : Str}

/-- The transactions of the second journal are those of the first `k` days later, in whichever order, and those of the later days are asked for. -/
structure Postponed (k : Nat) (admits admits' : Date → Bool) (js js' : List (Meant × Str)) : Prop where
  same : (attributed js').Perm ((attributed js).map (laterBy k))
  days : ∀ tf ∈ attributed js, admits' (Date.next^[k] tf.1.date) = admits tf.1.date

omit [Unicode] in
theorem Postponed.wanted (h : Postponed k admits admits' js js') (filters : List Filter) :
    (wantedIn filters admits' js').Perm ((wantedIn filters admits js).map (laterBy k)) := by
  unfold wantedIn
  refine (h.same.filter _).trans ?_
  rw [List.filter_map]
  have e : (attributed js).filter ((fun tf : Transaction × Str => decide (admits' tf.1.date = true ∧ WantedBy filters tf.1)) ∘ laterBy k) =
      (attributed js).filter fun tf => admits tf.1.date ∧ WantedBy filters tf.1 := by
    refine List.filter_congr fun tf htf => ?_
    refine decide_eq_decide.2 ?_
    show admits' (Date.next^[k] tf.1.date) = true ∧ WantedBy filters tf.1 ↔ _
    rw [h.days tf htf]
  rw [e]

omit [Unicode] in
theorem Postponed.asked (h : Postponed k admits admits' js js') :
    (asked admits' (meanings js')).Perm ((asked admits (meanings js)).map fun t => { t with date := Date.next^[k] t.date }) := by
  have e : ∀ (admits : Date → Bool) (js : List (Meant × Str)), Gledger.asked admits (meanings js) = ((attributed js).filter fun tf => admits tf.1.date).map Prod.fst := by
    intro admits js
    have := attributed_fst (fun _ => true) admits js
    simpa using this.symm
  rw [e, e, List.map_map]
  refine ((h.same.filter _).map _).trans ?_
  rw [List.filter_map, List.map_map]
  have e : (attributed js).filter ((fun tf : Transaction × Str => admits' tf.1.date) ∘ laterBy k) = (attributed js).filter fun tf => admits tf.1.date :=
    List.filter_congr fun tf htf => h.days tf htf
  rw [e]
  exact List.Perm.refl _

omit [Unicode] in
theorem Postponed.postings (h : Postponed k admits admits' js js') (filters : List Filter) :
    (askedPostings filters admits' (meanings js')).Perm (askedPostings filters admits (meanings js)) := by
  unfold askedPostings
  refine (h.asked.flatMap_right _).trans ?_
  rw [List.flatMap_map]
  exact List.Perm.refl _

/-- `statistics` prints the same some days later but for the first and last day (and how long ago they are): the same age of money too, whatever is earned and spent. -/
theorem C139_statistics (g : Setting m o args bytes filters admits path) {pg pg' : Page} (r : Reading m.fs m.lib m.maxOpen path bytes js (.ok pg))
    (hs : ¬ Command.statistics.Short filters admits (meanings js))
    (g' : Setting m' o' args' bytes' filters admits' path') (r' : Reading m'.fs m'.lib m'.maxOpen path' bytes' js' (.ok pg'))
    (h : Postponed k admits admits' js js') (hw : wantedIn filters admits js ≠ [])
    (hz : ∀ tf ∈ wantedIn filters admits js ++ wantedIn filters admits' js', ¬ tf.1.date.isZero) :
    ∃ f files', FiguresOf filters (wantedIn filters admits js) f ∧ files'.Perm f.files ∧ m.run o .statistics args = ⟨(f.lines m.humanize).flatMap (· ++ str "\n"), .exit 0⟩ ∧
      m'.run o' .statistics args' =
        ⟨(({ f with files := files', first := Date.next^[k] f.first, last := Date.next^[k] f.last } : Figures).lines m'.humanize).flatMap (· ++ str "\n"), .exit 0⟩ := by
  have hs' : ¬ Command.statistics.Short filters admits' (meanings js') := by
    rintro ⟨p, hp, h1⟩
    exact hs ⟨p, (h.postings filters).mem_iff.1 hp, h1⟩
  obtain ⟨d1, d2, _⟩ := C99_parsed r
  obtain ⟨d1', d2', _⟩ := C99_parsed r'
  have H : Heard m o args bytes js filters admits path := ⟨g, d1⟩
  have H' : Heard m' o' args' bytes' js' filters admits' path' := ⟨g', d1'⟩
  have hp := (runParse_cases m.fs m.maxOpen bytes path (m.env o filters).statsHandlers {}).2.1 (H.stopped (c := .statistics) hs) (d2 pg rfl)
  have hp' := (runParse_cases m'.fs m'.maxOpen bytes' path' (m'.env o' filters).statsHandlers {}).2.1 (H'.stopped (c := .statistics) hs') (d2' pg' rfl)
  have w := h.wanted filters
  have a1 := H.asks.2.1
  have a1' := H'.asks.2.1
  have hr : ∀ tf ∈ wantedIn filters admits js, tf.1.date.Real := by
    rw [← a1]
    exact fun tf htf => (picked_real _ htf).1
  have s1 := C53_statistics (m.env o filters) g.fair.postings _ _ _ _ _ hp
  have s1' := C53_statistics (m'.env o' filters) g'.fair.postings _ _ _ _ _ hp'
  have hw' : wantedIn filters admits' js' ≠ [] := by
    intro h0
    rw [h0] at w
    exact hw (List.map_eq_nil_iff.1 w.symm.eq_nil)
  obtain ⟨age, e1, e2, e3⟩ := stats_figures (m.env o filters) g.fair.postings m.humanize m.stringOrder g.fair.strings m.sortDates g.fair.dates _ _ _ _ _ hp (by rw [a1]; exact hw)
  obtain ⟨age', e1', e2', e3'⟩ := stats_figures (m'.env o' filters) g'.fair.postings m'.humanize m'.stringOrder g'.fair.strings m'.sortDates g'.fair.dates _ _ _ _ _ hp' (by rw [a1']; exact hw')
  rw [a1] at s1 e2
  rw [a1'] at s1'
  obtain ⟨k1, k2, k3, k4, k5, k6, k7⟩ := C139_stats hw hr hz w s1 s1'
  have k8 := C139_age hr w g.fair.dates g'.fair.dates s1 s1'
  have k9 : age' = age := by
    have := congrArg decimalValue (show natDigits age' = natDigits age by rw [← e1', ← e1, k8])
    rwa [natDigits_value, natDigits_value] at this
  refine ⟨_, _, e2, (g'.fair.strings _).trans (k7.trans (g.fair.strings _).symm), ?_, ?_⟩
  · rw [H.run (by decide), Machine.runOn, statsCmd, hp]
    simp only [Except.map]
    rw [e3]
    rfl
  · rw [H'.run (by decide), Machine.runOn, statsCmd, hp']
    simp only [Except.map]
    rw [e3']
    simp only [k1, k2, k3, k4, k5.length_eq, k6.length_eq, k9]
    rfl

/-- `balance` prints the same some days later. -/
theorem C139_balance (g : Setting m o args bytes filters admits path) {pg pg' : Page} (r : Reading m.fs m.lib m.maxOpen path bytes js (.ok pg))
    (g' : Setting m' o' args' bytes' filters admits' path') (r' : Reading m'.fs m'.lib m'.maxOpen path' bytes' js' (.ok pg'))
    (h : Postponed k admits admits' js js') (h0 : o.showZero = o'.showZero) (h1 : o.flatten = o'.flatten) (h2 : o.collapse = o'.collapse) {c : Str}
    (hc : ∀ p ∈ askedPostings filters admits (meanings js), ∃ a, p.amount = some a ∧ a.commodity = c) :
    m.run o .balance args = m'.run o' .balance args' := by
  have p := h.postings filters
  refine C136_runs g r g' r' h0 h1 h2 (c := c) (fun x hx => ?_) (fun cs => ?_) fun cs => (valueOf_perm (p.filter _)).symm
  · rcases List.mem_append.1 hx with hx | hx
    · exact hc x hx
    · exact hc x (p.mem_iff.1 hx)
  · simp only [p.mem_iff]

omit [Unicode] in
theorem lists_congr {P Q : Str → Prop} (h : ∀ a, P a ↔ Q a) {t t' : Str} (h1 : Lists P t) (h2 : Lists Q t') : t = t' := by
  obtain ⟨L, l1, l2, rfl⟩ := h1
  obtain ⟨L', l1', l2', rfl⟩ := h2
  rw [pairwise_unique StrLt.irrefl (fun _ _ _ => StrLt.trans) l1 l1' fun a => ((l2 a).trans (h a)).trans (l2' a).symm]

/-- `accounts` too. -/
theorem C139_accounts (g : Setting m o args bytes filters admits path) {pg pg' : Page} (r : Reading m.fs m.lib m.maxOpen path bytes js (.ok pg))
    (g' : Setting m' o' args' bytes' filters admits' path') (r' : Reading m'.fs m'.lib m'.maxOpen path' bytes' js' (.ok pg'))
    (h : Postponed k admits admits' js js') : m.run o .accounts args = m'.run o' .accounts args' := by
  obtain ⟨d1, d2, _⟩ := C99_parsed r
  obtain ⟨d1', d2', _⟩ := C99_parsed r'
  obtain ⟨t, e, l⟩ := Heard.accounts (js := js) ⟨g, d1⟩ (d2 pg rfl)
  obtain ⟨t', e', l'⟩ := Heard.accounts (js := js') ⟨g', d1'⟩ (d2' pg' rfl)
  rw [e, e']
  congr 1
  refine lists_congr (fun a => and_congr_left' ?_) l l'
  constructor
  · rintro ⟨t, ht, hp⟩
    exact ⟨_, h.asked.mem_iff.2 (List.mem_map_of_mem ht), hp⟩
  · rintro ⟨t, ht, hp⟩
    obtain ⟨u, hu, rfl⟩ := List.mem_map.1 (h.asked.mem_iff.1 ht)
    exact ⟨u, hu, hp⟩

/-- And `payees`. -/
theorem C139_payees (g : Setting m o args bytes filters admits path) {pg pg' : Page} (r : Reading m.fs m.lib m.maxOpen path bytes js (.ok pg))
    (g' : Setting m' o' args bytes' filters admits' path') (r' : Reading m'.fs m'.lib m'.maxOpen path' bytes' js' (.ok pg'))
    (h : Postponed k admits admits' js js') (he : m'.engine = m.engine) (ha : ∀ a ∈ args, ∃ r, m.engine.compile (wholePattern a) = some r) :
    m.run o .payees args = m'.run o' .payees args := by
  obtain ⟨d1, d2, _⟩ := C99_parsed r
  obtain ⟨d1', d2', _⟩ := C99_parsed r'
  obtain ⟨t, e, l⟩ := Heard.payees (js := js) ⟨g, d1⟩ (d2 pg rfl) ha
  obtain ⟨t', e', l'⟩ := Heard.payees (js := js') ⟨g', d1'⟩ (d2' pg' rfl) (by rw [he]; exact ha)
  rw [e, e']
  congr 1
  rw [he] at l'
  refine lists_congr (fun a => and_congr_left' ?_) l l'
  constructor
  · rintro ⟨t, ht, hp⟩
    exact ⟨_, h.asked.mem_iff.2 (List.mem_map_of_mem ht), hp⟩
  · rintro ⟨t, ht, hp⟩
    obtain ⟨u, hu, rfl⟩ := List.mem_map.1 (h.asked.mem_iff.1 ht)
    exact ⟨u, hu, hp⟩

/-- `print` prints the later transactions in the same order, if no two are of the same day. -/
theorem C139_print (g : Setting m o args bytes filters admits path) {pg pg' : Page} (r : Reading m.fs m.lib m.maxOpen path bytes js (.ok pg))
    (g' : Setting m' o' args' bytes' filters admits' path') (r' : Reading m'.fs m'.lib m'.maxOpen path' bytes' js' (.ok pg'))
    (h : Postponed k admits admits' js js')
    (hd : ((asked admits (meanings js)).filter fun t => WantedBy filters t).Pairwise fun a b => a.date ≠ b.date) :
    ∃ ts : List Transaction, m.run o .print args = ⟨(ts.map fun t => t.format ++ str "\n").flatten, .exit 0⟩ ∧
      m'.run o' .print args' = ⟨(ts.map fun t => ({ t with date := Date.next^[k] t.date } : Transaction).format ++ str "\n").flatten, .exit 0⟩ := by
  obtain ⟨d1, d2, _⟩ := C99_parsed r
  obtain ⟨d1', d2', _⟩ := C99_parsed r'
  have H : Heard m o args bytes js filters admits path := ⟨g, d1⟩
  obtain ⟨ts, p1, p2, p3⟩ := Heard.print (js := js) ⟨g, d1⟩ (d2 pg rfl)
  obtain ⟨ts', p1', p2', p3'⟩ := Heard.print (js := js') ⟨g', d1'⟩ (d2' pg' rfl)
  let later : Transaction → Transaction := fun t => { t with date := Date.next^[k] t.date }
  have hw : ((asked admits' (meanings js')).filter fun t => decide (WantedBy filters t)).Perm
      (((asked admits (meanings js)).filter fun t => decide (WantedBy filters t)).map later) := by
    refine (h.asked.filter _).trans ?_
    rw [List.filter_map]
    exact List.Perm.refl _
  have hreal : ∀ t ∈ ts, t.date.Real := by
    intro t ht
    have ht := p1.mem_iff.1 ht
    have hfst := attributed_fst (fun t => decide (WantedBy filters t)) admits js
    rw [← hfst] at ht
    obtain ⟨tf, htf, rfl⟩ := List.mem_map.1 ht
    have : tf ∈ wantedIn filters admits js := by simpa [wantedIn] using htf
    rw [← H.asks.2.1] at this
    exact (picked_real _ this).1
  have hne : ts.Pairwise fun a b => a.date ≠ b.date := p1.symm.pairwise hd fun h => h.symm
  have hlt : ts.Pairwise fun a b => a.date.dayNumber < b.date.dayNumber := (p2.and hne).imp_of_mem fun {a b} ha hb ⟨h1, h2⟩ =>
    lt_of_le_of_ne h1 fun e => h2 (dayNumber_inj (hreal a ha) (hreal b hb) e)
  have hlt1 : (ts.map later).Pairwise fun a b => a.date.dayNumber < b.date.dayNumber := by
    rw [List.pairwise_map]
    refine hlt.imp_of_mem fun {a b} ha hb h => ?_
    have h1 := (later_day (hreal a ha) k).2
    have h2 := (later_day (hreal b hb) k).2
    show (Date.next^[k] a.date).dayNumber < (Date.next^[k] b.date).dayNumber
    omega
  have hp : ts'.Perm (ts.map later) := (p1'.trans hw).trans (p1.symm.map later)
  have hlt2 : ts'.Pairwise fun a b => a.date.dayNumber < b.date.dayNumber := by
    have hn : ts'.Pairwise fun a b => a.date.dayNumber ≠ b.date.dayNumber := hp.symm.pairwise (hlt1.imp fun h => ne_of_lt h) fun h => h.symm
    exact (p2'.and hn).imp fun h => lt_of_le_of_ne h.1 h.2
  refine ⟨ts, p3, ?_⟩
  rw [p3', pairwise_unique (r := fun a b : Transaction => a.date.dayNumber < b.date.dayNumber) (fun a => lt_irrefl a.date.dayNumber) (fun a b c h1 h2 => lt_trans h1 h2) hlt2 hlt1
    fun x => hp.mem_iff, List.map_map]
  rfl

end

set_option maxRecDepth 100000

/-- Three days later, over the end of February and in another order. -/
example :
    letI := asciiUnicode
    let sorting := List.insertionSort fun a b : Date => a.dayNumber ≤ b.dayNumber
    let a := { machineWith (str "f") "2020-02-26 x\n  A  10\n  Income:A\n\n2020-02-28 y\n  Expenses:B  2\n  A\n\n2020-03-03 x\n  Expenses:B  9\n  A\n" with sortDates := sorting }
    let b := { machineWith (str "f") "2020-03-06 x\n  Expenses:B  9\n  A\n\n2020-02-29 x\n  A  10\n  Income:A\n\n2020-03-02 y\n  Expenses:B  2\n  A\n" with sortDates := sorting }
    Date.next^[3] ⟨2020, 2, 26⟩ = ⟨2020, 2, 29⟩ ∧ Date.next^[3] ⟨2020, 2, 28⟩ = ⟨2020, 3, 2⟩ ∧ Date.next^[3] ⟨2020, 3, 3⟩ = ⟨2020, 3, 6⟩ ∧
    (a.run { file := str "f" } .statistics []).stdout = str "Transactions found in 1 files:\n  f\nFirst transaction:\t2020-02-26 ()\nLast transaction:\t2020-03-03 ()\nTime period:\t\t6 days\nTransactions:\t\t3 (0.5 per day)\nUnique accounts:\t3\nUnique payees:\t\t2\nAge of money:\t\t4 days\n" ∧
    (b.run { file := str "f" } .statistics []).stdout = str "Transactions found in 1 files:\n  f\nFirst transaction:\t2020-02-29 ()\nLast transaction:\t2020-03-06 ()\nTime period:\t\t6 days\nTransactions:\t\t3 (0.5 per day)\nUnique accounts:\t3\nUnique payees:\t\t2\nAge of money:\t\t4 days\n" := by
  decide +kernel

/-- Budgets are for months: of a journal some days later they are different. -/
theorem C139_budget_false :
    letI := asciiUnicode
    let a := machineWith (str "f") "2020-02-28 x\n  Expenses:B  2\n  A\n\n2020-02-29 x\n  Expenses:B  1\n  A\n"
    let b := machineWith (str "f") "2020-02-29 x\n  Expenses:B  2\n  A\n\n2020-03-01 x\n  Expenses:B  1\n  A\n"
    str "B                              |                -3.00 |                 0.00 |                -3.00 |\n" <:+: (a.run { file := str "f" } .budget []).stdout ∧
    ¬ str "B                              |                -3.00 |                 0.00 |                -3.00 |\n" <:+: (b.run { file := str "f" } .budget []).stdout := by
  decide +kernel

end Gledger
