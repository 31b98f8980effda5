/-
C122: whoever asks for more is shown more. C123: parts of a journal, parts of a period.
-/
import Verif.Spec.Monotone
import Verif.Props.Local

namespace Gledger

set_option maxRecDepth 100000

/-! ### Ways of asking for more -/

/-- More filters. -/
theorem C122_more_filters (e : Env) (fs : List Filter) (h : e.filters ≠ []) (hs : e.filters ⊆ fs) : e.Asks { e with filters := fs } :=
  ⟨fun _ h => h, Or.inr ⟨h, hs⟩⟩

/-- No filters. -/
theorem C122_no_filters (e : Env) : e.Asks { e with filters := [] } := ⟨fun _ h => h, Or.inl rfl⟩

theorem makeFilters_mem [Unicode] {R : RegexEngine} {args : List Str} {fs : List Filter} (h : makeFilters R args = .ok fs) (f : Filter) :
    f ∈ fs ↔ ∃ a ∈ args, newFilter R a = .ok f := by
  induction args generalizing fs with
  | nil => cases h; simp
  | cons a as ih =>
    unfold makeFilters at h
    cases ha : newFilter R a with
    | error x => rw [ha] at h; cases h
    | ok g =>
      rw [ha] at h
      cases hm : makeFilters R as with
      | error x => rw [hm] at h; cases h
      | ok gs =>
        rw [hm] at h
        cases h
        simp only [List.mem_cons, ih hm, exists_eq_or_imp, ha, Except.ok.injEq, eq_comm (a := f)]

/-- More arguments on the command line (or none). -/
theorem C122_more_arguments [Unicode] (m : Machine) (o : Options) {args args' : List Str} {fs fs' : List Filter} (h : makeFilters m.engine args = .ok fs)
    (h' : makeFilters m.engine args' = .ok fs') (ha : args' = [] ∨ args ≠ [] ∧ args ⊆ args') : (m.env o fs).Asks (m.env o fs') := by
  refine ⟨fun _ h => h, ?_⟩
  rcases ha with rfl | ⟨h0, h1⟩
  · cases h'
    exact Or.inl rfl
  · refine Or.inr ⟨?_, fun f hf => ?_⟩
    · rintro rfl
      cases args with
      | nil => exact h0 rfl
      | cons a as =>
        unfold makeFilters at h
        cases ha : newFilter m.engine a with
        | error x => rw [ha] at h; cases h
        | ok g =>
          rw [ha] at h
          cases hm : makeFilters m.engine as with
          | error x => rw [hm] at h; cases h
          | ok gs => rw [hm] at h; cases h
    · obtain ⟨a, k1, k2⟩ := (makeFilters_mem h f).1 hf
      exact (makeFilters_mem h' f).2 ⟨a, h1 k1, k2⟩

/-- A longer period. -/
theorem C122_longer_period (e : Env) (hc : e.current = false) (B E : Str) (x y x' y' : Int) (hx : e.bound e.beginDate = .ok x) (hy : e.bound e.endDate = .ok y)
    (hx' : e.bound B = .ok x') (hy' : e.bound E = .ok y') (h1 : x' ≤ x) (h2 : y' = 0 ∨ y ≠ 0 ∧ y ≤ y') : e.Asks { e with beginDate := B, endDate := E } := by
  refine ⟨fun t ht => ?_, ?_⟩
  · unfold Env.InRange at ht ⊢
    rw [range_iff hc hx hy] at ht
    rw [range_iff (e := { e with beginDate := B, endDate := E }) hc hx' hy']
    simp only [Except.ok.injEq, decide_eq_true_eq] at ht ⊢
    omega
  · by_cases h : e.filters = []
    · exact Or.inl h
    · exact Or.inr ⟨h, fun _ h => h⟩

/-- The same flags and filters. -/
theorem Env.Asks.refl (e : Env) : e.Asks e := by
  refine ⟨fun _ h => h, ?_⟩
  by_cases h : e.filters = []
  · exact Or.inl h
  · exact Or.inr ⟨h, fun _ h => h⟩

theorem Env.Asks.trans {e e' e'' : Env} (h : e.Asks e') (h' : e'.Asks e'') : e.Asks e'' := by
  refine ⟨fun t ht => h'.days t (h.days t ht), ?_⟩
  rcases h'.filters with h0 | ⟨h0, h1⟩
  · exact Or.inl h0
  · rcases h.filters with h2 | ⟨h2, h3⟩
    · exact absurd h2 h0
    · exact Or.inr ⟨h2, fun _ hf => h1 (h3 hf)⟩

/-- More paragraphs in the journal. -/
theorem C122_more_paragraphs [Unicode] (fs : FileSystem) (n : Nat) (path : Str) {ps qs : List (List UInt8)} (h : ps.Sublist qs) (hq : ∀ q ∈ qs, Passage fs n path q) :
    (delivered fs n (passages ps) path).Sublist (delivered fs n (passages qs) path) := by
  rw [(delivered_passages fs n path ps fun p hp => hq p (h.subset hp)).1, (delivered_passages fs n path qs hq).1]
  exact h.flatMap _

/-! ### What is asked for -/

theorem whole_mono {fs gs : List Filter} (h : gs = [] ∨ fs ≠ [] ∧ fs ⊆ gs) {t : Transaction} (hw : WholeSelected fs t) : WholeSelected gs t := by
  rcases h with rfl | ⟨h0, h1⟩
  · exact Or.inl rfl
  · rcases hw with hw | ⟨f, hf, hw⟩
    · exact absurd hw h0
    · exact Or.inr ⟨f, h1 hf, hw⟩

theorem selection_mono {fs gs : List Filter} (h : gs = [] ∨ fs ≠ [] ∧ fs ⊆ gs) (t : Transaction) : (selection fs t).Sublist (selection gs t) := by
  unfold selection
  by_cases h2 : WholeSelected gs t
  · rw [if_pos h2]
    split
    · exact List.Sublist.refl _
    · exact List.filter_sublist
  · rw [if_neg h2, if_neg (fun h1 => h2 (whole_mono h h1))]
    have h1 : fs ⊆ gs := by
      rcases h with rfl | h
      · exact absurd (Or.inl rfl) h2
      · exact h.2
    refine List.monotone_filter_right _ fun p hp => ?_
    simp only [decide_eq_true_eq] at hp ⊢
    obtain ⟨f, hf, hp⟩ := hp
    exact ⟨f, h1 hf, hp⟩

theorem sublist_flatMap {α β : Type} {f g : α → List β} (h : ∀ a, (f a).Sublist (g a)) {l l' : List α} (hl : l.Sublist l') : (l.flatMap f).Sublist (l'.flatMap g) := by
  induction hl with
  | slnil => exact List.Sublist.refl _
  | cons a _ ih =>
    rw [List.flatMap_cons]
    exact ih.trans (List.sublist_append_right _ _)
  | cons_cons a _ ih =>
    rw [List.flatMap_cons, List.flatMap_cons]
    exact (h a).append ih

section
variable {e e' : Env} (h : e.Asks e') {calls calls' : List Call} (hc : calls.Sublist calls')
include h hc

theorem asks_ranged : (e.ranged calls).Sublist (e'.ranged calls') := by
  unfold Env.ranged normals
  refine (((hc.filterMap _).map _).filter _).trans (List.monotone_filter_right _ fun t ht => ?_)
  simp only [decide_eq_true_eq] at ht ⊢
  exact h.days t ht

theorem asks_picked : (e.picked calls).Sublist (e'.picked calls') := by
  unfold Env.picked normals
  refine ((hc.filterMap _).filter _).trans (List.monotone_filter_right _ fun tf ht => ?_)
  simp only [decide_eq_true_eq] at ht ⊢
  refine ⟨h.days _ ht.1, ?_⟩
  rcases ht.2 with hw | ⟨p, hp, f, hf, hm⟩
  · exact Or.inl (whole_mono h.filters hw)
  · rcases h.filters with h0 | h0
    · exact Or.inl (Or.inl h0)
    · exact Or.inr ⟨p, hp, f, h0.2 hf, hm⟩

omit hc in
theorem asks_selectedOf (c : Call) : (e.selectedOf c).Sublist (e'.selectedOf c) := by
  cases c with
  | periodic _ _ => exact List.Sublist.refl _
  | normal t f =>
    simp only [Env.selectedOf]
    by_cases ht : e.withinDateRange t = .ok true
    · rw [if_pos ht, if_pos (show e'.withinDateRange t = .ok true from h.days t ht)]
      exact selection_mono h.filters t
    · rw [if_neg ht]
      exact List.nil_sublist _

theorem asks_selected : (e.selected calls).Sublist (e'.selected calls') := sublist_flatMap (asks_selectedOf h) hc

theorem asks_filed : (e.filed calls).Sublist (e'.filed calls') := by
  refine sublist_flatMap (fun c => ?_) hc
  cases c with
  | periodic _ _ => exact List.Sublist.refl _
  | normal t f => exact (asks_selectedOf h (.normal t f)).filterMap _

end

theorem sorted_sublist {α : Type} {r : α → α → Prop} (hirr : ∀ a, ¬ r a a) (htr : ∀ a b c, r a b → r b c → r a c) :
    ∀ {l k : List α}, l.Pairwise r → k.Pairwise r → l ⊆ k → l.Sublist k := by
  intro l k hl hk hs
  induction k generalizing l with
  | nil => rw [List.subset_nil.1 hs]
  | cons b k ih =>
    cases l with
    | nil => exact List.nil_sublist _
    | cons a l =>
      rw [List.pairwise_cons] at hl hk
      by_cases hab : a = b
      · subst hab
        refine List.Sublist.cons_cons _ (ih hl.2 hk.2 fun x hx => ?_)
        rcases List.mem_cons.1 (hs (List.mem_cons_of_mem _ hx)) with rfl | hx'
        · exact absurd (hl.1 _ hx) (hirr _)
        · exact hx'
      · refine List.Sublist.cons _ (ih (List.pairwise_cons.2 hl) hk.2 fun x hx => ?_)
        have hak : a ∈ k := (List.mem_cons.1 (hs (by simp))).resolve_left hab
        rcases List.mem_cons.1 (hs hx) with rfl | hx'
        · rcases List.mem_cons.1 hx with rfl | hx
          · exact absurd rfl hab
          · exact absurd (htr _ _ _ (hl.1 _ hx) (hk.1 _ hak)) (hirr _)
        · exact hx'

/-! ### C122 What is shown -/

section
variable [Unicode] {e e' : Env} (h : e.Asks e') {fs fs' : FileSystem} {n n' : Nat} {bytes bytes' : List UInt8} {path path' text text' : Str}
  (hc : (delivered fs n bytes path).Sublist (delivered fs' n' bytes' path'))
include h hc

/-- All lines of the accounts command are there again. -/
theorem C122_accounts (order order' : List Str → List Str) (ho : ∀ l, (order l).Perm l) (ho' : ∀ l, (order' l).Perm l)
    (ht : accountsCmd e order fs n bytes path = .ok text) (ht' : accountsCmd e' order' fs' n' bytes' path' = .ok text') :
    ∃ L L' : List Str, L.Sublist L' ∧ text = (L.map fun l => l ++ str "\n").flatten ∧ text' = (L'.map fun l => l ++ str "\n").flatten ∧ L'.Pairwise StrLt := by
  obtain ⟨L, a1, a2, a3⟩ := C51_accounts e order ho fs n bytes path text ht
  obtain ⟨L', b1, b2, b3⟩ := C51_accounts e' order' ho' fs' n' bytes' path' text' ht'
  refine ⟨L, L', sorted_sublist StrLt.irrefl (fun _ _ _ => StrLt.trans) a1 b1 fun a ha => ?_, a2, b2, b1⟩
  obtain ⟨⟨t, t1, t2⟩, hf⟩ := (a3 a).1 ha
  refine (b3 a).2 ⟨⟨t, (asks_ranged h hc).subset t1, t2⟩, ?_⟩
  rcases h.filters with h0 | ⟨h0, h1⟩
  · exact Or.inl h0
  · rcases hf with hf | ⟨f, hf, hm⟩
    · exact absurd hf h0
    · exact Or.inr ⟨f, h1 hf, hm⟩

/-- All lines of the payees command are there again, if there are no arguments, or more of them. -/
theorem C122_payees (R : RegexEngine) (args args' : List Str) (ha : args' = [] ∨ args ≠ [] ∧ args ⊆ args')
    (order order' : List Str → List Str) (ho : ∀ l, (order l).Perm l) (ho' : ∀ l, (order' l).Perm l)
    (ht : payeesCmd e R args order fs n bytes path = .ok text) (ht' : payeesCmd e' R args' order' fs' n' bytes' path' = .ok text') :
    ∃ L L' : List Str, L.Sublist L' ∧ text = (L.map fun l => l ++ str "\n").flatten ∧ text' = (L'.map fun l => l ++ str "\n").flatten ∧ L'.Pairwise StrLt := by
  obtain ⟨L, a1, a2, a3⟩ := C52_payees e R args order ho fs n bytes path text ht
  obtain ⟨L', b1, b2, b3⟩ := C52_payees e' R args' order' ho' fs' n' bytes' path' text' ht'
  refine ⟨L, L', sorted_sublist StrLt.irrefl (fun _ _ _ => StrLt.trans) a1 b1 fun a h1 => ?_, a2, b2, b1⟩
  obtain ⟨⟨t, t1, t2⟩, hf⟩ := (a3 a).1 h1
  refine (b3 a).2 ⟨⟨t, (asks_ranged h hc).subset t1, t2⟩, ?_⟩
  rcases ha with h0 | ⟨h0, h1⟩
  · exact Or.inl h0
  · rcases hf with hf | ⟨f, hf, hm⟩
    · exact absurd hf h0
    · exact Or.inr ⟨f, h1 hf, hm⟩

/-- All printed transactions are printed again, each as often at least. -/
theorem C122_print (ho : ∀ l, (e.mapOrder l).Perm l) (ho' : ∀ l, (e'.mapOrder l).Perm l) (sort sort' : List Transaction → List Transaction)
    (hs : SortsByDate sort) (hs' : SortsByDate sort')
    (ht : printCmd e sort fs n bytes path = .ok text) (ht' : printCmd e' sort' fs' n' bytes' path' = .ok text') :
    ∃ ts ts' : List Transaction, ts.Subperm ts' ∧ text = (ts.map fun t => t.format ++ str "\n").flatten ∧ text' = (ts'.map fun t => t.format ++ str "\n").flatten ∧
      ts.Pairwise (fun a b => a.date.dayNumber ≤ b.date.dayNumber) ∧ ts'.Pairwise fun a b => a.date.dayNumber ≤ b.date.dayNumber := by
  obtain ⟨L, a1, a2, a3⟩ := C49_print e ho sort hs fs n bytes path text ht
  obtain ⟨L', b1, b2, b3⟩ := C49_print e' ho' sort' hs' fs' n' bytes' path' text' ht'
  exact ⟨L, L', (a1.subperm.trans ((asks_picked h hc).map _).subperm).trans b1.symm.subperm, a3, b3, a2, b2⟩

/-- All accounts of a balance with `--show-zero` are there again. -/
theorem C122_balance (ho : ∀ l, (e.mapOrder l).Perm l) (ho' : ∀ l, (e'.mapOrder l).Perm l)
    (ht : balanceCmd e true false false fs n bytes path = .ok text) (ht' : balanceCmd e' true false false fs' n' bytes' path' = .ok text') :
    ∃ (ps ps' : List Posting) (ls ls' : List (List Str × Str)), BalanceLines true ps text ls ∧ BalanceLines true ps' text' ls' ∧
      ps.Perm (e.selected (delivered fs n bytes path)) ∧ ps'.Perm (e'.selected (delivered fs' n' bytes' path')) ∧
      (ls.map Prod.fst).Sublist (ls'.map Prod.fst) := by
  obtain ⟨ps, a1, R⟩ := balanceCmd_report ho ht
  obtain ⟨ps', b1, R'⟩ := balanceCmd_report ho' ht'
  rw [BalanceReport, if_neg (by simp), if_neg (by simp)] at R R'
  obtain ⟨L, p1, p2, p3⟩ := R
  obtain ⟨L', q1, q2, q3⟩ := R'
  refine ⟨ps, ps', _, _, balanceLines_of p1 (fun cs h => ((p2 cs).1 h).1) (fun cs h0 h1 _ => (p2 cs).2 ⟨h1, h0⟩)
      (fun cs h h0 => absurd h0 ((p2 cs).1 h).2) (fun cs => ⟨_, List.append_assoc _ _ _⟩) p3,
    balanceLines_of q1 (fun cs h => ((q2 cs).1 h).1) (fun cs h0 h1 _ => (q2 cs).2 ⟨h1, h0⟩)
      (fun cs h h0 => absurd h0 ((q2 cs).1 h).2) (fun cs => ⟨_, List.append_assoc _ _ _⟩) q3, a1, b1, ?_⟩
  have fst : ∀ (L : List (List Str)) (f : List Str → Str), (L.map fun cs => (cs, f cs)).map Prod.fst = L := by
    intro L f
    rw [List.map_map, show Prod.fst ∘ (fun cs => (cs, f cs)) = id from rfl, List.map_id]
  rw [fst, fst]
  refine sorted_sublist PathLt.irrefl (fun _ _ _ => PathLt.trans) p1 q1 fun cs hcs => ?_
  obtain ⟨⟨k1, -⟩, k2⟩ := (p2 cs).1 hcs
  refine (q2 cs).2 ⟨⟨?_, Or.inl rfl⟩, k2⟩
  rcases k1 with k1 | ⟨p, hp, k1⟩
  · exact absurd k1 k2
  · exact Or.inr ⟨p, b1.mem_iff.2 ((asks_selected h hc).subset (a1.mem_iff.1 hp)), k1⟩

/-- All months and categories of a budget are there again. -/
theorem C122_budget (ho : ∀ l, (e.mapOrder l).Perm l) (ho' : ∀ l, (e'.mapOrder l).Perm l) (sort sort' : List Date → List Date) (hs : SortsMonths sort)
    (hs' : SortsMonths sort') (ht : budgetCmd e sort fs n bytes path = .ok text) (ht' : budgetCmd e' sort' fs' n' bytes' path' = .ok text') :
    ∃ (es es' : List Filed) (ms ms' : List MonthText), BudgetMonths es text ms ∧ BudgetMonths es' text' ms' ∧
      es.Perm (e.filed (delivered fs n bytes path)) ∧ es'.Perm (e'.filed (delivered fs' n' bytes' path')) ∧
      ∀ t ∈ ms, ∃ t' ∈ ms', t'.month = t.month ∧ (t.lines.map Prod.fst).Sublist (t'.lines.map Prod.fst) := by
  obtain ⟨es, a1, R⟩ := C67_budget_report e ho sort hs fs n bytes path text ht
  obtain ⟨es', b1, R'⟩ := C67_budget_report e' ho' sort' hs' fs' n' bytes' path' text' ht'
  obtain ⟨ms, ms', k1, k2, -⟩ := C121_reports R R'
  have sub : ∀ x ∈ es, x ∈ es' := fun x hx => b1.mem_iff.2 ((asks_filed h hc).subset (a1.mem_iff.1 hx))
  have sub' : ∀ {y m}, ∀ x ∈ inMonth y m es, x ∈ inMonth y m es' := by
    intro y m x hx
    unfold inMonth at hx ⊢
    rw [List.mem_filter] at hx ⊢
    exact ⟨sub x hx.1, hx.2⟩
  refine ⟨es, es', ms, ms', k1, k2, a1, b1, fun t ht => ?_⟩
  obtain ⟨d1, d2⟩ := (k1.months t.month).1 ⟨t, ht, rfl⟩
  obtain ⟨x, hx⟩ := List.exists_mem_of_ne_nil _ d2
  obtain ⟨t', ht', hm⟩ := (k2.months t.month).2 ⟨d1, List.ne_nil_of_mem (sub' x hx)⟩
  refine ⟨t', ht', hm, sorted_sublist StrLt.irrefl (fun _ _ _ => StrLt.trans) (k1.categories t ht).1 (k2.categories t' ht').1 fun k hk => ?_⟩
  obtain ⟨⟨k', l⟩, hl, rfl⟩ := List.mem_map.1 hk
  obtain ⟨x, hx, hd⟩ := ((k1.categories t ht).2 k').1 ⟨l, hl⟩
  obtain ⟨l', hl'⟩ := ((k2.categories t' ht').2 k').2 ⟨x, by rw [hm]; exact sub' x hx, hd⟩
  exact List.mem_map.2 ⟨_, hl', rfl⟩

/-- The statistics, if they find something, count no fewer files, transactions, accounts and payees, and a span of days that covers the other one. -/
theorem C122_statistics (ho : ∀ l, (e.mapOrder l).Perm l) (ho' : ∀ l, (e'.mapOrder l).Perm l) (humanize : Date → Str) (order order' : List Str → List Str)
    (hf : ∀ l, (order l).Perm l) (hf' : ∀ l, (order' l).Perm l) (sort sort' : List Date → List Date) (hs : SortsDates sort) (hs' : SortsDates sort')
    (ht : statsCmd e humanize order sort fs n bytes path = .ok text) (ht' : statsCmd e' humanize order' sort' fs' n' bytes' path' = .ok text') :
    text = str "No transactions matched arguments.\n" ∨
    ∃ f f' : Figures, text = (f.lines humanize).flatMap (· ++ str "\n") ∧ text' = (f'.lines humanize).flatMap (· ++ str "\n") ∧
      f.count ≤ f'.count ∧ f.accounts ≤ f'.accounts ∧ f.payees ≤ f'.payees ∧ f.files ⊆ f'.files ∧
      ((∀ tf ∈ e'.picked (delivered fs' n' bytes' path'), ¬ tf.1.date.isZero) →
        f'.first.dayNumber ≤ f.first.dayNumber ∧ f.first.dayNumber ≤ f.last.dayNumber ∧ f.last.dayNumber ≤ f'.last.dayNumber ∧ f.days ≤ f'.days) := by
  have S := C72_statistics_report e ho humanize order hf sort hs fs n bytes path text ht
  have S' := C72_statistics_report e' ho' humanize order' hf' sort' hs' fs' n' bytes' path' text' ht'
  have sub := asks_picked h hc
  simp only at S S'
  by_cases h0 : e.picked (delivered fs n bytes path) = []
  · rw [if_pos h0] at S
    exact Or.inl S
  · have h0' : e'.picked (delivered fs' n' bytes' path') ≠ [] := by
      intro hn
      rw [hn] at sub
      exact h0 (List.sublist_nil.1 sub)
    rw [if_neg h0] at S
    rw [if_neg h0'] at S'
    obtain ⟨f, F, rfl⟩ := S
    obtain ⟨f', F', rfl⟩ := S'
    have len : ∀ {l l' : List Str}, l.Nodup → (∀ a ∈ l, a ∈ l') → l.length ≤ l'.length := fun h1 h2 => (h1.subperm h2).length_le
    refine Or.inr ⟨f, f', rfl, rfl, ?_, ?_, ?_, ?_, fun hz => ?_⟩
    · rw [F.count, F'.count]
      exact sub.length_le
    · obtain ⟨l, l1, l2, l3⟩ := F.accounts
      obtain ⟨l', m1, m2, m3⟩ := F'.accounts
      rw [l3, m3]
      refine len l1 fun a ha => (m2 a).2 ?_
      obtain ⟨tf, h1, p, hp, h2⟩ := (l2 a).1 ha
      exact ⟨tf, sub.subset h1, p, (selection_mono h.filters tf.1).subset hp, h2⟩
    · obtain ⟨l, l1, l2, l3⟩ := F.payees
      obtain ⟨l', m1, m2, m3⟩ := F'.payees
      rw [l3, m3]
      refine len l1 fun a ha => (m2 a).2 ?_
      obtain ⟨tf, h1, h2⟩ := (l2 a).1 ha
      exact ⟨tf, sub.subset h1, h2⟩
    · intro a ha
      obtain ⟨tf, h1, h2⟩ := (F.files.2 a).1 ha
      exact (F'.files.2 a).2 ⟨tf, sub.subset h1, h2⟩
    · have hz0 : ∀ tf ∈ e.picked (delivered fs n bytes path), ¬ tf.1.date.isZero := fun tf h => hz tf (sub.subset h)
      obtain ⟨⟨t1, a1, a2⟩, a3⟩ := F.first hz0
      obtain ⟨⟨t2, b1, b2⟩, b3⟩ := F.last hz0
      obtain ⟨-, c3⟩ := F'.first hz
      obtain ⟨-, d3⟩ := F'.last hz
      have q1 := c3 t1 (sub.subset a1)
      have q2 := d3 t2 (sub.subset b1)
      have q3 := a3 t2 b1
      rw [a2] at q1
      rw [b2] at q2 q3
      have e1 := F.days hz0
      have e2 := F'.days hz
      refine ⟨q1, q3, q2, ?_⟩
      omega

end

/-- A journal with one filter and with another one in addition; a period and a longer one. -/
example :
    letI := asciiUnicode
    let text := utf8 "2020-01-01 x\n  Food  $1\n  Cash\n\n2020-02-01 y\n  Rent  $2\n  Cash\n\n2020-03-01 z\n  Food  $3\n  Cash\n"
    let food : Filter := { regex := fun s => s == str "Food", ftype := .accountName }
    let rent : Filter := { regex := fun s => s == str "Rent", ftype := .accountName }
    let e : Env := { filters := [food] }
    let e' : Env := { filters := [rent, food] }
    let d : Env := { endDate := str "2020-02" }
    let run (e : Env) := (accountsCmd e id noFiles 1 text (str "f")).toOption
    e.filters ≠ [] ∧ run e = some (str "Food\n") ∧ run e' = some (str "Food\nRent\n") ∧ run {} = some (str "Cash\nFood\nRent\n") ∧
    run d = some (str "Cash\nFood\n") ∧ (e.picked (delivered noFiles 1 text (str "f"))).length = 2 ∧ (e'.picked (delivered noFiles 1 text (str "f"))).length = 3 ∧
    (e.selected (delivered noFiles 1 text (str "f"))).length = 2 ∧ (e'.selected (delivered noFiles 1 text (str "f"))).length = 3 ∧
    (balanceCmd e true false false noFiles 1 text (str "f")).toOption = some (str "               $4.00  Food\n--------------------\n                4.00\n") ∧
    (balanceCmd e' true false false noFiles 1 text (str "f")).toOption =
      some (str "               $4.00  Food\n               $2.00  Rent\n--------------------\n                6.00\n") := by
  decide +kernel

/-! ### C123 Parts of a journal, parts of a period -/

/-- The two parts of a journal, at a blank line. -/
theorem C123_journal_parts [Unicode] (e : Env) (fs : FileSystem) (n : Nat) (path : Str) (a nl b : List UInt8) (ha : WholeLines a) (hnl : BlankLine nl)
    (hr : rejection fs n a path = none) :
    SharedOut e (delivered fs n (a ++ (nl ++ b)) path) e (delivered fs n a path) e (delivered fs n b path) := by
  rw [(delivered_parts fs n path a nl b ha hnl hr).1]
  refine ⟨⟨rfl, rfl⟩, ?_, ?_, ?_⟩
  · simp [Env.ranged, normals]
  · simp [Env.picked, normals]
  · simp [Env.selected]

/-- The two parts of a period, at a date. -/
theorem C123_period_parts (e : Env) (hc : e.current = false) (D : Str) (x y z : Int) (hx : e.bound e.beginDate = .ok x) (hy : e.bound e.endDate = .ok y)
    (hz : e.bound D = .ok z) (h0 : z ≠ 0) (h1 : x ≤ z) (h2 : y = 0 ∨ z ≤ y) (calls : List Call) :
    SharedOut e calls { e with endDate := D } calls { e with beginDate := D } calls := by
  obtain ⟨k1, k2⟩ := C86_transactions e hc D x y z hx hy hz h0 h1 h2 calls
  refine ⟨⟨rfl, rfl⟩, ?_, k1, k2⟩
  have key := picked_split e hc D x y z hx hy hz h0 h1 h2
  refine filter_split ?_ ?_ _
  · intro t
    rw [Bool.eq_iff_iff]
    simp only [Bool.or_eq_true, decide_eq_true_eq]
    exact (key t).1
  · intro t
    simp only [decide_eq_true_eq]
    exact (key t).2

section
variable [Unicode] {e e₁ e₂ : Env} {fs fs₁ fs₂ : FileSystem} {n n₁ n₂ : Nat} {bytes bytes₁ bytes₂ : List UInt8} {path path₁ path₂ text text₁ text₂ : Str}
  (h : SharedOut e (delivered fs n bytes path) e₁ (delivered fs₁ n₁ bytes₁ path₁) e₂ (delivered fs₂ n₂ bytes₂ path₂))
include h

/-- The accounts of the parts together. -/
theorem C123_accounts (order order₁ order₂ : List Str → List Str) (ho : ∀ l, (order l).Perm l) (ho₁ : ∀ l, (order₁ l).Perm l) (ho₂ : ∀ l, (order₂ l).Perm l)
    (ht : accountsCmd e order fs n bytes path = .ok text) (ht₁ : accountsCmd e₁ order₁ fs₁ n₁ bytes₁ path₁ = .ok text₁)
    (ht₂ : accountsCmd e₂ order₂ fs₂ n₂ bytes₂ path₂ = .ok text₂) :
    ∃ L L₁ L₂ : List Str, text = (L.map fun l => l ++ str "\n").flatten ∧ text₁ = (L₁.map fun l => l ++ str "\n").flatten ∧
      text₂ = (L₂.map fun l => l ++ str "\n").flatten ∧ L.Pairwise StrLt ∧ L₁.Pairwise StrLt ∧ L₂.Pairwise StrLt ∧ ∀ a, a ∈ L ↔ a ∈ L₁ ∨ a ∈ L₂ := by
  obtain ⟨L, a1, a2, a3⟩ := C51_accounts e order ho fs n bytes path text ht
  obtain ⟨L₁, b1, b2, b3⟩ := C51_accounts e₁ order₁ ho₁ fs₁ n₁ bytes₁ path₁ text₁ ht₁
  obtain ⟨L₂, c1, c2, c3⟩ := C51_accounts e₂ order₂ ho₂ fs₂ n₂ bytes₂ path₂ text₂ ht₂
  refine ⟨L, L₁, L₂, a2, b2, c2, a1, b1, c1, fun a => ?_⟩
  rw [a3, b3, c3, h.filters.1, h.filters.2, ← or_and_right]
  simp only [h.ranged.mem_iff, List.mem_append, or_and_right, exists_or]

/-- The payees of the parts together. -/
theorem C123_payees (R : RegexEngine) (args : List Str) (order order₁ order₂ : List Str → List Str) (ho : ∀ l, (order l).Perm l) (ho₁ : ∀ l, (order₁ l).Perm l)
    (ho₂ : ∀ l, (order₂ l).Perm l) (ht : payeesCmd e R args order fs n bytes path = .ok text) (ht₁ : payeesCmd e₁ R args order₁ fs₁ n₁ bytes₁ path₁ = .ok text₁)
    (ht₂ : payeesCmd e₂ R args order₂ fs₂ n₂ bytes₂ path₂ = .ok text₂) :
    ∃ L L₁ L₂ : List Str, text = (L.map fun l => l ++ str "\n").flatten ∧ text₁ = (L₁.map fun l => l ++ str "\n").flatten ∧
      text₂ = (L₂.map fun l => l ++ str "\n").flatten ∧ L.Pairwise StrLt ∧ L₁.Pairwise StrLt ∧ L₂.Pairwise StrLt ∧ ∀ a, a ∈ L ↔ a ∈ L₁ ∨ a ∈ L₂ := by
  obtain ⟨L, a1, a2, a3⟩ := C52_payees e R args order ho fs n bytes path text ht
  obtain ⟨L₁, b1, b2, b3⟩ := C52_payees e₁ R args order₁ ho₁ fs₁ n₁ bytes₁ path₁ text₁ ht₁
  obtain ⟨L₂, c1, c2, c3⟩ := C52_payees e₂ R args order₂ ho₂ fs₂ n₂ bytes₂ path₂ text₂ ht₂
  refine ⟨L, L₁, L₂, a2, b2, c2, a1, b1, c1, fun a => ?_⟩
  rw [a3, b3, c3, ← or_and_right]
  simp only [h.ranged.mem_iff, List.mem_append, or_and_right, exists_or]

/-- The printed transactions of the parts together. -/
theorem C123_print (ho : ∀ l, (e.mapOrder l).Perm l) (ho₁ : ∀ l, (e₁.mapOrder l).Perm l) (ho₂ : ∀ l, (e₂.mapOrder l).Perm l)
    (sort sort₁ sort₂ : List Transaction → List Transaction) (hs : SortsByDate sort) (hs₁ : SortsByDate sort₁) (hs₂ : SortsByDate sort₂)
    (ht : printCmd e sort fs n bytes path = .ok text) (ht₁ : printCmd e₁ sort₁ fs₁ n₁ bytes₁ path₁ = .ok text₁)
    (ht₂ : printCmd e₂ sort₂ fs₂ n₂ bytes₂ path₂ = .ok text₂) :
    ∃ ts ts₁ ts₂ : List Transaction, text = (ts.map fun t => t.format ++ str "\n").flatten ∧ text₁ = (ts₁.map fun t => t.format ++ str "\n").flatten ∧
      text₂ = (ts₂.map fun t => t.format ++ str "\n").flatten ∧ ts.Perm (ts₁ ++ ts₂) ∧ text.length = text₁.length + text₂.length := by
  obtain ⟨L, a1, a2, a3⟩ := C49_print e ho sort hs fs n bytes path text ht
  obtain ⟨L₁, b1, b2, b3⟩ := C49_print e₁ ho₁ sort₁ hs₁ fs₁ n₁ bytes₁ path₁ text₁ ht₁
  obtain ⟨L₂, c1, c2, c3⟩ := C49_print e₂ ho₂ sort₂ hs₂ fs₂ n₂ bytes₂ path₂ text₂ ht₂
  have hp : L.Perm (L₁ ++ L₂) := by
    refine (a1.trans (h.picked.map _)).trans ?_
    rw [List.map_append]
    exact (b1.append c1).symm
  refine ⟨L, L₁, L₂, a3, b3, c3, hp, ?_⟩
  rw [a3, b3, c3, ← List.length_append, ← List.flatten_append, ← List.map_append]
  exact (hp.map _).flatten.length_eq

/-- The statistics of the parts: transactions are added up; the dates, files, accounts and payees are those of both. -/
theorem C123_statistics (ho : ∀ l, (e.mapOrder l).Perm l) (ho₁ : ∀ l, (e₁.mapOrder l).Perm l) (ho₂ : ∀ l, (e₂.mapOrder l).Perm l) (humanize : Date → Str)
    (order order₁ order₂ : List Str → List Str) (hf : ∀ l, (order l).Perm l) (hf₁ : ∀ l, (order₁ l).Perm l) (hf₂ : ∀ l, (order₂ l).Perm l)
    (sort sort₁ sort₂ : List Date → List Date) (hs : SortsDates sort) (hs₁ : SortsDates sort₁) (hs₂ : SortsDates sort₂)
    (ht : statsCmd e humanize order sort fs n bytes path = .ok text) (ht₁ : statsCmd e₁ humanize order₁ sort₁ fs₁ n₁ bytes₁ path₁ = .ok text₁)
    (ht₂ : statsCmd e₂ humanize order₂ sort₂ fs₂ n₂ bytes₂ path₂ = .ok text₂) :
    (e.picked (delivered fs n bytes path) = [] ↔ e₁.picked (delivered fs₁ n₁ bytes₁ path₁) = [] ∧ e₂.picked (delivered fs₂ n₂ bytes₂ path₂) = []) ∧
    (e₁.picked (delivered fs₁ n₁ bytes₁ path₁) ≠ [] → e₂.picked (delivered fs₂ n₂ bytes₂ path₂) ≠ [] →
      ∃ f f₁ f₂ : Figures, text = (f.lines humanize).flatMap (· ++ str "\n") ∧ text₁ = (f₁.lines humanize).flatMap (· ++ str "\n") ∧
        text₂ = (f₂.lines humanize).flatMap (· ++ str "\n") ∧ f.count = f₁.count + f₂.count ∧ (∀ a, a ∈ f.files ↔ a ∈ f₁.files ∨ a ∈ f₂.files) ∧
        max f₁.accounts f₂.accounts ≤ f.accounts ∧ f.accounts ≤ f₁.accounts + f₂.accounts ∧
        max f₁.payees f₂.payees ≤ f.payees ∧ f.payees ≤ f₁.payees + f₂.payees ∧
        ((∀ tf ∈ e.picked (delivered fs n bytes path), ¬ tf.1.date.isZero) →
          f.first.dayNumber = min f₁.first.dayNumber f₂.first.dayNumber ∧ f.last.dayNumber = max f₁.last.dayNumber f₂.last.dayNumber)) := by
  have S := C72_statistics_report e ho humanize order hf sort hs fs n bytes path text ht
  have S₁ := C72_statistics_report e₁ ho₁ humanize order₁ hf₁ sort₁ hs₁ fs₁ n₁ bytes₁ path₁ text₁ ht₁
  have S₂ := C72_statistics_report e₂ ho₂ humanize order₂ hf₂ sort₂ hs₂ fs₂ n₂ bytes₂ path₂ text₂ ht₂
  simp only at S S₁ S₂
  have hp := h.picked
  obtain ⟨hf1, hf2⟩ := h.filters
  have hnil : e.picked (delivered fs n bytes path) = [] ↔ e₁.picked (delivered fs₁ n₁ bytes₁ path₁) = [] ∧ e₂.picked (delivered fs₂ n₂ bytes₂ path₂) = [] := by
    rw [← List.append_eq_nil_iff]
    constructor
    · intro h0; rw [h0] at hp; exact List.nil_perm.1 hp
    · intro h0; rw [h0] at hp; exact List.perm_nil.1 hp
  refine ⟨hnil, fun n1 n2 => ?_⟩
  rw [if_neg (fun h0 => n1 (hnil.1 h0).1)] at S
  rw [if_neg n1] at S₁
  rw [if_neg n2] at S₂
  obtain ⟨f, F, rfl⟩ := S
  obtain ⟨f₁, F₁, rfl⟩ := S₁
  obtain ⟨f₂, F₂, rfl⟩ := S₂
  have len : ∀ {l l' : List Str}, l.Nodup → (∀ a ∈ l, a ∈ l') → l.length ≤ l'.length := fun h1 h2 => (h1.subperm h2).length_le
  have num : ∀ {P : Str → Transaction × Str → Prop} {x x₁ x₂ : Nat},
      (∃ l : List Str, l.Nodup ∧ (∀ a, a ∈ l ↔ ∃ tf ∈ e.picked (delivered fs n bytes path), P a tf) ∧ x = l.length) →
      (∃ l : List Str, l.Nodup ∧ (∀ a, a ∈ l ↔ ∃ tf ∈ e₁.picked (delivered fs₁ n₁ bytes₁ path₁), P a tf) ∧ x₁ = l.length) →
      (∃ l : List Str, l.Nodup ∧ (∀ a, a ∈ l ↔ ∃ tf ∈ e₂.picked (delivered fs₂ n₂ bytes₂ path₂), P a tf) ∧ x₂ = l.length) →
      max x₁ x₂ ≤ x ∧ x ≤ x₁ + x₂ := by
    rintro P x x₁ x₂ ⟨l, l1, l2, rfl⟩ ⟨k, k1, k2, rfl⟩ ⟨q, q1, q2, rfl⟩
    have hm : ∀ a, a ∈ l ↔ a ∈ k ∨ a ∈ q := by
      intro a
      rw [l2, k2, q2]
      simp only [hp.mem_iff, List.mem_append, or_and_right, exists_or]
    refine ⟨max_le (len k1 fun a ha => (hm a).2 (Or.inl ha)) (len q1 fun a ha => (hm a).2 (Or.inr ha)), ?_⟩
    rw [← List.length_append]
    exact len l1 fun a ha => List.mem_append.2 ((hm a).1 ha)
  have hA := F.accounts
  have hA₁ := F₁.accounts
  have hA₂ := F₂.accounts
  rw [hf1] at hA₁
  rw [hf2] at hA₂
  obtain ⟨u1, u2⟩ := num hA hA₁ hA₂
  obtain ⟨v1, v2⟩ := num F.payees F₁.payees F₂.payees
  refine ⟨f, f₁, f₂, rfl, rfl, rfl, ?_, ?_, u1, u2, v1, v2, fun hz => ?_⟩
  · rw [F.count, F₁.count, F₂.count, ← List.length_append]
    exact hp.length_eq
  · intro a
    rw [F.files.2, F₁.files.2, F₂.files.2]
    simp only [hp.mem_iff, List.mem_append, or_and_right, exists_or]
  · have hz₁ : ∀ tf ∈ e₁.picked (delivered fs₁ n₁ bytes₁ path₁), ¬ tf.1.date.isZero := fun tf h => hz tf (hp.mem_iff.2 (List.mem_append_left _ h))
    have hz₂ : ∀ tf ∈ e₂.picked (delivered fs₂ n₂ bytes₂ path₂), ¬ tf.1.date.isZero := fun tf h => hz tf (hp.mem_iff.2 (List.mem_append_right _ h))
    obtain ⟨⟨t, t1, t2⟩, t3⟩ := F.first hz
    obtain ⟨⟨u, u1, u2⟩, u3⟩ := F₁.first hz₁
    obtain ⟨⟨v, v1, v2⟩, v3⟩ := F₂.first hz₂
    obtain ⟨⟨t', t1', t2'⟩, t3'⟩ := F.last hz
    obtain ⟨⟨u', u1', u2'⟩, u3'⟩ := F₁.last hz₁
    obtain ⟨⟨v', v1', v2'⟩, v3'⟩ := F₂.last hz₂
    have a1 := t3 u (hp.mem_iff.2 (List.mem_append_left _ u1))
    have a2 := t3 v (hp.mem_iff.2 (List.mem_append_right _ v1))
    have b1 := t3' u' (hp.mem_iff.2 (List.mem_append_left _ u1'))
    have b2 := t3' v' (hp.mem_iff.2 (List.mem_append_right _ v1'))
    rw [u2] at a1
    rw [v2] at a2
    rw [u2'] at b1
    rw [v2'] at b2
    have c1 : f₁.first.dayNumber ≤ f.first.dayNumber ∨ f₂.first.dayNumber ≤ f.first.dayNumber := by
      rcases List.mem_append.1 (hp.mem_iff.1 t1) with hx | hx
      · have := u3 t hx; rw [t2] at this; exact Or.inl this
      · have := v3 t hx; rw [t2] at this; exact Or.inr this
    have c2 : f.last.dayNumber ≤ f₁.last.dayNumber ∨ f.last.dayNumber ≤ f₂.last.dayNumber := by
      rcases List.mem_append.1 (hp.mem_iff.1 t1') with hx | hx
      · have := u3' t' hx; rw [t2'] at this; exact Or.inl this
      · have := v3' t' hx; rw [t2'] at this; exact Or.inr this
    omega

end

/-- A journal in two parts, and a period of it in two parts. -/
example :
    letI := asciiUnicode
    let a := utf8 "2020-01-01 x\n  Food  $1\n  Cash\n"
    let b := utf8 "2020-02-01 y\n  Rent  $2\n  Cash\n"
    let payees (e : Env) (text : List UInt8) := (payeesCmd e ⟨fun _ => none⟩ [] id noFiles 1 text (str "f")).toOption
    let accounts (e : Env) (text : List UInt8) := (accountsCmd e id noFiles 1 text (str "f")).toOption
    WholeLines a ∧ BlankLine [10] ∧ rejection noFiles 1 a (str "f") = none ∧
    payees {} (a ++ ([10] ++ b)) = some (str "x\ny\n") ∧ payees {} a = some (str "x\n") ∧ payees {} b = some (str "y\n") ∧
    accounts {} (a ++ ([10] ++ b)) = some (str "Cash\nFood\nRent\n") ∧
    accounts { endDate := str "2020-02-01" } (a ++ ([10] ++ b)) = some (str "Cash\nFood\n") ∧
    accounts { beginDate := str "2020-02-01" } (a ++ ([10] ++ b)) = some (str "Cash\nRent\n") := by
  refine ⟨by decide +kernel, Or.inl rfl, ?_⟩
  decide +kernel

end Gledger
