/-
C53, C54: the statistics command.
-/
import Verif.Spec.Statistics
import Verif.Props.Lists
import Verif.Props.Balances
import Mathlib.Algebra.Order.Group.Abs
import Mathlib.Algebra.Order.Group.Int

set_option maxRecDepth 100000

namespace Gledger

/-! ### C53 statistics counts are right -/

theorem Buckets.get_put (b : Buckets) (d x : Date) (v : I64) : (b.put d v).get x = if x = d then v else b.get x := by
  induction b with
  | nil =>
    unfold Buckets.put Buckets.get
    by_cases h : d = x
    · simp [h]
    · simp [h, Ne.symm h]
  | cons kw rest ih =>
    obtain ⟨k, w⟩ := kw
    rw [Buckets.put]
    by_cases hk : k = d
    · rw [if_pos hk]
      subst hk
      unfold Buckets.get
      by_cases h : k = x
      · simp [h]
      · simp [h, Ne.symm h]
    · rw [if_neg hk]
      unfold Buckets.get at ih ⊢
      by_cases h : k = x
      · subst h; simp [hk]
      · simp only [List.find?_cons, h, decide_false]; exact ih

theorem Buckets.put_keys (b : Buckets) (d : Date) (v : I64) (hn : (b.map Prod.fst).Nodup) :
    ((b.put d v).map Prod.fst).Nodup ∧ ∀ x, x ∈ (b.put d v).map Prod.fst ↔ x ∈ b.map Prod.fst ∨ x = d := by
  induction b with
  | nil => simp [Buckets.put]
  | cons kw rest ih =>
    obtain ⟨k, w⟩ := kw
    rw [List.map_cons, List.nodup_cons] at hn
    obtain ⟨h1, h2⟩ := ih hn.2
    rw [Buckets.put]
    by_cases hk : k = d
    · rw [if_pos hk]
      subst hk
      refine ⟨by rw [List.map_cons, List.nodup_cons]; exact hn, fun x => ?_⟩
      simp only [List.map_cons, List.mem_cons]
      tauto
    · rw [if_neg hk]
      refine ⟨?_, fun x => ?_⟩
      · rw [List.map_cons, List.nodup_cons, h2]
        exact ⟨fun h => h.elim hn.1 hk, h1⟩
      · rw [List.map_cons, List.mem_cons, h2, List.map_cons, List.mem_cons, or_assoc]

/-- The postings at or below a top-level account. -/
def under (top : Str) (ps : List Posting) : List Posting := ps.filter fun p => p.components.head? = some top

theorem headD_head? (p : Posting) (top : Str) : (split ':' p.accountPath).headD [] = top ↔ p.components.head? = some top := by
  have := p.components_ne
  unfold Posting.components at this ⊢
  cases hs : split ':' p.accountPath with
  | nil => exact absurd hs this
  | cons a l => simp

theorem addBuckets_spec (date : Date) (ps : List Posting) : ∀ s s' : Stats, Stats.addBuckets date ps s = some s' →
    (s'.first = s.first ∧ s'.last = s.last ∧ s'.count = s.count ∧ s'.accounts = s.accounts ∧ s'.payees = s.payees ∧ s'.files = s.files) ∧
    (∀ d, s'.income.get d = s.income.get d - if d = date then valueOf (under incomeID ps) else 0) ∧
    (∀ d, s'.expense.get d = s.expense.get d + if d = date then valueOf (under expensesID ps) else 0) ∧
    ((s.income.map Prod.fst).Nodup → (s'.income.map Prod.fst).Nodup ∧ ∀ x, x ∈ s'.income.map Prod.fst ↔ x ∈ s.income.map Prod.fst ∨ (x = date ∧ under incomeID ps ≠ [])) ∧
    ((s.expense.map Prod.fst).Nodup → (s'.expense.map Prod.fst).Nodup ∧ ∀ x, x ∈ s'.expense.map Prod.fst ↔ x ∈ s.expense.map Prod.fst ∨ (x = date ∧ under expensesID ps ≠ [])) := by
  induction ps with
  | nil =>
    intro s s' h
    cases h
    simp [under, valueOf]
  | cons p ps ih =>
    intro s s' h
    rw [Stats.addBuckets, Option.bind_eq_some_iff] at h
    obtain ⟨s1, h1, h2⟩ := h
    obtain ⟨⟨a1, a2, a3, a4, a5, a6⟩, b1, b2, b3, b4⟩ := ih s1 s' h2
    unfold Stats.addBucket at h1
    simp only [headD_head?] at h1
    have hu : ∀ top, under top (p :: ps) = if p.components.head? = some top then p :: under top ps else under top ps := by
      intro top
      unfold under
      rw [List.filter_cons]
      simp
    by_cases hi : p.components.head? = some incomeID
    · have hne : ¬ p.components.head? = some expensesID := by rw [hi]; decide
      rw [if_pos hi, Option.map_eq_some_iff] at h1
      obtain ⟨a, ha, rfl⟩ := h1
      have hv : p.value = a.quantity := by unfold Posting.value; rw [ha]
      refine ⟨⟨a1, a2, a3, a4, a5, a6⟩, ?_, ?_, ?_, ?_⟩
      · intro d
        rw [b1, hu, if_pos hi, Buckets.get_put, valueOf_cons, hv]
        by_cases hd : d = date
        · subst hd; simp only [if_true]; rw [sub_sub]
        · simp [hd]
      · intro d
        rw [b2, hu, if_neg hne]
      · intro hn
        obtain ⟨c1, c2⟩ := Buckets.put_keys s.income date (s.income.get date - a.quantity) hn
        obtain ⟨c3, c4⟩ := b3 c1
        refine ⟨c3, fun x => ?_⟩
        rw [c4, c2, hu, if_pos hi]
        simp only [ne_eq, reduceCtorEq, not_false_eq_true, and_true]
        tauto
      · intro hn
        rw [hu, if_neg hne]
        exact b4 hn
    · rw [if_neg hi] at h1
      by_cases he : p.components.head? = some expensesID
      · rw [if_pos he, Option.map_eq_some_iff] at h1
        obtain ⟨a, ha, rfl⟩ := h1
        have hv : p.value = a.quantity := by unfold Posting.value; rw [ha]
        refine ⟨⟨a1, a2, a3, a4, a5, a6⟩, ?_, ?_, ?_, ?_⟩
        · intro d
          rw [b1, hu, if_neg hi]
        · intro d
          rw [b2, hu, if_pos he, Buckets.get_put, valueOf_cons, hv]
          by_cases hd : d = date
          · subst hd; simp only [if_true]; rw [add_assoc]
          · simp [hd]
        · intro hn
          rw [hu, if_neg hi]
          exact b3 hn
        · intro hn
          obtain ⟨c1, c2⟩ := Buckets.put_keys s.expense date (s.expense.get date + a.quantity) hn
          obtain ⟨c3, c4⟩ := b4 c1
          refine ⟨c3, fun x => ?_⟩
          rw [c4, c2, hu, if_pos he]
          simp only [ne_eq, reduceCtorEq, not_false_eq_true, and_true]
          tauto
      · rw [if_neg he] at h1
        cases h1
        refine ⟨⟨a1, a2, a3, a4, a5, a6⟩, ?_, ?_, ?_, ?_⟩
        · intro d; rw [b1, hu, if_neg hi]
        · intro d; rw [b2, hu, if_neg he]
        · rw [hu, if_neg hi]; exact b3
        · rw [hu, if_neg he]; exact b4

/-- The statistics of these transactions. -/
structure StatsOf (fs : List Filter) (ts : List (Transaction × Str)) (s : Stats) : Prop where
  /-- no transactions: no dates -/
  unset : ts = [] → s.first.isZero = true ∧ s.last.isZero = true
  /-- the number of transactions -/
  count : s.count = ts.length
  /-- the earliest date (if none is 1 January of year 1, which the code takes for unset) -/
  first : (∀ tf ∈ ts, ¬ tf.1.date.isZero) → ts ≠ [] →
    (∃ tf ∈ ts, tf.1.date = s.first) ∧ ∀ tf ∈ ts, s.first.dayNumber ≤ tf.1.date.dayNumber
  /-- the latest date -/
  last : (∀ tf ∈ ts, ¬ tf.1.date.isZero) → ts ≠ [] →
    (∃ tf ∈ ts, tf.1.date = s.last) ∧ ∀ tf ∈ ts, tf.1.date.dayNumber ≤ s.last.dayNumber
  /-- the account paths of the selected postings -/
  accounts : s.accounts.Nodup ∧ ∀ a, a ∈ s.accounts ↔ ∃ tf ∈ ts, ∃ p ∈ selection fs tf.1, p.accountPath = a
  /-- the payees -/
  payees : s.payees.Nodup ∧ ∀ a, a ∈ s.payees ↔ ∃ tf ∈ ts, tf.1.payee = a
  /-- the files -/
  files : s.files.Nodup ∧ ∀ a, a ∈ s.files ↔ ∃ tf ∈ ts, tf.2 = a
  /-- income is negative in a journal -/
  income : (∀ d, s.income.get d = - valueOf (dayPostings fs incomeID ts d)) ∧ (s.income.map Prod.fst).Nodup ∧
    ∀ d, d ∈ s.income.map Prod.fst ↔ dayPostings fs incomeID ts d ≠ []
  /-- expenses -/
  expense : (∀ d, s.expense.get d = valueOf (dayPostings fs expensesID ts d)) ∧ (s.expense.map Prod.fst).Nodup ∧
    ∀ d, d ∈ s.expense.map Prod.fst ↔ dayPostings fs expensesID ts d ≠ []

theorem dayPostings_snoc (fs : List Filter) (top : Str) (ts : List (Transaction × Str)) (t : Transaction) (f : Str) (d : Date) :
    dayPostings fs top (ts ++ [(t, f)]) d = dayPostings fs top ts d ++ if d = t.date then under top (selection fs t) else [] := by
  unfold dayPostings under
  rw [List.filter_append, List.flatMap_append]
  congr 1
  by_cases h : t.date = d
  · simp [h]
  · simp [h, Ne.symm h]

theorem valueOf_append (a b : List Posting) : valueOf (a ++ b) = valueOf a + valueOf b := by simp [valueOf]

theorem under_perm {ps qs : List Posting} (h : ps.Perm qs) (top : Str) : valueOf (under top ps) = valueOf (under top qs) ∧ (under top ps = [] ↔ under top qs = []) := by
  have hp : (under top ps).Perm (under top qs) := h.filter _
  exact ⟨valueOf_perm hp, ⟨fun e => List.nil_perm.1 (e ▸ hp), fun e => List.perm_nil.1 (e ▸ hp)⟩⟩

theorem stats_step (e : Env) (ho : ∀ l, (e.mapOrder l).Perm l) (t : Transaction) (f : Str) (ts : List (Transaction × Str)) (s s' : Stats)
    (hs : StatsOf e.filters ts s) (h : e.statsHandler s t f = (s', none)) :
    StatsOf e.filters (ts ++ if e.InRange t ∧ e.Wanted t then [(t, f)] else []) s' := by
  unfold Env.statsHandler at h
  split at h
  · cases h
  · rename_i m ps hc
    obtain ⟨_, h2, h3⟩ := check_picks e ho t m ps hc
    by_cases hp : e.InRange t ∧ e.Wanted t
    · have hq := h2.2 hp
      have hperm := h3 hp.1
      rw [if_pos hp]
      rw [if_neg (by rintro ⟨h4, h5⟩; rcases hq with h6 | h6 <;> simp_all)] at h
      simp only at h
      split at h
      · rename_i s2 hb
        cases h
        obtain ⟨⟨a1, a2, a3, a4, a5, a6⟩, b1, b2, b3, b4⟩ := addBuckets_spec t.date ps _ s' hb
        have hfirst : s'.first = if s.first.isZero || t.date.before s.first then t.date else s.first := a1
        have hlast : s'.last = if s.last.isZero || t.date.after s.last then t.date else s.last := a2
        have hcount : s'.count = s.count + 1 := a3
        have haccounts : s'.accounts = ps.foldl (fun k (p : Posting) => addKey k p.accountPath) s.accounts := a4
        have hpayees : s'.payees = addKey s.payees t.payee := a5
        have hfiles : s'.files = addKey s.files f := a6
        have hinc : ∀ d, s'.income.get d = s.income.get d - if d = t.date then valueOf (under incomeID ps) else 0 := b1
        have hexp : ∀ d, s'.expense.get d = s.expense.get d + if d = t.date then valueOf (under expensesID ps) else 0 := b2
        have hinck := b3 hs.income.2.1
        have hexpk := b4 hs.expense.2.1
        have hzero : s.first.isZero = true ∧ s.last.isZero = true ∧ ts = [] ∨ ts ≠ [] := by
          by_cases hts : ts = []
          · exact Or.inl ⟨(hs.unset hts).1, (hs.unset hts).2, hts⟩
          · exact Or.inr hts
        refine ⟨by simp, ?_, ?_, ?_, ?_, ?_, ?_, ?_, ?_⟩
        · rw [hcount, hs.count]; simp
        · intro hz _
          have hz' : ∀ tf ∈ ts, ¬ tf.1.date.isZero := fun tf h => hz tf (by simp [h])
          rcases hzero with ⟨h0, _, hts⟩ | hts
          · subst hts
            rw [hfirst, h0]
            simp
          · obtain ⟨⟨u, hu, huf⟩, hmin⟩ := hs.first hz' hts
            have hnz : s.first.isZero = false := by rw [← huf]; simpa using hz' u hu
            rw [hfirst, hnz, Bool.false_or]
            by_cases hb : t.date.before s.first = true
            · rw [if_pos hb]
              refine ⟨⟨(t, f), by simp, rfl⟩, ?_⟩
              intro tf htf
              rcases List.mem_append.1 htf with h | h
              · have := hmin tf h; unfold Date.before at hb; simp at hb; omega
              · rw [List.mem_singleton] at h; subst h; exact le_refl _
            · rw [if_neg hb]
              refine ⟨⟨u, by simp [hu], huf⟩, ?_⟩
              intro tf htf
              rcases List.mem_append.1 htf with h | h
              · exact hmin tf h
              · rw [List.mem_singleton] at h; subst h; unfold Date.before at hb; simpa using hb
        · intro hz _
          have hz' : ∀ tf ∈ ts, ¬ tf.1.date.isZero := fun tf h => hz tf (by simp [h])
          rcases hzero with ⟨_, h0, hts⟩ | hts
          · subst hts
            rw [hlast, h0]
            simp
          · obtain ⟨⟨u, hu, huf⟩, hmax⟩ := hs.last hz' hts
            have hnz : s.last.isZero = false := by rw [← huf]; simpa using hz' u hu
            rw [hlast, hnz, Bool.false_or]
            by_cases hb : t.date.after s.last = true
            · rw [if_pos hb]
              refine ⟨⟨(t, f), by simp, rfl⟩, ?_⟩
              intro tf htf
              rcases List.mem_append.1 htf with h | h
              · have := hmax tf h; unfold Date.after at hb; simp at hb; omega
              · rw [List.mem_singleton] at h; subst h; exact le_refl _
            · rw [if_neg hb]
              refine ⟨⟨u, by simp [hu], huf⟩, ?_⟩
              intro tf htf
              rcases List.mem_append.1 htf with h | h
              · exact hmax tf h
              · rw [List.mem_singleton] at h; subst h; unfold Date.after at hb; simpa using hb
        · obtain ⟨c1, c2⟩ := addKeys_spec Posting.accountPath ps s.accounts hs.accounts.1
          rw [haccounts]
          refine ⟨c1, fun a => ?_⟩
          rw [c2, hs.accounts.2]
          simp [or_and_right, exists_or, hperm.mem_iff]
        · obtain ⟨c1, c2⟩ := addKey_spec hs.payees.1 t.payee
          rw [hpayees]
          refine ⟨c1, fun a => ?_⟩
          rw [c2, hs.payees.2]
          simp [or_and_right, exists_or, eq_comm]
        · obtain ⟨c1, c2⟩ := addKey_spec hs.files.1 f
          rw [hfiles]
          refine ⟨c1, fun a => ?_⟩
          rw [c2, hs.files.2]
          simp [or_and_right, exists_or, eq_comm]
        · refine ⟨fun d => ?_, hinck.1, fun d => ?_⟩
          · rw [hinc, hs.income.1, dayPostings_snoc, valueOf_append, (under_perm hperm _).1]
            by_cases hd : d = t.date
            · simp only [hd, if_true]; rw [neg_add, sub_eq_add_neg]
            · simp [hd, valueOf]
          · rw [hinck.2, hs.income.2.2, dayPostings_snoc]
            have hup := (under_perm hperm incomeID).2
            by_cases hd : d = t.date
            · simp only [hd, true_and, if_true, ne_eq, List.append_eq_nil_iff, hup]; exact not_and_or.symm
            · simp [hd]
        · refine ⟨fun d => ?_, hexpk.1, fun d => ?_⟩
          · rw [hexp, hs.expense.1, dayPostings_snoc, valueOf_append, (under_perm hperm _).1]
            by_cases hd : d = t.date
            · simp only [hd, if_true]
            · simp [hd, valueOf]
          · rw [hexpk.2, hs.expense.2.2, dayPostings_snoc]
            have hup := (under_perm hperm expensesID).2
            by_cases hd : d = t.date
            · simp only [hd, true_and, if_true, ne_eq, List.append_eq_nil_iff, hup]; exact not_and_or.symm
            · simp [hd]
      · cases h
    · have hq : ¬ (m = true ∨ 0 < ps.length) := fun hh => hp (h2.1 hh)
      rw [if_neg hp, List.append_nil]
      rw [if_pos ⟨by by_contra h0; exact hq (Or.inl (by simpa using h0)), by by_contra h0; exact hq (Or.inr (by omega))⟩] at h
      cases h
      exact hs

theorem stats_replay (e : Env) (ho : ∀ l, (e.mapOrder l).Perm l) (calls : List Call) : ∀ s' : Stats,
    e.statsHandlers.replay calls {} = (s', none) → StatsOf e.filters (e.picked calls) s' := by
  induction calls using List.reverseRecOn with
  | nil =>
    intro s' h
    cases h
    refine ⟨fun _ => by decide, rfl, fun _ h => absurd rfl h, fun _ h => absurd rfl h, ?_, ?_, ?_, ?_, ?_⟩
    · simp [Env.picked, normals]
    · simp [Env.picked, normals]
    · simp [Env.picked, normals]
    · exact ⟨fun d => by simp [Env.picked, normals, dayPostings, valueOf, Buckets.get], by simp, fun d => by simp [Env.picked, normals, dayPostings]⟩
    · exact ⟨fun d => by simp [Env.picked, normals, dayPostings, valueOf, Buckets.get], by simp, fun d => by simp [Env.picked, normals, dayPostings]⟩
  | append_singleton calls c ih =>
    intro s' h
    rw [replay_snoc] at h
    rcases hr : e.statsHandlers.replay calls {} with ⟨s, _ | f⟩
    · rw [hr] at h
      have hs := ih s hr
      have hp : e.picked (calls ++ [c]) = e.picked calls ++ e.picked [c] := by simp [Env.picked, normals]
      rw [hp]
      cases c with
      | periodic pt p =>
        cases h
        simpa [Env.picked, normals] using hs
      | normal t f =>
        have := stats_step e ho t f _ s s' hs h
        convert this using 2
        unfold Env.picked normals
        simp only [List.filterMap_cons, List.filterMap_nil, List.filter_cons, List.filter_nil, decide_eq_true_eq]
    · rw [hr] at h
      cases h

/-- When parsing for the statistics succeeds, they are those of the transactions that the flags and filters let through. -/
theorem C53_statistics [Unicode] (e : Env) (ho : ∀ l, (e.mapOrder l).Perm l) (fs : FileSystem) (maxOpen : Nat) (bytes : List UInt8) (path : Str)
    (s : Stats) (h : runParse fs maxOpen bytes path e.statsHandlers {} = .ok s) :
    StatsOf e.filters (e.picked (delivered fs maxOpen bytes path)) s :=
  stats_replay e ho _ s (runParse_replay.1 h).2

/-- A journal with repeated accounts and payees. -/
example :
    letI := asciiUnicode
    let j := utf8 "2020-01-02 x\n  Expenses:B  1\n  A\n\n2020-01-01 y\n  C  2\n  Income:A\n\n2021-01-01 x\n  Expenses:B  2\n  A\n"
    ∃ s, (runParse noFiles 1 j (str "f") (Env.statsHandlers {}) {}).toOption = some s ∧ s.count = 3 ∧ s.accounts.length = 4 ∧ s.payees = [str "x", str "y"] ∧
      s.files = [str "f"] ∧ s.first = ⟨2020, 1, 1⟩ ∧ s.last = ⟨2021, 1, 1⟩ ∧ s.income = [(⟨2020, 1, 1⟩, 200)] ∧
      s.expense = [(⟨2020, 1, 2⟩, 100), (⟨2021, 1, 1⟩, 200)] := by
  refine ⟨_, Option.eq_some_of_isSome (by decide +kernel), ?_⟩
  decide +kernel

/-- Without the restriction on dates: a transaction of the first day of year 1 is forgotten as the earliest. -/
theorem C53_first_date_false : ¬ ∀ (_ : Unicode) (e : Env) (fs : FileSystem) (maxOpen : Nat) (bytes : List UInt8) (path : Str) (s : Stats),
    runParse fs maxOpen bytes path e.statsHandlers {} = .ok s →
    ∀ tf ∈ e.picked (delivered fs maxOpen bytes path), s.first.dayNumber ≤ tf.1.date.dayNumber := by
  intro h
  let _ := asciiUnicode
  have h1 := h asciiUnicode {} noFiles 1 (utf8 "0001-01-01 x\n  A  1\n  B\n\n2020-01-01 x\n  A  2\n  B\n") (str "f")
  have h2 : ∃ s, runParse noFiles 1 (utf8 "0001-01-01 x\n  A  1\n  B\n\n2020-01-01 x\n  A  2\n  B\n") (str "f") (Env.statsHandlers {}) {} = .ok s ∧ s.first.dayNumber = 737424 := by
    generalize hr : runParse noFiles 1 (utf8 "0001-01-01 x\n  A  1\n  B\n\n2020-01-01 x\n  A  2\n  B\n") (str "f") (Env.statsHandlers {}) {} = r
    cases r with
    | ok s => exact ⟨s, rfl, by
        have : (runParse noFiles 1 (utf8 "0001-01-01 x\n  A  1\n  B\n\n2020-01-01 x\n  A  2\n  B\n") (str "f") (Env.statsHandlers {}) {}).toOption.map (·.first.dayNumber) = some 737424 := by decide +kernel
        rw [hr] at this
        simpa [Except.toOption] using this⟩
    | error f =>
      have : (runParse noFiles 1 (utf8 "0001-01-01 x\n  A  1\n  B\n\n2020-01-01 x\n  A  2\n  B\n") (str "f") (Env.statsHandlers {}) {}).toOption.isSome = true := by decide +kernel
      rw [hr] at this
      cases this
  obtain ⟨s, h3, h4⟩ := h2
  have h5 := h1 s h3
  rw [h4] at h5
  revert h5
  decide +kernel

/-! ### C54 age of money spends income first-in first-out without losing any -/

theorem toInt_sub_small {a b : I64} (ha : 0 ≤ a.toInt) (hb : 0 ≤ b.toInt) : (a - b).toInt = a.toInt - b.toInt := by
  have h1 := a.toInt_lt
  have h2 := b.toInt_lt
  rw [BitVec.toInt_sub]
  apply Int.bmod_eq_of_le
  · norm_num at *; omega
  · norm_num at *; omega

theorem segments_start (f : Date → Int) (l : List Date) : ∀ A, (∀ d ∈ l, 0 ≤ f d) → ∀ s ∈ segments f A l, A ≤ s.2.1 ∧ s.2.1 ≤ s.2.2 ∧ s.1 ∈ l := by
  induction l with
  | nil => intro A _ s hs; cases hs
  | cons d l ih =>
    intro A hf s hs
    have h0 := hf d (by simp)
    rw [segments, List.mem_cons] at hs
    rcases hs with rfl | hs
    · exact ⟨le_refl _, by simp only; omega, by simp⟩
    · obtain ⟨h1, h2, h3⟩ := ih _ (fun d h => hf d (by simp [h])) s hs
      exact ⟨by omega, h2, by simp [h3]⟩

/-- What the income buckets hold when everything before `X` has been spent. -/
def SpentTo (f : Date → Int) (A : Int) (l : List Date) (b : Buckets) (X : Int) : Prop := ∀ s ∈ segments f A l, (b.get s.1).toInt = leftOf s.2 X

/-- The pairs of an expense with the incomes it overlaps. -/
def paidFrom (ek : Date) (E : Int × Int) (segs : List (Date × Int × Int)) : List (Date × Date) :=
  segs.filterMap fun s => if Overlap s.2 E then some (ek, s.1) else none

theorem paidFrom_congr (ek : Date) (E E' : Int × Int) (segs : List (Date × Int × Int)) (h : ∀ s ∈ segs, (Overlap s.2 E ↔ Overlap s.2 E')) :
    paidFrom ek E segs = paidFrom ek E' segs := by
  unfold paidFrom
  induction segs with
  | nil => rfl
  | cons s segs ih =>
    rw [List.filterMap_cons, List.filterMap_cons, ih (fun t ht => h t (by simp [ht]))]
    simp only [h s (by simp)]

theorem ageInner_spec (f : Date → Int) (ek : Date) (l : List Date) : ∀ (A X : Int) (expense : I64) (b : Buckets) (ages : List (Date × Date)),
    l.Nodup → (∀ d ∈ l, 0 ≤ f d) → A ≤ X → 0 ≤ expense.toInt → SpentTo f A l b X →
    SpentTo f A l (ageInner ek l expense b ages).1 (X + expense.toInt) ∧
    (0 < expense.toInt → (ageInner ek l expense b ages).2 = ages ++ paidFrom ek (X, X + expense.toInt) (segments f A l)) ∧
    ∀ d, d ∉ l → (ageInner ek l expense b ages).1.get d = b.get d := by
  induction l with
  | nil => intro A X expense b ages _ _ _ _ _; refine ⟨?_, ?_, ?_⟩ <;> simp [SpentTo, segments, ageInner, paidFrom]
  | cons d l ih =>
    intro A X expense b ages hn hf hA he hs
    rw [List.nodup_cons] at hn
    have hf' : ∀ d ∈ l, 0 ≤ f d := fun d h => hf d (by simp [h])
    have h0 := hf d (by simp)
    have hd : (b.get d).toInt = max 0 (A + f d - X) := by
      have := hs (d, A, A + f d) (by simp [segments])
      rw [this, leftOf]; simp only [max_eq_right hA]
    have hsl : SpentTo f (A + f d) l b X := fun s h => hs s (by simp [segments, h])
    rw [ageInner]
    simp only
    by_cases hz : b.get d = 0
    · rw [if_pos hz]
      have hX : A + f d ≤ X := by
        rw [hz] at hd
        have : (0 : I64).toInt = 0 := rfl
        omega
      obtain ⟨i1, i2, i3⟩ := ih (A + f d) X expense b ages hn.2 hf' hX he hsl
      refine ⟨?_, ?_, ?_⟩
      · intro s hs'
        rw [segments, List.mem_cons] at hs'
        rcases hs' with rfl | hs'
        · simp only
          rw [i3 d hn.1, hz, leftOf]
          simp only
          have : (0 : I64).toInt = 0 := rfl
          omega
        · exact i1 s hs'
      · intro he'
        rw [i2 he', segments]
        congr 1
        unfold paidFrom
        rw [List.filterMap_cons]
        have : ¬ Overlap (A, A + f d) (X, X + expense.toInt) := by unfold Overlap; simp only; omega
        simp only [this, if_false]
      · intro x hx
        exact i3 x (fun h => hx (by simp [h]))
    · rw [if_neg hz]
      have hpos : 0 < (b.get d).toInt := by
        rcases lt_or_eq_of_le (show 0 ≤ (b.get d).toInt by omega) with h | h
        · exact h
        · exact absurd (BitVec.eq_of_toInt_eq (h.symm.trans rfl)) hz
      have hX : (b.get d).toInt = A + f d - X := by omega
      have hover (he' : 0 < expense.toInt) : Overlap (A, A + f d) (X, X + expense.toInt) := by unfold Overlap; simp only; omega
      by_cases hlt : (b.get d).toInt < expense.toInt
      · rw [if_pos hlt]
        have hsub : (expense - b.get d).toInt = expense.toInt - (b.get d).toInt := toInt_sub_small (by omega) (by omega)
        have hgl : ∀ x ∈ l, (b.put d 0).get x = b.get x := by
          intro x hx
          rw [Buckets.get_put, if_neg]
          rintro rfl
          exact hn.1 hx
        have hsl' : SpentTo f (A + f d) l (b.put d 0) (A + f d) := by
          intro s h
          obtain ⟨j1, j2, j3⟩ := segments_start f l _ hf' s h
          rw [hgl _ j3, hsl s h, leftOf, leftOf]
          omega
        obtain ⟨i1, i2, i3⟩ := ih (A + f d) (A + f d) (expense - b.get d) (b.put d 0) (ages ++ [(ek, d)]) hn.2 hf' (le_refl _) (by omega) hsl'
        have hend : A + f d + (expense - b.get d).toInt = X + expense.toInt := by omega
        rw [hend] at i1 i2
        refine ⟨?_, ?_, ?_⟩
        · intro s hs'
          rw [segments, List.mem_cons] at hs'
          rcases hs' with rfl | hs'
          · simp only
            rw [i3 d hn.1, Buckets.get_put, if_pos rfl, leftOf]
            simp only
            have : (0 : I64).toInt = 0 := rfl
            omega
          · exact i1 s hs'
        · intro he'
          rw [i2 (by omega), segments, List.append_assoc]
          congr 1
          unfold paidFrom
          rw [List.filterMap_cons]
          simp only [hover he', if_true, List.singleton_append]
          congr 1
          refine paidFrom_congr ek _ _ _ ?_
          intro s h
          obtain ⟨j1, j2, j3⟩ := segments_start f l _ hf' s h
          unfold Overlap
          simp only
          omega
        · intro x hx
          rw [List.mem_cons, not_or] at hx
          rw [i3 x hx.2, Buckets.get_put, if_neg hx.1]
      · rw [if_neg hlt]
        have hsub : (b.get d - expense).toInt = (b.get d).toInt - expense.toInt := toInt_sub_small (by omega) (by omega)
        refine ⟨?_, ?_, ?_⟩
        · intro s hs'
          rw [segments, List.mem_cons] at hs'
          rcases hs' with rfl | hs'
          · simp only
            rw [Buckets.get_put, if_pos rfl, hsub, leftOf]
            simp only
            omega
          · obtain ⟨j1, j2, j3⟩ := segments_start f l _ hf' s hs'
            rw [Buckets.get_put, if_neg (by rintro h; exact hn.1 (h ▸ j3)), hsl s hs', leftOf, leftOf]
            omega
        · intro he'
          rw [segments]
          unfold paidFrom
          rw [List.filterMap_cons]
          simp only [hover he', if_true]
          rw [eq_comm, List.append_cancel_left_eq, List.cons_eq_cons, List.filterMap_eq_nil_iff]
          refine ⟨rfl, ?_⟩
          intro s h
          obtain ⟨j1, j2, j3⟩ := segments_start f l _ hf' s h
          rw [if_neg]
          unfold Overlap
          simp only
          omega
        · intro x hx
          rw [List.mem_cons, not_or] at hx
          rw [Buckets.get_put, if_neg hx.1]

theorem ageOuter_spec (f : Date → Int) (expenses : Buckets) (iks eks : List Date) (hn : iks.Nodup) (hf : ∀ d ∈ iks, 0 ≤ f d) :
    ∀ (X : Int) (b : Buckets) (ages : List (Date × Date)), 0 ≤ X → (∀ d ∈ eks, 0 ≤ (expenses.get d).toInt) → SpentTo f 0 iks b X →
    SpentTo f 0 iks (ageOuter expenses iks eks b ages).1 (X + (eks.map fun d => (expenses.get d).toInt).sum) ∧
    ((∀ d ∈ eks, 0 < (expenses.get d).toInt) → (ageOuter expenses iks eks b ages).2 =
      ages ++ (segments (fun d => (expenses.get d).toInt) X eks).flatMap (fun E => paidFrom E.1 E.2 (segments f 0 iks))) ∧
    ∀ d, d ∉ iks → (ageOuter expenses iks eks b ages).1.get d = b.get d := by
  induction eks with
  | nil => intro X b ages _ _ hs; refine ⟨?_, ?_, ?_⟩ <;> simp [ageOuter, segments, hs]
  | cons ek eks ih =>
    intro X b ages hX he hs
    have h0 := he ek (by simp)
    obtain ⟨i1, i2, i3⟩ := ageInner_spec f ek iks 0 X (expenses.get ek) b ages hn hf hX h0 hs
    obtain ⟨k1, k2, k3⟩ := ih (X + (expenses.get ek).toInt) _ (ageInner ek iks (expenses.get ek) b ages).2 (by omega) (fun d h => he d (by simp [h])) i1
    rw [ageOuter]
    refine ⟨?_, ?_, ?_⟩
    · rw [List.map_cons, List.sum_cons, ← add_assoc]
      exact k1
    · intro he'
      rw [k2 (fun d h => he' d (by simp [h])), i2 (he' ek (by simp)), segments, List.flatMap_cons, List.append_assoc]
    · intro d hd
      rw [k3 d hd, i3 d hd]

theorem sum_nonneg_int (l : List Int) (h : ∀ x ∈ l, 0 ≤ x) : 0 ≤ l.sum := by
  induction l with
  | nil => simp
  | cons a l ih =>
    have := ih fun x hx => h x (by simp [hx])
    have := h a (by simp)
    rw [List.sum_cons]
    omega

theorem sum_left (f : Date → Int) (E : Int) (l : List Date) : ∀ A, (∀ d ∈ l, 0 ≤ f d) →
    ((segments f A l).map fun s => leftOf s.2 E).sum = max 0 (A + (l.map f).sum - max A E) := by
  induction l with
  | nil => intro A _; simp [segments]
  | cons d l ih =>
    intro A hf
    have h0 := hf d (by simp)
    have h1 : 0 ≤ (l.map f).sum := sum_nonneg_int _ (by simp only [List.mem_map]; rintro x ⟨d, h, rfl⟩; exact hf d (by simp [h]))
    rw [segments, List.map_cons, List.sum_cons, ih _ (fun d h => hf d (by simp [h])), List.map_cons, List.sum_cons, leftOf]
    simp only
    omega

theorem segments_fst (f : Date → Int) (l : List Date) : ∀ A, (segments f A l).map (fun s => s.1) = l := by
  induction l with
  | nil => intro A; rfl
  | cons d l ih => intro A; rw [segments, List.map_cons, ih]

/-- Days sorted by date. -/
def DaysSorted (l : List Date) : Prop := l.Pairwise fun a b => a.dayNumber < b.dayNumber

/-- Lay the incomes end to end by date, and the expenses as well. After matching, each income keeps what lies beyond the end of the
expenses; if no day's expenses are zero, an expense is matched with the incomes it has a part in common with; other buckets are untouched. -/
theorem C54_first_in_first_out (income expense : Buckets) (iks eks : List Date) (hi : DaysSorted iks)
    (hin : ∀ d ∈ iks, 0 ≤ (income.get d).toInt) (hex : ∀ d ∈ eks, 0 ≤ (expense.get d).toInt) :
    let incomes := segments (fun d => (income.get d).toInt) 0 iks
    let expenses := segments (fun d => (expense.get d).toInt) 0 eks
    let spent := (eks.map fun d => (expense.get d).toInt).sum
    let r := ageOuter expense iks eks income []
    (∀ s ∈ incomes, (r.1.get s.1).toInt = leftOf s.2 spent) ∧
    ((∀ d ∈ eks, 0 < (expense.get d).toInt) →
      r.2 = expenses.flatMap (fun E => incomes.filterMap fun s => if Overlap s.2 E.2 then some (E.1, s.1) else none)) ∧
    ∀ d, d ∉ iks → r.1.get d = income.get d := by
  have hn : iks.Nodup := hi.imp (by rintro a b h rfl; omega)
  have h0 : SpentTo (fun d => (income.get d).toInt) 0 iks income 0 := by
    intro s hs
    obtain ⟨j1, j2, j3⟩ := segments_start _ iks 0 hin s hs
    have : ∀ (l : List Date) (A : Int) (s : Date × Int × Int), s ∈ segments (fun d => (income.get d).toInt) A l → s.2.2 = s.2.1 + (income.get s.1).toInt := by
      intro l
      induction l with
      | nil => intro A s h; cases h
      | cons d l ih =>
        intro A s h
        rw [segments, List.mem_cons] at h
        rcases h with rfl | h
        · rfl
        · exact ih _ s h
    have h2 := this iks 0 s hs
    rw [leftOf]
    omega
  obtain ⟨k1, k2, k3⟩ := ageOuter_spec _ expense iks eks hn hin 0 income [] (le_refl _) hex h0
  rw [zero_add] at k1
  rw [List.nil_append] at k2
  exact ⟨k1, k2, k3⟩

/-- So no income is overspent, and the incomes go down by all that is spent, as far as they reach. -/
theorem C54_nothing_lost (income expense : Buckets) (iks eks : List Date) (hi : DaysSorted iks)
    (hin : ∀ d ∈ iks, 0 ≤ (income.get d).toInt) (hex : ∀ d ∈ eks, 0 ≤ (expense.get d).toInt) :
    let r := ageOuter expense iks eks income []
    (∀ d ∈ iks, 0 ≤ (r.1.get d).toInt ∧ (r.1.get d).toInt ≤ (income.get d).toInt) ∧
    (iks.map fun d => (income.get d).toInt).sum - (iks.map fun d => (r.1.get d).toInt).sum =
      min (iks.map fun d => (income.get d).toInt).sum (eks.map fun d => (expense.get d).toInt).sum := by
  intro r
  obtain ⟨h1, _, _⟩ := C54_first_in_first_out income expense iks eks hi hin hex
  have he : 0 ≤ (eks.map fun d => (expense.get d).toInt).sum :=
    sum_nonneg_int _ (by simp only [List.mem_map]; rintro x ⟨d, h, rfl⟩; exact hex d h)
  have hs : (iks.map fun d => (r.1.get d).toInt).sum = max 0 ((iks.map fun d => (income.get d).toInt).sum - (eks.map fun d => (expense.get d).toInt).sum) := by
    have := sum_left (fun d => (income.get d).toInt) (eks.map fun d => (expense.get d).toInt).sum iks 0 hin
    rw [max_eq_right he, zero_add] at this
    rw [← this, ← List.map_congr_left h1]
    conv_lhs => rw [← segments_fst (fun d => (income.get d).toInt) iks 0, List.map_map]
    rfl
  refine ⟨?_, by rw [hs]; omega⟩
  intro d hd
  have hd' : d ∈ (segments (fun d => (income.get d).toInt) 0 iks).map (fun s => s.1) := by rw [segments_fst]; exact hd
  obtain ⟨s, hs', rfl⟩ := List.mem_map.1 hd'
  rw [h1 s hs', leftOf]
  have : ∀ (l : List Date) (A : Int) (s : Date × Int × Int), s ∈ segments (fun d => (income.get d).toInt) A l → s.2.2 = s.2.1 + (income.get s.1).toInt := by
    intro l
    induction l with
    | nil => intro A s h; cases h
    | cons d l ih =>
      intro A s h
      rw [segments, List.mem_cons] at h
      rcases h with rfl | h
      · rfl
      · exact ih _ s h
  have h2 := this iks 0 s hs'
  have h3 := hin s.1 hd
  omega

/-- Incomes of 100 and 200, expenses of 50, 70 and 90: the second expense takes the rest of the first income. -/
example :
    let d : Nat → Date := fun n => ⟨2020, 1, n⟩
    let income : Buckets := [(d 2, 200), (d 1, 100)]
    let expense : Buckets := [(d 5, 70), (d 3, 50), (d 8, 90)]
    DaysSorted [d 1, d 2] ∧ (∀ x ∈ [d 1, d 2], 0 ≤ (income.get x).toInt) ∧ (∀ x ∈ [d 3, d 5, d 8], 0 < (expense.get x).toInt) ∧
    segments (fun x => (income.get x).toInt) 0 [d 1, d 2] = [(d 1, 0, 100), (d 2, 100, 300)] ∧
    ageOuter expense [d 1, d 2] [d 3, d 5, d 8] income [] = ([(d 2, 90), (d 1, 0)], [(d 3, d 1), (d 5, d 1), (d 5, d 2), (d 8, d 2)]) := by
  unfold DaysSorted
  decide

/-- Without the restriction to days with expenses that are not zero: a day of zero expenses is matched with an income, though it
has no part in common with it. -/
theorem C54_zero_expense_false : ¬ ∀ (income expense : Buckets) (iks eks : List Date), DaysSorted iks →
    (∀ d ∈ iks, 0 ≤ (income.get d).toInt) → (∀ d ∈ eks, 0 ≤ (expense.get d).toInt) →
    (ageOuter expense iks eks income []).2 = (segments (fun d => (expense.get d).toInt) 0 eks).flatMap (fun E =>
      (segments (fun d => (income.get d).toInt) 0 iks).filterMap fun s => if Overlap s.2 E.2 then some (E.1, s.1) else none) := by
  intro h
  have := h [(⟨2020, 1, 1⟩, 100)] [(⟨2020, 1, 2⟩, 0)] [⟨2020, 1, 1⟩] [⟨2020, 1, 2⟩] (by unfold DaysSorted; decide) (by decide) (by decide)
  revert this
  decide

/-! ### C64 age of money averages the last ten ages -/

/-- The mean, in nanoseconds, of the ages of the last ten matches. -/
def lastTenMean (ages : List (Date × Date)) : Int :=
  let last := ages.drop (ages.length - 10)
  Int.tdiv (last.map fun a => (a.1.dayNumber - a.2.dayNumber) * nsPerDay).sum (max 1 last.length)

theorem durationNs_toInt (a b : Date) (h1 : -(2 ^ 63) ≤ (a.dayNumber - b.dayNumber) * nsPerDay) (h2 : (a.dayNumber - b.dayNumber) * nsPerDay < 2 ^ 63) :
    (durationNs a b).toInt = (a.dayNumber - b.dayNumber) * nsPerDay := by
  unfold durationNs
  simp only
  rw [max_eq_right (by omega), min_eq_left (by omega), BitVec.toInt_ofInt]
  apply Int.bmod_eq_of_le <;> norm_num at * <;> omega

theorem sum_durations (l : List (Date × Date)) : ∀ (m : Int), m = (l.map fun a => |(a.1.dayNumber - a.2.dayNumber) * nsPerDay|).sum → m < 2 ^ 63 →
    ((l.map fun a => durationNs a.1 a.2).sum : I64).toInt = (l.map fun a => (a.1.dayNumber - a.2.dayNumber) * nsPerDay).sum ∧
    |(l.map fun a => (a.1.dayNumber - a.2.dayNumber) * nsPerDay).sum| ≤ m := by
  induction l with
  | nil => intro m hm _; subst hm; exact ⟨rfl, by simp⟩
  | cons a l ih =>
    intro m hm hb
    rw [List.map_cons, List.sum_cons] at hm
    have h0 : 0 ≤ |(a.1.dayNumber - a.2.dayNumber) * nsPerDay| := abs_nonneg _
    have h1 : 0 ≤ (l.map fun a => |(a.1.dayNumber - a.2.dayNumber) * nsPerDay|).sum := sum_nonneg_int _ (by
      simp only [List.mem_map]; rintro x ⟨d, _, rfl⟩; exact abs_nonneg _)
    obtain ⟨i1, i2⟩ := ih _ rfl (by omega)
    rw [List.map_cons, List.sum_cons, List.map_cons, List.sum_cons]
    have h2 := abs_le.1 (le_refl |(a.1.dayNumber - a.2.dayNumber) * nsPerDay|)
    have h3 := abs_le.1 i2
    refine ⟨?_, abs_le.2 (by omega)⟩
    rw [BitVec.toInt_add, i1, durationNs_toInt _ _ (by omega) (by omega)]
    apply Int.bmod_eq_of_le <;> norm_num at * <;> omega

/-- What is shown instead, in nanoseconds: the sum of the ages of all matches if there are at most twenty, of all but the last eleven
otherwise, divided by the number of all matches. -/
def shownMean (ages : List (Date × Date)) : Int :=
  Int.tdiv (((if ages.length ≤ 20 then ages else ages.take (ages.length - 11)).map fun a => (a.1.dayNumber - a.2.dayNumber) * nsPerDay).sum)
    (max 1 (ages.length : Int))

/-- What is computed for any number of matches (whose ages together are below 292 years): all of them count if there are at most
twenty, all but the last eleven otherwise, and the sum is divided by the number of all. -/
theorem C64_age_average_exact (ages : List (Date × Date))
    (hb : (ages.map fun a => |(a.1.dayNumber - a.2.dayNumber) * nsPerDay|).sum < 2 ^ 63) :
    (averageAge ages).toInt = shownMean ages := by
  unfold shownMean
  have e : ages.take (ages.length - (if 20 < ages.length then 11 else 0)) = if ages.length ≤ 20 then ages else ages.take (ages.length - 11) := by
    split <;> rename_i h
    · rw [if_neg (by omega)]
    · rw [if_pos (by omega), Nat.sub_zero, List.take_length]
  unfold averageAge
  simp only
  rw [e]
  have hb' : ((if ages.length ≤ 20 then ages else ages.take (ages.length - 11)).map fun a => |(a.1.dayNumber - a.2.dayNumber) * nsPerDay|).sum < 2 ^ 63 := by
    split
    · exact hb
    · refine lt_of_le_of_lt ?_ hb
      conv_rhs => rw [← List.take_append_drop (ages.length - 11) ages, List.map_append, List.sum_append]
      have := sum_nonneg_int ((ages.drop (ages.length - 11)).map fun a => |(a.1.dayNumber - a.2.dayNumber) * nsPerDay|)
        (by simp only [List.mem_map]; rintro x ⟨a, _, rfl⟩; exact abs_nonneg _)
      omega
  generalize (if ages.length ≤ 20 then ages else ages.take (ages.length - 11)) = used at *
  obtain ⟨i1, i2⟩ := sum_durations used _ rfl hb'
  rw [i1, BitVec.toInt_ofInt]
  have h3 := abs_le.1 i2
  have h4 : |Int.tdiv (used.map fun a => (a.1.dayNumber - a.2.dayNumber) * nsPerDay).sum (max 1 (ages.length : Int))| ≤
      |(used.map fun a => (a.1.dayNumber - a.2.dayNumber) * nsPerDay).sum| := by
    rw [Int.abs_eq_natAbs, Int.abs_eq_natAbs, Int.natAbs_tdiv]
    exact_mod_cast Nat.div_le_self _ _
  have h5 := abs_le.1 h4
  have h6 := abs_le.1 (le_refl |(used.map fun a => (a.1.dayNumber - a.2.dayNumber) * nsPerDay).sum|)
  apply Int.bmod_eq_of_le <;> norm_num at * <;> omega

/-- It is the mean of the last ten if there are at most ten matches. Missing: more than ten. -/
theorem C64_age_average_partial (ages : List (Date × Date)) (h : ages.length ≤ 10)
    (hb : (ages.map fun a => |(a.1.dayNumber - a.2.dayNumber) * nsPerDay|).sum < 2 ^ 63) :
    (averageAge ages).toInt = lastTenMean ages := by
  rw [C64_age_average_exact ages hb, shownMean, if_pos (by omega)]
  unfold lastTenMean
  simp only [Nat.sub_eq_zero_of_le h, List.drop_zero]

/-- Twenty-one matches: ten of 21 days at the end, eleven of 0 days before them. -/
theorem C64_age_average_false : ¬ ∀ ages : List (Date × Date),
    (ages.map fun a => |(a.1.dayNumber - a.2.dayNumber) * nsPerDay|).sum < 2 ^ 63 → (averageAge ages).toInt = lastTenMean ages := by
  intro h
  have := h (List.replicate 11 (⟨2020, 1, 1⟩, ⟨2020, 1, 1⟩) ++ List.replicate 10 (⟨2020, 1, 22⟩, ⟨2020, 1, 1⟩)) (by decide)
  revert this
  decide

/-- Three matches. -/
example : (averageAge [(⟨2020, 1, 3⟩, ⟨2020, 1, 1⟩), (⟨2020, 1, 5⟩, ⟨2020, 1, 1⟩), (⟨2020, 2, 1⟩, ⟨2020, 1, 2⟩)]).toInt = 12 * nsPerDay := by decide

end Gledger
