import Verif.Lemmas.Books
import Verif.Spec.Budget
import Mathlib.Tactic.Ring

/-! Adding postings to a budget month. -/

namespace Gledger

variable {h h' : Heap}

/-- Nothing but commodities changed. -/
structure Recoloured (h h' : Heap) : Prop where
  shape : h.Shape h'
  qty : ∀ ds, (h'.amt ds).quantity = (h.amt ds).quantity
  own : ∀ ds, h'.own ds = h.own ds

theorem Heap.default_spec (hf : h.Full) (c : Str) : Recoloured h (h.defaultCommodity 0 c) ∧
    ∀ ds, ds ≠ [] → (h.defaultCommodity 0 c).amt ds = h.amt ds := by
  obtain ⟨s, d, a, o⟩ := modify_data hf.toTree (show h.at [] = some 0 from rfl)
    (fun a => if a.amount.commodity = [] then { a with amount := { a.amount with commodity := c } } else a)
    (fun n => by by_cases hc : n.amount.commodity = [] <;> simp [hc])
  refine ⟨⟨s, fun ds => ?_, fun ds => ?_⟩, fun ds hd => (d ds hd).1⟩
  · by_cases hd : ds = []
    · subst hd
      unfold Heap.defaultCommodity
      rw [a, Heap.amt_at (show h.at [] = some 0 from rfl)]
      by_cases hc : (h.node 0).amount.commodity = [] <;> simp [hc]
    · exact congrArg Amount.quantity (d ds hd).1
  · by_cases hd : ds = []
    · subst hd
      unfold Heap.defaultCommodity
      rw [o, Heap.own_at (show h.at [] = some 0 from rfl)]
      by_cases hc : (h.node 0).amount.commodity = [] <;> simp [hc]
    · exact (d ds hd).2

theorem Heap.setCommodity_spec (ht : h.Tree) {cs : List Str} {x : Ref} (hx : h.at cs = some x) (c : Str) :
    Recoloured h (h.setCommodity x c) ∧
    ∀ ds, ((h.setCommodity x c).amt ds).commodity = if ds = cs then c else (h.amt ds).commodity := by
  obtain ⟨s, d, a, o⟩ := modify_data ht hx (fun a => { a with amount := { a.amount with commodity := c } })
    (fun n => ⟨rfl, rfl, rfl, rfl, rfl⟩)
  refine ⟨⟨s, fun ds => ?_, fun ds => ?_⟩, fun ds => ?_⟩
  · by_cases hd : ds = cs
    · subst hd
      unfold Heap.setCommodity
      rw [a, Heap.amt_at hx]
    · exact congrArg Amount.quantity (d ds hd).1
  · by_cases hd : ds = cs
    · subst hd
      unfold Heap.setCommodity
      rw [o, Heap.own_at hx]
    · exact (d ds hd).2
  · by_cases hd : ds = cs
    · subst hd
      unfold Heap.setCommodity
      rw [a, if_pos rfl]
    · rw [if_neg hd]
      exact congrArg Amount.commodity (d ds hd).1

/-- The accounts down to `cs` exist, the last one has commodity `c`; quantities and postings are kept. -/
structure Opened (h : Heap) (cs : List Str) (c : Str) (h' : Heap) : Prop where
  full : h'.Full
  has : ∀ ds, h'.Has ds ↔ h.Has ds ∨ ds <+: cs
  qty : ∀ ds, (h'.amt ds).quantity = (h.amt ds).quantity
  com : ∀ ds, ds ≠ [] → (h'.amt ds).commodity = if ds = cs then c else (h.amt ds).commodity
  own : ∀ ds, h'.own ds = h.own ds
  root : (h'.amt []).commodity = if (h.amt []).commodity = [] then c else (h.amt []).commodity

theorem Heap.default_root (hf : h.Full) (c : Str) :
    ((h.defaultCommodity 0 c).amt []).commodity = if (h.amt []).commodity = [] then c else (h.amt []).commodity := by
  obtain ⟨_, _, a, _⟩ := modify_data hf.toTree (show h.at [] = some 0 from rfl)
    (fun a => if a.amount.commodity = [] then { a with amount := { a.amount with commodity := c } } else a)
    (fun n => by by_cases hc : n.amount.commodity = [] <;> simp [hc])
  unfold Heap.defaultCommodity
  rw [a, Heap.amt_at (show h.at [] = some 0 from rfl)]
  by_cases hc : (h.node 0).amount.commodity = [] <;> simp [hc]

/-- Opening an account not looked up before. -/
theorem opened (hf : h.Full) {cs : List Str} (hcs : cs ≠ []) (c : Str) :
    ∃ x h2, (h.defaultCommodity 0 c).findOrCreate 0 cs = some (x, h2) ∧ (h2.setCommodity x c).at cs = some x ∧
      Opened h cs c (h2.setCommodity x c) := by
  obtain ⟨d1, d2⟩ := Heap.default_spec hf c
  have f1 := d1.shape.full hf
  obtain ⟨x, h2, e, f2, g2, w2, p2, _⟩ := findOrCreate_spec f1 (show (h.defaultCommodity 0 c).at [] = some 0 from rfl) hcs
  rw [List.nil_append] at w2
  obtain ⟨s1, s2⟩ := Heap.setCommodity_spec f2.toTree w2 c
  have hd := g2.data f1 f2.toTree
  refine ⟨x, h2, e, by rw [s1.shape.at]; exact w2, s1.shape.full f2, fun ds => ?_, fun ds => ?_, fun ds hn => ?_, fun ds => ?_, ?_⟩
  · rw [s1.shape.has, p2, d1.shape.has]
    simp
  · rw [s1.qty, (hd ds).1, d1.qty]
  · rw [s2, (hd ds).1, d2 ds hn]
  · rw [s1.own, (hd ds).2, d1.own]
  · rw [s2, if_neg (fun hc => hcs hc.symm), (hd []).1, Heap.default_root hf]

/-- Opening an account looked up before. -/
theorem opened_twice (hf : h.Full) {cs : List Str} (hcs : cs ≠ []) (c : Str) :
    ∃ y h1 x h2, h.findOrCreate 0 cs = some (y, h1) ∧ (h1.defaultCommodity 0 c).findOrCreate 0 cs = some (x, h2) ∧
      (h2.setCommodity x c).at cs = some x ∧ Opened h cs c (h2.setCommodity x c) := by
  obtain ⟨y, h1, e, f1, g1, w1, p1, _⟩ := findOrCreate_spec hf (show h.at [] = some 0 from rfl) hcs
  obtain ⟨x, h2, e2, w2, o⟩ := opened f1 hcs c
  have hd := g1.data hf f1.toTree
  refine ⟨y, h1, x, h2, e, e2, w2, o.full, fun ds => ?_, fun ds => ?_, fun ds hn => ?_, fun ds => ?_, ?_⟩
  · rw [o.has, p1]
    simp
  · rw [o.qty, (hd ds).1]
  · rw [o.com ds hn, (hd ds).1]
  · rw [o.own, (hd ds).2]
  · rw [o.root, (hd []).1]

/-- Recording a posting in an opened account and changing the amounts above it. -/
theorem Opened.record {cs : List Str} {c : Str} {x : Ref} (o : Opened h cs c h') (hx : h'.at cs = some x) (p : Posting)
    (f : Amount → Amount) (g : I64 → I64) (hfg : ∀ a : Amount, f a = ⟨a.commodity, g a.quantity⟩) :
    let r := (h'.modify x fun n => { n with postings := n.postings ++ [p] }).walkAncestors x f
    r.Full ∧ (∀ ds, r.Has ds ↔ h.Has ds ∨ ds <+: cs) ∧
    (∀ ds, (r.amt ds).quantity = if ds <+: cs then g (h.amt ds).quantity else (h.amt ds).quantity) ∧
    (∀ ds, ds ≠ [] → (r.amt ds).commodity = if ds = cs then c else (h.amt ds).commodity) ∧
    (∀ ds, r.own ds = if ds = cs then h.own ds ++ [p] else h.own ds) ∧
    (r.amt []).commodity = if (h.amt []).commodity = [] then c else (h.amt []).commodity := by
  intro r
  obtain ⟨s2, d2, a2, o2⟩ := modify_data o.full.toTree hx (fun n => { n with postings := n.postings ++ [p] })
    (fun n => ⟨rfl, rfl, rfl, rfl, rfl⟩)
  obtain ⟨s3, o3, a3⟩ := walkAncestors_spec (s2.tree o.full.toTree) (by rw [s2.at]; exact hx) f
  have s := s2.trans s3
  have ham : ∀ ds, (h'.modify x fun n => { n with postings := n.postings ++ [p] }).amt ds = h'.amt ds := by
    intro ds
    by_cases hd : ds = cs
    · subst hd
      rw [a2, Heap.amt_at hx]
    · rw [(d2 ds hd).1]
  have hamt : ∀ ds, r.amt ds = if ds <+: cs then f (h'.amt ds) else h'.amt ds := by
    intro ds
    by_cases hh : h'.Has ds
    · rw [a3 ds ((s2.has ds).2 hh), ham]
    · rw [Heap.amt_none (show ¬ r.Has ds by rw [s.has]; exact hh), if_neg, Heap.amt_none hh]
      intro hc
      exact hh ((o.has ds).2 (Or.inr hc))
  refine ⟨s.full o.full, fun ds => by rw [s.has, o.has], fun ds => ?_, fun ds hn => ?_, fun ds => ?_,
    by rw [hamt, if_pos List.nil_prefix, hfg, o.root]⟩
  · rw [hamt]
    by_cases hd : ds <+: cs
    · rw [if_pos hd, if_pos hd, hfg, o.qty]
    · rw [if_neg hd, if_neg hd, o.qty]
  · rw [hamt, ← o.com ds hn]
    by_cases hd : ds <+: cs
    · rw [if_pos hd, hfg]
    · rw [if_neg hd]
  · rw [o3]
    by_cases hd : ds = cs
    · subst hd
      rw [o2, if_pos rfl, ← o.own, Heap.own_at hx]
    · rw [(d2 ds hd).2, if_neg hd, o.own]

/-- Budgeting for a category. -/
theorem addTo_envelope {bm : BudgetMonth} (he : bm.envelope.Full) (hx : bm.expense.Full) {cs : List Str} (hcs : cs ≠ []) (p : Posting) (a : Amount) :
    ∃ bm', bm.addTo .envelope cs p a = some bm' ∧ bm'.income = bm.income ∧ bm'.incomePostings = bm.incomePostings ∧
      Opened bm.expense cs a.commodity bm'.expense ∧ bm'.envelope.Full ∧ (∀ ds, bm'.envelope.Has ds ↔ bm.envelope.Has ds ∨ ds <+: cs) ∧
      (∀ ds, (bm'.envelope.amt ds).quantity = if ds <+: cs then (bm.envelope.amt ds).quantity + a.quantity else (bm.envelope.amt ds).quantity) ∧
      (∀ ds, ds ≠ [] → (bm'.envelope.amt ds).commodity = if ds = cs then a.commodity else (bm.envelope.amt ds).commodity) ∧
      (∀ ds, bm'.envelope.own ds = if ds = cs then bm.envelope.own ds ++ [p] else bm.envelope.own ds) ∧
      (bm'.envelope.amt []).commodity = if (bm.envelope.amt []).commodity = [] then a.commodity else (bm.envelope.amt []).commodity := by
  obtain ⟨y, h1, x, h2, e1, e2, w, o⟩ := opened_twice he hcs a.commodity
  obtain ⟨z, h3, e3, w3, o3⟩ := opened hx hcs a.commodity
  have := o.record w p (·.add a) (· + a.quantity) (fun _ => rfl)
  refine ⟨{ bm with
      envelope := ((h2.setCommodity x a.commodity).modify x fun n => { n with postings := n.postings ++ [p] }).walkAncestors x (·.add a)
      expense := h3.setCommodity z a.commodity }, ?_, rfl, rfl, o3, this⟩
  unfold BudgetMonth.addTo
  simp only [e1, Option.map_some, Option.bind_some, e2, e3]

/-- Spending on a category. -/
theorem addTo_expense {bm : BudgetMonth} (he : bm.envelope.Full) (hx : bm.expense.Full) {cs : List Str} (hcs : cs ≠ []) (p : Posting) (a : Amount) :
    ∃ bm', bm.addTo .expense cs p a = some bm' ∧ bm'.income = bm.income ∧ bm'.incomePostings = bm.incomePostings ∧
      Opened bm.envelope cs a.commodity bm'.envelope ∧ bm'.expense.Full ∧ (∀ ds, bm'.expense.Has ds ↔ bm.expense.Has ds ∨ ds <+: cs) ∧
      (∀ ds, (bm'.expense.amt ds).quantity = if ds <+: cs then (bm.expense.amt ds).quantity - a.quantity else (bm.expense.amt ds).quantity) ∧
      (∀ ds, ds ≠ [] → (bm'.expense.amt ds).commodity = if ds = cs then a.commodity else (bm.expense.amt ds).commodity) ∧
      (∀ ds, bm'.expense.own ds = if ds = cs then bm.expense.own ds ++ [p] else bm.expense.own ds) ∧
      (bm'.expense.amt []).commodity = if (bm.expense.amt []).commodity = [] then a.commodity else (bm.expense.amt []).commodity := by
  obtain ⟨y, h1, x, h2, e1, e2, w, o⟩ := opened_twice hx hcs a.commodity
  obtain ⟨z, h3, e3, w3, o3⟩ := opened he hcs a.commodity
  have := o.record w p (·.subtract a) (· - a.quantity) (fun _ => rfl)
  refine ⟨{ bm with
      expense := ((h2.setCommodity x a.commodity).modify x fun n => { n with postings := n.postings ++ [p] }).walkAncestors x (·.subtract a)
      envelope := h3.setCommodity z a.commodity }, ?_, rfl, rfl, o3, this⟩
  unfold BudgetMonth.addTo
  simp only [e1, Option.map_some, Option.bind_some, e2, e3]

/-- A change of the root's amount. -/
theorem root_change (hf : h.Full) (f : Amount → Amount) (g : I64 → I64) (hg : ∀ a, (f a).quantity = g a.quantity) :
    let r := h.modify 0 fun n => { n with amount := f n.amount }
    r.Full ∧ (∀ ds, r.Has ds ↔ h.Has ds) ∧ (∀ ds, ds ≠ [] → r.amt ds = h.amt ds) ∧ (r.amt []).quantity = g (h.amt []).quantity ∧
    ∀ ds, r.own ds = h.own ds := by
  intro r
  obtain ⟨s, d, a, o⟩ := modify_data hf.toTree (show h.at [] = some 0 from rfl) (fun n => { n with amount := f n.amount })
    (fun n => ⟨rfl, rfl, rfl, rfl, rfl⟩)
  refine ⟨s.full hf, s.has, fun ds hd => (d ds hd).1, ?_, fun ds => ?_⟩
  · rw [a, hg]; rfl
  · by_cases hd : ds = []
    · subst hd; rw [o]; rfl
    · exact (d ds hd).2

theorem worth_snoc (es : List Filed) (e : Filed) (P : Filed → Bool) :
    worth ((es ++ [e]).filter P) = worth (es.filter P) + if P e then e.posting.value else 0 := by
  unfold worth
  rw [List.filter_append]
  by_cases hp : P e <;> simp [hp]

theorem newBudgetMonth_holds : newBudgetMonth.Holds [] := by
  have b1 := newAccount_books budgetRootID
  have b2 := newAccount_books (str "Spending")
  refine ⟨⟨b1.full, b2.full⟩, fun cs => ?_, fun cs => ?_, fun cs _ => ?_, fun cs _ => ?_, rfl, rfl, rfl, fun cs => ?_, fun cs => ?_, rfl, rfl⟩
  · rw [show newBudgetMonth.envelope = newAccount budgetRootID from rfl, b1.has]; simp
  · rw [show newBudgetMonth.expense = newAccount (str "Spending") from rfl, b2.has]; simp
  · rw [show newBudgetMonth.envelope = newAccount budgetRootID from rfl, b1.amt]; rfl
  · rw [show newBudgetMonth.expense = newAccount (str "Spending") from rfl, b2.amt]
    simp [tally, below, spent, worth, categoryCommodity, firstCommodity, writtenCommodities]
  · rw [show newBudgetMonth.envelope = newAccount budgetRootID from rfl, b1.own]; rfl
  · rw [show newBudgetMonth.expense = newAccount (str "Spending") from rfl, b2.own]; rfl

theorem categoryCommodity_snoc (es : List Filed) (e : Filed) {a : Amount} (ha : e.posting.amount = some a) (cs : List Str) :
    categoryCommodity cs (es ++ [e]) = if e.category = some cs then a.commodity else categoryCommodity cs es := by
  unfold categoryCommodity
  rw [List.filter_append]
  by_cases hc : e.category = some cs
  · simp [hc, ha]
  · simp [hc]

theorem filedTo_snoc (pt : PostingType) (cs : List Str) (es : List Filed) (e : Filed) :
    filedTo pt cs (es ++ [e]) = if e.type = pt ∧ e.category = some cs then filedTo pt cs es ++ [e.posting] else filedTo pt cs es := by
  unfold filedTo
  rw [List.filter_append]
  by_cases hc : e.type = pt ∧ e.category = some cs
  · simp [hc]
  · simp only [if_neg hc]
    simp only [List.filter_cons, List.filter_nil, decide_eq_true_eq, if_neg hc, List.append_nil]

theorem under_some {cs ds : List Str} {e : Filed} (hc : e.category = some ds) : e.Under cs ↔ cs <+: ds := by
  unfold Filed.Under; rw [hc]; simp

theorem under_none {cs : List Str} {e : Filed} (hc : e.category = none) : ¬ e.Under cs := by
  unfold Filed.Under; rw [hc]; simp

theorem value_some {p : Posting} {a : Amount} (ha : p.amount = some a) : p.value = a.quantity := by
  unfold Posting.value; rw [ha]

theorem exists_snoc {α : Type} {P : α → Prop} {l : List α} {a : α} : (∃ x ∈ l ++ [a], P x) ↔ (∃ x ∈ l, P x) ∨ P a := by
  simp [or_and_right, exists_or]

theorem amount_mk {b : Amount} {c : Str} {q : I64} (h1 : b.commodity = c) (h2 : b.quantity = q) : b = ⟨c, q⟩ := by
  subst h1 h2; rfl

theorem firstCommodity_snoc (ps : List Posting) {p : Posting} {a : Amount} (ha : p.amount = some a) :
    firstCommodity (ps ++ [p]) = if firstCommodity ps = [] then a.commodity else firstCommodity ps := by
  unfold firstCommodity writtenCommodities
  rw [List.filterMap_append, List.filter_append]
  have hne : ∀ x ∈ (ps.filterMap fun p => p.amount.map Amount.commodity).filter (· ≠ []), x ≠ [] := by
    intro x hx; simpa using List.of_mem_filter hx
  generalize (ps.filterMap fun p => p.amount.map Amount.commodity).filter (· ≠ []) = l at hne
  cases l with
  | nil =>
    by_cases hc : a.commodity = [] <;> simp [ha, hc]
  | cons x l => simp [hne x (by simp)]

section step

variable {bm : BudgetMonth} {es : List Filed} {e : Filed} {a : Amount} {cs : List Str}

theorem holds_envelope (H : bm.Holds es) (ha : e.posting.amount = some a) (ht : e.type = .envelope) (hc : e.category = some cs) (hcs : cs ≠ []) :
    ∃ bm', bm.addTo .envelope cs e.posting a = some bm' ∧ bm'.Holds (es ++ [e]) := by
  obtain ⟨bm', e1, i1, i2, o, f, hh, hq, hco, ho, _⟩ := addTo_envelope H.full.1 H.full.2 hcs e.posting a
  have hv := value_some ha
  refine ⟨bm', e1, ⟨f, o.full⟩, fun ds => ?_, fun ds => ?_, fun ds hn => ?_, fun ds hn => ?_, ?_, ?_, ?_, fun ds => ?_, fun ds => ?_, ?_, ?_⟩
  · rw [hh, H.envelopes, exists_snoc, under_some hc, or_assoc]
  · rw [o.has, H.expenses, exists_snoc, under_some hc, or_assoc]
  · have h1 := hq ds
    have h2 := hco ds hn
    rw [H.budgeted ds hn] at h1 h2
    rw [amount_mk h2 h1, categoryCommodity_snoc es e ha, hc]
    unfold budgeted
    rw [worth_snoc, hv]
    simp only [ht, under_some hc, Option.some.injEq, eq_comm (a := ds), true_and, decide_eq_true_eq]
    by_cases hd : ds <+: cs <;> simp [hd]
  · have h1 := o.qty ds
    have h2 := o.com ds hn
    rw [H.spent ds hn] at h1 h2
    rw [amount_mk h2 h1, categoryCommodity_snoc es e ha, hc]
    unfold spent
    rw [worth_snoc]
    simp [ht, eq_comm (a := ds)]
  · rw [hq, if_pos List.nil_prefix, H.unassigned]
    unfold earned
    rw [worth_snoc, worth_snoc, hv]
    simp [ht]
    ring
  · rw [o.qty, H.allSpent, worth_snoc]
    simp [ht]
  · rw [i1, H.income]
    unfold earned
    rw [worth_snoc]
    simp [ht]
  · rw [ho, H.envelopePostings, filedTo_snoc, hc]
    simp [ht, eq_comm (a := ds)]
  · rw [o.own, H.expensePostings, filedTo_snoc]
    simp [ht]
  · rw [i2, H.incomePostings, List.filter_append]
    simp [ht]
  · rw [i1, H.incomeCommodity, List.filter_append]
    simp [ht]

theorem holds_expense (H : bm.Holds es) (ha : e.posting.amount = some a) (ht : e.type = .expense) (hc : e.category = some cs) (hcs : cs ≠ []) :
    ∃ bm', bm.addTo .expense cs e.posting a = some bm' ∧ bm'.Holds (es ++ [e]) := by
  obtain ⟨bm', e1, i1, i2, o, f, hh, hq, hco, ho, _⟩ := addTo_expense H.full.1 H.full.2 hcs e.posting a
  have hv := value_some ha
  refine ⟨bm', e1, ⟨o.full, f⟩, fun ds => ?_, fun ds => ?_, fun ds hn => ?_, fun ds hn => ?_, ?_, ?_, ?_, fun ds => ?_, fun ds => ?_, ?_, ?_⟩
  · rw [o.has, H.envelopes, exists_snoc, under_some hc, or_assoc]
  · rw [hh, H.expenses, exists_snoc, under_some hc, or_assoc]
  · have h1 := o.qty ds
    have h2 := o.com ds hn
    rw [H.budgeted ds hn] at h1 h2
    rw [amount_mk h2 h1, categoryCommodity_snoc es e ha, hc]
    unfold budgeted
    rw [worth_snoc]
    simp [ht, eq_comm (a := ds)]
  · have h1 := hq ds
    have h2 := hco ds hn
    rw [H.spent ds hn] at h1 h2
    rw [amount_mk h2 h1, categoryCommodity_snoc es e ha, hc]
    unfold spent
    rw [worth_snoc, hv]
    simp only [ht, under_some hc, Option.some.injEq, eq_comm (a := ds), true_and, decide_eq_true_eq]
    by_cases hd : ds <+: cs
    · simp only [hd, if_true, Amount.mk.injEq, true_and]; ring
    · simp [hd]
  · rw [o.qty, H.unassigned]
    unfold earned
    rw [worth_snoc, worth_snoc]
    simp [ht]
  · rw [hq, if_pos List.nil_prefix, H.allSpent, worth_snoc, hv]
    simp only [ht, decide_true, if_true]
    ring
  · rw [i1, H.income]
    unfold earned
    rw [worth_snoc]
    simp [ht]
  · rw [o.own, H.envelopePostings, filedTo_snoc]
    simp [ht]
  · rw [ho, H.expensePostings, filedTo_snoc, hc]
    simp [ht, eq_comm (a := ds)]
  · rw [i2, H.incomePostings, List.filter_append]
    simp [ht]
  · rw [i1, H.incomeCommodity, List.filter_append]
    simp [ht]

theorem holds_root (H : bm.Holds es) (ha : e.posting.amount = some a) (ht : e.type = .envelope) (hc : e.category = none) :
    (bm.addToRoot a).Holds (es ++ [e]) := by
  have hv := value_some ha
  obtain ⟨f, hh, hm, h0, ho⟩ := root_change H.full.1 (·.add a) (· + a.quantity) (fun _ => rfl)
  have he : (bm.addToRoot a).envelope = bm.envelope.modify 0 fun n => { n with amount := n.amount.add a } := rfl
  have hx : (bm.addToRoot a).expense = bm.expense := rfl
  have hcc : ∀ ds, categoryCommodity ds (es ++ [e]) = categoryCommodity ds es := fun ds => by
    rw [categoryCommodity_snoc es e ha, hc]; simp
  refine ⟨⟨f, H.full.2⟩, fun ds => ?_, fun ds => ?_, fun ds hn => ?_, fun ds hn => ?_, ?_, ?_, ?_, fun ds => ?_, fun ds => ?_, ?_, ?_⟩
  · rw [he, hh, H.envelopes, exists_snoc]; simp [under_none hc]
  · rw [hx, H.expenses, exists_snoc]; simp [under_none hc]
  · rw [he, hm ds hn, H.budgeted ds hn, hcc]
    unfold budgeted
    rw [worth_snoc]
    simp [under_none hc]
  · rw [hx, H.spent ds hn, hcc]
    unfold spent
    rw [worth_snoc]
    simp [ht]
  · rw [he, h0, H.unassigned]
    unfold earned
    rw [worth_snoc, worth_snoc, hv]
    simp [ht]
    ring
  · rw [hx, H.allSpent, worth_snoc]
    simp [ht]
  · rw [show (bm.addToRoot a).income = bm.income from rfl, H.income]
    unfold earned
    rw [worth_snoc]
    simp [ht]
  · rw [he, ho, H.envelopePostings, filedTo_snoc, hc]
    simp
  · rw [hx, H.expensePostings, filedTo_snoc]
    simp [ht]
  · rw [show (bm.addToRoot a).incomePostings = bm.incomePostings from rfl, H.incomePostings, List.filter_append]
    simp [ht]
  · rw [show (bm.addToRoot a).income = bm.income from rfl, H.incomeCommodity, List.filter_append]
    simp [ht]

theorem holds_income (H : bm.Holds es) (ha : e.posting.amount = some a) (ht : e.type = .income) :
    (bm.addIncome e.posting a).Holds (es ++ [e]) := by
  have hv := value_some ha
  have hc : e.category = none := by unfold Filed.category; rw [ht]
  obtain ⟨d1, d2⟩ := Heap.default_spec H.full.1 a.commodity
  obtain ⟨f, hh, hm, h0, ho⟩ := root_change (d1.shape.full H.full.1) (·.subtract a) (· - a.quantity) (fun _ => rfl)
  have he : (bm.addIncome e.posting a).envelope =
    (bm.envelope.defaultCommodity 0 a.commodity).modify 0 fun n => { n with amount := n.amount.subtract a } := rfl
  have hx : (bm.addIncome e.posting a).expense = bm.expense := rfl
  have hcc : ∀ ds, categoryCommodity ds (es ++ [e]) = categoryCommodity ds es := fun ds => by
    rw [categoryCommodity_snoc es e ha, hc]; simp
  refine ⟨⟨f, H.full.2⟩, fun ds => ?_, fun ds => ?_, fun ds hn => ?_, fun ds hn => ?_, ?_, ?_, ?_, fun ds => ?_, fun ds => ?_, ?_, ?_⟩
  · rw [he, hh, d1.shape.has, H.envelopes, exists_snoc]; simp [under_none hc]
  · rw [hx, H.expenses, exists_snoc]; simp [under_none hc]
  · rw [he, hm ds hn, d2 ds hn, H.budgeted ds hn, hcc]
    unfold budgeted
    rw [worth_snoc]
    simp [under_none hc]
  · rw [hx, H.spent ds hn, hcc]
    unfold spent
    rw [worth_snoc]
    simp [ht]
  · rw [he, h0, d1.qty, H.unassigned]
    unfold earned
    rw [worth_snoc, worth_snoc, hv]
    simp [ht]
    ring
  · rw [hx, H.allSpent, worth_snoc]
    simp [ht]
  · have : (bm.addIncome e.posting a).income.quantity = bm.income.quantity - a.quantity := by
      unfold BudgetMonth.addIncome Amount.subtract
      by_cases hcm : bm.income.commodity = [] <;> simp [hcm]
    rw [this, H.income]
    unfold earned
    rw [worth_snoc, hv]
    simp [ht]
    ring
  · rw [he, ho, d1.own, H.envelopePostings, filedTo_snoc, hc]
    simp
  · rw [hx, H.expensePostings, filedTo_snoc, hc]
    simp
  · rw [show (bm.addIncome e.posting a).incomePostings = bm.incomePostings ++ [e.posting] from rfl, H.incomePostings, List.filter_append]
    simp [ht]
  · have hi : (bm.addIncome e.posting a).income.commodity = if bm.income.commodity = [] then a.commodity else bm.income.commodity := by
      unfold BudgetMonth.addIncome Amount.subtract
      by_cases hcm : bm.income.commodity = [] <;> simp [hcm]
    have hcomm := H.incomeCommodity
    rw [hi, List.filter_append]
    simp only [ht, List.filter_cons, decide_true, if_true, List.filter_nil, List.map_append, List.map_cons, List.map_nil]
    rw [firstCommodity_snoc _ ha, hcomm]

end step

end Gledger
