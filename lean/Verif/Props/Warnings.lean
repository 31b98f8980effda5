import Verif.Lemmas.BudgetMixes
import Verif.Props.BalanceText

set_option maxRecDepth 100000

namespace Gledger

theorem mixLine_nil {verb kept given : Str} : mixLine verb kept given = [] ↔ kept = given := by
  unfold mixLine
  constructor
  · intro h
    by_contra hc
    rw [if_neg hc] at h
    simp [str] at h
  · intro h; rw [if_pos h]

theorem delivered_once [Unicode] (fs : FileSystem) (maxOpen : Nat) (bytes : List UInt8) (path : Str) :
    ∀ c ∈ delivered fs maxOpen bytes path, ∀ pt f, c = .periodic pt f → pt.period.interval = .none := by
  rintro c hc pt f rfl
  rw [delivered_calls] at hc
  exact (C65_delivered_period fs recorder maxOpen bytes path [] pt f hc).1.2.2.2.2.2

/-! ### C73 The balance command's warnings -/

theorem balance_orders [Unicode] (e : Env) (ho : ∀ l, (e.mapOrder l).Perm l) (fs : FileSystem) (maxOpen : Nat) (bytes : List UInt8) (path : Str)
    (h : (e.balanceHandlers.replay (delivered fs maxOpen bytes path) newJournal).2 = none) :
    ∃ qss : List (List Posting), List.Forall₂ e.Gives qss (delivered fs maxOpen bytes path) ∧
      printedBy fs maxOpen bytes path e.balancePrinting newJournal = balanceMixes [] qss.flatten ∧
      (∀ q ∈ qss.flatten, q.amount ≠ none) ∧
      (e.balanceHandlers.replay (delivered fs maxOpen bytes path) newJournal).1.heap.Books qss.flatten := by
  unfold Env.balancePrinting
  rw [printed_replay]
  have := balance_prints e ho _ newJournal _ [] (newAccount_books _) (delivered_once fs maxOpen bytes path) (Prod.ext rfl h)
  simpa only [List.nil_append] using this

/-- If all handlers get through, what the balance command has printed when reading ends is exactly the warnings about the
selected postings, transaction by transaction in the order of the journal (the order within a transaction is that of the map
the filters fill). This includes journals that are rejected afterwards. -/
theorem C73_warnings [Unicode] (e : Env) (ho : ∀ l, (e.mapOrder l).Perm l) (fs : FileSystem) (maxOpen : Nat) (bytes : List UInt8) (path : Str)
    (h : (e.balanceHandlers.replay (delivered fs maxOpen bytes path) newJournal).2 = none) :
    ∃ qss : List (List Posting), List.Forall₂ e.Gives qss (delivered fs maxOpen bytes path) ∧
      printedBy fs maxOpen bytes path e.balancePrinting newJournal = balanceMixes [] qss.flatten ∧
      ∀ q ∈ qss.flatten, q.amount ≠ none := by
  obtain ⟨qss, q1, q2, q3, _⟩ := balance_orders e ho fs maxOpen bytes path h
  exact ⟨qss, q1, q2, q3⟩

theorem Env.Gives.perm {e : Env} {qs : List Posting} {c : Call} (h : e.Gives qs c) : qs.Perm (e.selectedOf c) := by
  cases c with
  | normal t f => exact h.1
  | periodic pt f => rw [show qs = [] from h]; exact List.Perm.refl _

theorem flatten_perm_flatMap {α β : Type} {f : β → List α} {qss : List (List α)} {l : List β}
    (h : List.Forall₂ (fun qs c => qs.Perm (f c)) qss l) : qss.flatten.Perm (l.flatMap f) := by
  induction h with
  | nil => exact List.Perm.nil
  | cons h1 _ ih =>
    rw [List.flatten_cons, List.flatMap_cons]
    exact h1.append ih

/-- The output of a successful balance run: the warnings, then the report, about the selected postings in the same order. -/
theorem C73_balance_output [Unicode] (m : Machine) (e : Env) (ho : ∀ l, (e.mapOrder l).Perm l) (o : Options) (args : List Str)
    (bytes : List UInt8) (path text : Str) (h : balanceCmd e o.showZero o.flatten o.collapse m.fs m.maxOpen bytes path = .ok text) :
    ∃ qss : List (List Posting), List.Forall₂ e.Gives qss (delivered m.fs m.maxOpen bytes path) ∧
      m.runOn e o args bytes path .balance = ⟨balanceMixes [] qss.flatten ++ text, .exit 0⟩ ∧
      BalanceReport o.showZero o.flatten o.collapse qss.flatten text := by
  have hr : ∃ j, runParse m.fs m.maxOpen bytes path e.balanceHandlers newJournal = .ok j := by
    unfold balanceCmd at h
    cases hj : runParse m.fs m.maxOpen bytes path e.balanceHandlers newJournal with
    | error f => rw [hj] at h; cases h
    | ok j => exact ⟨j, rfl⟩
  obtain ⟨j, hj⟩ := hr
  have h' := (runParse_replay.1 hj).2
  obtain ⟨qss, q1, q2, _, q4⟩ := balance_orders e ho m.fs m.maxOpen bytes path (by rw [h'])
  refine ⟨qss, q1, by rw [Machine.runOn, q2, h]; rfl, ?_⟩
  rw [h'] at q4
  have ht : text = report (prepareBalance o.showZero j.heap) o.flatten o.collapse := by
    unfold balanceCmd at h
    rw [hj] at h
    exact (Except.ok.inj h).symm
  rw [ht]
  exact balance_report (balance_made e _ newJournal j .new h') q4 _ _ _

theorem balanceMixes_one {c : Str} (qs : List Posting) : ∀ before, (∀ p ∈ before ++ qs, ∀ a ∈ p.amount, a.commodity = c) →
    balanceMixes before qs = [] := by
  induction qs with
  | nil => intro before _; rfl
  | cons p qs ih =>
    intro before h
    rw [balanceMixes, ih (before ++ [p]) (by simpa using h), List.append_nil]
    unfold balanceMix
    cases ha : p.amount with
    | none => rfl
    | some a =>
      simp only [List.flatMap_eq_nil_iff, mixLine_nil, mem_pathsUp]
      intro cs hcs
      rw [h p (by simp) a ha]
      apply firstCommodity_one
      · intro q hq
        refine h q ?_
        have := List.mem_of_mem_filter hq
        rcases List.mem_append.1 this with h1 | h1
        · exact List.mem_append_left _ h1
        · simp at h1; simp [h1]
      · exact ⟨p, List.mem_filter.2 ⟨by simp, by simpa using hcs⟩, by rw [ha]; simp⟩

/-- However reading ends, nothing is printed if all selected postings are in the same commodity. -/
theorem C73_one_commodity [Unicode] (e : Env) (ho : ∀ l, (e.mapOrder l).Perm l) (fs : FileSystem) (maxOpen : Nat) (bytes : List UInt8)
    (path c : Str) (h : ∀ p ∈ e.selected (delivered fs maxOpen bytes path), ∀ a ∈ p.amount, a.commodity = c) :
    printedBy fs maxOpen bytes path e.balancePrinting newJournal = [] := by
  unfold Env.balancePrinting
  rw [printed_replay]
  obtain ⟨qs, q1, q2⟩ := balance_prints_any e ho _ newJournal [] (newAccount_books _) (delivered_once fs maxOpen bytes path)
  rw [q2]
  exact balanceMixes_one qs [] fun p hp => h p (q1 p (by simpa using hp))

/-- A journal in two commodities: two accounts are warned about, and the root. -/
example :
    letI := asciiUnicode
    let text := utf8 "2020-01-01 x\n  A:B  $1\n  A:C  EUR1\n  D  -2\n"
    printedBy noFiles 1 text (str "f") (Env.balancePrinting {}) newJournal =
      str "unhandled addition of unmatched commodities: '$' and 'EUR'\nunhandled addition of unmatched commodities: '$' and 'EUR'\nunhandled addition of unmatched commodities: '$' and ''\n" := by
  decide +kernel

/-! ### C74 Every mix of commodities is pointed out -/

/-- Postings without a commodity, then postings in one. -/
def BlankThenOne (ps : List Posting) : Prop :=
  ∃ (blank rest : List Posting) (c : Str), ps = blank ++ rest ∧ (∀ p ∈ blank, ∀ a ∈ p.amount, a.commodity = []) ∧
    ∀ p ∈ rest, ∀ a ∈ p.amount, a.commodity = c

theorem firstCommodity_two {ps : List Posting} {c : Str} (h : ∀ p ∈ ps, ∀ a ∈ p.amount, a.commodity = [] ∨ a.commodity = c)
    (hne : ∃ p ∈ ps, ∃ a ∈ p.amount, a.commodity = c) : firstCommodity ps = c := by
  unfold firstCommodity writtenCommodities
  have hall : ∀ x ∈ (ps.filterMap fun p => p.amount.map Amount.commodity).filter (· ≠ []), x = c := by
    intro x hx
    obtain ⟨p, hp, hx'⟩ := List.mem_filterMap.1 (List.mem_of_mem_filter hx)
    obtain ⟨a, ha, rfl⟩ := Option.map_eq_some_iff.1 hx'
    have := List.of_mem_filter hx
    rcases h p hp a ha with h1 | h1
    · rw [h1] at this; simp at this
    · exact h1
  obtain ⟨p, hp, a, ha, rfl⟩ := hne
  have hm : a.commodity ≠ [] → a.commodity ∈ (ps.filterMap fun p => p.amount.map Amount.commodity).filter (· ≠ []) := by
    intro hc
    rw [List.mem_filter]
    exact ⟨List.mem_filterMap.2 ⟨p, hp, by rw [show p.amount = some a from ha]; rfl⟩, by simpa using hc⟩
  generalize (ps.filterMap fun p => p.amount.map Amount.commodity).filter (· ≠ []) = l at hall hm
  cases l with
  | nil =>
    by_cases hc : a.commodity = []
    · exact hc.symm
    · exact absurd (hm hc) (by simp)
  | cons x l => exact hall x (by simp)

theorem firstCommodity_blank {ps : List Posting} (h : firstCommodity ps = []) : ∀ p ∈ ps, ∀ a ∈ p.amount, a.commodity = [] := by
  intro p hp a ha
  by_contra hc
  unfold firstCommodity writtenCommodities at h
  have hm : a.commodity ∈ (ps.filterMap fun p => p.amount.map Amount.commodity).filter (· ≠ []) := by
    rw [List.mem_filter]
    exact ⟨List.mem_filterMap.2 ⟨p, hp, by rw [show p.amount = some a from ha]; rfl⟩, by simpa using hc⟩
  have hne : ∀ x ∈ (ps.filterMap fun p => p.amount.map Amount.commodity).filter (· ≠ []), x ≠ [] := by
    intro x hx; simpa using List.of_mem_filter hx
  generalize (ps.filterMap fun p => p.amount.map Amount.commodity).filter (· ≠ []) = l at h hm hne
  cases l with
  | nil => simp at hm
  | cons x l => exact hne x (by simp) h

theorem balanceMix_snoc {ps : List Posting} {p : Posting} {a : Amount} (ha : p.amount = some a) (hps : BlankThenOne ps)
    : balanceMix ps p = [] ↔ BlankThenOne (ps ++ [p]) := by
  unfold balanceMix
  rw [ha]
  simp only [List.flatMap_eq_nil_iff, mixLine_nil, mem_pathsUp]
  constructor
  · intro h
    have h0 := h [] List.nil_prefix
    rw [below_nil, firstCommodity_snoc ps ha] at h0
    by_cases hf : firstCommodity ps = []
    · refine ⟨ps, [p], a.commodity, rfl, firstCommodity_blank hf, ?_⟩
      intro q hq b hb
      simp only [List.mem_singleton] at hq
      subst hq
      rw [ha] at hb
      cases hb
      rfl
    · rw [if_neg hf] at h0
      obtain ⟨blank, rest, c, rfl, h1, h2⟩ := hps
      have hr : ∃ q ∈ rest, ∃ b ∈ q.amount, b.commodity = c := by
        by_contra hn
        push Not at hn
        apply hf
        have : ∀ q ∈ blank ++ rest, ∀ b ∈ q.amount, b.commodity = [] := by
          intro q hq b hb
          rcases List.mem_append.1 hq with hq | hq
          · exact h1 q hq b hb
          · exact absurd (h2 q hq b hb) (hn q hq b hb)
        unfold firstCommodity writtenCommodities
        rw [List.filter_eq_nil_iff.2]
        · rfl
        · intro x hx
          obtain ⟨q, hq, hx⟩ := List.mem_filterMap.1 hx
          obtain ⟨b, hb, rfl⟩ := Option.map_eq_some_iff.1 hx
          simpa using this q hq b hb
      have hc : firstCommodity (blank ++ rest) = c := by
        apply firstCommodity_two
        · intro q hq b hb
          rcases List.mem_append.1 hq with hq | hq
          · exact Or.inl (h1 q hq b hb)
          · exact Or.inr (h2 q hq b hb)
        · obtain ⟨q, hq, hb⟩ := hr
          exact ⟨q, List.mem_append_right _ hq, hb⟩
      refine ⟨blank, rest ++ [p], c, by simp, h1, ?_⟩
      intro q hq b hb
      rcases List.mem_append.1 hq with hq | hq
      · exact h2 q hq b hb
      · simp only [List.mem_singleton] at hq
        subst hq
        rw [ha] at hb
        cases hb
        rw [← h0, hc]
  · rintro ⟨blank, rest, c, he, h1, h2⟩ cs hcs
    have hall : ∀ q ∈ ps ++ [p], ∀ b ∈ q.amount, b.commodity = [] ∨ b.commodity = c := by
      rw [he]
      intro q hq b hb
      rcases List.mem_append.1 hq with hq | hq
      · exact Or.inl (h1 q hq b hb)
      · exact Or.inr (h2 q hq b hb)
    have hp : p ∈ below cs (ps ++ [p]) := List.mem_filter.2 ⟨by simp, by simpa using hcs⟩
    have hsub : ∀ q ∈ below cs (ps ++ [p]), q ∈ ps ++ [p] := fun q hq => List.mem_of_mem_filter hq
    rcases List.eq_nil_or_concat' rest with rfl | ⟨r, q, rfl⟩
    · rw [List.append_nil] at he
      rw [h1 p (by rw [← he]; simp) a ha]
      apply firstCommodity_two
      · intro q hq b hb
        exact Or.inl (h1 q (by rw [← he]; exact hsub q hq) b hb)
      · exact ⟨p, hp, a, ha, h1 p (by rw [← he]; simp) a ha⟩
    · have hq : q = p := by
        have := congrArg List.getLast? he
        simpa using this.symm
      subst hq
      have hac := h2 q (by simp) a ha
      rw [hac]
      exact firstCommodity_two (fun x hx b hb => hall x (hsub x hx) b hb) ⟨q, hp, a, ha, hac⟩

/-- Postings give no warning if and only if those without a commodity come first and the others are all in the same one. -/
theorem balanceMixes_silent (ps : List Posting) (ha : ∀ p ∈ ps, p.amount ≠ none) : balanceMixes [] ps = [] ↔ BlankThenOne ps := by
  induction ps using List.reverseRecOn with
  | nil => exact ⟨fun _ => ⟨[], [], [], rfl, by simp, by simp⟩, fun _ => rfl⟩
  | append_singleton ps p ih =>
    have ih := ih fun q hq => ha q (by simp [hq])
    obtain ⟨a, hp⟩ := Option.ne_none_iff_exists'.1 (ha p (by simp))
    rw [balanceMixes_append, List.nil_append, List.append_eq_nil_iff]
    simp only [balanceMixes, List.append_nil]
    rw [ih]
    constructor
    · rintro ⟨h1, h2⟩
      exact (balanceMix_snoc hp h1).1 h2
    · intro h
      have h1 : BlankThenOne ps := by
        obtain ⟨blank, rest, c, he, k1, k2⟩ := h
        rcases List.eq_nil_or_concat' rest with rfl | ⟨r, q, rfl⟩
        · rw [List.append_nil] at he
          exact ⟨ps, [], c, by simp, fun q hq => k1 q (by rw [← he]; simp [hq]), by simp⟩
        · rw [← List.append_assoc] at he
          have := List.append_inj' he rfl
          exact ⟨blank, r, c, this.1, k1, fun q hq => k2 q (by simp [hq])⟩
      exact ⟨h1, (balanceMix_snoc hp h1).2 h⟩

/-- The balance of an amount without commodity and one in dollars is computed without a warning. -/
theorem C74_mixes_reported_false :
    ¬ ∀ (bytes : List UInt8), letI := asciiUnicode
      (∃ p ∈ Env.selected {} (delivered noFiles 1 bytes (str "f")), ∃ q ∈ Env.selected {} (delivered noFiles 1 bytes (str "f")),
        p.amount.map Amount.commodity ≠ q.amount.map Amount.commodity) →
      printedBy noFiles 1 bytes (str "f") (Env.balancePrinting {}) newJournal ≠ [] := by
  intro h
  have := h (utf8 "2020-01-01 x\n  A  1\n  B  $-1\n")
  revert this
  decide +kernel

/-- What holds: two different commodities that are both written are always pointed out by a successful balance run; and the run
prints no warning exactly if the postings without a commodity were added before all others and those are in one commodity.
Missing: a posting with a commodity after postings without one. -/
theorem C74_mixes_reported_partial [Unicode] (e : Env) (ho : ∀ l, (e.mapOrder l).Perm l) (fs : FileSystem) (maxOpen : Nat) (bytes : List UInt8)
    (path : Str) (j : Journal) (h : runParse fs maxOpen bytes path e.balanceHandlers newJournal = .ok j) :
    (∃ ps, ps.Perm (e.selected (delivered fs maxOpen bytes path)) ∧
      (printedBy fs maxOpen bytes path e.balancePrinting newJournal = [] ↔ BlankThenOne ps)) ∧
    ((∃ p ∈ e.selected (delivered fs maxOpen bytes path), ∃ q ∈ e.selected (delivered fs maxOpen bytes path),
        ∃ a ∈ p.amount, ∃ b ∈ q.amount, a.commodity ≠ [] ∧ b.commodity ≠ [] ∧ a.commodity ≠ b.commodity) →
      printedBy fs maxOpen bytes path e.balancePrinting newJournal ≠ []) := by
  have hrep := (runParse_replay.1 h).2
  obtain ⟨qss, q1, q2, ha⟩ := C73_warnings e ho fs maxOpen bytes path (by rw [hrep])
  have hperm : qss.flatten.Perm (e.selected (delivered fs maxOpen bytes path)) := flatten_perm_flatMap (q1.imp fun _ _ h => h.perm)
  have key : printedBy fs maxOpen bytes path e.balancePrinting newJournal = [] ↔ BlankThenOne qss.flatten := by
    rw [q2]; exact balanceMixes_silent _ ha
  refine ⟨⟨qss.flatten, hperm, key⟩, ?_⟩
  rintro ⟨p, hp, q, hq, a, hpa, b, hqb, ha0, hb0, hab⟩ h0
  obtain ⟨blank, rest, c, he, k1, k2⟩ := key.1 h0
  have hof : ∀ x ∈ e.selected (delivered fs maxOpen bytes path), ∀ y ∈ x.amount, y.commodity ≠ [] → y.commodity = c := by
    intro x hx y hy hne
    have := hperm.mem_iff.2 hx
    rw [he] at this
    rcases List.mem_append.1 this with h1 | h1
    · exact absurd (k1 x h1 y hy) hne
    · exact k2 x h1 y hy
  exact hab ((hof p hp a hpa ha0).trans (hof q hq b hqb hb0).symm)

/-! ### C75 The budget command's warnings -/

/-- If all handlers get through, what the budget command has printed when reading ends is exactly the warnings about the postings
it files, transaction by transaction in the order of the journal; and these are put into the budget in this order. -/
theorem C75_warnings [Unicode] (e : Env) (ho : ∀ l, (e.mapOrder l).Perm l) (fs : FileSystem) (maxOpen : Nat) (bytes : List UInt8) (path : Str)
    (h : (e.budgetHandlers.replay (delivered fs maxOpen bytes path) []).2 = none) :
    ∃ xss : List (List Filed), List.Forall₂ e.FiledAs xss (delivered fs maxOpen bytes path) ∧
      printedBy fs maxOpen bytes path e.budgetPrinting [] = budgetMixes [] xss.flatten ∧
      Budget.addEach xss.flatten [] = some (e.budgetHandlers.replay (delivered fs maxOpen bytes path) []).1 := by
  unfold Env.budgetPrinting
  rw [printed_replay]
  exact (budget_prints e ho _ [] [] empty_holds (fun _ _ _ hb => by cases hb) (delivered_once fs maxOpen bytes path)
    (filed_days e fs maxOpen bytes path)).1 h

/-- The output of a successful budget run: the warnings, then the report, about the postings in the same order; its lines bring no further
warning. -/
theorem C75_budget_output [Unicode] (m : Machine) (hs : SortsMonths m.sortDates) (e : Env) (ho : ∀ l, (e.mapOrder l).Perm l) (o : Options) (args : List Str)
    (bytes : List UInt8) (path text : Str) (h : budgetCmd e m.sortDates m.fs m.maxOpen bytes path = .ok text) :
    ∃ xss : List (List Filed), List.Forall₂ e.FiledAs xss (delivered m.fs m.maxOpen bytes path) ∧
      m.runOn e o args bytes path .budget = ⟨budgetMixes [] xss.flatten ++ text, .exit 0⟩ ∧ BudgetReport xss.flatten text := by
  have hr : ∃ b, runParse m.fs m.maxOpen bytes path e.budgetHandlers [] = .ok b := by
    unfold budgetCmd at h
    cases hj : runParse m.fs m.maxOpen bytes path e.budgetHandlers [] with
    | error f => rw [hj] at h; cases h
    | ok j => exact ⟨j, rfl⟩
  obtain ⟨b, hb⟩ := hr
  have h' := (runParse_replay.1 hb).2
  obtain ⟨xss, q1, q2, q3⟩ := C75_warnings e ho m.fs m.maxOpen bytes path (by rw [h'])
  refine ⟨xss, q1, by rw [Machine.runOn, q2, h]; rfl, ?_⟩
  rw [h'] at q3
  have ht : text = budgetMonths b (m.sortDates (b.map (·.1))) := by
    unfold budgetCmd at h
    rw [hb] at h
    exact (Except.ok.inj h).symm
  rw [ht]
  exact budget_report (fun x hx => filed_days e m.fs m.maxOpen bytes path x
    ((flatten_perm_flatMap (q1.imp fun _ _ h => h.perm)).mem_iff.1 hx)) q3 hs

/-- Food in euros after the rent in pounds, and income in pounds. -/
example :
    letI := asciiUnicode
    let text := utf8 "~ 2020-02\n  Rent  £7\n  Food  EUR5\n2020-02-01 pay\n  Assets:Bank  £50\n  Income:Job\n"
    printedBy noFiles 1 text (str "f") (Env.budgetPrinting {}) [] =
      str "unhandled addition of unmatched commodities: '£' and 'EUR'\nunhandled addition of unmatched commodities: '£' and 'EUR'\n" := by
  decide +kernel

/-! ### C76 A budget in one commodity -/

/-- What a posting filed in a month must find there for no warning to be given, if all is in one commodity: each category above
its own must have had a posting itself; and there must be something in the pool before anything is put back into it. -/
def Filed.Prepared (before : List Filed) (e : Filed) : Prop :=
  (∀ cs ∈ e.category, ∀ ds, ds ≠ [] → ds <+: cs → ds ≠ cs → ∃ x ∈ before, x.category = some ds) ∧
  (e.type = .envelope → e.category = none → ∃ x ∈ before, x.type = .income ∨ x.category ≠ none)

theorem mixLine_eq_nil {verb kept given : Str} : mixLine verb kept given = [] ↔ kept = given := by
  unfold mixLine
  split
  · simp [*]
  · constructor
    · intro h
      have := congrArg List.length h
      simp [str] at this
    · intro h; contradiction

theorem categoryCommodity_one {c : Str} (hc : c ≠ []) {es : List Filed} (h : ∀ e ∈ es, e.posting.amount.map Amount.commodity = some c)
    (ds : List Str) : categoryCommodity ds es = c ↔ ∃ x ∈ es, x.category = some ds := by
  unfold categoryCommodity
  cases hl : (es.filter fun e => e.category = some ds).getLast? with
  | none =>
    rw [List.getLast?_eq_none_iff, List.filter_eq_nil_iff] at hl
    simp only [Option.bind_none, Option.map_none, Option.getD_none]
    constructor
    · intro h; exact absurd h.symm hc
    · rintro ⟨x, hx, hx2⟩
      exact absurd (by simpa using hx2) (hl x hx)
  | some x =>
    have hx := List.mem_of_getLast? hl
    rw [List.mem_filter] at hx
    have := h x hx.1
    simp only [Option.bind_some, this, Option.getD_some, true_iff]
    exact ⟨x, hx.1, by simpa using hx.2⟩

theorem firstCommodity_none {ps : List Posting} (h : ps = []) : firstCommodity ps = [] := by
  subst h; rfl

theorem firstCommodity_all {c : Str} (hc : c ≠ []) {es : List Filed} (h : ∀ e ∈ es, e.posting.amount.map Amount.commodity = some c)
    (P : Filed → Bool) : firstCommodity ((es.filter P).map Filed.posting) = c ↔ ∃ x ∈ es, P x = true := by
  constructor
  · intro hf
    by_contra hn
    push Not at hn
    rw [firstCommodity_none] at hf
    · exact hc hf.symm
    · rw [List.map_eq_nil_iff, List.filter_eq_nil_iff]
      exact hn
  · rintro ⟨x, hx, hp⟩
    apply firstCommodity_two
    · intro q hq b hb
      obtain ⟨y, hy, rfl⟩ := List.mem_map.1 hq
      have := h y (List.mem_of_mem_filter hy)
      rw [hb] at this
      exact Or.inr (by simpa using this)
    · have := h x hx
      obtain ⟨a, ha, hac⟩ := Option.map_eq_some_iff.1 this
      exact ⟨x.posting, List.mem_map.2 ⟨x, List.mem_filter.2 ⟨hx, hp⟩, rfl⟩, a, ha, hac⟩

theorem mem_pathsUp_drop {cs ds : List Str} : ds ∈ (pathsUp cs).drop 1 ↔ ds <+: cs ∧ ds ≠ cs := by
  rcases List.eq_nil_or_concat' cs with rfl | ⟨bs, c, rfl⟩
  · simp [pathsUp]
  · rw [pathsUp_concat]
    simp only [List.drop_succ_cons, List.drop_zero, mem_pathsUp]
    constructor
    · intro h
      refine ⟨h.trans (List.prefix_append _ _), ?_⟩
      rintro rfl
      have := h.length_le
      simp at this
    · rintro ⟨h1, h2⟩
      rcases List.prefix_concat_iff.1 h1 with h | h
      · exact absurd h h2
      · exact h

/-- One posting. -/
theorem budgetMix_silent {c : Str} (hc : c ≠ []) {before : List Filed} {e : Filed}
    (h : ∀ x ∈ before ++ [e], x.posting.amount.map Amount.commodity = some c) : budgetMix before e = [] ↔ e.Prepared before := by
  have hb : ∀ x ∈ before, x.posting.amount.map Amount.commodity = some c := fun x hx => h x (by simp [hx])
  obtain ⟨a, ha, hac⟩ := Option.map_eq_some_iff.1 (h e (by simp))
  have key : ∀ (verb : Str) (root : Str), root = c → ∀ cs, e.category = some cs →
      ((((pathsUp cs).drop 1).flatMap fun ds => mixLine verb (if ds = [] then root else categoryCommodity ds before) a.commodity) = [] ↔
        ∀ cs ∈ e.category, ∀ ds, ds ≠ [] → ds <+: cs → ds ≠ cs → ∃ x ∈ before, x.category = some ds) := by
    intro verb root hroot cs hcs
    rw [List.flatMap_eq_nil_iff, hcs]
    simp only [mixLine_eq_nil, hac, mem_pathsUp_drop, Option.mem_def, Option.some.injEq]
    constructor
    · rintro h _ rfl ds h1 h2 h3
      have := h ds ⟨h2, h3⟩
      rw [if_neg h1] at this
      exact (categoryCommodity_one hc hb ds).1 this
    · rintro h ds ⟨h2, h3⟩
      by_cases h1 : ds = []
      · rw [if_pos h1]; exact hroot
      · rw [if_neg h1]; exact (categoryCommodity_one hc hb ds).2 (h cs rfl ds h1 h2 h3)
  unfold budgetMix Filed.Prepared
  rw [ha]
  simp only
  cases ht : e.type with
  | income =>
    have hcat : e.category = none := by unfold Filed.category; rw [ht]
    have h1 : incomeCommodity (before ++ [e]) = c := (firstCommodity_all hc h _).2 ⟨e, by simp, by simp [ht]⟩
    have h2 : poolCommodity (before ++ [e]) = c := (firstCommodity_all hc h _).2 ⟨e, by simp, by simp [ht]⟩
    simp [h1, h2, hac, mixLine, hcat]
  | expense =>
    have hcat : ∃ cs, e.category = some cs := by unfold Filed.category; rw [ht]; exact ⟨_, rfl⟩
    obtain ⟨cs, hcs⟩ := hcat
    have h2 : spendingCommodity (before ++ [e]) = c := (firstCommodity_all hc h _).2 ⟨e, by simp, by simp [hcs]⟩
    rw [← key (str "subtraction") _ h2 cs hcs]
    simp [hcs]
  | envelope =>
    cases hcs : e.category with
    | none =>
      simp only [mixLine_eq_nil, hac]
      rw [poolCommodity, firstCommodity_all hc hb]
      simp
    | some cs =>
      have h2 : poolCommodity (before ++ [e]) = c := (firstCommodity_all hc h _).2 ⟨e, by simp, by simp [hcs]⟩
      have := key (str "addition") _ h2 cs hcs
      rw [hcs] at this
      simp only
      rw [this]
      simp

/-- Each posting is prepared by those of its month before it. -/
def AllPrepared (before : List Filed) (es : List Filed) : Prop :=
  ∀ pre e post, es = pre ++ e :: post → e.Prepared (inMonth e.date.year e.date.month (before ++ pre))

theorem budgetMixes_silent {c : Str} (hc : c ≠ []) {before es : List Filed}
    (h : ∀ x ∈ before ++ es, x.posting.amount.map Amount.commodity = some c) : budgetMixes before es = [] ↔ AllPrepared before es := by
  induction es generalizing before with
  | nil => simp [budgetMixes, AllPrepared]
  | cons e es ih =>
    rw [budgetMixes, List.append_eq_nil_iff, ih (by simpa using h), budgetMix_silent hc (by
      intro x hx
      rcases List.mem_append.1 hx with hx | hx
      · exact h x (by simp [List.mem_of_mem_filter hx])
      · exact h x (by simp at hx; simp [hx]))]
    constructor
    · rintro ⟨h1, h2⟩ pre x post hx
      cases pre with
      | nil => simp only [List.nil_append, List.cons.injEq] at hx; obtain ⟨rfl, _⟩ := hx; simpa using h1
      | cons y pre =>
        simp only [List.cons_append, List.cons.injEq] at hx
        obtain ⟨rfl, hx⟩ := hx
        simpa using h2 pre x post hx
    · intro hp
      refine ⟨by simpa using hp [] e es rfl, ?_⟩
      intro pre x post hx
      simpa using hp (e :: pre) x post (by simp [hx])

theorem categoryCommodity_blank {es : List Filed} (h : ∀ e ∈ es, ∀ a ∈ e.posting.amount, a.commodity = []) (ds : List Str) :
    categoryCommodity ds es = [] := by
  unfold categoryCommodity
  cases hl : (es.filter fun e => e.category = some ds).getLast? with
  | none => rfl
  | some x =>
    have hx := List.mem_of_mem_filter (List.mem_of_getLast? hl)
    cases ha : x.posting.amount with
    | none => simp [ha]
    | some a => simp [ha, h x hx a ha]

/-- Nothing without a commodity is ever warned about. -/
theorem budgetMixes_blank {before es : List Filed} (h : ∀ e ∈ before ++ es, ∀ a ∈ e.posting.amount, a.commodity = []) :
    budgetMixes before es = [] := by
  induction es generalizing before with
  | nil => rfl
  | cons e es ih =>
    rw [budgetMixes, ih (by simpa using h), List.append_nil]
    have hm : ∀ x ∈ inMonth e.date.year e.date.month before ++ [e], ∀ a ∈ x.posting.amount, a.commodity = [] := by
      intro x hx
      rcases List.mem_append.1 hx with hx | hx
      · exact h x (by simp [List.mem_of_mem_filter hx])
      · exact h x (by simp at hx; simp [hx])
    generalize inMonth e.date.year e.date.month before = bs at hm
    have hb : ∀ x ∈ bs, ∀ a ∈ x.posting.amount, a.commodity = [] := fun x hx => hm x (by simp [hx])
    have hf : ∀ (l : List Filed) (P : Filed → Bool), (∀ x ∈ l, ∀ a ∈ x.posting.amount, a.commodity = []) →
        firstCommodity ((l.filter P).map Filed.posting) = [] := by
      intro l P hl
      unfold firstCommodity writtenCommodities
      rw [List.filter_eq_nil_iff.2]
      · rfl
      · intro x hx
        obtain ⟨q, hq, hx⟩ := List.mem_filterMap.1 hx
        obtain ⟨b, hb, rfl⟩ := Option.map_eq_some_iff.1 hx
        obtain ⟨y, hy, rfl⟩ := List.mem_map.1 hq
        simpa using hl y (List.mem_of_mem_filter hy) b hb
    unfold budgetMix
    cases ha : e.posting.amount with
    | none => rfl
    | some a =>
      have hac := hm e (by simp) a ha
      simp only
      split
      · rw [incomeCommodity, poolCommodity, hf _ _ hm, hf _ _ hm, hac]
        rfl
      · rw [poolCommodity, hf _ _ hb, hac]
        rfl
      · rw [List.flatMap_eq_nil_iff]
        intro ds _
        rw [mixLine_eq_nil, hac, poolCommodity, hf _ _ hm, categoryCommodity_blank hb, ite_self]
      · rw [List.flatMap_eq_nil_iff]
        intro ds _
        rw [mixLine_eq_nil, hac, spendingCommodity, hf _ _ hm, categoryCommodity_blank hb, ite_self]

/-- A nested category makes the budget command complain about mixed commodities though there is but one. -/
theorem C76_one_commodity_false :
    ¬ ∀ (bytes : List UInt8) (c : Str), letI := asciiUnicode
      (∀ x ∈ Env.filed {} (delivered noFiles 1 bytes (str "f")), x.posting.amount.map Amount.commodity = some c) →
      printedBy noFiles 1 bytes (str "f") (Env.budgetPrinting {}) [] = [] := by
  intro h
  have := h (utf8 "~ 2020-02\n  Home:Rent  £7\n") (str "£")
  revert this
  decide +kernel

/-- What holds, for a journal whose budget is in one commodity: without a written commodity there is never a warning; with one,
there is none exactly if every category above another had a posting of its own in the month before the other's, and nothing is
put back into the pool of unassigned funds while that is empty. Missing: nested categories in general. -/
theorem C76_one_commodity_partial [Unicode] (e : Env) (ho : ∀ l, (e.mapOrder l).Perm l) (fs : FileSystem) (maxOpen : Nat) (bytes : List UInt8)
    (path : Str) (c : Str) (hone : ∀ x ∈ e.filed (delivered fs maxOpen bytes path), x.posting.amount.map Amount.commodity = some c)
    (h : (e.budgetHandlers.replay (delivered fs maxOpen bytes path) []).2 = none) :
    ∃ xss : List (List Filed), List.Forall₂ e.FiledAs xss (delivered fs maxOpen bytes path) ∧
      (printedBy fs maxOpen bytes path e.budgetPrinting [] = [] ↔ c = [] ∨ AllPrepared [] xss.flatten) := by
  obtain ⟨xss, q1, q2, _⟩ := C75_warnings e ho fs maxOpen bytes path h
  refine ⟨xss, q1, ?_⟩
  rw [q2]
  have hperm : xss.flatten.Perm (e.filed (delivered fs maxOpen bytes path)) := flatten_perm_flatMap (q1.imp fun _ _ h => h.perm)
  have hall : ∀ x ∈ ([] : List Filed) ++ xss.flatten, x.posting.amount.map Amount.commodity = some c :=
    fun x hx => hone x (hperm.mem_iff.1 (by simpa using hx))
  by_cases hc : c = []
  · subst hc
    simp only [true_or, iff_true]
    apply budgetMixes_blank
    intro x hx a ha
    have := hall x hx
    rw [ha] at this
    simpa using this
  · rw [budgetMixes_silent hc hall]
    simp [hc]

theorem forall2_split {α β : Type} {R : List α → β → Prop} {xss : List (List α)} {l : List β} (h : List.Forall₂ R xss l) :
    ∀ {pre post : List α} {x : α}, xss.flatten = pre ++ x :: post → ∃ p1 p2 xs c, xs = p2 ++ x :: (xs.drop (p2.length + 1)) ∧ pre = p1 ++ p2 ∧ c ∈ l ∧ R xs c := by
  induction h with
  | nil => intro pre post x hx; simp at hx
  | @cons xs c xss l h1 _ ih =>
    intro pre post x hx
    rw [List.flatten_cons, List.append_eq_append_iff] at hx
    rcases hx with ⟨as, rfl, hx⟩ | ⟨bs, hx, hy⟩
    · obtain ⟨p1, p2, ys, c', q1, rfl, q3, q4⟩ := ih hx
      exact ⟨xs ++ p1, p2, ys, c', q1, by simp, by simp [q3], q4⟩
    · cases bs with
      | nil =>
        rw [List.nil_append] at hy
        obtain ⟨p1, p2, ys, c', q1, q2, q3, q4⟩ := ih (pre := []) hy.symm
        have h0 : p1 = [] ∧ p2 = [] := by simpa using q2.symm
        rw [List.append_nil] at hx
        exact ⟨xs, p2, ys, c', q1, by simp [h0.2, hx], by simp [q3], q4⟩
      | cons y bs =>
        simp only [List.cons_append, List.cons.injEq] at hy
        obtain ⟨rfl, _⟩ := hy
        refine ⟨[], pre, xs, c, ?_, rfl, by simp, h1⟩
        rw [hx]
        simp

/-- In particular if no category is below another, and no periodic transaction starts with a posting to the pool (the one that
the parser adds comes last). -/
theorem C76_flat_categories_partial [Unicode] (e : Env) (ho : ∀ l, (e.mapOrder l).Perm l) (fs : FileSystem) (maxOpen : Nat) (bytes : List UInt8)
    (path : Str) (c : Str) (hone : ∀ x ∈ e.filed (delivered fs maxOpen bytes path), x.posting.amount.map Amount.commodity = some c)
    (hflat : ∀ x ∈ e.filed (delivered fs maxOpen bytes path), ∀ cs ∈ x.category, cs.length ≤ 1)
    (hpool : ∀ pt f, .periodic pt f ∈ delivered fs maxOpen bytes path → ∀ p ∈ pt.transaction.postings.head?, p.accountPath ≠ budgetRootID)
    (h : (e.budgetHandlers.replay (delivered fs maxOpen bytes path) []).2 = none) :
    printedBy fs maxOpen bytes path e.budgetPrinting [] = [] := by
  obtain ⟨xss, q1, q2⟩ := C76_one_commodity_partial e ho fs maxOpen bytes path c hone h
  rw [q2]
  right
  have hperm : xss.flatten.Perm (e.filed (delivered fs maxOpen bytes path)) := flatten_perm_flatMap (q1.imp fun _ _ h => h.perm)
  intro pre x post hx
  have hmem : x ∈ e.filed (delivered fs maxOpen bytes path) := hperm.mem_iff.1 (by rw [hx]; simp)
  constructor
  · intro cs hcs ds h1 h2 h3
    have := hflat x hmem cs hcs
    have hl := h2.length_le
    have : 0 < ds.length := List.length_pos_iff.2 h1
    exact absurd (h2.eq_of_length (by omega)) h3
  · intro ht hn
    obtain ⟨p1, p2, xs, cl, r1, r2, r3, r4⟩ := forall2_split q1 hx
    have hxm : x ∈ xs := by rw [r1]; simp
    cases cl with
    | normal t f =>
      have := r4.perm.mem_iff.1 hxm
      rw [Env.filedOf, List.mem_filterMap] at this
      obtain ⟨p, _, hp⟩ := this
      split at hp
      · cases hp; cases ht
      · split at hp
        · cases hp; cases ht
        · cases hp
    | periodic pt f =>
      have r5 : xs = e.filedOf (.periodic pt f) := r4
      rw [Env.filedOf, if_pos (delivered_once fs maxOpen bytes path _ r3 pt f rfl)] at r5
      have hd : ∀ y ∈ xs, y.date = pt.period.startDate ∧ y.type = .envelope := by
        rw [r5]
        intro y hy
        obtain ⟨p, _, rfl⟩ := List.mem_map.1 hy
        exact ⟨rfl, rfl⟩
      have hpl := hpool pt f r3
      cases hps : pt.transaction.postings with
      | nil => rw [r5, hps] at hxm; simp at hxm
      | cons p ps =>
        rw [hps] at hpl r5
        have hp0 := hpl p (by simp)
        have hcat : (⟨pt.period.startDate, p, .envelope⟩ : Filed).category ≠ none := by
          unfold Filed.category
          rw [if_neg hp0]
          simp
        cases p2 with
        | nil =>
          rw [r5] at r1
          simp only [List.map_cons, List.nil_append, List.cons.injEq] at r1
          rw [← r1.1] at hn
          exact absurd hn hcat
        | cons y p2 =>
          have hy : y = ⟨pt.period.startDate, p, .envelope⟩ := by
            rw [r5] at r1
            simp only [List.map_cons, List.cons_append, List.cons.injEq] at r1
            exact r1.1.symm
          refine ⟨y, ?_, Or.inr (by rw [hy]; exact hcat)⟩
          rw [inMonth, List.mem_filter]
          refine ⟨by rw [r2]; simp, ?_⟩
          rw [(hd x hxm).1, hy]
          simp

/-- Two months of rent and food, with income. -/
example :
    letI := asciiUnicode
    let text := utf8 "~ 2020-02\n  Rent  £7\n  Food  £5\n2020-02-01 pay\n  Assets:Bank  £50\n  Income:Job\n~ 2020-03\n  Rent  £8\n2020-03-01 shop\n  Expenses:Food  £2\n  Assets:Bank\n"
    printedBy noFiles 1 text (str "f") (Env.budgetPrinting {}) [] = [] ∧
      (∀ x ∈ Env.filed {} (delivered noFiles 1 text (str "f")), x.posting.amount.map Amount.commodity = some (str "£")) ∧
      (Env.filed {} (delivered noFiles 1 text (str "f"))).length = 7 := by
  decide +kernel

end Gledger
