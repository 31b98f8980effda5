/-
C93, continued: balances and budgets with filters, in any number of commodities.
-/
import Verif.Props.Orders
import Verif.Props.Warnings
import Verif.Props.Stops

namespace Gledger

set_option maxRecDepth 100000

/-- Two different commodities are written in these postings. -/
def Mixed (ps : List Posting) : Prop := ∃ a ∈ writtenCommodities ps, ∃ b ∈ writtenCommodities ps, a ≠ b

instance (ps : List Posting) : Decidable (Mixed ps) := by unfold Mixed; infer_instance

theorem firstCommodity_differs {ps qs : List Posting} (h : ps.Perm qs) (hne : firstCommodity ps ≠ firstCommodity qs) : Mixed ps := by
  have hp : (writtenCommodities ps).Perm (writtenCommodities qs) := (h.filterMap _).filter _
  unfold firstCommodity at hne
  unfold Mixed
  cases h1 : writtenCommodities ps with
  | nil => rw [h1] at hp hne; rw [List.nil_perm.1 hp] at hne; exact absurd rfl hne
  | cons a as =>
    cases h2 : writtenCommodities qs with
    | nil => rw [h1, h2] at hp; exact absurd (List.perm_nil.1 hp) (by simp)
    | cons b bs =>
      rw [h1, h2] at hne hp
      exact ⟨a, by simp, b, hp.mem_iff.2 (by simp), by simpa using hne⟩

/-- The report of the balance of these postings: a line for each of these accounts, with these labels and commodities. -/
def balanceWith (L : List (List Str)) (label commodity : List Str → Str) (ps : List Posting) : Str :=
  joinLines (L.map fun cs => amountColumn ⟨commodity cs, valueOf (below cs ps)⟩ ++ label cs) ++ footer ⟨commodity [], valueOf ps⟩

/-- Two reports of the same postings differ in commodities only, and there only for accounts that mix commodities. -/
def SameBalances (ps : List Posting) (text text' : Str) : Prop :=
  ∃ (L : List (List Str)) (label commodity commodity' : List Str → Str),
    text = balanceWith L label commodity ps ∧ text' = balanceWith L label commodity' ps ∧
    ∀ cs, commodity cs ≠ commodity' cs → Mixed (below cs ps)

theorem tally_with {ps qs : List Posting} (h : ps.Perm qs) : tally ps = ⟨firstCommodity ps, valueOf qs⟩ := by
  unfold tally
  rw [← valueOf_perm h]
  rfl

theorem same_balances {sel ps qs : List Posting} (hp : ps.Perm sel) (hq : qs.Perm sel) (L : List (List Str)) (label : List Str → Str) :
    SameBalances sel (joinLines (L.map fun cs => amountColumn (tally (below cs ps)) ++ label cs) ++ footer (tally ps))
      (joinLines (L.map fun cs => amountColumn (tally (below cs qs)) ++ label cs) ++ footer (tally qs)) := by
  refine ⟨L, label, fun cs => firstCommodity (below cs ps), fun cs => firstCommodity (below cs qs), ?_, ?_, ?_⟩
  · unfold balanceWith
    simp only [below_nil]
    rw [tally_with hp]
    congr 3
    funext cs
    rw [tally_with (show (below cs ps).Perm (below cs sel) from hp.filter _)]
  · unfold balanceWith
    simp only [below_nil]
    rw [tally_with hq]
    congr 3
    funext cs
    rw [tally_with (show (below cs qs).Perm (below cs sel) from hq.filter _)]
  · intro cs hne
    have h1 : (below cs ps).Perm (below cs sel) := hp.filter _
    have h2 : (below cs qs).Perm (below cs sel) := hq.filter _
    obtain ⟨a, ha, b, hb, hab⟩ := firstCommodity_differs (h1.trans h2.symm) hne
    have h3 : (writtenCommodities (below cs ps)).Perm (writtenCommodities (below cs sel)) := (h1.filterMap _).filter _
    exact ⟨a, h3.mem_iff.1 ha, b, h3.mem_iff.1 hb, hab⟩

theorem balance_texts [Unicode] {e e' : Env} (ho : ∀ l, (e.mapOrder l).Perm l) (ho' : ∀ l, (e'.mapOrder l).Perm l) {fs : FileSystem} {n : Nat}
    {bytes : List UInt8} {path text text' : Str} (showZero flatten collapse : Bool) (hsel : e.selected (delivered fs n bytes path) = e'.selected (delivered fs n bytes path))
    (h : balanceCmd e showZero flatten collapse fs n bytes path = .ok text) (h' : balanceCmd e' showZero flatten collapse fs n bytes path = .ok text') :
    SameBalances (e.selected (delivered fs n bytes path)) text text' := by
  have uniq : ∀ {L L' : List (List Str)} {P : List Str → Prop}, L.Pairwise PathLt → L'.Pairwise PathLt → (∀ cs, cs ∈ L ↔ P cs) → (∀ cs, cs ∈ L' ↔ P cs) → L = L' := by
    intro L L' P h1 h2 h3 h4
    exact pairwise_unique PathLt.irrefl (fun _ _ _ => PathLt.trans) h1 h2 fun x => (h3 x).trans (h4 x).symm
  cases flatten with
  | true =>
    obtain ⟨ps, L, a1, a2, a3, rfl⟩ := C63_flat e ho showZero collapse fs n bytes path text h
    obtain ⟨qs, L', b1, b2, b3, rfl⟩ := C63_flat e' ho' showZero collapse fs n bytes path text' h'
    rw [← hsel] at b1 b3
    have := uniq a2 b2 a3 b3
    subst this
    exact same_balances a1 b1 L fun cs => joinPath (spelledNames cs)
  | false =>
    cases collapse with
    | false =>
      obtain ⟨ps, L, a1, a2, a3, rfl⟩ := C63_tree e ho showZero fs n bytes path text h
      obtain ⟨qs, L', b1, b2, b3, rfl⟩ := C63_tree e' ho' showZero fs n bytes path text' h'
      rw [← hsel] at b1 b3
      have := uniq a2 b2 a3 b3
      subst this
      simpa only [List.append_assoc] using same_balances a1 b1 L fun cs => List.replicate (2 * (cs.length - 1)) ' ' ++ cs.getLastD []
    | true =>
      obtain ⟨ps, L, one, a1, a2, a0, a3, rfl⟩ := C63_collapsed e ho showZero fs n bytes path text h
      obtain ⟨qs, L', one', b1, b2, b0, b3, rfl⟩ := C63_collapsed e' ho' showZero fs n bytes path text' h'
      rw [← hsel] at b1 b0 b3
      have h1 : ∀ cs, Shown showZero (e.selected (delivered fs n bytes path)) cs → one cs = one' cs := by
        intro cs hs
        have := (a0 cs hs).trans (b0 cs hs).symm
        cases h1 : one cs <;> cases h2 : one' cs <;> simp_all
      have := uniq a2 b2 a3 (fun cs => (b3 cs).trans ⟨fun ⟨x, y, z⟩ => ⟨x, y, by rw [h1 cs x]; exact z⟩, fun ⟨x, y, z⟩ => ⟨x, y, by rw [← h1 cs x]; exact z⟩⟩)
      subst this
      have hl : (L.map fun cs => amountColumn (tally (below cs qs)) ++ List.replicate (2 * levelBy one' cs) ' ' ++ joinPath (chainBy one' cs)) =
          L.map fun cs => amountColumn (tally (below cs qs)) ++ List.replicate (2 * levelBy one cs) ' ' ++ joinPath (chainBy one cs) := by
        apply List.map_congr_left
        intro cs hcs
        have hs := ((a3 cs).1 hcs).1
        have hst : stopsBy one cs = stopsBy one' cs := stopsBy_congr fun i _ => h1 _ (hs.up (List.take_prefix i cs))
        simp only [levelBy, chainBy, hst]
      rw [hl]
      simpa only [List.append_assoc] using same_balances a1 b1 L fun cs => List.replicate (2 * levelBy one cs) ' ' ++ joinPath (chainBy one cs)

/-- Commands with handlers that fail alike end alike. -/
theorem balance_ends_alike [Unicode] (e : Env) (po : List Posting → List Posting) (p1 : ∀ l, (e.mapOrder l).Perm l) (p2 : ∀ l, (po l).Perm l)
    (fs : FileSystem) (n : Nat) (bytes : List UInt8) (path : Str) (showZero flatten collapse : Bool) :
    (∃ f, balanceCmd e showZero flatten collapse fs n bytes path = .error f ∧
      balanceCmd { e with mapOrder := po } showZero flatten collapse fs n bytes path = .error f) ∨
    ∃ text text', balanceCmd e showZero flatten collapse fs n bytes path = .ok text ∧
      balanceCmd { e with mapOrder := po } showZero flatten collapse fs n bytes path = .ok text' := by
  have hsel : e.selected (delivered fs n bytes path) = Env.selected { e with mapOrder := po } (delivered fs n bytes path) := by
    unfold Env.selected
    congr 1
  have hready : e.Ready (delivered fs n bytes path) ↔ Env.Ready { e with mapOrder := po } (delivered fs n bytes path) := by
    unfold Env.Ready
    rw [← hsel]
    rfl
  cases hd : e.dateError with
  | some x =>
    have hh : Env.balanceHandlers { e with mapOrder := po } = e.balanceHandlers := by
      unfold Env.balanceHandlers
      congr 2
      funext u t f
      have k2 := (checkAgainstFilters_dateError e t).1 x hd
      have k3 := (checkAgainstFilters_dateError { e with mapOrder := po } t).1 x hd
      simp only [Env.balanceHandler, k2, k3]
    simp only [balanceCmd, hh]
    cases runParse fs n bytes path e.balanceHandlers newJournal with
    | error f => exact Or.inl ⟨f, rfl, rfl⟩
    | ok j => exact Or.inr ⟨_, _, rfl, rfl⟩
  | none =>
    have panics : ∀ e : Env, e.dateError = none → ∀ g, (e.balanceHandlers.replay (delivered fs n bytes path) newJournal).2 = some g →
        g = .panic .unusablePosting := by
      intro e hd g hg
      rcases (stopped_cases e (delivered fs n bytes path) (c := .balance) (by decide)).1 g hg with ⟨h, _⟩ | ⟨x, hx, _⟩
      · exact h
      · rw [hd] at hx; cases hx
    have r1 := balance_ready e p1 (delivered fs n bytes path) newJournal [] (newAccount_books _)
    have r2 := balance_ready { e with mapOrder := po } p2 (delivered fs n bytes path) newJournal [] (newAccount_books _)
    rw [← hready, ← r1] at r2
    have h2 : (e.balanceHandlers.replay (delivered fs n bytes path) newJournal).2 =
        ((Env.balanceHandlers { e with mapOrder := po }).replay (delivered fs n bytes path) newJournal).2 := by
      cases h1 : (e.balanceHandlers.replay (delivered fs n bytes path) newJournal).2 with
      | none => exact (r2.2 h1).symm
      | some g =>
        cases h3 : ((Env.balanceHandlers { e with mapOrder := po }).replay (delivered fs n bytes path) newJournal).2 with
        | none => rw [r2.1 h3] at h1; cases h1
        | some g' => rw [panics e hd g h1, panics { e with mapOrder := po } hd g' h3]
    rcases runParse_pair fs n bytes path e.balanceHandlers (Env.balanceHandlers { e with mapOrder := po }) newJournal newJournal h2 (panics e hd) with
      ⟨f, h3, h4⟩ | ⟨_, h3, h4⟩
    · exact Or.inl ⟨f, by simp only [balanceCmd, h3]; rfl, by simp only [balanceCmd, h4]; rfl⟩
    · exact Or.inr ⟨_, _, by simp only [balanceCmd, h3]; rfl, by simp only [balanceCmd, h4]; rfl⟩

/-- With filters and any number of commodities, balance fails alike on both occasions, or gives two reports with the same lines and quantities, in which only
the commodities of accounts that mix them can differ. Missing: the warnings printed before the report. -/
theorem C93_balance_partial [Unicode] {m m' : Machine} (h : m.Reordered m') (o : Options) (args : List Str) (filters : List Filter)
    (bytes : List UInt8) (path : Str) :
    ∃ w w' r r', m.runOn (m.env o filters) o args bytes path .balance = m.finish w r ∧
      m'.runOn (m'.env o filters) o args bytes path .balance = m.finish w' r' ∧
      w = printedBy m.fs m.maxOpen bytes path (m.env o filters).balancePrinting newJournal ∧
      w' = printedBy m.fs m.maxOpen bytes path (m'.env o filters).balancePrinting newJournal ∧
      ((∃ f, r = .error f ∧ r' = .error f) ∨ ∃ text text', r = .ok text ∧ r' = .ok text' ∧
        SameBalances ((m.env o filters).selected (delivered m.fs m.maxOpen bytes path)) text text') := by
  rw [h.same]
  obtain ⟨_, p1, p2, s1, s2⟩ := h
  generalize m'.postingOrder = po at p2
  generalize m'.stringOrder = so at s2
  have he : Machine.env { m with postingOrder := po, stringOrder := so } o filters = { m.env o filters with mapOrder := po } := rfl
  rw [he]
  have p1' : ∀ l, ((m.env o filters).mapOrder l).Perm l := p1
  refine ⟨_, _, balanceCmd (m.env o filters) o.showZero o.flatten o.collapse m.fs m.maxOpen bytes path,
    balanceCmd { m.env o filters with mapOrder := po } o.showZero o.flatten o.collapse m.fs m.maxOpen bytes path, rfl, rfl, rfl, rfl, ?_⟩
  rcases balance_ends_alike (m.env o filters) po p1' p2 m.fs m.maxOpen bytes path o.showZero o.flatten o.collapse with h | ⟨t, t', h1, h2⟩
  · exact Or.inl h
  · exact Or.inr ⟨t, t', h1, h2, balance_texts (e' := { m.env o filters with mapOrder := po }) p1' p2 _ _ _ rfl h1 h2⟩

/-! ### Budgets -/

theorem filed_real [Unicode] (e : Env) (fs : FileSystem) (maxOpen : Nat) (bytes : List UInt8) (path : Str) :
    ∀ x ∈ e.filed (delivered fs maxOpen bytes path), x.date.Real := by
  intro x hx
  unfold Env.filed at hx
  obtain ⟨c, hc, hx⟩ := List.mem_flatMap.1 hx
  rw [delivered_calls] at hc
  cases c with
  | normal t f =>
    have hs := (C65_delivered_sound fs recorder maxOpen bytes path [] t f hc).1.1
    rw [Env.filedOf] at hx
    obtain ⟨p, _, hp⟩ := List.mem_filterMap.1 hx
    split at hp
    · cases hp; exact hs
    · split at hp
      · cases hp; exact hs
      · cases hp
  | periodic pt f =>
    have hs := (C65_delivered_period fs recorder maxOpen bytes path [] pt f hc).1.1
    rw [Env.filedOf] at hx
    split at hx
    · obtain ⟨p, _, rfl⟩ := List.mem_map.1 hx
      exact hs
    · cases hx

/-- The line of a category, with a commodity. -/
def categoryWith (k commodity : Str) (es : List Filed) : Str :=
  leftAligned 30 k ++ (([displayQuantity (- spent [k] es), displayQuantity (budgeted [k] es), commodity ++ displayQuantity (budgeted [k] es - spent [k] es)]).flatMap
    fun f => str " | " ++ rightAligned 20 f) ++ str " |\n"

/-- The budget made of these postings, with these commodities for the income of a month and for its categories. -/
def budgetWith (months : List Date) (names : Date → List Str) (income : Date → Str) (commodity : Date → Str → Str) (es : List Filed) : Str :=
  months.flatMap fun m => summary m ⟨income m, earned (inMonth m.year m.month es)⟩ ++
    ((names m).flatMap fun k => categoryWith k (commodity m k) (inMonth m.year m.month es)) ++ str "\n"

/-- The income of the month is in several commodities. -/
def MixedIncome (es : List Filed) : Prop := Mixed ((es.filter fun e => e.type = .income).map Filed.posting)

/-- The postings to the category itself are in several commodities (blank ones count). -/
def MixedCategory (k : Str) (es : List Filed) : Prop :=
  ∃ x ∈ es, ∃ y ∈ es, x.category = some [k] ∧ y.category = some [k] ∧ x.posting.amount.map Amount.commodity ≠ y.posting.amount.map Amount.commodity

/-- Two budgets of the same postings differ in commodities only, and there only in months whose income, or categories whose postings, mix commodities. -/
def SameBudgets (es : List Filed) (text text' : Str) : Prop :=
  ∃ (months : List Date) (names : Date → List Str) (income income' : Date → Str) (commodity commodity' : Date → Str → Str),
    text = budgetWith months names income commodity es ∧ text' = budgetWith months names income' commodity' es ∧
    (∀ m, income m ≠ income' m → MixedIncome (inMonth m.year m.month es)) ∧
    ∀ m k, commodity m k ≠ commodity' m k → MixedCategory k (inMonth m.year m.month es)

theorem inMonth_perm {es fs : List Filed} (h : es.Perm fs) (y : Int) (m : Nat) : (inMonth y m es).Perm (inMonth y m fs) := h.filter _

theorem earned_perm {es fs : List Filed} (h : es.Perm fs) : earned es = earned fs := by
  unfold earned; rw [worth_perm (h.filter _)]

theorem spent_perm {es fs : List Filed} (h : es.Perm fs) (cs : List Str) : spent cs es = spent cs fs := worth_perm (h.filter _)

theorem budgeted_perm {es fs : List Filed} (h : es.Perm fs) (cs : List Str) : budgeted cs es = budgeted cs fs := worth_perm (h.filter _)

theorem categoryLine_with {es fs : List Filed} (h : es.Perm fs) (k : Str) : categoryLine k es = categoryWith k (categoryCommodity [k] es) fs := by
  unfold categoryLine figures categoryWith
  rw [spent_perm h, budgeted_perm h]

theorem categoryCommodity_differs {es fs : List Filed} (h : es.Perm fs) {k : Str} (hne : categoryCommodity [k] es ≠ categoryCommodity [k] fs) :
    MixedCategory k fs := by
  have hp : (es.filter fun e => e.category = some [k]).Perm (fs.filter fun e => e.category = some [k]) := h.filter _
  unfold categoryCommodity at hne
  cases h1 : (es.filter fun e => e.category = some [k]).getLast? with
  | none =>
    rw [List.getLast?_eq_none_iff] at h1
    rw [h1] at hp hne
    rw [List.nil_perm.1 hp] at hne
    exact absurd rfl hne
  | some x =>
    cases h2 : (fs.filter fun e => e.category = some [k]).getLast? with
    | none =>
      rw [List.getLast?_eq_none_iff] at h2
      rw [h2] at hp
      rw [List.perm_nil.1 hp] at h1
      cases h1
    | some y =>
      rw [h1, h2] at hne
      have hx := hp.mem_iff.1 (List.mem_of_getLast? h1)
      have hy := List.mem_of_getLast? h2
      simp only [List.mem_filter, decide_eq_true_eq] at hx hy
      refine ⟨x, hx.1, y, hy.1, hx.2, hy.2, fun hc => hne ?_⟩
      simp only [Option.bind_some]
      rw [hc]

attribute [local irreducible] summary

theorem budget_texts {es fs sel : List Filed} (h1 : es.Perm sel) (h2 : fs.Perm sel) (hr : ∀ x ∈ sel, x.date.Real) {t t' : Str} (b1 : BudgetReport es t)
    (b2 : BudgetReport fs t') : SameBudgets sel t t' := by
  obtain ⟨ms, ns, n1, o1, c1, k1, rfl⟩ := b1
  obtain ⟨ms', ns', n2, o2, c2, k2, rfl⟩ := b2
  have mem : ∀ m : Date, ∀ {es : List Filed}, es.Perm sel → inMonth m.year m.month es ≠ [] → ∃ x ∈ sel, x.date.year = m.year ∧ x.date.month = m.month := by
    intro m es h hne
    obtain ⟨x, hx⟩ := List.exists_mem_of_ne_nil _ hne
    simp only [inMonth, List.mem_filter, decide_eq_true_eq] at hx
    exact ⟨x, h.mem_iff.1 hx.1, hx.2.1, hx.2.2⟩
  have real : ∀ m ∈ ms, m.Real := by
    intro m hm
    obtain ⟨q1, q2⟩ := (c1 m).1 hm
    obtain ⟨x, hx, y1, y2⟩ := mem m h1 q2
    have hR := hr x hx
    unfold Date.Real at hR ⊢
    rw [← y1, ← y2, q1]
    omega
  have hmm : ∀ m, m ∈ ms ↔ m ∈ ms' := by
    intro m
    rw [c1, c2]
    have := ((inMonth_perm h1 m.year m.month).trans (inMonth_perm h2 m.year m.month).symm)
    refine and_congr Iff.rfl (not_congr ⟨fun h0 => ?_, fun h0 => ?_⟩)
    · rw [h0] at this; exact List.nil_perm.1 this
    · rw [h0] at this; exact List.perm_nil.1 this
  have hms : ms = ms' := by
    have strict : ∀ {l : List Date}, l.Nodup → l.Pairwise (fun a b => a.dayNumber ≤ b.dayNumber) → (∀ m ∈ l, m.Real) →
        l.Pairwise fun a b => a.dayNumber < b.dayNumber := by
      intro l n o r
      refine ((n.and o).imp_of_mem ?_)
      rintro a b ha hb ⟨h1, h2⟩
      rcases Int.lt_or_eq_of_le h2 with h3 | h3
      · exact h3
      · exact absurd (dayNumber_inj (r a ha) (r b hb) h3) h1
    exact pairwise_unique (r := fun a b : Date => a.dayNumber < b.dayNumber) (fun a => Int.lt_irrefl _) (fun _ _ _ => Int.lt_trans) (strict n1 o1 real) (strict n2 o2 fun m hm => real m ((hmm m).2 hm)) hmm
  subst hms
  have hns : ∀ m ∈ ms, ns m = ns' m := by
    intro m hm
    obtain ⟨q1, q2⟩ := k1 m hm
    obtain ⟨q3, q4⟩ := k2 m hm
    refine pairwise_unique StrLt.irrefl (fun _ _ _ => StrLt.trans) q1 q3 fun k => ?_
    rw [q2, q4]
    have := ((inMonth_perm h1 m.year m.month).trans (inMonth_perm h2 m.year m.month).symm)
    simp only [this.mem_iff]
  refine ⟨ms, ns, fun m => firstCommodity (((inMonth m.year m.month es).filter fun e => e.type = .income).map Filed.posting),
    fun m => firstCommodity (((inMonth m.year m.month fs).filter fun e => e.type = .income).map Filed.posting),
    fun m k => categoryCommodity [k] (inMonth m.year m.month es), fun m k => categoryCommodity [k] (inMonth m.year m.month fs), ?_, ?_, ?_, ?_⟩
  · unfold budgetWith
    simp only [List.flatMap_def]
    congr 1
    apply List.map_congr_left
    intro m _
    simp only [incomeOf, earned_perm (inMonth_perm h1 m.year m.month), categoryLine_with (inMonth_perm h1 m.year m.month)]
  · unfold budgetWith
    simp only [List.flatMap_def]
    congr 1
    apply List.map_congr_left
    intro m hm
    simp only [hns m hm, incomeOf, earned_perm (inMonth_perm h2 m.year m.month), categoryLine_with (inMonth_perm h2 m.year m.month)]
  · intro m hne
    have p1 := ((inMonth_perm h1 m.year m.month).filter fun e => e.type = .income).map Filed.posting
    have p2 := ((inMonth_perm h2 m.year m.month).filter fun e => e.type = .income).map Filed.posting
    obtain ⟨a, ha, b, hb, hab⟩ := firstCommodity_differs (p1.trans p2.symm) hne
    have h3 : (writtenCommodities (((inMonth m.year m.month es).filter fun e => e.type = .income).map Filed.posting)).Perm
        (writtenCommodities (((inMonth m.year m.month sel).filter fun e => e.type = .income).map Filed.posting)) := (p1.filterMap _).filter _
    exact ⟨a, h3.mem_iff.1 ha, b, h3.mem_iff.1 hb, hab⟩
  · intro m k hne
    obtain ⟨x, hx, y, hy, r⟩ := categoryCommodity_differs ((inMonth_perm h1 m.year m.month).trans (inMonth_perm h2 m.year m.month).symm) hne
    exact ⟨x, (inMonth_perm h2 m.year m.month).mem_iff.1 hx, y, (inMonth_perm h2 m.year m.month).mem_iff.1 hy, r⟩

theorem budget_ends_alike [Unicode] (e : Env) (po : List Posting → List Posting) (p1 : ∀ l, (e.mapOrder l).Perm l) (p2 : ∀ l, (po l).Perm l)
    (sort : List Date → List Date) (fs : FileSystem) (n : Nat) (bytes : List UInt8) (path : Str) :
    (∃ f, budgetCmd e sort fs n bytes path = .error f ∧ budgetCmd { e with mapOrder := po } sort fs n bytes path = .error f) ∨
    ∃ text text', budgetCmd e sort fs n bytes path = .ok text ∧ budgetCmd { e with mapOrder := po } sort fs n bytes path = .ok text' := by
  cases hd : e.dateError with
  | some x =>
    have hh : Env.budgetHandlers { e with mapOrder := po } = e.budgetHandlers := by
      unfold Env.budgetHandlers
      congr 2
      funext u t f
      have k2 := (checkAgainstFilters_dateError e t).1 x hd
      have k3 := (checkAgainstFilters_dateError { e with mapOrder := po } t).1 x hd
      simp only [Env.budgetHandler, k2, k3]
    simp only [budgetCmd, hh]
    cases runParse fs n bytes path e.budgetHandlers [] with
    | error f => exact Or.inl ⟨f, rfl, rfl⟩
    | ok j => exact Or.inr ⟨_, _, rfl, rfl⟩
  | none =>
    have panics : ∀ e : Env, e.dateError = none → ∀ g, (e.budgetHandlers.replay (delivered fs n bytes path) []).2 = some g →
        g = .panic .unusablePosting := by
      intro e hd g hg
      rcases (stopped_cases e (delivered fs n bytes path) (c := .budget) (by decide)).1 g hg with ⟨h, _⟩ | ⟨x, hx, _⟩
      · exact h
      · rw [hd] at hx; cases hx
    have hfiled : Env.filed { e with mapOrder := po } (delivered fs n bytes path) = e.filed (delivered fs n bytes path) := by
      unfold Env.filed
      congr 1
    have r1 := budget_ready e p1 hd (delivered fs n bytes path) [] [] empty_holds (filed_days e fs n bytes path)
    have r2 := budget_ready { e with mapOrder := po } p2 hd (delivered fs n bytes path) [] [] empty_holds (filed_days _ fs n bytes path)
    have hl : Command.budget.Lacks { e with mapOrder := po } (delivered fs n bytes path) ↔ Command.budget.Lacks e (delivered fs n bytes path) := by
      unfold Command.Lacks
      rw [hfiled]
    rw [hl, ← r1] at r2
    have h2 : (e.budgetHandlers.replay (delivered fs n bytes path) []).2 =
        ((Env.budgetHandlers { e with mapOrder := po }).replay (delivered fs n bytes path) []).2 := by
      cases h1 : (e.budgetHandlers.replay (delivered fs n bytes path) []).2 with
      | none => exact (r2.2 h1).symm
      | some g =>
        cases h3 : ((Env.budgetHandlers { e with mapOrder := po }).replay (delivered fs n bytes path) []).2 with
        | none => rw [r2.1 h3] at h1; cases h1
        | some g' => rw [panics e hd g h1, panics { e with mapOrder := po } hd g' h3]
    rcases runParse_pair fs n bytes path e.budgetHandlers (Env.budgetHandlers { e with mapOrder := po }) [] [] h2 (panics e hd) with
      ⟨f, h3, h4⟩ | ⟨_, h3, h4⟩
    · exact Or.inl ⟨f, by simp only [budgetCmd, h3]; rfl, by simp only [budgetCmd, h4]; rfl⟩
    · exact Or.inr ⟨_, _, by simp only [budgetCmd, h3]; rfl, by simp only [budgetCmd, h4]; rfl⟩

/-- With filters and any number of commodities, budget fails alike on both occasions, or gives two reports with the same months, categories and quantities, in
which only commodities that are mixed can differ. Missing: the warnings printed before the report. -/
theorem C93_budget_partial [Unicode] {m m' : Machine} (h : m.Reordered m') (hs : SortsMonths m.sortDates) (o : Options) (args : List Str) (filters : List Filter)
    (bytes : List UInt8) (path : Str) :
    ∃ w w' r r', m.runOn (m.env o filters) o args bytes path .budget = m.finish w r ∧
      m'.runOn (m'.env o filters) o args bytes path .budget = m.finish w' r' ∧
      w = printedBy m.fs m.maxOpen bytes path (m.env o filters).budgetPrinting [] ∧
      w' = printedBy m.fs m.maxOpen bytes path (m'.env o filters).budgetPrinting [] ∧
      ((∃ f, r = .error f ∧ r' = .error f) ∨ ∃ text text', r = .ok text ∧ r' = .ok text' ∧
        SameBudgets ((m.env o filters).filed (delivered m.fs m.maxOpen bytes path)) text text') := by
  rw [h.same]
  obtain ⟨_, p1, p2, s1, s2⟩ := h
  generalize m'.postingOrder = po at p2
  generalize m'.stringOrder = so at s2
  have he : Machine.env { m with postingOrder := po, stringOrder := so } o filters = { m.env o filters with mapOrder := po } := rfl
  rw [he]
  have p1' : ∀ l, ((m.env o filters).mapOrder l).Perm l := p1
  refine ⟨_, _, budgetCmd (m.env o filters) m.sortDates m.fs m.maxOpen bytes path,
    budgetCmd { m.env o filters with mapOrder := po } m.sortDates m.fs m.maxOpen bytes path, rfl, rfl, rfl, rfl, ?_⟩
  rcases budget_ends_alike (m.env o filters) po p1' p2 m.sortDates m.fs m.maxOpen bytes path with h | ⟨t, t', h1, h2⟩
  · exact Or.inl h
  · obtain ⟨es, q1, q2⟩ := C67_budget_report _ p1' _ hs _ _ _ _ _ h1
    obtain ⟨es', q3, q4⟩ := C67_budget_report { m.env o filters with mapOrder := po } p2 _ hs _ _ _ _ _ h2
    exact Or.inr ⟨t, t', h1, h2, budget_texts q1 q3 (filed_real _ _ _ _ _) q2 q4⟩

/-- A journal that mixes commodities below `A`, with a filter, on two occasions: the line of `A` has the same quantity, in another commodity. -/
example :
    letI := asciiUnicode
    let m := matchAll "2020-01-01 x\n  A:B  $1\n  A:C  EUR1\n  D  -2\n" id id
    let m' := matchAll "2020-01-01 x\n  A:B  $1\n  A:C  EUR1\n  D  -2\n" List.reverse id
    str "               $2.00  A\n               $1.00    B\n             EUR1.00    C\n" <:+: (m.run { file := str "f" } .balance [str "A"]).stdout ∧
    str "             EUR2.00  A\n               $1.00    B\n             EUR1.00    C\n" <:+: (m'.run { file := str "f" } .balance [str "A"]).stdout := by
  decide +kernel

/-- The same for a category of a budget. -/
example :
    letI := asciiUnicode
    let m := matchAll "2020-01-01 x\n  Expenses:F  $1\n  Expenses:F  EUR1\n  D  -2\n" id id
    let m' := matchAll "2020-01-01 x\n  Expenses:F  $1\n  Expenses:F  EUR1\n  D  -2\n" List.reverse id
    str "F                              |                -2.00 |                 0.00 |             EUR-2.00 |\n" <:+: (m.run { file := str "f" } .budget [str "A"]).stdout ∧
    str "F                              |                -2.00 |                 0.00 |               $-2.00 |\n" <:+: (m'.run { file := str "f" } .budget [str "A"]).stdout := by
  decide +kernel

end Gledger
