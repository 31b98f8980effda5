/-
C108: what depends on the order of the paragraphs of a journal.
-/
import Verif.Spec.Rearranged
import Verif.Props.MapOrders
import Verif.Props.Whole

namespace Gledger

set_option maxRecDepth 100000

/-- Two accepted journals that hold the same transactions, in any order. -/
structure SameEntries [Unicode] (fs : FileSystem) (n : Nat) (path : Str) (bytes bytes' : List UInt8) : Prop where
  accepted : rejection fs n bytes path = none
  accepted' : rejection fs n bytes' path = none
  entries : (delivered fs n bytes path).Perm (delivered fs n bytes' path)

theorem delivered_passages [Unicode] (fs : FileSystem) (n : Nat) (path : Str) (ps : List (List UInt8)) (h : ∀ p ∈ ps, Passage fs n path p) :
    delivered fs n (passages ps) path = ps.flatMap (fun p => delivered fs n p path) ∧ rejection fs n (passages ps) path = none := by
  induction ps with
  | nil =>
    cases n <;> exact ⟨rfl, rfl⟩
  | cons p ps ih =>
    obtain ⟨i1, i2⟩ := ih fun q hq => h q (List.mem_cons_of_mem _ hq)
    obtain ⟨w, r⟩ := h p (by simp)
    obtain ⟨k1, k2⟩ := delivered_parts fs n path p [10] (passages ps) w (Or.inl rfl) r
    have hb : passages (p :: ps) = p ++ ([10] ++ passages ps) := by simp [passages]
    rw [hb, k1, k2, i1]
    exact ⟨by simp, i2⟩

/-- Paragraphs in another order are the same entries. -/
theorem C108_paragraphs [Unicode] (fs : FileSystem) (n : Nat) (path : Str) {ps qs : List (List UInt8)} (hp : ps.Perm qs)
    (h : ∀ p ∈ ps, Passage fs n path p) : SameEntries fs n path (passages ps) (passages qs) := by
  obtain ⟨a1, a2⟩ := delivered_passages fs n path ps h
  obtain ⟨b1, b2⟩ := delivered_passages fs n path qs fun p hq => h p (hp.mem_iff.2 hq)
  refine ⟨a2, b2, ?_⟩
  rw [a1, b1]
  exact hp.flatMap_right _

theorem normals_perm {D D' : List Call} (h : D.Perm D') : (normals D).Perm (normals D') := h.filterMap _

theorem ranged_perm (e : Env) {D D' : List Call} (h : D.Perm D') : (e.ranged D).Perm (e.ranged D') := ((normals_perm h).map _).filter _

theorem picked_perm (e : Env) {D D' : List Call} (h : D.Perm D') : (e.picked D).Perm (e.picked D') := (normals_perm h).filter _

theorem selected_perm (e : Env) {D D' : List Call} (h : D.Perm D') : (e.selected D).Perm (e.selected D') := h.flatMap_right _

theorem filed_perm (e : Env) {D D' : List Call} (h : D.Perm D') : (e.filed D).Perm (e.filed D') := h.flatMap_right _

theorem lacks_perm (e : Env) {D D' : List Call} (h : D.Perm D') (c : Command) : c.Lacks e D ↔ c.Lacks e D' := by
  cases c <;> simp only [Command.Lacks, (selected_perm e h).mem_iff, (filed_perm e h).mem_iff]

section
variable [Unicode] {m : Machine} {e : Env} {o : Options} {args : List Str} {path : Str} {bytes bytes' : List UInt8}

/-- The run ends in the same way. -/
theorem C108_ending (ho : ∀ l, (e.mapOrder l).Perm l) (hd : e.dateError = none) (h : SameEntries m.fs m.maxOpen path bytes bytes') (c : Command) :
    (m.runOn e o args bytes path c).ending = (m.runOn e o args bytes' path c).ending := by
  rw [C96_crash m e ho hd o args bytes path c h.accepted, C96_crash m e ho hd o args bytes' path c h.accepted']
  by_cases hl : c.Lacks e (delivered m.fs m.maxOpen bytes path)
  · rw [if_pos hl, if_pos ((lacks_perm e h.entries c).1 hl)]
  · rw [if_neg hl, if_neg fun hn => hl ((lacks_perm e h.entries c).2 hn)]

/-- Either the command stops at a posting it cannot use on both occasions, or it comes to its end on both. -/
theorem both_or_neither (ho : ∀ l, (e.mapOrder l).Perm l) (hd : e.dateError = none) (h : SameEntries m.fs m.maxOpen path bytes bytes') (c : Command) :
    (c.stopped e (delivered m.fs m.maxOpen bytes path) = some (.panic .unusablePosting) ∧
      c.stopped e (delivered m.fs m.maxOpen bytes' path) = some (.panic .unusablePosting)) ∨
    (c.stopped e (delivered m.fs m.maxOpen bytes path) = none ∧ c.stopped e (delivered m.fs m.maxOpen bytes' path) = none) := by
  rw [C96_stopped e ho hd, C96_stopped e ho hd]
  by_cases hl : c.Lacks e (delivered m.fs m.maxOpen bytes path)
  · rw [if_pos hl, if_pos ((lacks_perm e h.entries c).1 hl)]
    exact Or.inl ⟨rfl, rfl⟩
  · rw [if_neg hl, if_neg fun hn => hl ((lacks_perm e h.entries c).2 hn)]
    exact Or.inr ⟨rfl, rfl⟩

theorem runParse_alike {σ : Type} {fs : FileSystem} {n : Nat} {H : Handlers σ} {u : σ} (h : SameEntries fs n path bytes bytes')
    (hs : ((H.replay (delivered fs n bytes path) u).2 = some (.panic .unusablePosting) ∧
      (H.replay (delivered fs n bytes' path) u).2 = some (.panic .unusablePosting)) ∨
    ((H.replay (delivered fs n bytes path) u).2 = none ∧ (H.replay (delivered fs n bytes' path) u).2 = none)) :
    (runParse fs n bytes path H u = .error (.panic .unusablePosting) ∧ runParse fs n bytes' path H u = .error (.panic .unusablePosting)) ∨
    ∃ s s', runParse fs n bytes path H u = .ok s ∧ runParse fs n bytes' path H u = .ok s' := by
  obtain ⟨-, a2, a3⟩ := runParse_cases fs n bytes path H u
  obtain ⟨-, b2, b3⟩ := runParse_cases fs n bytes' path H u
  rcases hs with ⟨h1, h2⟩ | ⟨h1, h2⟩
  · left
    obtain ⟨f, f1, f2⟩ := a3 _ h1
    obtain ⟨g, g1, g2⟩ := b3 _ h2
    rw [core_panic f1] at f2
    rw [core_panic g1] at g2
    exact ⟨f2, g2⟩
  · exact Or.inr ⟨_, _, a2 h1 h.accepted, b2 h2 h.accepted'⟩

/-- The lists of accounts and of payees are the same. -/
theorem C108_lists (hm : m.Fair) (ho : ∀ l, (e.mapOrder l).Perm l) (hd : e.dateError = none) (h : SameEntries m.fs m.maxOpen path bytes bytes') {c : Command}
    (hc : c = .accounts ∨ c = .payees ∨ c = .version) :
    m.runOn e o args bytes path c = m.runOn e o args bytes' path c := by
  have mem : ∀ t, t ∈ e.ranged (delivered m.fs m.maxOpen bytes path) ↔ t ∈ e.ranged (delivered m.fs m.maxOpen bytes' path) :=
    fun _ => (ranged_perm e h.entries).mem_iff
  rcases hc with rfl | rfl | rfl
  · rcases runParse_alike h (both_or_neither ho hd h .accounts) with ⟨h1, h2⟩ | ⟨s, s', h1, h2⟩
    · simp only [Machine.runOn, accountsCmd, h1, h2]
    · obtain ⟨t, ht⟩ : ∃ t, accountsCmd e m.stringOrder m.fs m.maxOpen bytes path = .ok t := ⟨_, by unfold accountsCmd; rw [h1]; rfl⟩
      obtain ⟨t', ht'⟩ : ∃ t, accountsCmd e m.stringOrder m.fs m.maxOpen bytes' path = .ok t := ⟨_, by unfold accountsCmd; rw [h2]; rfl⟩
      obtain ⟨L, p1, rfl, q1⟩ := C51_accounts e _ hm.strings _ _ _ _ _ ht
      obtain ⟨L', p2, rfl, q2⟩ := C51_accounts e _ hm.strings _ _ _ _ _ ht'
      have : L = L' := pairwise_unique StrLt.irrefl (fun _ _ _ => StrLt.trans) p1 p2 fun x => by rw [q1, q2]; simp only [mem]
      subst this
      simp only [Machine.runOn, ht, ht']
  · rcases runParse_alike h (both_or_neither ho hd h .payees) with ⟨h1, h2⟩ | ⟨s, s', h1, h2⟩
    · simp only [Machine.runOn, payeesCmd, h1, h2]
    · rcases compileArgs_spec m.engine args with ⟨rs, hrs, -⟩ | ⟨a, ha, -, herr⟩
      · have ok : ∀ l, ∃ M, payeesPrepare m.engine args l = .ok M := by
          intro l
          unfold payeesPrepare
          split
          · exact ⟨_, rfl⟩
          · rw [hrs]; exact ⟨_, rfl⟩
        obtain ⟨M, hM⟩ := ok (m.stringOrder s)
        obtain ⟨M', hM'⟩ := ok (m.stringOrder s')
        obtain ⟨t, ht⟩ : ∃ t, payeesCmd e m.engine args m.stringOrder m.fs m.maxOpen bytes path = .ok t := ⟨_, by unfold payeesCmd; rw [h1]; simp only; rw [hM]; rfl⟩
        obtain ⟨t', ht'⟩ : ∃ t, payeesCmd e m.engine args m.stringOrder m.fs m.maxOpen bytes' path = .ok t := ⟨_, by unfold payeesCmd; rw [h2]; simp only; rw [hM']; rfl⟩
        obtain ⟨L, p1, rfl, q1⟩ := C52_payees e _ _ _ hm.strings _ _ _ _ _ ht
        obtain ⟨L', p2, rfl, q2⟩ := C52_payees e _ _ _ hm.strings _ _ _ _ _ ht'
        have : L = L' := pairwise_unique StrLt.irrefl (fun _ _ _ => StrLt.trans) p1 p2 fun x => by rw [q1, q2]; simp only [mem]
        subst this
        simp only [Machine.runOn, ht, ht']
      · have hne : ¬ args.length = 0 := fun h0 => by rw [List.length_eq_zero_iff.1 h0] at ha; cases ha
        simp only [Machine.runOn, payeesCmd, h1, h2, payeesPrepare, if_neg hne, herr]
        rfl
  · rfl

/-- Print lists the same transactions, by date on both occasions. -/
theorem C108_print (hm : m.Fair) (ho : ∀ l, (e.mapOrder l).Perm l) (hd : e.dateError = none) (h : SameEntries m.fs m.maxOpen path bytes bytes') :
    ∃ ts ts' : List Transaction, ts.Perm ts' ∧ ts.Pairwise (fun a b => a.date.dayNumber ≤ b.date.dayNumber) ∧
      ts'.Pairwise (fun a b => a.date.dayNumber ≤ b.date.dayNumber) ∧
      m.runOn e o args bytes path .print = ⟨(ts.map fun t => t.format ++ str "\n").flatten, .exit 0⟩ ∧
      m.runOn e o args bytes' path .print = ⟨(ts'.map fun t => t.format ++ str "\n").flatten, .exit 0⟩ ∧
      (((e.picked (delivered m.fs m.maxOpen bytes path)).map fun tf => tf.1.date).Nodup →
        m.runOn e o args bytes path .print = m.runOn e o args bytes' path .print) := by
  have hs := C96_stopped e ho hd m.fs m.maxOpen bytes path .print
  have hs' := C96_stopped e ho hd m.fs m.maxOpen bytes' path .print
  rw [if_neg (show ¬ Command.Lacks e _ .print from id)] at hs hs'
  have h1 := (runParse_cases m.fs m.maxOpen bytes path e.printHandlers []).2.1 hs h.accepted
  have h2 := (runParse_cases m.fs m.maxOpen bytes' path e.printHandlers []).2.1 hs' h.accepted'
  obtain ⟨t, ht⟩ : ∃ t, printCmd e m.sortTransactions m.fs m.maxOpen bytes path = .ok t := ⟨_, by unfold printCmd; rw [h1]; rfl⟩
  obtain ⟨t', ht'⟩ : ∃ t, printCmd e m.sortTransactions m.fs m.maxOpen bytes' path = .ok t := ⟨_, by unfold printCmd; rw [h2]; rfl⟩
  obtain ⟨L, p1, q1, rfl⟩ := C49_print e ho _ hm.byDate _ _ _ _ _ ht
  obtain ⟨L', p2, q2, rfl⟩ := C49_print e ho _ hm.byDate _ _ _ _ _ ht'
  have hp : L.Perm L' := (p1.trans ((picked_perm e h.entries).map _)).trans p2.symm
  refine ⟨L, L', hp, q1, q2, by simp only [Machine.runOn, ht]; rfl, by simp only [Machine.runOn, ht']; rfl, fun hn => ?_⟩
  have real : ∀ t ∈ L, t.date.Real := by
    intro t ht
    obtain ⟨tf, hx, rfl⟩ := List.mem_map.1 (p1.mem_iff.1 ht)
    exact (picked_real e hx).1
  have hn1 : (L.map Transaction.date).Nodup := by
    rw [(p1.map Transaction.date).nodup_iff, List.map_map]
    exact hn
  have strict : ∀ {M : List Transaction}, M.Perm L → M.Pairwise (fun a b => a.date.dayNumber ≤ b.date.dayNumber) →
      M.Pairwise (fun a b => a.date.dayNumber < b.date.dayNumber) := by
    intro M hM hw
    have hnM : M.Pairwise fun a b => a.date ≠ b.date := List.pairwise_map.1 ((hM.map _).nodup_iff.2 hn1)
    refine (hw.and hnM).imp_of_mem ?_
    rintro a b ha hb ⟨x1, x2⟩
    rcases lt_or_eq_of_le x1 with x | x
    · exact x
    · exact absurd (dayNumber_inj (real a (hM.mem_iff.1 ha)) (real b (hM.mem_iff.1 hb)) x) x2
  have : L = L' := pairwise_unique (r := fun a b : Transaction => a.date.dayNumber < b.date.dayNumber) (fun _ => lt_irrefl _) (fun _ _ _ => lt_trans)
    (strict (List.Perm.refl _) q1) (strict hp.symm q2) fun x => hp.mem_iff
  simp only [Machine.runOn, ht, ht', this]

/-! ### Balances -/

theorem balance_texts_perm (ho : ∀ l, (e.mapOrder l).Perm l) {fs fs' : FileSystem} {n n' : Nat} {path' text text' : Str} (showZero flatten collapse : Bool)
    (hsel : (e.selected (delivered fs n bytes path)).Perm (e.selected (delivered fs' n' bytes' path')))
    (h : balanceCmd e showZero flatten collapse fs n bytes path = .ok text) (h' : balanceCmd e showZero flatten collapse fs' n' bytes' path' = .ok text') :
    SameBalances (e.selected (delivered fs n bytes path)) text text' := by
  have uniq : ∀ {L L' : List (List Str)} {P : List Str → Prop}, L.Pairwise PathLt → L'.Pairwise PathLt → (∀ cs, cs ∈ L ↔ P cs) → (∀ cs, cs ∈ L' ↔ P cs) → L = L' := by
    intro L L' P h1 h2 h3 h4
    exact pairwise_unique PathLt.irrefl (fun _ _ _ => PathLt.trans) h1 h2 fun x => (h3 x).trans (h4 x).symm
  cases flatten with
  | true =>
    obtain ⟨ps, L, a1, a2, a3, rfl⟩ := C63_flat e ho showZero collapse fs n bytes path text h
    obtain ⟨qs, L', b1, b2, b3, rfl⟩ := C63_flat e ho showZero collapse fs' n' bytes' path' text' h'
    rw [← shown_perm hsel] at b3
    have := uniq a2 b2 a3 b3
    subst this
    exact same_balances a1 (b1.trans hsel.symm) L fun cs => joinPath (spelledNames cs)
  | false =>
    cases collapse with
    | false =>
      obtain ⟨ps, L, a1, a2, a3, rfl⟩ := C63_tree e ho showZero fs n bytes path text h
      obtain ⟨qs, L', b1, b2, b3, rfl⟩ := C63_tree e ho showZero fs' n' bytes' path' text' h'
      rw [← shown_perm hsel] at b3
      have := uniq a2 b2 a3 b3
      subst this
      simpa only [List.append_assoc] using same_balances a1 (b1.trans hsel.symm) L fun cs => List.replicate (2 * (cs.length - 1)) ' ' ++ cs.getLastD []
    | true =>
      obtain ⟨ps, L, one, a1, a2, a0, a3, rfl⟩ := C63_collapsed e ho showZero fs n bytes path text h
      obtain ⟨qs, L', one', b1, b2, b0, b3, rfl⟩ := C63_collapsed e ho showZero fs' n' bytes' path' text' h'
      rw [← shown_perm hsel] at b0 b3
      have h1 : ∀ cs, Shown showZero (e.selected (delivered fs n bytes path)) cs → one cs = one' cs := by
        intro cs hs
        have := (a0 cs hs).trans (b0 cs hs).symm
        cases h1 : one cs <;> cases h2 : one' cs <;> simp_all
      have := uniq a2 b2 a3 (fun cs => (b3 cs).trans ⟨fun ⟨x, y, z⟩ => ⟨x, y, by rw [h1 cs x]; exact z⟩, fun ⟨x, y, z⟩ => ⟨x, y, by rw [← h1 cs x]; exact z⟩⟩)
      subst this
      have hl : (L.map fun cs => amountColumn (tally (below cs qs)) ++ List.replicate (2 * levelBy one' cs) ' ' ++ joinPath (chainBy one' cs)) =
          L.map fun cs => amountColumn (tally (below cs qs)) ++ List.replicate (2 * levelBy one cs) ' ' ++ joinPath (chainBy one cs) := by
        apply List.map_congr_left
        intro cs hcs
        have hs := ((a3 cs).1 hcs).1
        have hst : stopsBy one cs = stopsBy one' cs := stopsBy_congr fun i _ => h1 _ (hs.up (List.take_prefix i cs))
        simp only [levelBy, chainBy, hst]
      rw [hl]
      simpa only [List.append_assoc] using same_balances a1 (b1.trans hsel.symm) L fun cs => List.replicate (2 * levelBy one cs) ' ' ++ joinPath (chainBy one cs)

/-- The balance command panics on both occasions, or gives, after the warnings, two reports with the same lines and quantities, in which only the commodities
of accounts that mix them can differ. -/
theorem C108_balance (ho : ∀ l, (e.mapOrder l).Perm l) (hd : e.dateError = none) (h : SameEntries m.fs m.maxOpen path bytes bytes') :
    (m.runOn e o args bytes path .balance = ⟨m.warnings e bytes path .balance, .panic .unusablePosting⟩ ∧
      m.runOn e o args bytes' path .balance = ⟨m.warnings e bytes' path .balance, .panic .unusablePosting⟩) ∨
    ∃ text text', m.runOn e o args bytes path .balance = ⟨m.warnings e bytes path .balance ++ text, .exit 0⟩ ∧
      m.runOn e o args bytes' path .balance = ⟨m.warnings e bytes' path .balance ++ text', .exit 0⟩ ∧
      SameBalances (e.selected (delivered m.fs m.maxOpen bytes path)) text text' := by
  rcases runParse_alike h (both_or_neither ho hd h .balance) with ⟨h1, h2⟩ | ⟨s, s', h1, h2⟩
  · left
    constructor
    · simp only [Machine.runOn, balanceCmd, h1]; rfl
    · simp only [Machine.runOn, balanceCmd, h2]; rfl
  · right
    obtain ⟨t, ht⟩ : ∃ t, balanceCmd e o.showZero o.flatten o.collapse m.fs m.maxOpen bytes path = .ok t := ⟨_, by unfold balanceCmd; rw [h1]; rfl⟩
    obtain ⟨t', ht'⟩ : ∃ t, balanceCmd e o.showZero o.flatten o.collapse m.fs m.maxOpen bytes' path = .ok t := ⟨_, by unfold balanceCmd; rw [h2]; rfl⟩
    refine ⟨t, t', ?_, ?_, balance_texts_perm ho _ _ _ (selected_perm e h.entries) ht ht'⟩
    · simp only [Machine.runOn, ht]; rfl
    · simp only [Machine.runOn, ht']; rfl

omit [Unicode] in
theorem SameBalances.equal {ps : List Posting} {t t' : Str} (h : SameBalances ps t t') {c : Str} (hone : ∀ p ∈ ps, ∀ a ∈ p.amount, a.commodity = c) : t = t' := by
  obtain ⟨L, label, k, k', rfl, rfl, hk⟩ := h
  have : k = k' := by
    funext cs
    by_contra hne
    obtain ⟨a, ha, b, hb, hab⟩ := hk cs hne
    have hw := written_one (ps := below cs ps) (c := c) fun p hp => hone p (List.mem_of_mem_filter hp)
    rw [hw] at ha hb
    exact hab ((List.eq_of_mem_replicate ha).trans (List.eq_of_mem_replicate hb).symm)
  rw [this]

/-- With everything selected in one commodity, the runs of the balance command are equal. -/
theorem C108_one_commodity (ho : ∀ l, (e.mapOrder l).Perm l) (hd : e.dateError = none) (h : SameEntries m.fs m.maxOpen path bytes bytes') {c : Str}
    (hone : ∀ p ∈ e.selected (delivered m.fs m.maxOpen bytes path), ∀ a ∈ p.amount, a.commodity = c) :
    m.runOn e o args bytes path .balance = m.runOn e o args bytes' path .balance := by
  have w1 : m.warnings e bytes path .balance = [] := C73_one_commodity e ho m.fs m.maxOpen bytes path c hone
  have w2 : m.warnings e bytes' path .balance = [] :=
    C73_one_commodity e ho m.fs m.maxOpen bytes' path c fun p hp => hone p ((selected_perm e h.entries).mem_iff.2 hp)
  rcases C108_balance (m := m) (o := o) (args := args) ho hd h with ⟨h1, h2⟩ | ⟨t, t', h1, h2, h3⟩
  · rw [h1, h2, w1, w2]
  · rw [h1, h2, w1, w2, h3.equal hone]

/-! ### Budgets -/

/-- The budget command panics on both occasions, or gives, after the warnings, two reports with the same months, categories and quantities, in which only
commodities that are mixed can differ. -/
theorem C108_budget (hm : m.Fair) (ho : ∀ l, (e.mapOrder l).Perm l) (hd : e.dateError = none) (h : SameEntries m.fs m.maxOpen path bytes bytes') :
    (m.runOn e o args bytes path .budget = ⟨m.warnings e bytes path .budget, .panic .unusablePosting⟩ ∧
      m.runOn e o args bytes' path .budget = ⟨m.warnings e bytes' path .budget, .panic .unusablePosting⟩) ∨
    ∃ text text', m.runOn e o args bytes path .budget = ⟨m.warnings e bytes path .budget ++ text, .exit 0⟩ ∧
      m.runOn e o args bytes' path .budget = ⟨m.warnings e bytes' path .budget ++ text', .exit 0⟩ ∧
      SameBudgets (e.filed (delivered m.fs m.maxOpen bytes path)) text text' := by
  have hs : SortsMonths m.sortDates := fun ms => ⟨(hm.dates ms).1, (hm.dates ms).2.imp fun {a b} hab => by simp [Date.before]; exact hab⟩
  rcases runParse_alike h (both_or_neither ho hd h .budget) with ⟨h1, h2⟩ | ⟨s, s', h1, h2⟩
  · left
    constructor
    · simp only [Machine.runOn, budgetCmd, h1]; rfl
    · simp only [Machine.runOn, budgetCmd, h2]; rfl
  · right
    obtain ⟨t, ht⟩ : ∃ t, budgetCmd e m.sortDates m.fs m.maxOpen bytes path = .ok t := ⟨_, by unfold budgetCmd; rw [h1]; rfl⟩
    obtain ⟨t', ht'⟩ : ∃ t, budgetCmd e m.sortDates m.fs m.maxOpen bytes' path = .ok t := ⟨_, by unfold budgetCmd; rw [h2]; rfl⟩
    obtain ⟨es, q1, q2⟩ := C67_budget_report _ ho _ hs _ _ _ _ _ ht
    obtain ⟨es', q3, q4⟩ := C67_budget_report _ ho _ hs _ _ _ _ _ ht'
    refine ⟨t, t', ?_, ?_, budget_texts q1 (q3.trans (filed_perm e h.entries).symm) (filed_real _ _ _ _ _) q2 q4⟩
    · simp only [Machine.runOn, ht]; rfl
    · simp only [Machine.runOn, ht']; rfl

/-! ### Statistics -/

omit [Unicode] in
theorem ageInner_congr (ek : Date) : ∀ (iks : List Date) (x : I64) (b b' : Buckets) (ages : List (Date × Date)), (∀ d, b.get d = b'.get d) →
    (∀ d, (ageInner ek iks x b ages).1.get d = (ageInner ek iks x b' ages).1.get d) ∧ (ageInner ek iks x b ages).2 = (ageInner ek iks x b' ages).2 := by
  intro iks
  induction iks with
  | nil => intro x b b' ages h; exact ⟨h, rfl⟩
  | cons ik iks ih =>
    intro x b b' ages h
    rw [ageInner, ageInner]
    simp only [h ik]
    split
    · exact ih x b b' ages h
    · split
      · exact ih _ _ _ _ fun d => by rw [Buckets.get_put, Buckets.get_put, h d]
      · exact ⟨fun d => by rw [Buckets.get_put, Buckets.get_put, h d], rfl⟩

omit [Unicode] in
theorem ageOuter_congr (x x' : Buckets) (hx : ∀ d, x.get d = x'.get d) (iks : List Date) : ∀ (eks : List Date) (b b' : Buckets) (ages : List (Date × Date)),
    (∀ d, b.get d = b'.get d) → (ageOuter x iks eks b ages).2 = (ageOuter x' iks eks b' ages).2 := by
  intro eks
  induction eks with
  | nil => intro b b' ages _; rfl
  | cons ek eks ih =>
    intro b b' ages h
    rw [ageOuter, ageOuter]
    simp only [hx ek]
    obtain ⟨h1, h2⟩ := ageInner_congr ek iks (x'.get ek) b b' ages h
    rw [h2]
    exact ih _ _ _ h1

omit [Unicode] in
theorem dayPostings_plain (fs : List Filter) (top : Str) (ts : List (Transaction × Str)) (d : Date) :
    dayPostings fs top ts d = ((ts.map fun tf => tf.1.plain).filter fun t => t.date = d).flatMap fun t =>
      (selection fs t).filter fun p => p.components.head? = some top := by
  rw [dayPostings, List.filter_map, List.flatMap_map]
  rfl

omit [Unicode] in
theorem dayPostings_perm (fs : List Filter) (top : Str) {ts ts' : List (Transaction × Str)}
    (h : (ts.map fun tf => tf.1.plain).Perm (ts'.map fun tf => tf.1.plain)) (d : Date) :
    (dayPostings fs top ts d).Perm (dayPostings fs top ts' d) := by
  rw [dayPostings_plain, dayPostings_plain]
  exact (h.filter _).flatMap_right _

omit [Unicode] in
theorem statsReport_figures (hz : Date → Str) (fs : List Str) (a : I64) {s s' : Stats} (h1 : s.first = s'.first) (h2 : s.last = s'.last)
    (h3 : s.count = s'.count) (h4 : s.payees.length = s'.payees.length) (h5 : s.files.length = s'.files.length)
    (h6 : s.accounts.length = s'.accounts.length) : statsReport hz fs a s' = statsReport hz fs a s := by
  have hd : s.days = s'.days := by rw [Stats.days, Stats.days, h1, h2]
  unfold statsReport
  rw [hd, h1, h2, h3, h4, h5, h6]

omit [Unicode] in
theorem statsReport_none (hz : Date → Str) (fs : List Str) (a : I64) {s : Stats} (h : s.count = 0) :
    statsReport hz fs a s = str "No transactions matched arguments.\n" := by
  unfold statsReport
  rw [if_pos h]

attribute [local irreducible] statsReport averageAge

/-- The same transactions, whatever files they are from: the same figures but for the files. -/
structure Stats.Agree (sortDates : List Date → List Date) (s s' : Stats) : Prop where
  first : s.first = s'.first
  last : s.last = s'.last
  count : s.count = s'.count
  accounts : s.accounts.length = s'.accounts.length
  payees : s.payees.length = s'.payees.length
  ages : s.ages sortDates = s'.ages sortDates

omit [Unicode] in
theorem stats_agree {sortDates : List Date → List Date} (hsd : SortsDates sortDates)
    {fs : List Filter} {ts ts' : List (Transaction × Str)} (hp : (ts.map fun tf => tf.1.plain).Perm (ts'.map fun tf => tf.1.plain))
    (hr : ∀ tf ∈ ts, tf.1.date.Real) (hz0 : ∀ tf ∈ ts, ¬ tf.1.date.isZero)
    {s s' : Stats} (S : StatsOf fs ts s) (S' : StatsOf fs ts' s') (hne : ts ≠ []) : s.Agree sortDates s' := by
  have hne' : ts' ≠ [] := fun h0 => by
    subst h0
    exact hne (List.map_eq_nil_iff.1 (List.perm_nil.1 hp))
  have forth : ∀ tf ∈ ts, ∃ tf' ∈ ts', tf'.1.plain = tf.1.plain := fun tf h =>
    List.mem_map.1 (hp.mem_iff.1 (List.mem_map.2 ⟨tf, h, rfl⟩))
  have back : ∀ tf ∈ ts', ∃ tf' ∈ ts, tf'.1.plain = tf.1.plain := fun tf h =>
    List.mem_map.1 (hp.mem_iff.2 (List.mem_map.2 ⟨tf, h, rfl⟩))
  have exi : ∀ {P : Transaction → Prop}, (∀ t, P t ↔ P t.plain) → ((∃ tf ∈ ts, P tf.1) ↔ ∃ tf ∈ ts', P tf.1) := by
    intro P hP
    constructor
    · rintro ⟨tf, h1, h2⟩
      obtain ⟨tf', h3, h4⟩ := forth tf h1
      exact ⟨tf', h3, by rw [hP, h4, ← hP]; exact h2⟩
    · rintro ⟨tf, h1, h2⟩
      obtain ⟨tf', h3, h4⟩ := back tf h1
      exact ⟨tf', h3, by rw [hP, h4, ← hP]; exact h2⟩
  have sameDate : ∀ {t u : Transaction}, t.plain = u.plain → t.date = u.date := fun h => show (Transaction.plain _).date = (Transaction.plain _).date by rw [h]
  have hz0' : ∀ tf ∈ ts', ¬ tf.1.date.isZero := fun tf h => by
    obtain ⟨tf', h1, h2⟩ := back tf h
    rw [← sameDate h2]
    exact hz0 tf' h1
  have hfirst : s.first = s'.first := by
    obtain ⟨⟨x, x1, x2⟩, x3⟩ := S.first hz0 hne
    obtain ⟨⟨y, y1, y2⟩, y3⟩ := S'.first hz0' hne'
    obtain ⟨x', x4, x5⟩ := forth x x1
    obtain ⟨y', y4, y5⟩ := back y y1
    rw [← x2, ← y2, ← sameDate y5]
    refine dayNumber_inj (hr x x1) (hr y' y4) (le_antisymm ?_ ?_)
    · rw [x2]; exact x3 y' y4
    · rw [sameDate y5, y2, ← sameDate x5]; exact y3 x' x4
  have hlast : s.last = s'.last := by
    obtain ⟨⟨x, x1, x2⟩, x3⟩ := S.last hz0 hne
    obtain ⟨⟨y, y1, y2⟩, y3⟩ := S'.last hz0' hne'
    obtain ⟨x', x4, x5⟩ := forth x x1
    obtain ⟨y', y4, y5⟩ := back y y1
    rw [← x2, ← y2, ← sameDate y5]
    refine dayNumber_inj (hr x x1) (hr y' y4) (le_antisymm ?_ ?_)
    · rw [sameDate y5, y2, ← sameDate x5]; exact y3 x' x4
    · rw [x2]; exact x3 y' y4
  have hcount : s.count = s'.count := by
    rw [S.count, S'.count]
    simpa using hp.length_eq
  have hacc : s.accounts.Perm s'.accounts := (List.perm_ext_iff_of_nodup S.accounts.1 S'.accounts.1).2 fun a => by
    rw [S.accounts.2, S'.accounts.2]
    exact exi (P := fun t => ∃ p ∈ selection fs t, p.accountPath = a) fun t => Iff.rfl
  have hpay : s.payees.Perm s'.payees := (List.perm_ext_iff_of_nodup S.payees.1 S'.payees.1).2 fun a => by
    rw [S.payees.2, S'.payees.2]
    exact exi (P := fun t => t.payee = a) fun t => Iff.rfl
  have keys : ∀ {b b' : Buckets} {top : Str}, (b.map Prod.fst).Nodup → (b'.map Prod.fst).Nodup →
      (∀ d, d ∈ b.map Prod.fst ↔ dayPostings fs top ts d ≠ []) → (∀ d, d ∈ b'.map Prod.fst ↔ dayPostings fs top ts' d ≠ []) →
      sortDates (b.map Prod.fst) = sortDates (b'.map Prod.fst) := by
    intro b b' top n1 n2 m1 m2
    have hk : ∀ d, d ∈ b.map Prod.fst ↔ d ∈ b'.map Prod.fst := by
      intro d
      rw [m1, m2]
      have := dayPostings_perm fs top hp d
      exact not_congr ⟨fun h => by rw [h] at this; exact List.nil_perm.1 this, fun h => by rw [h] at this; exact List.perm_nil.1 this⟩
    have real : ∀ d ∈ b.map Prod.fst, d.Real := by
      intro d hd
      obtain ⟨p, hpp⟩ := List.exists_mem_of_ne_nil _ ((m1 d).1 hd)
      unfold dayPostings at hpp
      obtain ⟨tf, h1, -⟩ := List.mem_flatMap.1 hpp
      obtain ⟨h2, h3⟩ := List.mem_filter.1 h1
      rw [← of_decide_eq_true h3]
      exact hr tf h2
    obtain ⟨a1, a2⟩ := keys_sorted hsd n1 real
    obtain ⟨b1, b2⟩ := keys_sorted hsd n2 fun d h => real d ((hk d).2 h)
    exact pairwise_unique (r := fun a b : Date => a.dayNumber < b.dayNumber) (fun _ => lt_irrefl _) (fun _ _ _ => lt_trans) a1 b1
      fun d => by rw [a2, b2, hk]
  refine ⟨hfirst, hlast, hcount, hacc.length_eq, hpay.length_eq, ?_⟩
  unfold Stats.ages
  have e1 : sortDates (s.income.map (·.1)) = sortDates (s'.income.map (·.1)) := keys S.income.2.1 S'.income.2.1 S.income.2.2 S'.income.2.2
  have e2 : sortDates (s.expense.map (·.1)) = sortDates (s'.expense.map (·.1)) := keys S.expense.2.1 S'.expense.2.1 S.expense.2.2 S'.expense.2.2
  rw [e1, e2]
  refine ageOuter_congr _ _ (fun d => ?_) _ _ _ _ _ fun d => ?_
  · rw [S.expense.1, S'.expense.1, valueOf_perm (dayPostings_perm fs _ hp d)]
  · rw [S.income.1, S'.income.1, valueOf_perm (dayPostings_perm fs _ hp d)]

omit [Unicode] in
theorem stats_texts {hz : Date → Str} {order : List Str → List Str} (hor : ∀ l, (order l).Perm l) {sortDates : List Date → List Date} (hsd : SortsDates sortDates)
    {fs : List Filter} {ts ts' : List (Transaction × Str)} (hp : ts.Perm ts') (hr : ∀ tf ∈ ts, tf.1.date.Real) (hz0 : ∀ tf ∈ ts, ¬ tf.1.date.isZero)
    {s s' : Stats} (S : StatsOf fs ts s) (S' : StatsOf fs ts' s') :
    ∃ (pre post : Str) (files files' : List Str), files.Perm files' ∧
      statsReport hz (order s.files) (averageAge (s.ages sortDates)) s = pre ++ (files.flatMap fun f => str "  " ++ f ++ str "\n") ++ post ∧
      statsReport hz (order s'.files) (averageAge (s'.ages sortDates)) s' = pre ++ (files'.flatMap fun f => str "  " ++ f ++ str "\n") ++ post := by
  by_cases hne : ts = []
  · subst hne
    have := List.nil_perm.1 hp
    subst this
    rw [statsReport_none _ _ _ (by rw [S.count]; rfl), statsReport_none _ _ _ (by rw [S'.count]; rfl)]
    exact ⟨str "No transactions matched arguments.\n", [], [], [], List.Perm.refl _, by simp, by simp⟩
  have A := stats_agree hsd (hp.map fun tf => tf.1.plain) hr hz0 S S' hne
  have hfil : s.files.Perm s'.files := (List.perm_ext_iff_of_nodup S.files.1 S'.files.1).2 fun a => by rw [S.files.2, S'.files.2]; simp only [hp.mem_iff]
  rw [A.ages, statsReport_figures (s := s) (s' := s') hz (order s'.files) _ A.first A.last A.count A.payees hfil.length_eq A.accounts]
  have ho2 : (order s.files).Perm (order s'.files) := ((hor _).trans hfil).trans (hor _).symm
  obtain ⟨pre, post, h⟩ | h := statsReport_files hz (averageAge (s'.ages sortDates)) s
  · exact ⟨pre, post, _, _, ho2, h _, h _⟩
  · rw [h (order s.files) (order s'.files)]
    generalize statsReport hz _ _ _ = text
    exact ⟨text, [], [], [], List.Perm.refl _, by simp, by simp⟩

/-- The statistics show the same figures, if no transaction is dated 1 January of year 1, with the files listed in some order. -/
theorem C108_statistics (hm : m.Fair) (ho : ∀ l, (e.mapOrder l).Perm l) (hd : e.dateError = none) (h : SameEntries m.fs m.maxOpen path bytes bytes')
    (hz : ∀ tf ∈ e.picked (delivered m.fs m.maxOpen bytes path), ¬ tf.1.date.isZero) :
    SameButFiles (m.runOn e o args bytes path .statistics) (m.runOn e o args bytes' path .statistics) := by
  rcases runParse_alike h (both_or_neither ho hd h .statistics) with ⟨h1, h2⟩ | ⟨s, s', h1, h2⟩
  · simp only [Machine.runOn, statsCmd, h1, h2]
    exact SameButFiles.refl _
  · have S := C53_statistics e ho _ _ _ _ _ h1
    have S' := C53_statistics e ho _ _ _ _ _ h2
    simp only [Machine.runOn, statsCmd, h1, h2, Except.map, Machine.finish, List.nil_append]
    exact ⟨rfl, stats_texts hm.strings hm.dates (picked_perm e h.entries) (fun tf ht => (picked_real e ht).1) hz S S'⟩

end

/-- A machine whose sorting the kernel can follow. -/
def shelfMachine : Machine := { wholeMachine with sortTransactions := List.insertionSort fun a b => a.date.dayNumber ≤ b.date.dayNumber }

/-- Two transactions and a budget entry in two orders: the same accounts, balances and figures, and the same listing as the dates differ. -/
example :
    letI := asciiUnicode
    let p := utf8 "2020-02-01 x\n  Expenses:F  $1\n  A\n"
    let q := utf8 "2020-01-01 y\n  A  $3\n  Income:J\n"
    let r := utf8 "~ 2020-02\n  F  $2\n"
    let run (ps : List (List UInt8)) := shelfMachine.runOn (shelfMachine.env {} []) {} [] (passages ps) (str "f")
    (∀ x ∈ [p, q, r], Passage shelfMachine.fs shelfMachine.maxOpen (str "f") x) ∧ (shelfMachine.env {} []).dateError = none ∧
    (∀ c ∈ [Command.accounts, .payees, .balance, .statistics], run [p, q, r] c = run [r, q, p] c) ∧
    run [p, q, r] .print = run [r, q, p] .print ∧ run [p, r] .budget = run [r, p] .budget ∧
    (run [p, q, r] .payees).stdout = str "x\ny\n" := by
  unfold Passage
  decide +kernel

/-- What can differ: which of two transactions of a day is printed first, the commodity of an account that mixes them, and the first date if a
transaction is dated 1 January of year 1. -/
example :
    letI := asciiUnicode
    let run (ps : List String) := shelfMachine.runOn (shelfMachine.env {} []) {} [] (passages (ps.map utf8)) (str "f")
    let p := "2020-01-01 x\n  A  1\n  B\n"
    let q := "2020-01-01 y\n  A  1\n  B\n"
    let r := "2020-01-01 x\n  A  $1\n  B\n"
    let z := "0001-01-01 x\n  A  1\n  B\n"
    let y := "2020-01-01 x\n  A  EUR1\n  B\n"
    run [p, q] .print ≠ run [q, p] .print ∧ run [r, y] .balance ≠ run [y, r] .balance ∧ run [p, z] .statistics ≠ run [z, p] .statistics := by
  decide +kernel

end Gledger
