/-
C93: what does not depend on the order in which Go happens to iterate over maps.
-/
import Verif.Props.DateFlags
import Verif.Props.Adding
import Mathlib.Tactic.Ring

namespace Gledger

set_option maxRecDepth 100000

variable {σ τ : Type}

/-- The same machine, on another occasion: maps are iterated in other orders. -/
structure Machine.Reordered (m m' : Machine) : Prop where
  same : m' = { m with postingOrder := m'.postingOrder, stringOrder := m'.stringOrder }
  postings : ∀ l, (m.postingOrder l).Perm l
  postings' : ∀ l, (m'.postingOrder l).Perm l
  strings : ∀ l, (m.stringOrder l).Perm l
  strings' : ∀ l, (m'.stringOrder l).Perm l

/-! ### Parsing with two handlers that fail alike -/

/-- Handlers that fail on the same journals, and then panic: reading ends alike. -/
theorem runParse_pair [Unicode] (fs : FileSystem) (n : Nat) (bytes : List UInt8) (path : Str) (H : Handlers σ) (H' : Handlers τ) (u : σ) (v : τ)
    (h : (H.replay (delivered fs n bytes path) u).2 = (H'.replay (delivered fs n bytes path) v).2)
    (hp : ∀ g, (H.replay (delivered fs n bytes path) u).2 = some g → g = .panic .unusablePosting) :
    (∃ f, runParse fs n bytes path H u = .error f ∧ runParse fs n bytes path H' v = .error f) ∨
    ((H.replay (delivered fs n bytes path) u).2 = none ∧ runParse fs n bytes path H u = .ok (H.replay (delivered fs n bytes path) u).1 ∧
      runParse fs n bytes path H' v = .ok (H'.replay (delivered fs n bytes path) v).1) := by
  obtain ⟨a1, a2, a3⟩ := runParse_cases fs n bytes path H u
  obtain ⟨b1, b2, b3⟩ := runParse_cases fs n bytes path H' v
  rw [← h] at b1 b2 b3
  cases hs : (H.replay (delivered fs n bytes path) u).2 with
  | none =>
    cases hr : rejection fs n bytes path with
    | none => exact Or.inr ⟨rfl, a2 hs hr, b2 hs hr⟩
    | some f => exact Or.inl ⟨f, a1 hs f hr, b1 hs f hr⟩
  | some g =>
    left
    obtain ⟨f, h1, h2⟩ := a3 g hs
    obtain ⟨f', h1', h2'⟩ := b3 g hs
    rw [hp g hs] at h1 h1'
    rw [core_panic h1] at h2
    rw [core_panic h1'] at h2'
    exact ⟨_, h2, h2'⟩

/-- The commands that only fill a set keep its entries apart. -/
theorem replay_keys {H : Handlers (List Str)} (h : ∀ u c, u.Nodup → (H.call u c).1.Nodup) (calls : List Call) : ∀ u, u.Nodup → (H.replay calls u).1.Nodup := by
  induction calls with
  | nil => intro u hu; exact hu
  | cons c calls ih =>
    intro u hu
    rw [Handlers.replay]
    have := h u c hu
    generalize H.call u c = r at this
    obtain ⟨v, _ | g⟩ := r
    · exact ih v this
    · exact this

theorem runParse_keys [Unicode] {fs : FileSystem} {n : Nat} {bytes : List UInt8} {path : Str} {H : Handlers (List Str)}
    (h : ∀ u c, u.Nodup → (H.call u c).1.Nodup) {s : List Str} (hs : runParse fs n bytes path H [] = .ok s) : s.Nodup := by
  obtain ⟨_, h2⟩ := runParse_replay.1 hs
  have := replay_keys h (delivered fs n bytes path) [] List.nodup_nil
  rw [h2] at this
  exact this

theorem accounts_keys (e : Env) (u : List Str) (c : Call) (hu : u.Nodup) : (e.accountsHandlers.call u c).1.Nodup := by
  cases c with
  | periodic pt f => exact hu
  | normal t f =>
    simp only [Handlers.call, Env.accountsHandlers, Env.dateChecked]
    split
    · exact hu
    · exact (addKeys_spec Posting.accountPath t.postings u hu).1
    · exact hu

theorem payees_keys (e : Env) (u : List Str) (c : Call) (hu : u.Nodup) : (e.payeesHandlers.call u c).1.Nodup := by
  cases c with
  | periodic pt f => exact hu
  | normal t f =>
    simp only [Handlers.call, Env.payeesHandlers, Env.dateChecked]
    split
    · exact hu
    · exact (addKey_spec hu t.payee).1
    · exact hu

/-! ### The lists and the print command -/

theorem accountsPrepare_perm (e : Env) {a b : List Str} (hn : a.Nodup) (h : a.Perm b) : e.accountsPrepare a = e.accountsPrepare b := by
  unfold Env.accountsPrepare
  split
  · exact sortStrings_congr hn h
  · exact sortStrings_congr (hn.filter _) (h.filter _)

theorem payeesPrepare_perm [Unicode] (R : RegexEngine) (args : List Str) {a b : List Str} (hn : a.Nodup) (h : a.Perm b) :
    payeesPrepare R args a = payeesPrepare R args b := by
  unfold payeesPrepare
  split
  · rw [sortStrings_congr hn h]
  · congr 1
    funext rs
    exact sortStrings_congr (hn.filter _) (h.filter _)

theorem print_order (e : Env) {r : List Posting → List Posting} (h : ∀ l, (e.mapOrder l).Perm l) (h' : ∀ l, (r l).Perm l) :
    e.printHandlers = Env.printHandlers { e with mapOrder := r } := by
  unfold Env.printHandlers
  congr 2
  funext u t f
  simp only [Env.printHandler, Env.checkAgainstFilters]
  have hw : Env.withinDateRange { e with mapOrder := r } t = e.withinDateRange t := rfl
  rw [hw]
  rcases e.withinDateRange t with x | b
  · rfl
  · cases b
    · rfl
    · simp only
      by_cases hf : e.filters.length = 0
      · simp only [hf, if_true]
      · simp only [hf, if_false]
        rcases filterLoop t e.filters [] with _ | is
        · rfl
        · simp only [(h _).length_eq, (h' _).length_eq]

/-- The lists of accounts and payees and the printed journal do not depend on the order of maps. -/
theorem C93_lists_partial [Unicode] {m m' : Machine} (h : m.Reordered m') (o : Options) (c : Command) (args : List Str)
    (hc : c = .accounts ∨ c = .payees ∨ c = .print ∨ c = .version) : m.run o c args = m'.run o c args := by
  rw [h.same]
  obtain ⟨_, p1, p2, s1, s2⟩ := h
  generalize m'.postingOrder = po at p2
  generalize m'.stringOrder = so at s2
  simp only [Machine.run]
  rcases makeFilters m.engine args with (f | f | f) | filters
  · rfl
  · rfl
  · rfl
  · simp only [Machine.runFiltered]
    split
    · rfl
    · have : Machine.rootPath { m with postingOrder := po, stringOrder := so } o = m.rootPath o := rfl
      rw [this]
      cases m.rootPath o with
      | none => rfl
      | some p =>
        simp only
        cases m.fs p with
        | none => rfl
        | some bytes =>
          simp only
          rcases hc with rfl | rfl | rfl | rfl
          · have h0 : (Machine.env { m with postingOrder := po, stringOrder := so } o filters).accountsHandlers = (m.env o filters).accountsHandlers := rfl
            have h1 : (Machine.env { m with postingOrder := po, stringOrder := so } o filters).accountsPrepare = (m.env o filters).accountsPrepare := rfl
            simp only [Machine.runOn, accountsCmd, h0, h1]
            rcases hr : runParse m.fs m.maxOpen bytes p (m.env o filters).accountsHandlers [] with f | s
            · rfl
            · have hn := runParse_keys (accounts_keys _) hr
              simp only [Except.map, accountsPrepare_perm (m.env o filters) ((s1 s).nodup_iff.2 hn) ((s1 s).trans (s2 s).symm)]
              rfl
          · have h0 : (Machine.env { m with postingOrder := po, stringOrder := so } o filters).payeesHandlers = (m.env o filters).payeesHandlers := rfl
            simp only [Machine.runOn, payeesCmd, h0]
            rcases hr : runParse m.fs m.maxOpen bytes p (m.env o filters).payeesHandlers [] with f | s
            · rfl
            · have hn := runParse_keys (payees_keys _) hr
              simp only [payeesPrepare_perm m.engine args ((s1 s).nodup_iff.2 hn) ((s1 s).trans (s2 s).symm)]
              rfl
          · have h0 : (Machine.env { m with postingOrder := po, stringOrder := so } o filters).printHandlers = (m.env o filters).printHandlers :=
              (print_order (m.env o filters) p1 p2).symm
            simp only [Machine.runOn, printCmd, h0]
            rfl
          · rfl

/-! ### Balance and budget without filters -/

theorem check_unfiltered (e : Env) (hf : e.filters = []) (r : List Posting → List Posting) (t : Transaction) :
    e.checkAgainstFilters t = Env.checkAgainstFilters { e with mapOrder := r } t := by
  unfold Env.checkAgainstFilters
  simp only [hf]
  rfl

/-- Without filters the reports of balances and budgets, and the warnings, do not depend on the order of maps. -/
theorem C93_unfiltered_partial [Unicode] {m m' : Machine} (h : m.Reordered m') (o : Options) (c : Command) (hc : c = .balance ∨ c = .budget) :
    m.run o c [] = m'.run o c [] := by
  rw [h.same]
  generalize m'.postingOrder = po
  generalize m'.stringOrder = so
  simp only [Machine.run, makeFilters, Machine.runFiltered]
  split
  · rfl
  · have : Machine.rootPath { m with postingOrder := po, stringOrder := so } o = m.rootPath o := rfl
    rw [this]
    cases m.rootPath o with
    | none => rfl
    | some p =>
      simp only
      cases m.fs p with
      | none => rfl
      | some bytes =>
        simp only
        have hk : (m.env o []).checkAgainstFilters = (Machine.env { m with postingOrder := po, stringOrder := so } o []).checkAgainstFilters :=
          funext fun t => check_unfiltered (m.env o []) rfl po t
        have a4 : (m.env o []).balanceHandlers = (Machine.env { m with postingOrder := po, stringOrder := so } o []).balanceHandlers := by
          unfold Env.balanceHandlers; congr 2
        have a5 : (m.env o []).budgetHandlers = (Machine.env { m with postingOrder := po, stringOrder := so } o []).budgetHandlers := by
          unfold Env.budgetHandlers; congr 2
        have a8 : (m.env o []).balanceOut = (Machine.env { m with postingOrder := po, stringOrder := so } o []).balanceOut := by
          funext u t; simp only [Env.balanceOut, hk]
        have a9 : (m.env o []).budgetOut = (Machine.env { m with postingOrder := po, stringOrder := so } o []).budgetOut := by
          funext u t; simp only [Env.budgetOut, hk]
        rcases hc with rfl | rfl
        · simp only [Machine.runOn, balanceCmd, Env.balancePrinting, a4, a8]; rfl
        · simp only [Machine.runOn, budgetCmd, Env.budgetPrinting, a5, a9]; rfl

/-! ### Statistics -/

theorem put_put (b : Buckets) (d : Date) (v w : I64) : (b.put d v).put d w = b.put d w := by
  induction b with
  | nil => simp [Buckets.put]
  | cons kv b ih =>
    obtain ⟨k, x⟩ := kv
    by_cases h : k = d
    · simp [Buckets.put, h]
    · simp [Buckets.put, h, ih]

theorem get_put (b : Buckets) (d : Date) (v : I64) : (b.put d v).get d = v := by
  induction b with
  | nil => simp [Buckets.put, Buckets.get]
  | cons kv b ih =>
    obtain ⟨k, x⟩ := kv
    by_cases h : k = d
    · simp [Buckets.put, Buckets.get, h]
    · have : Buckets.get ((k, x) :: Buckets.put b d v) d = Buckets.get (Buckets.put b d v) d := by simp [Buckets.get, h]
      simp only [Buckets.put, h, if_false, this, ih]

theorem expenses_ne_income : expensesID ≠ incomeID := by decide

theorem addBucket_comm (d : Date) (s : Stats) (p q : Posting) :
    (s.addBucket d p).bind (fun s => s.addBucket d q) = (s.addBucket d q).bind (fun s => s.addBucket d p) := by
  have key : ∀ x a b : I64, x - a - b = x - b - a := by intro x a b; ring
  have key' : ∀ x a b : I64, x + a + b = x + b + a := by intro x a b; ring
  have k1 : ∀ (s : Stats) (a b : Amount), ({ s with income := s.income.put d (s.income.get d - a.quantity - b.quantity) } : Stats) =
      { s with income := s.income.put d (s.income.get d - b.quantity - a.quantity) } := fun s a b => by rw [key]
  have k2 : ∀ (s : Stats) (a b : Amount), ({ s with expense := s.expense.put d (s.expense.get d + a.quantity + b.quantity) } : Stats) =
      { s with expense := s.expense.put d (s.expense.get d + b.quantity + a.quantity) } := fun s a b => by rw [key']
  unfold Stats.addBucket
  rcases p.amount with _ | a <;> rcases q.amount with _ | b <;>
  by_cases h1 : (split ':' p.accountPath).headD [] = incomeID <;> by_cases h2 : (split ':' q.accountPath).headD [] = incomeID <;>
  by_cases h3 : (split ':' p.accountPath).headD [] = expensesID <;> by_cases h4 : (split ':' q.accountPath).headD [] = expensesID <;>
  simp only [h1, h2, h3, h4, expenses_ne_income, if_true, if_false, Option.map_none, Option.map_some, Option.bind_none, Option.bind_some, put_put, get_put] <;>
  first | rfl | (congr 1; first | exact k1 s a b | exact k2 s a b)

theorem addBuckets_perm (d : Date) {ps qs : List Posting} (h : ps.Perm qs) : ∀ s : Stats, Stats.addBuckets d ps s = Stats.addBuckets d qs s := by
  induction h with
  | nil => intro s; rfl
  | cons p _ ih =>
    intro s
    simp only [Stats.addBuckets]
    congr 1
    funext s
    exact ih s
  | swap p q l =>
    intro s
    have := congrArg (fun x => x.bind (Stats.addBuckets d l)) (addBucket_comm d s q p)
    simp only [Option.bind_assoc] at this
    simpa only [Stats.addBuckets] using this
  | trans _ _ ih1 ih2 => intro s; rw [ih1, ih2]

/-- Only the list of accounts differs. -/
def Stats.forget (s : Stats) : Stats := { s with accounts := [] }

theorem addBucket_forget (d : Date) (s : Stats) (p : Posting) (l : List Str) :
    Stats.addBucket d { s with accounts := l } p = (s.addBucket d p).map fun s => { s with accounts := l } := by
  unfold Stats.addBucket
  rcases p.amount with _ | a <;> by_cases h1 : (split ':' p.accountPath).headD [] = incomeID <;>
  by_cases h3 : (split ':' p.accountPath).headD [] = expensesID <;> simp only [h1, h3, expenses_ne_income, if_true, if_false, Option.map_none, Option.map_some]

theorem addBuckets_forget (d : Date) (ps : List Posting) (l : List Str) : ∀ s : Stats,
    Stats.addBuckets d ps { s with accounts := l } = (Stats.addBuckets d ps s).map fun s => { s with accounts := l } := by
  induction ps with
  | nil => intro s; rfl
  | cons p ps ih =>
    intro s
    simp only [Stats.addBuckets, addBucket_forget]
    rcases s.addBucket d p with _ | s'
    · rfl
    · exact ih s'

theorem addBuckets_accounts (d : Date) (ps : List Posting) {s s' : Stats} (h : Stats.addBuckets d ps s = some s') : s'.accounts = s.accounts := by
  have := addBuckets_forget d ps s.accounts s
  have h0 : { s with accounts := s.accounts } = s := rfl
  rw [h0, h] at this
  simp only [Option.map_some, Option.some.injEq] at this
  rw [this]

/-- Two sets of statistics that differ only in the order of the accounts. -/
structure Stats.SameSet (s s' : Stats) : Prop where
  rest : s.forget = s'.forget
  nodup : s.accounts.Nodup
  nodup' : s'.accounts.Nodup
  mem : ∀ a, a ∈ s.accounts ↔ a ∈ s'.accounts

theorem check_perm (e : Env) {r : List Posting → List Posting} (h : ∀ l, (e.mapOrder l).Perm l) (h' : ∀ l, (r l).Perm l) (t : Transaction) :
    (∃ x, e.checkAgainstFilters t = .error x ∧ Env.checkAgainstFilters { e with mapOrder := r } t = .error x) ∨
    ∃ b ps qs, ps.Perm qs ∧ e.checkAgainstFilters t = .ok (b, ps) ∧ Env.checkAgainstFilters { e with mapOrder := r } t = .ok (b, qs) := by
  simp only [Env.checkAgainstFilters]
  have hw : Env.withinDateRange { e with mapOrder := r } t = e.withinDateRange t := rfl
  rw [hw]
  rcases e.withinDateRange t with x | b
  · exact Or.inl ⟨x, rfl, rfl⟩
  · right
    cases b
    · exact ⟨false, [], [], List.Perm.refl _, rfl, rfl⟩
    · simp only
      by_cases hf : e.filters.length = 0
      · simp only [hf, if_true]
        exact ⟨true, _, _, List.Perm.refl _, rfl, rfl⟩
      · simp only [hf, if_false]
        rcases filterLoop t e.filters [] with _ | is
        · exact ⟨true, _, _, List.Perm.refl _, rfl, rfl⟩
        · exact ⟨false, _, _, (h _).trans (h' _).symm, rfl, rfl⟩

theorem stats_step_orders (e : Env) {r : List Posting → List Posting} (h : ∀ l, (e.mapOrder l).Perm l) (h' : ∀ l, (r l).Perm l) {s s' : Stats} (hs : s.SameSet s')
    (c : Call) : (e.statsHandlers.call s c).2 = ((Env.statsHandlers { e with mapOrder := r }).call s' c).2 ∧
      ((e.statsHandlers.call s c).2 = none → (e.statsHandlers.call s c).1.SameSet ((Env.statsHandlers { e with mapOrder := r }).call s' c).1) := by
  cases c with
  | periodic pt f => exact ⟨rfl, fun _ => hs⟩
  | normal t f =>
    simp only [Handlers.call, Env.statsHandlers, Env.statsHandler]
    rcases check_perm e h h' t with ⟨x, h1, h2⟩ | ⟨b, ps, qs, hp, h1, h2⟩
    · rw [h1, h2]; exact ⟨rfl, fun hn => by cases hn⟩
    · rw [h1, h2]
      simp only [hp.length_eq]
      split
      · exact ⟨rfl, fun _ => hs⟩
      · obtain ⟨f1, l1, c1, a1, y1, g1, i1, x1⟩ := s
        obtain ⟨f2, l2, c2, a2, y2, g2, i2, x2⟩ := s'
        obtain ⟨r0, n1, n2, mm⟩ := hs
        simp only [Stats.forget, Stats.mk.injEq, true_and] at r0
        obtain ⟨rfl, rfl, rfl, rfl, rfl, rfl, rfl⟩ := r0
        simp only at n1 n2 mm
        obtain ⟨k1, k2⟩ := addKeys_spec Posting.accountPath ps a1 n1
        obtain ⟨k3, k4⟩ := addKeys_spec Posting.accountPath qs a2 n2
        have e1 := addBuckets_forget t.date ps (ps.foldl (fun k (p : Posting) => addKey k p.accountPath) a1)
          { first := if f1.isZero || t.date.before f1 then t.date else f1, last := if l1.isZero || t.date.after l1 then t.date else l1,
            count := c1 + 1, accounts := [], payees := addKey y1 t.payee, files := addKey g1 f, income := i1, expense := x1 }
        have e2 := addBuckets_forget t.date qs (qs.foldl (fun k (p : Posting) => addKey k p.accountPath) a2)
          { first := if f1.isZero || t.date.before f1 then t.date else f1, last := if l1.isZero || t.date.after l1 then t.date else l1,
            count := c1 + 1, accounts := [], payees := addKey y1 t.payee, files := addKey g1 f, income := i1, expense := x1 }
        simp only at e1 e2
        rw [e1, e2, addBuckets_perm t.date hp]
        rcases Stats.addBuckets t.date qs _ with _ | z
        · exact ⟨rfl, fun hn => by cases hn⟩
        · refine ⟨rfl, fun _ => ⟨rfl, k1, k3, fun a => ?_⟩⟩
          refine (k2 a).trans (Iff.trans ?_ (k4 a).symm)
          simp only [mm a, hp.mem_iff]

theorem stats_replay_orders (e : Env) {r : List Posting → List Posting} (h : ∀ l, (e.mapOrder l).Perm l) (h' : ∀ l, (r l).Perm l) (calls : List Call) :
    ∀ s s' : Stats, s.SameSet s' → (e.statsHandlers.replay calls s).2 = ((Env.statsHandlers { e with mapOrder := r }).replay calls s').2 ∧
      ((e.statsHandlers.replay calls s).2 = none →
        (e.statsHandlers.replay calls s).1.SameSet ((Env.statsHandlers { e with mapOrder := r }).replay calls s').1) := by
  induction calls with
  | nil => intro s s' hs; exact ⟨rfl, fun _ => hs⟩
  | cons c calls ih =>
    intro s s' hs
    rw [Handlers.replay, Handlers.replay]
    obtain ⟨h1, h2⟩ := stats_step_orders e h h' hs c
    generalize e.statsHandlers.call s c = x at h1 h2
    generalize (Env.statsHandlers { e with mapOrder := r }).call s' c = y at h1 h2
    obtain ⟨v, _ | g⟩ := x
    · obtain ⟨v', _ | g'⟩ := y
      · exact ih v v' (h2 rfl)
      · cases h1
    · obtain ⟨v', _ | g'⟩ := y
      · cases h1
      · exact ⟨h1, fun hn => by cases hn⟩

/-- Two runs that differ at most in the order in which files are listed. -/
def SameButFiles (r r' : Run) : Prop :=
  r.ending = r'.ending ∧ ∃ (pre post : Str) (files files' : List Str), files.Perm files' ∧
    r.stdout = pre ++ (files.flatMap fun f => str "  " ++ f ++ str "\n") ++ post ∧
    r'.stdout = pre ++ (files'.flatMap fun f => str "  " ++ f ++ str "\n") ++ post

theorem SameButFiles.refl (r : Run) : SameButFiles r r := ⟨rfl, r.stdout, [], [], [], List.Perm.refl _, by simp, by simp⟩

theorem statsReport_accounts (hz : Date → Str) (fs : List Str) (a : I64) {s s' : Stats} (h1 : s.first = s'.first) (h2 : s.last = s'.last)
    (h3 : s.count = s'.count) (h4 : s.payees = s'.payees) (h5 : s.files = s'.files) (h6 : s.accounts.length = s'.accounts.length) :
    statsReport hz fs a s' = statsReport hz fs a s := by
  have hd : s.days = s'.days := by rw [Stats.days, Stats.days, h1, h2]
  unfold statsReport
  rw [hd, h1, h2, h3, h4, h5, h6]

theorem statsReport_files (hz : Date → Str) (a : I64) (s : Stats) :
    (∃ pre post : Str, ∀ fs, statsReport hz fs a s = pre ++ (fs.flatMap fun f => str "  " ++ f ++ str "\n") ++ post) ∨
    ∀ fs fs', statsReport hz fs a s = statsReport hz fs' a s := by
  unfold statsReport
  split
  · exact Or.inr fun _ _ => rfl
  · left
    refine ⟨str "Transactions found in " ++ natDigits s.files.length ++ str " files:\n", ?_, fun fs => ?_⟩
    rotate_left
    · simp only [List.append_assoc]
      with_reducible rfl

theorem statsReport_same (hz : Date → Str) {fs fs' : List Str} (hf : fs.Perm fs') (a : I64) {s s' : Stats} (h : s.SameSet s') :
    ∃ (pre post : Str) (files files' : List Str), files.Perm files' ∧
      statsReport hz fs a s = pre ++ (files.flatMap fun f => str "  " ++ f ++ str "\n") ++ post ∧
      statsReport hz fs' a s' = pre ++ (files'.flatMap fun f => str "  " ++ f ++ str "\n") ++ post := by
  obtain ⟨f1, l1, c1, a1, y1, g1, i1, x1⟩ := s
  obtain ⟨f2, l2, c2, a2, y2, g2, i2, x2⟩ := s'
  obtain ⟨r0, n1, n2, mm⟩ := h
  simp only [Stats.forget, Stats.mk.injEq, true_and] at r0
  obtain ⟨rfl, rfl, rfl, rfl, rfl, rfl, rfl⟩ := r0
  have hl : a1.length = a2.length := ((List.perm_ext_iff_of_nodup n1 n2).2 mm).length_eq
  rw [statsReport_accounts hz fs' a (s := ⟨f1, l1, c1, a1, y1, g1, i1, x1⟩) (s' := ⟨f1, l1, c1, a2, y1, g1, i1, x1⟩) rfl rfl rfl rfl rfl hl]
  obtain ⟨pre, post, h⟩ | h := statsReport_files hz a ⟨f1, l1, c1, a1, y1, g1, i1, x1⟩
  · exact ⟨pre, post, fs, fs', hf, h fs, h fs'⟩
  · rw [h fs fs']
    generalize statsReport hz fs' a _ = text
    exact ⟨text, [], [], [], List.Perm.refl _, by simp, by simp⟩

attribute [local irreducible] statsReport averageAge Stats.ages

/-- The statistics do not depend on the order of maps, except for the order in which the files are listed. -/
theorem C93_statistics_partial [Unicode] {m m' : Machine} (h : m.Reordered m') (o : Options) (args : List Str) :
    SameButFiles (m.run o .statistics args) (m'.run o .statistics args) := by
  rw [h.same]
  obtain ⟨_, p1, p2, s1, s2⟩ := h
  generalize m'.postingOrder = po at p2
  generalize m'.stringOrder = so at s2
  simp only [Machine.run]
  rcases makeFilters m.engine args with (f | f | f) | filters
  · exact SameButFiles.refl _
  · exact SameButFiles.refl _
  · exact SameButFiles.refl _
  · simp only [Machine.runFiltered]
    split
    · exact SameButFiles.refl _
    · have : Machine.rootPath { m with postingOrder := po, stringOrder := so } o = m.rootPath o := rfl
      rw [this]
      cases m.rootPath o with
      | none => exact SameButFiles.refl _
      | some p =>
        simp only
        cases m.fs p with
        | none => exact SameButFiles.refl _
        | some bytes =>
          simp only [Machine.runOn, statsCmd]
          have he : Machine.env { m with postingOrder := po, stringOrder := so } o filters = { m.env o filters with mapOrder := po } := rfl
          rw [he]
          generalize hE : m.env o filters = e
          have p1' : ∀ l, (e.mapOrder l).Perm l := by rw [← hE]; exact p1
          cases hd : e.dateError with
          | some x =>
            have hh : Env.statsHandlers { e with mapOrder := po } = e.statsHandlers := by
              unfold Env.statsHandlers
              congr 2
              funext u t f
              have k2 := (checkAgainstFilters_dateError e t).1 x hd
              have k3 := (checkAgainstFilters_dateError { e with mapOrder := po } t).1 x hd
              simp only [Env.statsHandler, k2, k3]
            rw [hh]
            have hn : ∀ s, runParse m.fs m.maxOpen bytes p e.statsHandlers {} = .ok s → s.SameSet s := by
              intro s hs
              obtain ⟨_, h2⟩ := runParse_replay.1 hs
              have k := (stats_replay_orders e p1' p1' (delivered m.fs m.maxOpen bytes p) {} {} ⟨rfl, List.nodup_nil, List.nodup_nil, fun _ => Iff.rfl⟩).2
              have h0 : ({ e with mapOrder := e.mapOrder } : Env) = e := rfl
              rw [h0, h2] at k
              exact k rfl
            rcases hr : runParse m.fs m.maxOpen bytes p e.statsHandlers {} with f | s
            · exact SameButFiles.refl _
            · simp only [Except.map, Machine.finish, List.nil_append]
              exact ⟨rfl, statsReport_same m.humanize ((s1 s.files).trans (s2 s.files).symm) _ (hn s hr)⟩
          | none =>
            obtain ⟨k1, k2⟩ := stats_replay_orders e p1' p2 (delivered m.fs m.maxOpen bytes p) {} {} ⟨rfl, List.nodup_nil, List.nodup_nil, fun _ => Iff.rfl⟩
            rcases runParse_pair m.fs m.maxOpen bytes p e.statsHandlers (Env.statsHandlers { e with mapOrder := po }) ({} : Stats) ({} : Stats) k1 (fun g hg => by
                rcases (stopped_cases e (delivered m.fs m.maxOpen bytes p) (c := .statistics) (by decide)).1 g hg with ⟨h, _⟩ | ⟨x, hx, _⟩
                · exact h
                · rw [hd] at hx; cases hx) with ⟨f, h1, h2⟩ | ⟨h0, h1, h2⟩
            · rw [h1, h2]; exact SameButFiles.refl _
            · rw [h1, h2]
              have k := k2 h0
              generalize (e.statsHandlers.replay (delivered m.fs m.maxOpen bytes p) {}).1 = s at k
              generalize ((Env.statsHandlers { e with mapOrder := po }).replay (delivered m.fs m.maxOpen bytes p) {}).1 = s' at k
              have hf : s.files = s'.files := (congrArg Stats.files k.rest : s.forget.files = s'.forget.files)
              have ha : s.ages m.sortDates = s'.ages m.sortDates := by
                have q1 : s.income = s'.income := (congrArg Stats.income k.rest : s.forget.income = s'.forget.income)
                have q2 : s.expense = s'.expense := (congrArg Stats.expense k.rest : s.forget.expense = s'.forget.expense)
                unfold Stats.ages
                rw [q1, q2]
              simp only [Except.map, Machine.finish, List.nil_append, ha]
              exact ⟨rfl, statsReport_same m.humanize (by rw [hf]; exact (s1 s'.files).trans (s2 s'.files).symm) _ k⟩

/-! ### Balances with filters, in one commodity -/

theorem written_one {c : Str} {ps : List Posting} (h : ∀ p ∈ ps, ∀ a ∈ p.amount, a.commodity = c) :
    writtenCommodities ps = List.replicate (writtenCommodities ps).length c := by
  rw [List.eq_replicate_iff]
  refine ⟨rfl, fun x hx => ?_⟩
  unfold writtenCommodities at hx
  obtain ⟨p, hp, hx⟩ := List.mem_filterMap.1 (List.mem_of_mem_filter hx)
  obtain ⟨a, ha, rfl⟩ := Option.map_eq_some_iff.1 hx
  exact h p hp a ha

theorem tally_one {c : Str} {ps qs : List Posting} (hp : ps.Perm qs) (h : ∀ p ∈ ps, ∀ a ∈ p.amount, a.commodity = c) : tally ps = tally qs := by
  have h1 := written_one h
  have h2 := written_one (ps := qs) fun p hq => h p (hp.mem_iff.2 hq)
  have hl : (writtenCommodities ps).length = (writtenCommodities qs).length :=
    ((hp.filterMap _).filter _).length_eq
  unfold tally firstCommodity
  rw [h1, h2, hl, (hp.map Posting.value).sum_eq]

theorem stopsBy_congr {one one' : List Str → Bool} {cs : List Str} (h : ∀ i, i < cs.length → one (cs.take i) = one' (cs.take i)) :
    stopsBy one cs = stopsBy one' cs := by
  unfold stopsBy
  apply List.filter_congr
  intro i hi
  rw [h i (List.mem_range.1 hi)]

theorem Shown.up {showZero : Bool} {ps : List Posting} {cs ds : List Str} (h : Shown showZero ps cs) (hd : ds <+: cs) : Shown showZero ps ds := by
  obtain ⟨h1, h2⟩ := h
  refine ⟨?_, h2.imp id fun h es he => h es (he.trans hd)⟩
  rcases h1 with rfl | ⟨p, hp, hc⟩
  · exact Or.inl (List.prefix_nil.1 hd)
  · exact Or.inr ⟨p, hp, hd.trans hc⟩

/-- Reports of the same selected postings, in one commodity, are equal. -/
theorem balance_text_unique [Unicode] {e e' : Env} (ho : ∀ l, (e.mapOrder l).Perm l) (ho' : ∀ l, (e'.mapOrder l).Perm l) {fs : FileSystem} {n : Nat}
    {bytes : List UInt8} {path text text' : Str} (showZero flatten collapse : Bool) (hsel : e.selected (delivered fs n bytes path) = e'.selected (delivered fs n bytes path))
    {c : Str} (hone : ∀ p ∈ e.selected (delivered fs n bytes path), ∀ a ∈ p.amount, a.commodity = c)
    (h : balanceCmd e showZero flatten collapse fs n bytes path = .ok text) (h' : balanceCmd e' showZero flatten collapse fs n bytes path = .ok text') :
    text = text' := by
  have tl : ∀ {ps qs : List Posting} (cs : List Str), ps.Perm (e.selected (delivered fs n bytes path)) → qs.Perm (e.selected (delivered fs n bytes path)) →
      tally (below cs ps) = tally (below cs qs) := by
    intro ps qs cs h1 h2
    refine tally_one (c := c) ((h1.trans h2.symm).filter _) fun p hp => hone p (h1.mem_iff.1 (List.mem_of_mem_filter hp))
  have tr : ∀ {ps qs : List Posting}, ps.Perm (e.selected (delivered fs n bytes path)) → qs.Perm (e.selected (delivered fs n bytes path)) → tally ps = tally qs := by
    intro ps qs h1 h2
    have := tl [] h1 h2
    rwa [below_nil, below_nil] at this
  have uniq : ∀ {L L' : List (List Str)} {P : List Str → Prop}, L.Pairwise PathLt → L'.Pairwise PathLt → (∀ cs, cs ∈ L ↔ P cs) → (∀ cs, cs ∈ L' ↔ P cs) → L = L' := by
    intro L L' P h1 h2 h3 h4
    exact pairwise_unique PathLt.irrefl (fun _ _ _ => PathLt.trans) h1 h2 fun x => (h3 x).trans (h4 x).symm
  cases flatten with
  | true =>
    obtain ⟨ps, L, a1, a2, a3, rfl⟩ := C63_flat e ho showZero collapse fs n bytes path text h
    obtain ⟨qs, L', b1, b2, b3, rfl⟩ := C63_flat e' ho' showZero collapse fs n bytes path text' h'
    rw [← hsel] at b1 b3
    have := uniq a2 b2 a3 b3
    subst this
    rw [tr a1 b1]
    congr 2
    apply List.map_congr_left
    intro cs _
    rw [tl cs a1 b1]
  | false =>
    cases collapse with
    | false =>
      obtain ⟨ps, L, a1, a2, a3, rfl⟩ := C63_tree e ho showZero fs n bytes path text h
      obtain ⟨qs, L', b1, b2, b3, rfl⟩ := C63_tree e' ho' showZero fs n bytes path text' h'
      rw [← hsel] at b1 b3
      have := uniq a2 b2 a3 b3
      subst this
      rw [tr a1 b1]
      congr 2
      apply List.map_congr_left
      intro cs _
      rw [tl cs a1 b1]
    | true =>
      obtain ⟨ps, L, one, a1, a2, a0, a3, rfl⟩ := C63_collapsed e ho showZero fs n bytes path text h
      obtain ⟨qs, L', one', b1, b2, b0, b3, rfl⟩ := C63_collapsed e' ho' showZero fs n bytes path text' h'
      rw [← hsel] at b1 b0 b3
      have h1 : ∀ cs, Shown showZero (e.selected (delivered fs n bytes path)) cs → one cs = one' cs := by
        intro cs hs
        have := (a0 cs hs).trans (b0 cs hs).symm
        cases h1 : one cs <;> cases h2 : one' cs <;> simp_all
      have := uniq a2 b2 a3 (fun cs => (b3 cs).trans ⟨fun ⟨x, y, z⟩ => ⟨x, y, by rw [h1 cs x]; exact z⟩, fun ⟨x, y, z⟩ => ⟨x, y, by rw [← h1 cs x]; exact z⟩⟩)
      subst this
      rw [tr a1 b1]
      congr 2
      apply List.map_congr_left
      intro cs hcs
      have hs := ((a3 cs).1 hcs).1
      have hst : stopsBy one cs = stopsBy one' cs := stopsBy_congr fun i _ => h1 _ (hs.up (List.take_prefix i cs))
      rw [tl cs a1 b1]
      simp only [levelBy, chainBy, hst]

/-- With filters, if everything selected is in one commodity, the balance report
does not depend on the order of maps. -/
theorem C93_one_commodity_partial [Unicode] {m m' : Machine} (h : m.Reordered m') (o : Options) (args : List Str) (filters : List Filter)
    (bytes : List UInt8) (path c : Str)
    (hone : ∀ p ∈ (m.env o filters).selected (delivered m.fs m.maxOpen bytes path), ∀ a ∈ p.amount, a.commodity = c) :
    m.runOn (m.env o filters) o args bytes path .balance = m'.runOn (m'.env o filters) o args bytes path .balance := by
  rw [h.same]
  obtain ⟨_, p1, p2, s1, s2⟩ := h
  generalize m'.postingOrder = po at p2
  generalize m'.stringOrder = so at s2
  have he : Machine.env { m with postingOrder := po, stringOrder := so } o filters = { m.env o filters with mapOrder := po } := rfl
  rw [he]
  generalize hE : m.env o filters = e at hone
  have p1' : ∀ l, (e.mapOrder l).Perm l := by rw [← hE]; exact p1
  have hsel : e.selected (delivered m.fs m.maxOpen bytes path) = Env.selected { e with mapOrder := po } (delivered m.fs m.maxOpen bytes path) := by
    unfold Env.selected
    congr 1
  have w1 := C73_one_commodity e p1' m.fs m.maxOpen bytes path c hone
  have w2 := C73_one_commodity { e with mapOrder := po } p2 m.fs m.maxOpen bytes path c (by rw [← hsel]; exact hone)
  simp only [Machine.runOn, w1, w2]
  show m.finish [] _ = m.finish [] _
  congr 1
  have hready : e.Ready (delivered m.fs m.maxOpen bytes path) ↔ Env.Ready { e with mapOrder := po } (delivered m.fs m.maxOpen bytes path) := by
    unfold Env.Ready
    rw [← hsel]
    rfl
  cases hd : e.dateError with
  | some x =>
    have hh : Env.balanceHandlers { e with mapOrder := po } = e.balanceHandlers := by
      unfold Env.balanceHandlers
      congr 2
      funext u t f
      have k2 := (checkAgainstFilters_dateError e t).1 x hd
      have k3 := (checkAgainstFilters_dateError { e with mapOrder := po } t).1 x hd
      simp only [Env.balanceHandler, k2, k3]
    simp only [balanceCmd, hh]
  | none =>
    have panics : ∀ e : Env, e.dateError = none → ∀ g, (e.balanceHandlers.replay (delivered m.fs m.maxOpen bytes path) newJournal).2 = some g →
        g = .panic .unusablePosting := by
      intro e hd g hg
      rcases (stopped_cases e (delivered m.fs m.maxOpen bytes path) (c := .balance) (by decide)).1 g hg with ⟨h, _⟩ | ⟨x, hx, _⟩
      · exact h
      · rw [hd] at hx; cases hx
    have r1 := balance_ready e p1' (delivered m.fs m.maxOpen bytes path) newJournal [] (newAccount_books _)
    have r2 := balance_ready { e with mapOrder := po } p2 (delivered m.fs m.maxOpen bytes path) newJournal [] (newAccount_books _)
    rw [← hready, ← r1] at r2
    have h2 : (e.balanceHandlers.replay (delivered m.fs m.maxOpen bytes path) newJournal).2 =
        ((Env.balanceHandlers { e with mapOrder := po }).replay (delivered m.fs m.maxOpen bytes path) newJournal).2 := by
      cases h1 : (e.balanceHandlers.replay (delivered m.fs m.maxOpen bytes path) newJournal).2 with
      | none => exact (r2.2 h1).symm
      | some g =>
        cases h3 : ((Env.balanceHandlers { e with mapOrder := po }).replay (delivered m.fs m.maxOpen bytes path) newJournal).2 with
        | none => rw [r2.1 h3] at h1; cases h1
        | some g' => rw [panics e hd g h1, panics { e with mapOrder := po } hd g' h3]
    rcases runParse_pair m.fs m.maxOpen bytes path e.balanceHandlers (Env.balanceHandlers { e with mapOrder := po }) newJournal newJournal h2 (panics e hd) with
      ⟨f, h3, h4⟩ | ⟨_, h3, h4⟩
    · simp only [balanceCmd, h3, h4]
    · cases h5 : balanceCmd e o.showZero o.flatten o.collapse m.fs m.maxOpen bytes path with
      | error f => simp only [balanceCmd, h3, Except.map] at h5; cases h5
      | ok text =>
        cases h6 : balanceCmd { e with mapOrder := po } o.showZero o.flatten o.collapse m.fs m.maxOpen bytes path with
        | error f => simp only [balanceCmd, h4, Except.map] at h6; cases h6
        | ok text' => exact congrArg Except.ok (balance_text_unique p1' p2 _ _ _ hsel hone h5 h6)

/-! ### Balances with filters, in several commodities -/

/-- A machine with one file, whose regular expressions match everything. -/
def matchAll (text : String) (order : List Posting → List Posting) (strings : List Str → List Str) : Machine :=
  { machineWith (str "f") text with engine := ⟨fun _ => some fun _ => true⟩, postingOrder := order, stringOrder := strings }

/-- With a filter that selects a dollar and a euro below the same account, the order decides which of them the account shows. -/
theorem C93_orders_false :
    ¬ ∀ (m m' : Machine) (o : Options) (c : Command) (args : List Str), letI := asciiUnicode
      m.Reordered m' → m.run o c args = m'.run o c args := by
  intro h
  have := h (matchAll "2020-01-01 x\n  A:B  $1\n  A:C  EUR1\n  D  -2\n" id id) (matchAll "2020-01-01 x\n  A:B  $1\n  A:C  EUR1\n  D  -2\n" List.reverse id)
    { file := str "f" } .balance [str "A"] ⟨rfl, fun l => List.Perm.refl l, fun l => List.reverse_perm l, fun l => List.Perm.refl l, fun l => List.Perm.refl l⟩
  revert this
  decide +kernel

/-- Two accounts and two payees in either order. -/
example :
    letI := asciiUnicode
    (matchAll "2020-01-01 y\n  A:B  $1\n  A:C  $-1\n\n2020-01-02 x\n  A:B  $1\n  A:C  $-1\n" id id).run { file := str "f" } .payees [] = ⟨str "x\ny\n", .exit 0⟩ ∧
    (matchAll "2020-01-01 y\n  A:B  $1\n  A:C  $-1\n\n2020-01-02 x\n  A:B  $1\n  A:C  $-1\n" id List.reverse).run { file := str "f" } .payees [] =
      ⟨str "x\ny\n", .exit 0⟩ := by
  decide +kernel

/-- The same journal with a filter: one commodity, the same balances in either order. -/
example :
    letI := asciiUnicode
    (matchAll "2020-01-01 y\n  A:B  $1\n  A:C  $2\n  D  $-3\n" id id).run { file := str "f" } .balance [str "A"] =
    (matchAll "2020-01-01 y\n  A:B  $1\n  A:C  $2\n  D  $-3\n" List.reverse id).run { file := str "f" } .balance [str "A"] ∧
    ((matchAll "2020-01-01 y\n  A:B  $1\n  A:C  $2\n  D  $-3\n" id id).run { file := str "f" } .balance [str "A"]).ending = .exit 0 := by
  decide +kernel

end Gledger
