/-
C85-C90: reports of parts add up, and reports agree with each other.
-/
import Verif.Props.Sources
import Verif.Props.Delivered

namespace Gledger

set_option maxRecDepth 100000

/-! ### When the balance command gets through -/

/-- The balance handlers can take these: the date flags can be read, and the selected postings carry amounts. -/
def Env.Ready (e : Env) (calls : List Call) : Prop :=
  (∀ tf ∈ normals calls, ∃ b, e.withinDateRange tf.1 = .ok b) ∧ ∀ p ∈ e.selected calls, p.amount ≠ none

theorem ready_append (e : Env) (a b : List Call) : e.Ready (a ++ b) ↔ e.Ready a ∧ e.Ready b := by
  unfold Env.Ready normals Env.selected
  rw [List.filterMap_append, List.flatMap_append]
  simp only [List.mem_append]
  constructor
  · rintro ⟨h1, h2⟩
    exact ⟨⟨fun x hx => h1 x (Or.inl hx), fun x hx => h2 x (Or.inl hx)⟩, fun x hx => h1 x (Or.inr hx), fun x hx => h2 x (Or.inr hx)⟩
  · rintro ⟨⟨h1, h2⟩, h3, h4⟩
    exact ⟨fun x hx => hx.elim (h1 x) (h3 x), fun x hx => hx.elim (h2 x) (h4 x)⟩

theorem balance_ready (e : Env) (ho : ∀ l, (e.mapOrder l).Perm l) (calls : List Call) : ∀ (j : Journal) (ps : List Posting), j.heap.Books ps →
    ((e.balanceHandlers.replay calls j).2 = none ↔ e.Ready calls) := by
  induction calls with
  | nil => intro j ps _; simp [Handlers.replay, Env.Ready, normals, Env.selected]
  | cons c calls ih =>
    intro j ps b
    rw [show c :: calls = [c] ++ calls from rfl, ready_append, List.singleton_append, Handlers.replay]
    cases c with
    | periodic pt f =>
      have h0 : e.Ready [.periodic pt f] := by simp [Env.Ready, normals, Env.selected, Env.selectedOf]
      simp only [Handlers.call, Env.balanceHandlers, Step.andThen]
      rw [show ((({ th := some e.balanceHandler, ph := _ } : Handlers Journal).replay calls (j.addPeriodicTransaction pt f)).2 = none) =
        ((e.balanceHandlers.replay calls (j.addPeriodicTransaction pt f)).2 = none) from rfl,
        ih _ ps (show (j.addPeriodicTransaction pt f).heap.Books ps from b)]
      simp [h0]
    | normal t f =>
      have hR : e.Ready [.normal t f] ↔ (∃ b, e.withinDateRange t = .ok b) ∧ ∀ p ∈ e.selectedOf (.normal t f), p.amount ≠ none := by
        simp [Env.Ready, normals, Env.selected]
      rw [hR]
      have hcall : e.balanceHandlers.call j (.normal t f) = e.balanceHandler j t f := rfl
      rw [hcall, Env.balanceHandler]
      rcases hr : e.withinDateRange t with err | _ | _
      · simp [Env.checkAgainstFilters, hr, Step.andThen]
      · rw [C44_out_of_range e t hr]
        simp only [List.length_nil, and_self, if_true, Step.andThen]
        rw [ih j ps b]
        simp [Env.selectedOf, hr]
      · obtain ⟨qs, h1, h2⟩ := C44_any_of e ho t hr
        have hso : e.selectedOf (.normal t f) = selection e.filters t := by simp [Env.selectedOf, hr]
        rw [h1, hso]
        simp only
        have hmem : ∀ p, p ∈ selection e.filters t ↔ p ∈ qs := fun p => h2.mem_iff.symm
        simp only [hmem]
        split
        · rename_i hc
          have h0 : qs = [] := by simpa using hc.2
          simp only [Step.andThen]
          rw [ih j ps b]
          simp [h0]
        · have bj : (j.addTransaction t f).heap.Books ps := b
          by_cases ha : ∀ p ∈ qs, p.amount ≠ none
          · obtain ⟨j2, h3, h4, _⟩ := addPostings_books t qs _ ps bj ha
            rw [h3]
            simp only [Step.andThen]
            rw [ih j2 _ h4]
            exact ⟨fun h => ⟨⟨⟨_, rfl⟩, ha⟩, h⟩, fun h => h.2⟩
          · have ha' := ha
            push Not at ha'
            rw [addPostings_panics t qs _ ps bj ha']
            refine ⟨fun h => ?_, fun h => absurd h.1.2 ha⟩
            simp [panicking, Step.andThen] at h

/-- The balance command reads a journal to the end exactly if the journal is accepted, the date flags can be read (should there be a
transaction), and all selected postings carry amounts. -/
theorem C61_runs_iff [Unicode] (e : Env) (ho : ∀ l, (e.mapOrder l).Perm l) (fs : FileSystem) (maxOpen : Nat) (bytes : List UInt8) (path : Str) :
    (∃ j, runParse fs maxOpen bytes path e.balanceHandlers newJournal = .ok j) ↔
      rejection fs maxOpen bytes path = none ∧ e.Ready (delivered fs maxOpen bytes path) := by
  rw [← balance_ready e ho _ newJournal [] (newAccount_books _)]
  simp only [runParse_replay]
  constructor
  · rintro ⟨j, h1, h2⟩; exact ⟨h1, by rw [h2]⟩
  · rintro ⟨h1, h2⟩; exact ⟨_, h1, Prod.ext rfl h2⟩

/-! ### C85: balances of the parts of a file -/

theorem delivered_parts [Unicode] (fs : FileSystem) (n : Nat) (path : Str) (a nl b : List UInt8) (ha : WholeLines a) (hnl : BlankLine nl)
    (hr : rejection fs n a path = none) :
    delivered fs n (a ++ (nl ++ b)) path = delivered fs n a path ++ delivered fs n b path ∧
    (rejection fs n (a ++ (nl ++ b)) path = none ↔ rejection fs n b path = none) := by
  obtain ⟨h1, -, h3⟩ := C15_files_compose fs idle n path () a nl b ha hnl (by rw [(idle_calls _ _ _ _).2]; exact hr)
  rw [(idle_calls _ _ _ _).1, (idle_calls _ _ _ _).1] at h1
  rw [(idle_calls _ _ _ _).2] at h3
  have hu : endStateOf fs idle n a path () = () := rfl
  rw [hu, (idle_calls _ _ _ _).1] at h1
  rw [hu, (idle_calls _ _ _ _).2] at h3
  exact ⟨h1, h3⟩

theorem below_append (cs : List Str) (ps qs : List Posting) : below cs (ps ++ qs) = below cs ps ++ below cs qs := List.filter_append ..

theorem exists_append {α : Type} (z : Prop) (P : α → Prop) (a b : List α) :
    (z ∨ ∃ p ∈ a ++ b, P p) ↔ (z ∨ ∃ p ∈ a, P p) ∨ (z ∨ ∃ p ∈ b, P p) := by
  constructor
  · rintro (h | ⟨p, h1, h2⟩)
    · exact Or.inl (Or.inl h)
    · rcases List.mem_append.1 h1 with h1 | h1
      · exact Or.inl (Or.inr ⟨p, h1, h2⟩)
      · exact Or.inr (Or.inr ⟨p, h1, h2⟩)
  · rintro ((h | ⟨p, h1, h2⟩) | (h | ⟨p, h1, h2⟩))
    · exact Or.inl h
    · exact Or.inr ⟨p, List.mem_append_left _ h1, h2⟩
    · exact Or.inl h
    · exact Or.inr ⟨p, List.mem_append_right _ h1, h2⟩

/-- A file of two parts separated by a blank line: the balance command reads it to the end exactly if it reads both parts to the end; and then
its accounts are those of the parts, and their balances are the sums. -/
theorem C85_parts_add [Unicode] (e : Env) (ho : ∀ l, (e.mapOrder l).Perm l) (fs : FileSystem) (maxOpen : Nat) (path : Str) (a nl b : List UInt8)
    (ha : WholeLines a) (hnl : BlankLine nl) (hr : rejection fs maxOpen a path = none) :
    ((∃ j, runParse fs maxOpen (a ++ (nl ++ b)) path e.balanceHandlers newJournal = .ok j) ↔
      (∃ j, runParse fs maxOpen a path e.balanceHandlers newJournal = .ok j) ∧ ∃ j, runParse fs maxOpen b path e.balanceHandlers newJournal = .ok j) ∧
    ∀ j ja jb, runParse fs maxOpen (a ++ (nl ++ b)) path e.balanceHandlers newJournal = .ok j →
      runParse fs maxOpen a path e.balanceHandlers newJournal = .ok ja → runParse fs maxOpen b path e.balanceHandlers newJournal = .ok jb →
      ∀ cs, (j.heap.Has cs ↔ ja.heap.Has cs ∨ jb.heap.Has cs) ∧
        (j.heap.amt cs).quantity = (ja.heap.amt cs).quantity + (jb.heap.amt cs).quantity := by
  obtain ⟨h1, h2⟩ := delivered_parts fs maxOpen path a nl b ha hnl hr
  have hsel : e.selected (delivered fs maxOpen (a ++ (nl ++ b)) path) =
      e.selected (delivered fs maxOpen a path) ++ e.selected (delivered fs maxOpen b path) := by
    rw [h1]; simp [Env.selected]
  refine ⟨?_, ?_⟩
  · rw [C61_runs_iff e ho, C61_runs_iff e ho, C61_runs_iff e ho, h1, h2, ready_append]
    simp only [hr, true_and]
    tauto
  · intro j ja jb hj hja hjb cs
    obtain ⟨a1, a2⟩ := C61_filtered_balance e ho fs maxOpen _ path j hj cs
    obtain ⟨b1, b2⟩ := C61_filtered_balance e ho fs maxOpen _ path ja hja cs
    obtain ⟨c1, c2⟩ := C61_filtered_balance e ho fs maxOpen _ path jb hjb cs
    rw [a1, a2, b1, b2, c1, c2, hsel, below_append, valueOf_append]
    exact ⟨exists_append _ _ _ _, rfl⟩

/-- The order of the parts does not matter. -/
theorem C85_parts_swap [Unicode] (e : Env) (ho : ∀ l, (e.mapOrder l).Perm l) (fs : FileSystem) (maxOpen : Nat) (path : Str) (a nl nl' b : List UInt8)
    (ha : WholeLines a) (hb : WholeLines b) (hnl : BlankLine nl) (hnl' : BlankLine nl') (j : Journal)
    (hr : rejection fs maxOpen a path = none)
    (hj : runParse fs maxOpen (a ++ (nl ++ b)) path e.balanceHandlers newJournal = .ok j) :
    ∃ j', runParse fs maxOpen (b ++ (nl' ++ a)) path e.balanceHandlers newJournal = .ok j' ∧
      ∀ cs, (j.heap.Has cs ↔ j'.heap.Has cs) ∧ (j.heap.amt cs).quantity = (j'.heap.amt cs).quantity := by
  obtain ⟨h1, h2⟩ := C85_parts_add e ho fs maxOpen path a nl b ha hnl hr
  obtain ⟨⟨ja, hja⟩, ⟨jb, hjb⟩⟩ := h1.1 ⟨j, hj⟩
  obtain ⟨g1, g2⟩ := C85_parts_add e ho fs maxOpen path b nl' a hb hnl' ((C61_runs_iff e ho ..).1 ⟨jb, hjb⟩).1
  obtain ⟨j', hj'⟩ := g1.2 ⟨⟨jb, hjb⟩, ⟨ja, hja⟩⟩
  refine ⟨j', hj', fun cs => ?_⟩
  obtain ⟨x1, x2⟩ := h2 j ja jb hj hja hjb cs
  obtain ⟨y1, y2⟩ := g2 j' jb ja hj' hjb hja cs
  exact ⟨by rw [x1, y1, or_comm], by rw [x2, y2, BitVec.add_comm]⟩

/-- A journal in two parts, each of which is read to the end. -/
example :
    letI := asciiUnicode
    let a := utf8 "2020-01-01 x\n  A:B  1\n  C\n"
    let b := utf8 "2020-01-02 y\n  A:D  2\n  C\n"
    WholeLines a ∧ WholeLines b ∧ rejection noFiles 1 a (str "f") = none ∧
    ((runParse noFiles 1 (a ++ ([10] ++ b)) (str "f") (Env.balanceHandlers {}) newJournal).toOption.map fun j =>
      [(j.heap.amt [str "A"]).quantity, (j.heap.amt [str "A", str "B"]).quantity, (j.heap.amt [str "C"]).quantity]) = some [300, 100, -300] := by
  decide +kernel

/-! ### C86: parts of a period -/

/-- The bounds that the flags set, if they can be read and `--current` is not given. -/
theorem range_iff {e : Env} (hc : e.current = false) {x y : Int} (hx : e.bound e.beginDate = .ok x) (hy : e.bound e.endDate = .ok y) (t : Transaction) :
    e.withinDateRange t = .ok (decide (x ≤ t.date.instant ∧ (y = 0 ∨ t.date.instant < y))) := by
  unfold Env.withinDateRange
  rw [hx, hy]
  simp only [hc, Bool.false_eq_true, if_false, Except.ok.injEq]
  rw [Bool.eq_iff_iff]
  simp only [Bool.and_eq_true, Bool.or_eq_true, decide_eq_true_eq]
  constructor
  · rintro ⟨h1, h2⟩; exact ⟨by omega, h2⟩
  · rintro ⟨h1, h2⟩; exact ⟨by omega, h2⟩

theorem picked_split (e : Env) (hc : e.current = false) (D : Str) (x y z : Int) (hx : e.bound e.beginDate = .ok x) (hy : e.bound e.endDate = .ok y)
    (hz : e.bound D = .ok z) (h0 : z ≠ 0) (h1 : x ≤ z) (h2 : y = 0 ∨ z ≤ y) (t : Transaction) :
    (e.InRange t ↔ { e with endDate := D }.InRange t ∨ { e with beginDate := D }.InRange t) ∧
    ¬ ({ e with endDate := D }.InRange t ∧ { e with beginDate := D }.InRange t) := by
  unfold Env.InRange
  rw [range_iff hc hx hy, range_iff (e := { e with endDate := D }) hc hx hz, range_iff (e := { e with beginDate := D }) hc hz hy]
  simp only [Except.ok.injEq, decide_eq_true_eq]
  omega

theorem filter_split {α : Type} {p q r : α → Bool} (h : ∀ a, p a = (q a || r a)) (hd : ∀ a, ¬ (q a = true ∧ r a = true)) (l : List α) :
    (l.filter p).Perm (l.filter q ++ l.filter r) := by
  induction l with
  | nil => simp
  | cons a l ih =>
    have h1 := h a
    have h2 := hd a
    rw [List.filter_cons, List.filter_cons, List.filter_cons, h1]
    cases hq : q a <;> cases hr : r a
    · simpa using ih
    · simpa using (ih.cons a).trans List.perm_middle.symm
    · simpa using ih
    · exact absurd ⟨hq, hr⟩ h2

/-- A period divided at a date: every transaction (with the postings selected of it) is in exactly one of the parts. -/
theorem C86_transactions (e : Env) (hc : e.current = false) (D : Str) (x y z : Int) (hx : e.bound e.beginDate = .ok x) (hy : e.bound e.endDate = .ok y)
    (hz : e.bound D = .ok z) (h0 : z ≠ 0) (h1 : x ≤ z) (h2 : y = 0 ∨ z ≤ y) (calls : List Call) :
    (e.picked calls).Perm ({ e with endDate := D }.picked calls ++ { e with beginDate := D }.picked calls) ∧
    (e.selected calls).Perm ({ e with endDate := D }.selected calls ++ { e with beginDate := D }.selected calls) := by
  have key := picked_split e hc D x y z hx hy hz h0 h1 h2
  refine ⟨?_, ?_⟩
  · refine filter_split ?_ ?_ _
    · intro tf
      have k := (key tf.1).1
      have w1 : { e with endDate := D }.Wanted tf.1 ↔ e.Wanted tf.1 := Iff.rfl
      have w2 : { e with beginDate := D }.Wanted tf.1 ↔ e.Wanted tf.1 := Iff.rfl
      rw [Bool.eq_iff_iff]
      simp only [Bool.or_eq_true, decide_eq_true_eq, w1, w2]
      tauto
    · intro tf
      have k := (key tf.1).2
      simp only [decide_eq_true_eq]
      tauto
  · induction calls with
    | nil => simp [Env.selected]
    | cons c calls ih =>
      have hcons : ∀ e : Env, e.selected (c :: calls) = e.selectedOf c ++ e.selected calls := fun e => by simp [Env.selected]
      rw [hcons, hcons, hcons]
      cases c with
      | periodic pt f => simpa [Env.selectedOf] using ih
      | normal t f =>
        obtain ⟨k1, k2⟩ := key t
        unfold Env.InRange at k1 k2
        simp only [Env.selectedOf]
        by_cases a1 : { e with endDate := D }.withinDateRange t = .ok true
        · have a2 : ¬ { e with beginDate := D }.withinDateRange t = .ok true := fun h => k2 ⟨a1, h⟩
          rw [if_pos (k1.2 (Or.inl a1)), if_pos a1, if_neg a2, List.nil_append, List.append_assoc]
          exact ih.append_left _
        · by_cases a2 : { e with beginDate := D }.withinDateRange t = .ok true
          · rw [if_pos (k1.2 (Or.inr a2)), if_neg a1, if_pos a2, List.nil_append]
            refine (ih.append_left _).trans ?_
            rw [← List.append_assoc, ← List.append_assoc]
            exact List.perm_append_comm.append_right _
          · rw [if_neg (fun h => (k1.1 h).elim a1 a2), if_neg a1, if_neg a2]
            exact ih

/-- The balances of the two parts of a period add up to those of the period. -/
theorem C86_periods_add [Unicode] (e : Env) (ho : ∀ l, (e.mapOrder l).Perm l) (hc : e.current = false) (D : Str) (x y z : Int)
    (hx : e.bound e.beginDate = .ok x) (hy : e.bound e.endDate = .ok y) (hz : e.bound D = .ok z) (h0 : z ≠ 0) (h1 : x ≤ z) (h2 : y = 0 ∨ z ≤ y)
    (fs : FileSystem) (maxOpen : Nat) (bytes : List UInt8) (path : Str) (j j1 j2 : Journal)
    (hj : runParse fs maxOpen bytes path e.balanceHandlers newJournal = .ok j)
    (hj1 : runParse fs maxOpen bytes path ({ e with endDate := D }.balanceHandlers) newJournal = .ok j1)
    (hj2 : runParse fs maxOpen bytes path ({ e with beginDate := D }.balanceHandlers) newJournal = .ok j2) (cs : List Str) :
    (j.heap.Has cs ↔ j1.heap.Has cs ∨ j2.heap.Has cs) ∧ (j.heap.amt cs).quantity = (j1.heap.amt cs).quantity + (j2.heap.amt cs).quantity := by
  obtain ⟨-, hp⟩ := C86_transactions e hc D x y z hx hy hz h0 h1 h2 (delivered fs maxOpen bytes path)
  obtain ⟨a1, a2⟩ := C61_filtered_balance e ho fs maxOpen _ path j hj cs
  obtain ⟨b1, b2⟩ := C61_filtered_balance { e with endDate := D } ho fs maxOpen _ path j1 hj1 cs
  obtain ⟨c1, c2⟩ := C61_filtered_balance { e with beginDate := D } ho fs maxOpen _ path j2 hj2 cs
  rw [a1, a2, b1, b2, c1, c2, below_perm hp cs, below_append, valueOf_append]
  refine ⟨?_, rfl⟩
  rw [← exists_append]
  simp only [hp.mem_iff]

/-- A journal and a year divided at the first of June. -/
example :
    letI := asciiUnicode
    let e : Env := { beginDate := str "2020-01-01", endDate := str "2021-01-01" }
    let text := utf8 "2020-01-01 x\n  A  1\n  B\n\n2020-06-01 y\n  A  2\n  B\n\n2021-01-01 z\n  A  4\n  B\n"
    let at' (e : Env) := (runParse noFiles 1 text (str "f") e.balanceHandlers newJournal).toOption.map fun j => (j.heap.amt [str "A"]).quantity
    (e.bound (str "2020-06-01")).toOption.isSome = true ∧ at' e = some 300 ∧ at' { e with endDate := str "2020-06-01" } = some 100 ∧
      at' { e with beginDate := str "2020-06-01" } = some 200 := by
  decide +kernel

/-! ### C87: the commands count alike -/

theorem strLt_nodup {L : List Str} (h : L.Pairwise StrLt) : L.Nodup := 
  List.Pairwise.imp (fun {a b} (h : StrLt a b) => show a ≠ b from fun hab => StrLt.irrefl a (hab ▸ h)) h

/-- Without filters: the statistics' numbers of accounts, payees and transactions are the numbers of lines of the accounts and the payees command
and the number of transactions that the print command prints. -/
theorem C87_counts [Unicode] (e : Env) (ho : ∀ l, (e.mapOrder l).Perm l) (hf : e.filters = []) (R : RegexEngine) (humanize : Date → Str)
    (order1 order2 order3 : List Str → List Str) (h1 : ∀ l, (order1 l).Perm l) (h2 : ∀ l, (order2 l).Perm l) (h3 : ∀ l, (order3 l).Perm l)
    (sortDates : List Date → List Date) (hs : SortsDates sortDates) (sort : List Transaction → List Transaction) (hs' : SortsByDate sort)
    (fs : FileSystem) (maxOpen : Nat) (bytes : List UInt8) (path accounts payees printed stats : Str)
    (ha : accountsCmd e order1 fs maxOpen bytes path = .ok accounts) (hp : payeesCmd e R [] order2 fs maxOpen bytes path = .ok payees)
    (ht : printCmd e sort fs maxOpen bytes path = .ok printed) (hst : statsCmd e humanize order3 sortDates fs maxOpen bytes path = .ok stats) :
    (accounts = [] ∧ payees = [] ∧ printed = [] ∧ stats = str "No transactions matched arguments.\n") ∨
    ∃ (as ps : List Str) (ts : List Transaction) (f : Figures),
      accounts = (as.map fun l => l ++ str "\n").flatten ∧ payees = (ps.map fun l => l ++ str "\n").flatten ∧
      printed = (ts.map fun t => t.format ++ str "\n").flatten ∧ stats = (f.lines humanize).flatMap (· ++ str "\n") ∧
      f.accounts = as.length ∧ f.payees = ps.length ∧ f.count = ts.length := by
  obtain ⟨as, a1, a2, a3⟩ := C51_accounts e order1 h1 fs maxOpen bytes path accounts ha
  obtain ⟨ps, p1, p2, p3⟩ := C52_payees e R [] order2 h2 fs maxOpen bytes path payees hp
  obtain ⟨ts, t1, -, t3⟩ := C49_print e ho sort hs' fs maxOpen bytes path printed ht
  have hw : ∀ t, WholeSelected e.filters t := fun t => Or.inl hf
  have hrange : e.ranged (delivered fs maxOpen bytes path) = (e.picked (delivered fs maxOpen bytes path)).map Prod.fst := by
    unfold Env.ranged Env.picked
    rw [List.filter_map]
    congr 1
    apply List.filter_congr
    intro tf _
    simp [Env.Wanted, hw]
  rw [hrange] at a3 p3
  have hS := C72_statistics_report e ho humanize order3 h3 sortDates hs fs maxOpen bytes path stats hst
  simp only at hS
  by_cases hts : e.picked (delivered fs maxOpen bytes path) = []
  · rw [if_pos hts] at hS
    rw [hts] at a3 p3 t1
    have b1 : as = [] := List.eq_nil_iff_forall_not_mem.2 fun a h => by have := (a3 a).1 h; simp at this
    have b2 : ps = [] := List.eq_nil_iff_forall_not_mem.2 fun a h => by have := (p3 a).1 h; simp at this
    have b3 : ts = [] := by simpa using t1
    left
    refine ⟨by rw [a2, b1]; rfl, by rw [p2, b2]; rfl, by rw [t3, b3]; rfl, hS⟩
  · rw [if_neg hts] at hS
    obtain ⟨f, F, hS⟩ := hS
    right
    refine ⟨as, ps, ts, f, a2, p2, t3, hS, ?_, ?_, ?_⟩
    · obtain ⟨l, n1, n2, n3⟩ := F.accounts
      rw [n3]
      refine List.Perm.length_eq ((List.perm_ext_iff_of_nodup n1 (strLt_nodup a1)).2 fun a => ?_)
      rw [n2, a3]
      have hsel : ∀ t, selection e.filters t = t.postings := fun t => if_pos (hw t)
      simp only [hsel]
      simp only [hf, true_or, and_true, List.mem_map, exists_exists_and_eq_and]
    · obtain ⟨l, n1, n2, n3⟩ := F.payees
      rw [n3]
      refine List.Perm.length_eq ((List.perm_ext_iff_of_nodup n1 (strLt_nodup p1)).2 fun a => ?_)
      rw [n2, p3]
      simp only [true_or, and_true, List.mem_map, exists_exists_and_eq_and]
    · rw [F.count, t1.length_eq, List.length_map]

/-- Three accounts, two payees, three transactions. -/
example :
    letI := asciiUnicode
    let j := utf8 "2020-01-01 x\n  A  10\n  Income:A\n\n2020-01-04 y\n  Expenses:B  2\n  A\n\n2020-01-05 x\n  Expenses:B  3\n  A\n"
    (statsCmd {} (fun _ => str "then") id (List.insertionSort fun a b => a.dayNumber ≤ b.dayNumber) noFiles 1 j (str "f")).toOption =
      some (str "Transactions found in 1 files:\n  f\nFirst transaction:\t2020-01-01 (then)\nLast transaction:\t2020-01-05 (then)\nTime period:\t\t4 days\nTransactions:\t\t3 (0.8 per day)\nUnique accounts:\t3\nUnique payees:\t\t2\nAge of money:\t\t4 days\n") ∧
    (accountsCmd {} id noFiles 1 j (str "f")).toOption = some (str "A\nExpenses:B\nIncome:A\n") ∧
    (payeesCmd {} ⟨fun _ => none⟩ [] id noFiles 1 j (str "f")).toOption = some (str "x\ny\n") ∧
    (printCmd {} (List.insertionSort fun a b => a.date.dayNumber ≤ b.date.dayNumber) noFiles 1 j (str "f")).toOption =
      some (str "2020-01-01   x\n    A    10.00\n    Income:A    -10.00\n\n2020-01-04   y\n    Expenses:B    2.00\n    A    -2.00\n\n2020-01-05   x\n    Expenses:B    3.00\n    A    -3.00\n\n") := by
  decide +kernel

/-! ### C88: the budget and the balances -/

/-- Sums over the months make the whole. -/
theorem worth_months (L : List Date) (hn : L.Nodup) (h1 : ∀ m ∈ L, m.day = 1) (es : List Filed)
    (hL : ∀ e ∈ es, (⟨e.date.year, e.date.month, 1⟩ : Date) ∈ L) :
    (L.map fun m => worth (inMonth m.year m.month es)).sum = worth es := by
  induction es with
  | nil => simp [inMonth, worth]
  | cons e es ih =>
    have hk : ∀ m ∈ L, worth (inMonth m.year m.month (e :: es)) =
        (if m = ⟨e.date.year, e.date.month, 1⟩ then e.posting.value else 0) + worth (inMonth m.year m.month es) := by
      intro m hm
      have := h1 m hm
      unfold inMonth
      rw [List.filter_cons]
      by_cases hc : e.date.year = m.year ∧ e.date.month = m.month
      · rw [if_pos (by simpa using hc), if_pos (by obtain ⟨y, mo, d⟩ := m; simp_all)]
        simp [worth]
      · rw [if_neg (by simpa using hc), if_neg (by rintro rfl; exact hc ⟨rfl, rfl⟩)]
        simp
    rw [List.map_congr_left hk, List.sum_map_add, ih fun x hx => hL x (by simp [hx])]
    have : (L.map fun m => if m = ⟨e.date.year, e.date.month, 1⟩ then e.posting.value else 0).sum = e.posting.value := by
      have hm := hL e (by simp)
      clear hL ih hk
      induction L with
      | nil => cases hm
      | cons m L ih =>
        rw [List.map_cons, List.sum_cons]
        rw [List.nodup_cons] at hn
        by_cases hc : m = ⟨e.date.year, e.date.month, 1⟩
        · rw [if_pos hc]
          have : (L.map fun m => if m = ⟨e.date.year, e.date.month, 1⟩ then e.posting.value else 0) = L.map fun _ => 0 := by
            apply List.map_congr_left
            intro x hx
            rw [if_neg]
            rintro rfl
            exact hn.1 (hc ▸ hx)
          rw [this]
          simp
        · rw [if_neg hc, ih hn.2 (fun x hx => h1 x (by simp [hx])) (by
            rcases List.mem_cons.1 hm with h | h
            · exact absurd h.symm hc
            · exact h)]
          simp
    rw [this]
    simp [worth]

theorem inMonth_filter (y : Int) (m : Nat) (es : List Filed) (p : Filed → Bool) : (inMonth y m es).filter p = inMonth y m (es.filter p) := by
  unfold inMonth
  rw [List.filter_filter, List.filter_filter]
  congr 1
  funext e
  exact Bool.and_comm _ _

theorem split_nonempty (sep : Char) (s : Str) : split sep s ≠ [] := by
  cases s with
  | nil => simp [split]
  | cons c cs =>
    rw [split]
    split
    · simp
    · split <;> simp

theorem taken_below (X Y : Str) (hne : X ≠ Y) (date : Date) (cs : List Str) (ps : List Posting) :
    let es : List Filed := ps.filterMap fun p =>
      if p.components.headD [] = X then some ⟨date, p, .expense⟩ else if p.components.headD [] = Y then some ⟨date, p, .income⟩ else none
    worth (es.filter fun e => e.type = .expense ∧ e.Under cs) = valueOf (below (X :: cs) ps) ∧
    worth (es.filter fun e => e.type = .income) = valueOf (below [Y] ps) := by
  intro es
  induction ps with
  | nil => exact ⟨rfl, rfl⟩
  | cons p ps ih =>
    obtain ⟨c, ds, hcd⟩ : ∃ c ds, p.components = c :: ds := by
      cases h : p.components with
      | nil => exact absurd h (split_nonempty _ _)
      | cons c ds => exact ⟨c, ds, rfl⟩
    have hb1 : below (X :: cs) (p :: ps) = (if X = c ∧ cs <+: ds then [p] else []) ++ below (X :: cs) ps := by
      unfold below
      rw [List.filter_cons, hcd]
      by_cases h : X = c ∧ cs <+: ds
      · rw [if_pos h, if_pos (decide_eq_true (List.cons_prefix_cons.2 h))]; rfl
      · rw [if_neg h, if_neg (by rw [decide_eq_true_eq, List.cons_prefix_cons]; exact h)]; rfl
    have hb2 : below [Y] (p :: ps) = (if Y = c then [p] else []) ++ below [Y] ps := by
      unfold below
      rw [List.filter_cons, hcd]
      by_cases h : Y = c
      · rw [if_pos h, if_pos (decide_eq_true (List.cons_prefix_cons.2 ⟨h, List.nil_prefix⟩))]; rfl
      · rw [if_neg h, if_neg (by rw [decide_eq_true_eq, List.cons_prefix_cons]; exact fun hc => h hc.1)]; rfl
    rw [hb1, hb2, valueOf_append, valueOf_append, ← ih.1, ← ih.2]
    have hes : es = (if c = X then [⟨date, p, .expense⟩] else if c = Y then [⟨date, p, .income⟩] else []) ++ ps.filterMap fun p =>
        if p.components.headD [] = X then some ⟨date, p, .expense⟩ else if p.components.headD [] = Y then some ⟨date, p, .income⟩ else none := by
      simp only [es, List.filterMap_cons, hcd, List.headD_cons]
      by_cases h1 : c = X
      · rw [if_pos h1, if_pos h1]; rfl
      · rw [if_neg h1, if_neg h1]
        by_cases h2 : c = Y
        · rw [if_pos h2, if_pos h2]; rfl
        · rw [if_neg h2, if_neg h2]; rfl
    rw [hes, List.filter_append, List.filter_append, worth_append, worth_append]
    suffices h : worth ((if c = X then [⟨date, p, .expense⟩] else if c = Y then [⟨date, p, .income⟩] else [] : List Filed).filter
          fun e => e.type = .expense ∧ e.Under cs) = valueOf (if X = c ∧ cs <+: ds then [p] else []) ∧
        worth ((if c = X then [⟨date, p, .expense⟩] else if c = Y then [⟨date, p, .income⟩] else [] : List Filed).filter
          fun e => e.type = .income) = valueOf (if Y = c then [p] else []) by
      rw [h.1, h.2]; exact ⟨rfl, rfl⟩
    have hu : (⟨date, p, .expense⟩ : Filed).Under cs ↔ cs <+: ds := by simp [Filed.Under, Filed.category, hcd]
    by_cases h1 : c = X
    · subst h1
      rw [if_pos rfl, if_neg (Ne.symm hne)]
      by_cases h3 : cs <+: ds
      · simp [hu, h3, worth, valueOf]
      · simp [hu, h3, worth, valueOf]
    · rw [if_neg h1, if_neg (fun h : X = c ∧ _ => h1 h.1.symm)]
      by_cases h2 : c = Y
      · subst h2
        simp [worth, valueOf]
      · rw [if_neg h2, if_neg (Ne.symm h2)]
        exact ⟨rfl, rfl⟩

/-- What the budget takes of the normal transactions, as postings. -/
theorem filed_below (e : Env) (calls : List Call) (cs : List Str) :
    worth ((e.filed calls).filter fun e => e.type = .expense ∧ e.Under cs) = valueOf (below (expensesID :: cs) (e.selected calls)) ∧
    worth ((e.filed calls).filter fun e => e.type = .income) = valueOf (below [incomeID] (e.selected calls)) := by
  induction calls with
  | nil => exact ⟨rfl, rfl⟩
  | cons c calls ih =>
    have e1 : e.filed (c :: calls) = e.filedOf c ++ e.filed calls := by simp [Env.filed]
    have e2 : e.selected (c :: calls) = e.selectedOf c ++ e.selected calls := by simp [Env.selected]
    rw [e1, e2, List.filter_append, List.filter_append, worth_append, worth_append, below_append, below_append, valueOf_append, valueOf_append,
      ih.1, ih.2]
    suffices h : worth ((e.filedOf c).filter fun e => e.type = .expense ∧ e.Under cs) = valueOf (below (expensesID :: cs) (e.selectedOf c)) ∧
        worth ((e.filedOf c).filter fun e => e.type = .income) = valueOf (below [incomeID] (e.selectedOf c)) by
      rw [h.1, h.2]; exact ⟨rfl, rfl⟩
    cases c with
    | periodic pt f =>
      simp only [Env.filedOf, Env.selectedOf]
      split
      · simp [worth, below, valueOf, List.filter_map, Function.comp_def]
      · exact ⟨rfl, rfl⟩
    | normal t f => exact taken_below expensesID incomeID (by decide) t.date cs _

theorem sum_neg {α : Type} (l : List α) (f : α → I64) : (l.map fun a => - f a).sum = - (l.map f).sum := by
  induction l with
  | nil => simp
  | cons a l ih => rw [List.map_cons, List.map_cons, List.sum_cons, List.sum_cons, ih]; ring

/-- With the same flags and filters, what the months of the budget have as spent on a category is, over all months, minus the balance of the
account of that name under Expenses; and the months' incomes make up minus the balance of Income. -/
theorem C88_budget_balance [Unicode] (e : Env) (ho : ∀ l, (e.mapOrder l).Perm l) (fs : FileSystem) (maxOpen : Nat) (bytes : List UInt8) (path : Str)
    (b : Budget) (j : Journal) (hb : runParse fs maxOpen bytes path e.budgetHandlers [] = .ok b)
    (hj : runParse fs maxOpen bytes path e.balanceHandlers newJournal = .ok j) :
    (∀ cs, cs ≠ [] → (b.map fun m => (m.2.expense.amt cs).quantity).sum = - (j.heap.amt (expensesID :: cs)).quantity) ∧
    (b.map fun m => m.2.income.quantity).sum = - (j.heap.amt [incomeID]).quantity := by
  obtain ⟨es, p1, a1, d1⟩ := budget_command e ho fs maxOpen bytes path b hb
  obtain ⟨m1, m2⟩ := addEach_monthly es (b := []) ⟨by simp, by simp⟩ d1 a1
  have hget : ∀ m ∈ b, m.1.day = 1 ∧ b.get m.1 = some m.2 := by
    intro m hm
    refine ⟨m2 _ (List.mem_map_of_mem hm), ?_⟩
    unfold Budget.get
    clear a1 m2 hb
    induction b with
    | nil => cases hm
    | cons k b ih =>
      rw [List.map_cons, List.nodup_cons] at m1
      rw [List.find?_cons]
      by_cases hk : k.1 = m.1
      · rw [decide_eq_true hk]
        rcases List.mem_cons.1 hm with rfl | hm
        · rfl
        · exact absurd (hk ▸ List.mem_map_of_mem hm) m1.1
      · rw [decide_eq_false hk]
        rcases List.mem_cons.1 hm with rfl | hm
        · exact absurd rfl hk
        · exact ih m1.2 hm
  have hsum : ∀ m ∈ b, (∀ cs, cs ≠ [] → (m.2.expense.amt cs).quantity = - spent cs (inMonth m.1.year m.1.month es)) ∧
      m.2.income.quantity = earned (inMonth m.1.year m.1.month es) := by
    intro m hm
    obtain ⟨g1, g2⟩ := hget m hm
    have hk : m.1 = ⟨m.1.year, m.1.month, 1⟩ := by obtain ⟨⟨y, mo, d⟩, bm⟩ := m; simp at g1 ⊢; exact g1
    have := (C56_month_sums d1 a1 m.1.year m.1.month).2 m.2 (hk ▸ g2)
    exact ⟨this.2.1, this.2.2.1⟩
  have hmem : ∀ x ∈ es, (⟨x.date.year, x.date.month, 1⟩ : Date) ∈ b.map (·.1) := by
    intro x hx
    rw [mem_months, ne_eq, (C56_month_sums d1 a1 x.date.year x.date.month).1]
    intro h0
    have : x ∈ inMonth x.date.year x.date.month es := by simp [inMonth, hx]
    rw [h0] at this
    cases this
  have key : ∀ p : Filed → Bool, (b.map fun m => - worth ((inMonth m.1.year m.1.month es).filter p)).sum = - worth (es.filter p) := by
    intro p
    rw [sum_neg, ← worth_months (b.map (·.1)) m1 m2 (es.filter p) fun x hx => hmem x (List.mem_filter.1 hx).1, List.map_map]
    simp only [inMonth_filter, Function.comp_def]
  obtain ⟨-, c2⟩ := C61_filtered_balance e ho fs maxOpen _ path j hj [incomeID]
  refine ⟨fun cs hcs => ?_, ?_⟩
  · obtain ⟨-, c1⟩ := C61_filtered_balance e ho fs maxOpen _ path j hj (expensesID :: cs)
    rw [List.map_congr_left fun m hm => (hsum m hm).1 cs hcs, c1, ← (filed_below e _ cs).1, ← worth_perm (p1.filter _)]
    exact key _
  · rw [List.map_congr_left fun m hm => (hsum m hm).2, c2, ← (filed_below e _ []).2, ← worth_perm (p1.filter _)]
    exact key _

/-- A journal over two months. -/
example :
    letI := asciiUnicode
    let text := utf8 "2020-01-01 x\n  Expenses:Food  1\n  Cash\n\n2020-02-01 y\n  Expenses:Food:Out  2\n  Income  -5\n  Cash\n"
    ((runParse noFiles 1 text (str "f") (Env.budgetHandlers {}) []).toOption.map fun b =>
      b.map fun m => ((m.2.expense.amt [str "Food"]).quantity, m.2.income.quantity)) = some [(-100, 0), (-200, 500)] ∧
    ((runParse noFiles 1 text (str "f") (Env.balanceHandlers {}) newJournal).toOption.map fun j =>
      ((j.heap.amt [str "Expenses", str "Food"]).quantity, (j.heap.amt [str "Income"]).quantity)) = some (300, -500) := by
  decide +kernel

/-! ### C89: the balances of what is printed -/

theorem selected_printed (e : Env) (calls : List Call) (path : Str) :
    e.selected (((e.picked calls).map Prod.fst).map fun t => .normal t.plain path) = e.selected calls := by
  induction calls with
  | nil => rfl
  | cons c calls ih =>
    have hcons : ∀ c (l : List Call), e.selected (c :: l) = e.selectedOf c ++ e.selected l := fun c l => by simp [Env.selected]
    cases c with
    | periodic pt f => rw [hcons, show e.picked (.periodic pt f :: calls) = e.picked calls from rfl, ih]; rfl
    | normal t f =>
      rw [hcons]
      have hp : e.picked (.normal t f :: calls) = (if e.InRange t ∧ e.Wanted t then [(t, f)] else []) ++ e.picked calls := by
        rw [Env.picked, show normals (.normal t f :: calls) = (t, f) :: normals calls from rfl, List.filter_cons]
        by_cases h : e.InRange t ∧ e.Wanted t
        · rw [if_pos h, if_pos (by simpa using h)]; rfl
        · rw [if_neg h, if_neg (by simpa using h)]; rfl
      rw [hp]
      by_cases h : e.InRange t ∧ e.Wanted t
      · rw [if_pos h, List.singleton_append, List.map_cons, List.map_cons, hcons, ih]
        rfl
      · rw [if_neg h, List.nil_append, ih]
        have : e.selectedOf (.normal t f) = [] := by
          rw [Env.selectedOf]
          split
          · rename_i hr
            have hw : ¬ e.Wanted t := fun hw => h ⟨hr, hw⟩
            unfold Env.Wanted at hw
            push Not at hw
            rw [selection, if_neg hw.1, List.filter_eq_nil_iff]
            intro p hp
            simpa using hw.2 p hp
          · rfl
        rw [this, List.nil_append]

/-- The balance command shows for what the print command has printed the accounts and quantities that it shows for the journal itself, with the
same flags and filters. -/
theorem C89_printed_balance [Unicode] (e : Env) (ho : ∀ l, (e.mapOrder l).Perm l) (sort : List Transaction → List Transaction) (hs : SortsByDate sort)
    (fs fs' : FileSystem) (maxOpen maxOpen' : Nat) (bytes : List UInt8) (path path' text : Str) (h : printCmd e sort fs maxOpen bytes path = .ok text)
    (hp : ∀ t ∈ (e.picked (delivered fs maxOpen bytes path)).map Prod.fst, t.Printable ∧ Fits t.written.lines)
    (j : Journal) (hj : runParse fs maxOpen bytes path e.balanceHandlers newJournal = .ok j) :
    ∃ j', runParse fs' maxOpen' (encode text) path' e.balanceHandlers newJournal = .ok j' ∧
      ∀ cs, (j'.heap.Has cs ↔ j.heap.Has cs) ∧ (j'.heap.amt cs).quantity = (j.heap.amt cs).quantity := by
  obtain ⟨ts, t1, -, -, t4, t5⟩ := C66_printed_is_journal e ho sort hs fs fs' maxOpen maxOpen' bytes path path' text h hp
  have hperm : (e.selected (delivered fs' maxOpen' (encode text) path')).Perm (e.selected (delivered fs maxOpen bytes path)) := by
    rw [t4, ← selected_printed e (delivered fs maxOpen bytes path) path']
    exact (t1.map _).flatMap_right _
  have hr := ((C61_runs_iff e ho ..).1 ⟨j, hj⟩).2
  obtain ⟨j', hj'⟩ := (C61_runs_iff e ho fs' maxOpen' (encode text) path').2 ⟨t5, by
    refine ⟨?_, fun p hp => hr.2 p (hperm.mem_iff.1 hp)⟩
    intro tf htf
    rw [t4] at htf
    obtain ⟨c, hc, hcc⟩ := List.mem_filterMap.1 htf
    obtain ⟨t, ht, rfl⟩ := List.mem_map.1 hc
    have := t1.mem_iff.1 ht
    obtain ⟨tf', h1, rfl⟩ := List.mem_map.1 this
    have h2 := (List.mem_filter.1 h1).2
    simp only [Bool.decide_and, Bool.and_eq_true, decide_eq_true_eq] at h2
    exact range_uniform h2.1 _⟩
  refine ⟨j', hj', fun cs => ?_⟩
  obtain ⟨x1, x2⟩ := C61_filtered_balance e ho fs' maxOpen' _ path' j' hj' cs
  obtain ⟨y1, y2⟩ := C61_filtered_balance e ho fs maxOpen _ path j hj cs
  rw [x1, x2, y1, y2, below_perm hperm cs]
  exact ⟨by simp only [hperm.mem_iff], rfl⟩

/-- A journal that print can write, and its balances with a filter that selects one posting of a transaction. -/
example :
    letI := asciiUnicode
    let text := utf8 "2020-03-01 b\n\tB   1\n\tA\n2020-02-29 a\n  C  10\n  D\n"
    let e : Env := { filters := [{ regex := fun s => s == str "B", ftype := .accountName }] }
    let sort := List.insertionSort fun (a b : Transaction) => a.date.dayNumber ≤ b.date.dayNumber
    let out := str "2020-03-01   b\n    B    1.00\n    A    -1.00\n\n"
    (∀ t ∈ (e.picked (delivered noFiles 1 text (str "f"))).map Prod.fst, t.Printable ∧ Fits t.written.lines) ∧
    printCmd e sort noFiles 1 text (str "f") = .ok out ∧
    [text, encode out].map (fun s => (runParse noFiles 1 s (str "f") e.balanceHandlers newJournal).toOption.map fun j =>
      ((j.heap.amt [str "B"]).quantity, (j.heap.amt []).quantity)) = [some (100, 100), some (100, 100)] := by
  decide +kernel

/-! ### C90: the accounts command and the tree -/

/-- Without filters: the accounts in the balance tree are the accounts that the accounts command lists and those above them. -/
theorem C90_accounts_tree [Unicode] (e : Env) (ho : ∀ l, (e.mapOrder l).Perm l) (hf : e.filters = []) (order : List Str → List Str)
    (h1 : ∀ l, (order l).Perm l) (fs : FileSystem) (maxOpen : Nat) (bytes : List UInt8) (path text : Str) (j : Journal)
    (ha : accountsCmd e order fs maxOpen bytes path = .ok text) (hj : runParse fs maxOpen bytes path e.balanceHandlers newJournal = .ok j) :
    ∃ as : List Str, as.Pairwise StrLt ∧ text = (as.map fun l => l ++ str "\n").flatten ∧
      ∀ cs, j.heap.Has cs ↔ cs = [] ∨ ∃ a ∈ as, cs <+: split ':' a := by
  obtain ⟨as, a1, a2, a3⟩ := C51_accounts e order h1 fs maxOpen bytes path text ha
  refine ⟨as, a1, a2, fun cs => ?_⟩
  rw [(C61_filtered_balance e ho fs maxOpen _ path j hj cs).1]
  have hm : ∀ p, p ∈ e.selected (delivered fs maxOpen bytes path) ↔ ∃ t ∈ e.ranged (delivered fs maxOpen bytes path), p ∈ t.postings := by
    intro p
    generalize delivered fs maxOpen bytes path = calls
    have hsel : ∀ t, selection e.filters t = t.postings := fun t => if_pos (Or.inl hf)
    simp only [Env.selected, Env.ranged, normals, List.mem_flatMap, List.mem_filter, List.mem_map, List.mem_filterMap, decide_eq_true_eq]
    constructor
    · rintro ⟨c, hc, hp⟩
      cases c with
      | periodic pt f => cases hp
      | normal t f =>
        simp only [Env.selectedOf, hsel] at hp
        split at hp
        · rename_i hr
          exact ⟨t, ⟨⟨(t, f), ⟨_, hc, rfl⟩, rfl⟩, hr⟩, hp⟩
        · cases hp
    · rintro ⟨t, ⟨⟨⟨t', f⟩, ⟨c, hc, hcc⟩, rfl⟩, hr⟩, hp⟩
      refine ⟨c, hc, ?_⟩
      cases c with
      | periodic pt g => cases hcc
      | normal u g =>
        cases hcc
        simp only [Env.selectedOf, hsel]
        rw [if_pos (show e.withinDateRange t' = .ok true from hr)]
        exact hp
  simp only [hm, a3, hf, true_or, and_true]
  constructor
  · rintro (h | ⟨p, ⟨t, ht, hp⟩, hc⟩)
    · exact Or.inl h
    · exact Or.inr ⟨_, ⟨t, ht, p, hp, rfl⟩, hc⟩
  · rintro (h | ⟨a, ⟨t, ht, p, hp, rfl⟩, hc⟩)
    · exact Or.inl h
    · exact Or.inr ⟨p, ⟨t, ht, hp⟩, hc⟩

/-- The account between two listed ones is in the tree and not in the list. -/
example :
    letI := asciiUnicode
    let j := utf8 "2020-01-01 x\n  A  10\n  A:B:C\n"
    (accountsCmd {} id noFiles 1 j (str "f")).toOption = some (str "A\nA:B:C\n") ∧
    ((runParse noFiles 1 j (str "f") (Env.balanceHandlers {}) newJournal).toOption.map fun j => (j.heap.amt [str "A", str "B"]).quantity) = some (-1000) := by
  decide +kernel

end Gledger
