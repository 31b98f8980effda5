/-
C119: the commands on what the print command has printed.
-/
import Verif.Props.Rearranged
import Verif.Props.Adding

namespace Gledger

set_option maxRecDepth 100000

/-- Whatever the command is asked about is among what is printed. -/
def Command.Kept (c : Command) (e printing : Env) (calls : List Call) : Prop := ∀ x ∈ calls, c.Heeds e x → Command.print.Heeds printing x

instance (c : Command) (e printing : Env) (calls : List Call) : Decidable (c.Kept e printing calls) := by unfold Command.Kept; infer_instance

/-- The calls that deliver these transactions from a file. -/
def retold (path : Str) (ts : List Transaction) : List Call := ts.map fun t => .normal t.plain path

theorem normals_retold (path : Str) (ts : List Transaction) : normals (retold path ts) = ts.map fun t => (t.plain, path) := by
  induction ts with
  | nil => rfl
  | cons t ts ih => exact congrArg ((t.plain, path) :: ·) ih

/-- The transactions of a journal, among which are the printed ones. -/
def Printed (printing : Env) (calls : List Call) (ts : List Transaction) : Prop := ts.Perm ((printing.picked calls).map Prod.fst)

theorem picked_fst (e : Env) (calls : List Call) : (e.picked calls).map Prod.fst = ((normals calls).map Prod.fst).filter fun t => e.InRange t ∧ e.Wanted t := by
  rw [Env.picked, List.filter_map]
  rfl

theorem mem_normals {t : Transaction} {f : Str} {calls : List Call} : (t, f) ∈ normals calls ↔ Call.normal t f ∈ calls := by
  unfold normals
  rw [List.mem_filterMap]
  constructor
  · rintro ⟨c, hc, h⟩
    cases c with
    | normal u g => cases h; exact hc
    | periodic _ _ => cases h
  · intro h
    exact ⟨_, h, rfl⟩

section
variable {e printing : Env} {calls : List Call} {ts : List Transaction} (path : Str)

theorem kept_filter (h : Printed printing calls ts) {P : Transaction → Prop} [DecidablePred P]
    (hk : ∀ t f, Call.normal t f ∈ calls → P t → printing.InRange t ∧ printing.Wanted t) :
    (ts.filter fun t => P t).Perm (((normals calls).map Prod.fst).filter fun t => P t) := by
  have := h.filter fun t => P t
  rw [picked_fst, List.filter_filter] at this
  refine this.trans (List.Perm.of_eq (List.filter_congr ?_))
  intro t ht
  obtain ⟨⟨u, f⟩, hu, rfl⟩ := List.mem_map.1 ht
  have := hk u f (mem_normals.1 hu)
  by_cases hp : P u
  · simp [hp, this hp]
  · simp [hp]

theorem ranged_retold (h : Printed printing calls ts) (hk : ∀ t f, Call.normal t f ∈ calls → e.InRange t → printing.InRange t ∧ printing.Wanted t) :
    (e.ranged (retold path ts)).Perm ((e.ranged calls).map Transaction.plain) := by
  rw [Env.ranged, Env.ranged, normals_retold, List.map_map,
    show (Prod.fst ∘ fun t : Transaction => (t.plain, path)) = Transaction.plain from rfl, List.filter_map]
  exact (kept_filter h hk).map _

theorem picked_retold (h : Printed printing calls ts)
    (hk : ∀ t f, Call.normal t f ∈ calls → (e.InRange t ∧ e.Wanted t) → printing.InRange t ∧ printing.Wanted t) :
    ((e.picked (retold path ts)).map Prod.fst).Perm (((e.picked calls).map Prod.fst).map Transaction.plain) := by
  rw [picked_fst, picked_fst, normals_retold, List.map_map,
    show (Prod.fst ∘ fun t : Transaction => (t.plain, path)) = Transaction.plain from rfl, List.filter_map]
  exact (kept_filter h hk).map _

theorem flatMap_filter_of_nil {α β : Type} (g : α → List β) (P : α → Prop) [DecidablePred P] (l : List α) (h : ∀ a ∈ l, g a ≠ [] → P a) :
    (l.filter fun a => P a).flatMap g = l.flatMap g := by
  induction l with
  | nil => rfl
  | cons a l ih =>
    have ih := ih fun b hb => h b (List.mem_cons_of_mem _ hb)
    by_cases hp : P a
    · rw [List.filter_cons_of_pos (by simpa using hp), List.flatMap_cons, List.flatMap_cons, ih]
    · rw [List.filter_cons_of_neg (by simpa using hp), List.flatMap_cons, ih]
      have : g a = [] := by
        by_contra hn
        exact hp (h a (by simp) hn)
      rw [this, List.nil_append]

/-- What is taken from the calls one by one is taken from the printed ones, if it is taken from no others. -/
theorem taken_retold {β : Type} (g : Call → List β) (hg : ∀ t f, g (.normal t.plain path) = g (.normal t f)) (h : Printed printing calls ts)
    (hk : ∀ x ∈ calls, g x ≠ [] → Command.print.Heeds printing x) : ((retold path ts).flatMap g).Perm (calls.flatMap g) := by
  have h1 : (retold path ts).flatMap g = ts.flatMap fun t => g (.normal t path) := by
    rw [retold, List.flatMap_map]
    exact List.flatMap_congr fun t _ => hg t path
  have hn : ∀ t f, g (.normal t f) = g (.normal t path) := fun t f => by rw [← hg t f, hg t path]
  have h2 : calls.flatMap g = ((normals calls).map Prod.fst).flatMap fun t => g (.normal t path) := by
    clear h h1
    induction calls with
    | nil => rfl
    | cons c calls ih =>
      have ih := ih fun x hx => hk x (List.mem_cons_of_mem _ hx)
      cases c with
      | normal t f =>
        rw [show normals (.normal t f :: calls) = (t, f) :: normals calls from rfl, List.flatMap_cons, List.map_cons, List.flatMap_cons, ih, hn]
      | periodic pt f =>
        rw [show normals (.periodic pt f :: calls) = normals calls from rfl, List.flatMap_cons, ih]
        have : g (.periodic pt f) = [] := by
          by_contra hne
          exact hk _ (by simp) hne
        rw [this, List.nil_append]
  rw [h1, h2]
  refine (h.flatMap_right _).trans ?_
  rw [picked_fst, flatMap_filter_of_nil]
  intro t ht hne
  obtain ⟨⟨u, f⟩, hu, rfl⟩ := List.mem_map.1 ht
  exact hk _ (mem_normals.1 hu) (by rw [hn]; exact hne)

theorem selected_retold (h : Printed printing calls ts) (hk : Command.balance.Kept e printing calls) : (e.selected (retold path ts)).Perm (e.selected calls) :=
  taken_retold path _ (fun _ _ => rfl) h fun x hx hne => hk x hx (by cases x <;> exact hne)

theorem filed_retold (h : Printed printing calls ts) (hk : Command.budget.Kept e printing calls) : (e.filed (retold path ts)).Perm (e.filed calls) :=
  taken_retold path _ (fun _ _ => rfl) h fun x hx hne => hk x hx (by cases x <;> exact hne)

/-- Postings are selected from transactions that the filters let through only. -/
theorem selected_heeds {x : Call} (h : e.selectedOf x ≠ []) : Command.print.Heeds e x := by
  cases x with
  | periodic pt f => exact h rfl
  | normal t f =>
    rw [Env.selectedOf] at h
    split at h
    · rename_i hr
      refine ⟨hr, ?_⟩
      by_contra hw
      unfold Env.Wanted at hw
      push Not at hw
      rw [selection, if_neg hw.1] at h
      apply h
      rw [List.filter_eq_nil_iff]
      intro p hp
      simpa using hw.2 p hp
    · exact absurd rfl h

theorem kept_balance (h : Command.print.Kept e printing calls) : Command.balance.Kept e printing calls := by
  intro x hx hne
  refine h x hx (selected_heeds ?_)
  cases x <;> exact hne

/-- A permutation of images is the images of a permutation. -/
theorem perm_of_images {α β : Type} (f : α → β) {l : List β} {m : List α} (h : l.Perm (m.map f)) : ∃ m' : List α, m'.Perm m ∧ l = m'.map f := by
  induction l generalizing m with
  | nil => exact ⟨[], by rw [List.map_eq_nil_iff.1 (List.nil_perm.1 h)], rfl⟩
  | cons b l ih =>
    obtain ⟨a, ha, rfl⟩ := List.mem_map.1 (h.mem_iff.1 (List.mem_cons_self ..))
    obtain ⟨s, t, rfl⟩ := List.append_of_mem ha
    have hp : l.Perm ((s ++ t).map f) := by
      rw [List.map_append, List.map_cons] at h
      rw [List.map_append]
      exact (h.trans List.perm_middle).cons_inv
    obtain ⟨m', h1, rfl⟩ := ih hp
    exact ⟨a :: m', (h1.cons a).trans List.perm_middle.symm, rfl⟩

end

section
variable [Unicode] {m : Machine} {printing e : Env} {o : Options} {args : List Str} {bytes : List UInt8} {path path' text : Str}
  {fs' : FileSystem} {n' : Nat}

/-- What the print command wrote for a journal that it can write. -/
structure Archive (m : Machine) (printing : Env) (bytes : List UInt8) (path text : Str) : Prop where
  wrote : printCmd printing m.sortTransactions m.fs m.maxOpen bytes path = .ok text
  orders : ∀ l, (printing.mapOrder l).Perm l
  writable : ∀ t ∈ (printing.picked (delivered m.fs m.maxOpen bytes path)).map Prod.fst, t.Printable ∧ Fits t.written.lines

/-- The journal was accepted, and the text is a journal of the printed transactions. -/
theorem Archive.journal (hm : m.Fair) (h : Archive m printing bytes path text) (fs' : FileSystem) (n' : Nat) (path' : Str) :
    rejection m.fs m.maxOpen bytes path = none ∧ rejection fs' n' (encode text) path' = none ∧
    ∃ ts, Printed printing (delivered m.fs m.maxOpen bytes path) ts ∧ delivered fs' n' (encode text) path' = retold path' ts ∧
      ∀ t ∈ ts, t.Printable := by
  obtain ⟨ts, t1, -, -, t4, t5⟩ := C66_printed_is_journal printing h.orders m.sortTransactions hm.byDate m.fs fs' m.maxOpen n' bytes path path' text
    h.wrote h.writable
  refine ⟨?_, t5, ts, t1, t4, fun t ht => (h.writable t (t1.mem_iff.1 ht)).1⟩
  have := h.wrote
  unfold printCmd at this
  cases hj : runParse m.fs m.maxOpen bytes path printing.printHandlers [] with
  | error f => rw [hj] at this; cases this
  | ok s => exact (runParse_replay.1 hj).1

/-- The commands that cannot crash, and the crashing of those that can, on the journal and on the text. -/
theorem Archive.runs (hm : m.Fair) (h : Archive m printing bytes path text) (ho : ∀ l, (e.mapOrder l).Perm l) (hd : e.dateError = none) {c : Command}
    (hk : c.Kept e printing (delivered m.fs m.maxOpen bytes path)) (hc : c ≠ .budget) :
    c.stopped e (delivered m.fs m.maxOpen bytes path) = none ∧ c.stopped e (delivered fs' n' (encode text) path') = none := by
  obtain ⟨-, -, ts, t1, t2, t3⟩ := h.journal hm fs' n' path'
  have amounts : Command.balance.Kept e printing (delivered m.fs m.maxOpen bytes path) →
      ∀ {D : List Call}, (e.selected D).Perm (e.selected (retold path' ts)) → ∀ p ∈ e.selected D, p.amount ≠ none := by
    intro hb D hD p hp
    have := hD.mem_iff.1 hp
    unfold Env.selected retold at this
    obtain ⟨x, hx, hp⟩ := List.mem_flatMap.1 this
    obtain ⟨t, ht, rfl⟩ := List.mem_map.1 hx
    have hmem : p ∈ t.postings := by
      rw [Env.selectedOf] at hp
      split at hp
      · rw [selection] at hp
        split at hp
        · exact hp
        · exact List.mem_of_mem_filter hp
      · cases hp
    obtain ⟨a, ha, -⟩ := ((t3 t ht).1 p hmem).2.1
    intro hn
    rw [hn] at ha
    cases ha
  have lacks : ¬ c.Lacks e (delivered m.fs m.maxOpen bytes path) ∧ ¬ c.Lacks e (delivered fs' n' (encode text) path') := by
    rw [t2]
    cases c with
    | budget => exact absurd rfl hc
    | balance =>
      exact ⟨fun ⟨p, h1, h2⟩ => amounts hk (selected_retold path' t1 hk).symm p h1 h2, fun ⟨p, h1, h2⟩ => amounts hk (List.Perm.refl _) p h1 h2⟩
    | statistics =>
      have hk' : Command.print.Kept e printing (delivered m.fs m.maxOpen bytes path) := fun x hx hh => hk x hx (by cases x <;> exact hh)
      have hb := kept_balance hk'
      exact ⟨fun ⟨p, h1, h2, _⟩ => amounts hb (selected_retold path' t1 hb).symm p h1 h2, fun ⟨p, h1, h2, _⟩ => amounts hb (List.Perm.refl _) p h1 h2⟩
    | _ => exact ⟨id, id⟩
  rw [C96_stopped e ho hd, C96_stopped e ho hd, if_neg lacks.1, if_neg lacks.2]
  exact ⟨rfl, rfl⟩

/-- If all transactions that it lists from are printed, accounts or payees gives for the printed text what it gives for the journal. -/
theorem C119_lists (hm : m.Fair) (h : Archive m printing bytes path text) (ho : ∀ l, (e.mapOrder l).Perm l) (hd : e.dateError = none) {c : Command}
    (hc : c = .accounts ∨ c = .payees) (hk : c.Kept e printing (delivered m.fs m.maxOpen bytes path)) :
    { m with fs := fs', maxOpen := n' }.runOn e o args (encode text) path' c = m.runOn e o args bytes path c := by
  obtain ⟨r, r', ts, t1, t2, -⟩ := h.journal hm fs' n' path'
  obtain ⟨s1, s2⟩ := h.runs (fs' := fs') (n' := n') (path' := path') hm ho hd hk (by rcases hc with rfl | rfl <;> decide)
  have hr : ∀ t f, Call.normal t f ∈ delivered m.fs m.maxOpen bytes path → e.InRange t → printing.InRange t ∧ printing.Wanted t := by
    intro t f ht hi
    exact hk _ ht (by rcases hc with rfl | rfl <;> exact hi)
  have mem : ∀ {P : Transaction → Prop}, (∀ t, P t ↔ P t.plain) →
      ((∃ t ∈ e.ranged (delivered fs' n' (encode text) path'), P t) ↔ ∃ t ∈ e.ranged (delivered m.fs m.maxOpen bytes path), P t) := by
    intro P hP
    simp only [t2, (ranged_retold path' t1 hr).mem_iff, List.mem_map]
    constructor
    · rintro ⟨_, ⟨t, ht, rfl⟩, h⟩
      exact ⟨t, ht, (hP t).2 h⟩
    · rintro ⟨t, ht, h⟩
      exact ⟨_, ⟨t, ht, rfl⟩, (hP t).1 h⟩
  rcases hc with rfl | rfl
  · have h1 := (runParse_cases m.fs m.maxOpen bytes path e.accountsHandlers []).2.1 s1 r
    have h2 := (runParse_cases fs' n' (encode text) path' e.accountsHandlers []).2.1 s2 r'
    obtain ⟨t, ht⟩ : ∃ t, accountsCmd e m.stringOrder m.fs m.maxOpen bytes path = .ok t := ⟨_, by unfold accountsCmd; rw [h1]; rfl⟩
    obtain ⟨t', ht'⟩ : ∃ t, accountsCmd e m.stringOrder fs' n' (encode text) path' = .ok t := ⟨_, by unfold accountsCmd; rw [h2]; rfl⟩
    obtain ⟨L, p1, rfl, q1⟩ := C51_accounts e _ hm.strings _ _ _ _ _ ht
    obtain ⟨L', p2, rfl, q2⟩ := C51_accounts e _ hm.strings _ _ _ _ _ ht'
    have : L' = L := pairwise_unique StrLt.irrefl (fun _ _ _ => StrLt.trans) p2 p1 fun x => by
      rw [q1, q2]
      exact and_congr_left' (mem fun t => Iff.rfl)
    subst this
    simp only [Machine.runOn, ht, ht', Machine.finish]
  · have h1 := (runParse_cases m.fs m.maxOpen bytes path e.payeesHandlers []).2.1 s1 r
    have h2 := (runParse_cases fs' n' (encode text) path' e.payeesHandlers []).2.1 s2 r'
    rcases compileArgs_spec m.engine args with ⟨rs, hrs, -⟩ | ⟨a, ha, -, herr⟩
    · have ok : ∀ l, ∃ M, payeesPrepare m.engine args l = .ok M := by
        intro l
        unfold payeesPrepare
        split
        · exact ⟨_, rfl⟩
        · rw [hrs]; exact ⟨_, rfl⟩
      obtain ⟨M, hM⟩ := ok (m.stringOrder (e.payeesHandlers.replay (delivered m.fs m.maxOpen bytes path) []).1)
      obtain ⟨M', hM'⟩ := ok (m.stringOrder (e.payeesHandlers.replay (delivered fs' n' (encode text) path') []).1)
      obtain ⟨t, ht⟩ : ∃ t, payeesCmd e m.engine args m.stringOrder m.fs m.maxOpen bytes path = .ok t := ⟨_, by unfold payeesCmd; rw [h1]; simp only; rw [hM]; rfl⟩
      obtain ⟨t', ht'⟩ : ∃ t, payeesCmd e m.engine args m.stringOrder fs' n' (encode text) path' = .ok t := ⟨_, by unfold payeesCmd; rw [h2]; simp only; rw [hM']; rfl⟩
      obtain ⟨L, p1, rfl, q1⟩ := C52_payees e _ _ _ hm.strings _ _ _ _ _ ht
      obtain ⟨L', p2, rfl, q2⟩ := C52_payees e _ _ _ hm.strings _ _ _ _ _ ht'
      have : L' = L := pairwise_unique StrLt.irrefl (fun _ _ _ => StrLt.trans) p2 p1 fun x => by
        rw [q1, q2]
        exact and_congr_left' (mem fun t => Iff.rfl)
      subst this
      simp only [Machine.runOn, ht, ht', Machine.finish]
    · have hne : ¬ args.length = 0 := fun h0 => by rw [List.length_eq_zero_iff.1 h0] at ha; cases ha
      simp only [Machine.runOn, payeesCmd, h1, h2, payeesPrepare, if_neg hne, herr, Machine.finish]
      rfl

/-- If all transactions that it prints are among the printed ones, the print command prints the same transactions, by date on both occasions; the same
text if no two are of the same day. -/
theorem C119_print (hm : m.Fair) (h : Archive m printing bytes path text) (ho : ∀ l, (e.mapOrder l).Perm l) (hd : e.dateError = none)
    (hk : Command.print.Kept e printing (delivered m.fs m.maxOpen bytes path)) :
    ∃ ts ts' : List Transaction, ts.Perm ts' ∧ ts.Pairwise (fun a b => a.date.dayNumber ≤ b.date.dayNumber) ∧
      ts'.Pairwise (fun a b => a.date.dayNumber ≤ b.date.dayNumber) ∧
      m.runOn e o args bytes path .print = ⟨(ts.map fun t => t.format ++ str "\n").flatten, .exit 0⟩ ∧
      { m with fs := fs', maxOpen := n' }.runOn e o args (encode text) path' .print = ⟨(ts'.map fun t => t.format ++ str "\n").flatten, .exit 0⟩ ∧
      (((e.picked (delivered m.fs m.maxOpen bytes path)).map fun tf => tf.1.date).Nodup → ts' = ts) := by
  obtain ⟨r, r', ts, t1, t2, -⟩ := h.journal hm fs' n' path'
  obtain ⟨s1, s2⟩ := h.runs (fs' := fs') (n' := n') (path' := path') hm ho hd hk (by decide)
  have h1 := (runParse_cases m.fs m.maxOpen bytes path e.printHandlers []).2.1 s1 r
  have h2 := (runParse_cases fs' n' (encode text) path' e.printHandlers []).2.1 s2 r'
  obtain ⟨t, ht⟩ : ∃ t, printCmd e m.sortTransactions m.fs m.maxOpen bytes path = .ok t := ⟨_, by unfold printCmd; rw [h1]; rfl⟩
  obtain ⟨t', ht'⟩ : ∃ t, printCmd e m.sortTransactions fs' n' (encode text) path' = .ok t := ⟨_, by unfold printCmd; rw [h2]; rfl⟩
  obtain ⟨L, p1, q1, rfl⟩ := C49_print e ho _ hm.byDate _ _ _ _ _ ht
  obtain ⟨L', p2, q2, rfl⟩ := C49_print e ho _ hm.byDate _ _ _ _ _ ht'
  rw [t2] at p2
  obtain ⟨L'', hp, rfl⟩ := perm_of_images Transaction.plain ((p2.trans (picked_retold path' t1 fun t f hx hi => hk _ hx hi)).trans (p1.map _).symm)
  have q2 : L''.Pairwise (fun a b => a.date.dayNumber ≤ b.date.dayNumber) := by
    rw [List.pairwise_map] at q2
    exact q2
  refine ⟨L, L'', hp.symm, q1, q2, by simp only [Machine.runOn, ht]; rfl, ?_, fun hn => ?_⟩
  · simp only [Machine.runOn, ht', List.map_map]
    rfl
  have real : ∀ t ∈ L, t.date.Real := by
    intro t ht
    obtain ⟨tf, hx, rfl⟩ := List.mem_map.1 (p1.mem_iff.1 ht)
    exact (picked_real e hx).1
  have hn1 : (L.map Transaction.date).Nodup := by
    rw [(p1.map Transaction.date).nodup_iff, List.map_map]
    exact hn
  have strict : ∀ {M : List Transaction}, M.Perm L → M.Pairwise (fun a b => a.date.dayNumber ≤ b.date.dayNumber) →
      M.Pairwise (fun a b => a.date.dayNumber < b.date.dayNumber) := by
    intro M hM hw
    have hnM : M.Pairwise fun a b => a.date ≠ b.date := List.pairwise_map.1 ((hM.map _).nodup_iff.2 hn1)
    refine (hw.and hnM).imp_of_mem ?_
    rintro a b ha hb ⟨x1, x2⟩
    rcases lt_or_eq_of_le x1 with x | x
    · exact x
    · exact absurd (dayNumber_inj (real a (hM.mem_iff.1 ha)) (real b (hM.mem_iff.1 hb)) x) x2
  exact pairwise_unique (r := fun a b : Transaction => a.date.dayNumber < b.date.dayNumber) (fun _ => lt_irrefl _) (fun _ _ _ => lt_trans)
    (strict hp q2) (strict (List.Perm.refl _) q1) fun x => hp.mem_iff

/-- If all transactions from which postings are selected are printed, the balance command shows, after any warnings, the same accounts and quantities;
only the commodities of accounts that mix them can differ. -/
theorem C119_balance (hm : m.Fair) (h : Archive m printing bytes path text) (ho : ∀ l, (e.mapOrder l).Perm l) (hd : e.dateError = none)
    (hk : Command.balance.Kept e printing (delivered m.fs m.maxOpen bytes path)) :
    ∃ t t', m.runOn e o args bytes path .balance = ⟨m.warnings e bytes path .balance ++ t, .exit 0⟩ ∧
      { m with fs := fs', maxOpen := n' }.runOn e o args (encode text) path' .balance =
        ⟨{ m with fs := fs', maxOpen := n' }.warnings e (encode text) path' .balance ++ t', .exit 0⟩ ∧
      SameBalances (e.selected (delivered m.fs m.maxOpen bytes path)) t t' := by
  obtain ⟨r, r', ts, t1, t2, -⟩ := h.journal hm fs' n' path'
  obtain ⟨s1, s2⟩ := h.runs (fs' := fs') (n' := n') (path' := path') hm ho hd hk (by decide)
  have h1 := (runParse_cases m.fs m.maxOpen bytes path e.balanceHandlers newJournal).2.1 s1 r
  have h2 := (runParse_cases fs' n' (encode text) path' e.balanceHandlers newJournal).2.1 s2 r'
  obtain ⟨t, ht⟩ : ∃ t, balanceCmd e o.showZero o.flatten o.collapse m.fs m.maxOpen bytes path = .ok t := ⟨_, by unfold balanceCmd; rw [h1]; rfl⟩
  obtain ⟨t', ht'⟩ : ∃ t, balanceCmd e o.showZero o.flatten o.collapse fs' n' (encode text) path' = .ok t := ⟨_, by unfold balanceCmd; rw [h2]; rfl⟩
  refine ⟨t, t', ?_, ?_, balance_texts_perm ho _ _ _ (by rw [t2]; exact (selected_retold path' t1 hk).symm) ht ht'⟩
  · simp only [Machine.runOn, ht]; rfl
  · simp only [Machine.runOn, ht']; rfl

/-- In one commodity the runs of the balance command are equal. -/
theorem C119_one_commodity (hm : m.Fair) (h : Archive m printing bytes path text) (ho : ∀ l, (e.mapOrder l).Perm l) (hd : e.dateError = none)
    (hk : Command.balance.Kept e printing (delivered m.fs m.maxOpen bytes path)) {c : Str}
    (hone : ∀ p ∈ e.selected (delivered m.fs m.maxOpen bytes path), ∀ a ∈ p.amount, a.commodity = c) :
    { m with fs := fs', maxOpen := n' }.runOn e o args (encode text) path' .balance = m.runOn e o args bytes path .balance := by
  obtain ⟨-, -, ts, t1, t2, -⟩ := h.journal hm fs' n' path'
  have w1 : m.warnings e bytes path .balance = [] := C73_one_commodity e ho m.fs m.maxOpen bytes path c hone
  have w2 : { m with fs := fs', maxOpen := n' }.warnings e (encode text) path' .balance = [] :=
    C73_one_commodity e ho fs' n' (encode text) path' c fun p hp => hone p ((selected_retold path' t1 hk).mem_iff.1 (by rw [← t2]; exact hp))
  obtain ⟨t, t', h1, h2, h3⟩ := C119_balance (fs' := fs') (n' := n') (path' := path') (o := o) (args := args) hm h ho hd hk
  rw [h1, h2, w1, w2, h3.equal hone]

/-- If all that it files is printed — monthly budgets never are — the budget command panics on both occasions, or shows, after any warnings, the same
months, categories and quantities; only commodities that are mixed can differ. -/
theorem C119_budget (hm : m.Fair) (h : Archive m printing bytes path text) (ho : ∀ l, (e.mapOrder l).Perm l) (hd : e.dateError = none)
    (hk : Command.budget.Kept e printing (delivered m.fs m.maxOpen bytes path)) :
    (m.runOn e o args bytes path .budget = ⟨m.warnings e bytes path .budget, .panic .unusablePosting⟩ ∧
      { m with fs := fs', maxOpen := n' }.runOn e o args (encode text) path' .budget =
        ⟨{ m with fs := fs', maxOpen := n' }.warnings e (encode text) path' .budget, .panic .unusablePosting⟩) ∨
    ∃ t t', m.runOn e o args bytes path .budget = ⟨m.warnings e bytes path .budget ++ t, .exit 0⟩ ∧
      { m with fs := fs', maxOpen := n' }.runOn e o args (encode text) path' .budget =
        ⟨{ m with fs := fs', maxOpen := n' }.warnings e (encode text) path' .budget ++ t', .exit 0⟩ ∧
      SameBudgets (e.filed (delivered m.fs m.maxOpen bytes path)) t t' := by
  obtain ⟨r, r', ts, t1, t2, -⟩ := h.journal hm fs' n' path'
  have hs : SortsMonths m.sortDates := fun ms => ⟨(hm.dates ms).1, (hm.dates ms).2.imp fun {a b} hab => by simp [Date.before]; exact hab⟩
  have hp : (e.filed (delivered fs' n' (encode text) path')).Perm (e.filed (delivered m.fs m.maxOpen bytes path)) := by
    rw [t2]
    exact filed_retold path' t1 hk
  have s1 := C96_stopped e ho hd m.fs m.maxOpen bytes path .budget
  have s2 := C96_stopped e ho hd fs' n' (encode text) path' .budget
  obtain ⟨-, a2, a3⟩ := runParse_cases m.fs m.maxOpen bytes path e.budgetHandlers []
  obtain ⟨-, b2, b3⟩ := runParse_cases fs' n' (encode text) path' e.budgetHandlers []
  by_cases hl : Command.budget.Lacks e (delivered m.fs m.maxOpen bytes path)
  · have hl' : Command.budget.Lacks e (delivered fs' n' (encode text) path') := by
      obtain ⟨x, h1, h2⟩ := hl
      exact ⟨x, hp.mem_iff.2 h1, h2⟩
    rw [if_pos hl] at s1
    rw [if_pos hl'] at s2
    obtain ⟨f, f1, f2⟩ := a3 _ s1
    obtain ⟨g, g1, g2⟩ := b3 _ s2
    rw [core_panic f1] at f2
    rw [core_panic g1] at g2
    left
    constructor
    · simp only [Machine.runOn, budgetCmd, f2]; rfl
    · simp only [Machine.runOn, budgetCmd, g2]; rfl
  · have hl' : ¬ Command.budget.Lacks e (delivered fs' n' (encode text) path') := by
      rintro ⟨x, h1, h2⟩
      exact hl ⟨x, hp.mem_iff.1 h1, h2⟩
    rw [if_neg hl] at s1
    rw [if_neg hl'] at s2
    right
    obtain ⟨t, ht⟩ : ∃ t, budgetCmd e m.sortDates m.fs m.maxOpen bytes path = .ok t := ⟨_, by unfold budgetCmd; rw [a2 s1 r]; rfl⟩
    obtain ⟨t', ht'⟩ : ∃ t, budgetCmd e m.sortDates fs' n' (encode text) path' = .ok t := ⟨_, by unfold budgetCmd; rw [b2 s2 r']; rfl⟩
    obtain ⟨es, q1, q2⟩ := C67_budget_report _ ho _ hs _ _ _ _ _ ht
    obtain ⟨es', q3, q4⟩ := C67_budget_report _ ho _ hs _ _ _ _ _ ht'
    refine ⟨t, t', ?_, ?_, budget_texts q1 (q3.trans hp) (filed_real _ _ _ _ _) q2 q4⟩
    · simp only [Machine.runOn, ht]; rfl
    · simp only [Machine.runOn, ht']; rfl

attribute [local irreducible] averageAge

/-- If all transactions that it is about are printed, and none is dated 1 January of year 1, the statistics command finds nothing on both occasions, or
shows the same figures; the printed text is one file. -/
theorem C119_statistics (hm : m.Fair) (h : Archive m printing bytes path text) (ho : ∀ l, (e.mapOrder l).Perm l) (hd : e.dateError = none)
    (hk : Command.statistics.Kept e printing (delivered m.fs m.maxOpen bytes path))
    (hz : ∀ tf ∈ e.picked (delivered m.fs m.maxOpen bytes path), ¬ tf.1.date.isZero) :
    (m.runOn e o args bytes path .statistics = ⟨str "No transactions matched arguments.\n", .exit 0⟩ ∧
      { m with fs := fs', maxOpen := n' }.runOn e o args (encode text) path' .statistics = ⟨str "No transactions matched arguments.\n", .exit 0⟩) ∨
    ∃ f : Figures, m.runOn e o args bytes path .statistics = ⟨(f.lines m.humanize).flatMap (· ++ str "\n"), .exit 0⟩ ∧
      { m with fs := fs', maxOpen := n' }.runOn e o args (encode text) path' .statistics =
        ⟨({ f with files := [path'] }.lines m.humanize).flatMap (· ++ str "\n"), .exit 0⟩ := by
  obtain ⟨r, r', ts, t1, t2, -⟩ := h.journal hm fs' n' path'
  obtain ⟨s1, s2⟩ := h.runs (fs' := fs') (n' := n') (path' := path') hm ho hd hk (by decide)
  have h1 := (runParse_cases m.fs m.maxOpen bytes path e.statsHandlers {}).2.1 s1 r
  have h2 := (runParse_cases fs' n' (encode text) path' e.statsHandlers {}).2.1 s2 r'
  have S := C53_statistics e ho _ _ _ _ _ h1
  have S' := C53_statistics e ho _ _ _ _ _ h2
  have hk' : ∀ t f, Call.normal t f ∈ delivered m.fs m.maxOpen bytes path → (e.InRange t ∧ e.Wanted t) → printing.InRange t ∧ printing.Wanted t :=
    fun t f hx hi => hk _ hx hi
  have hp := (picked_retold path' t1 hk').map Transaction.plain
  rw [← t2, List.map_map, List.map_map, List.map_map] at hp
  simp only [Machine.runOn, statsCmd, h1, h2, Except.map, Machine.finish, List.nil_append]
  generalize (e.statsHandlers.replay (delivered m.fs m.maxOpen bytes path) {}).1 = v at S h1 ⊢
  generalize (e.statsHandlers.replay (delivered fs' n' (encode text) path') {}).1 = v' at S' h2 ⊢
  by_cases hne : e.picked (delivered m.fs m.maxOpen bytes path) = []
  · left
    have hne' : e.picked (delivered fs' n' (encode text) path') = [] := by
      rw [hne] at hp
      exact List.map_eq_nil_iff.1 (List.perm_nil.1 hp)
    unfold statsReport
    rw [if_pos (by rw [S.count, hne]; rfl), if_pos (by rw [S'.count, hne']; rfl)]
    exact ⟨rfl, rfl⟩
  · right
    have A := stats_agree hm.dates (ts := e.picked (delivered m.fs m.maxOpen bytes path)) (ts' := e.picked (delivered fs' n' (encode text) path')) hp.symm
      (fun tf ht => (picked_real e ht).1) hz S S' hne
    have hc : ¬ v.count = 0 := by
      rw [S.count]
      exact fun h0 => hne (List.length_eq_zero_iff.1 h0)
    have hne' : e.picked (delivered fs' n' (encode text) path') ≠ [] := by
      intro h0
      apply hc
      rw [A.count, S'.count, h0]
      rfl
    have hfiles : v'.files = [path'] := by
      have hall : ∀ f, f ∈ v'.files ↔ f = path' := by
        intro f
        rw [S'.files.2]
        have hof : ∀ tf ∈ e.picked (delivered fs' n' (encode text) path'), tf.2 = path' := by
          intro tf htf
          have := List.mem_of_mem_filter htf
          rw [t2, normals_retold] at this
          obtain ⟨t, -, rfl⟩ := List.mem_map.1 this
          rfl
        constructor
        · rintro ⟨tf, h1, rfl⟩
          exact hof tf h1
        · rintro rfl
          obtain ⟨tf, htf⟩ := List.exists_mem_of_ne_nil _ hne'
          exact ⟨tf, htf, hof tf htf⟩
      exact List.perm_singleton.1 ((List.perm_ext_iff_of_nodup S'.files.1 (by simp)).2 fun f => by rw [hall]; simp)
    have ho1 : m.stringOrder [path'] = [path'] := List.perm_singleton.1 (hm.strings _)
    have ed : v'.days = v.days := by unfold Stats.days; rw [A.first, A.last]
    obtain ⟨age, a1, -⟩ := C71_age_days (averageAge (v.ages m.sortDates))
    refine ⟨⟨m.stringOrder v.files, v.first, v.last, v.days, v.count, perDay v.count v.days, v.accounts.length, v.payees.length, age⟩, ?_, ?_⟩
    · unfold statsReport
      rw [if_neg hc, a1, show v.files.length = (m.stringOrder v.files).length from (hm.strings _).length_eq.symm]
      simp [Figures.lines, ago, List.flatMap_append, List.flatMap_map, List.append_assoc, str]
    · rw [← A.ages, hfiles, ho1]
      unfold statsReport
      rw [← A.first, ← A.last, ← A.count, ← A.accounts, ← A.payees, ed, if_neg hc, a1, hfiles]
      simp [Figures.lines, ago, List.append_assoc, str]

end

theorem shelfFair : shelfMachine.Fair where
  postings := wholeFair.postings
  strings := wholeFair.strings
  byDate := fun ts => ⟨List.perm_insertionSort _ ts, by
    have : Std.Total (fun a b : Transaction => a.date.dayNumber ≤ b.date.dayNumber) := ⟨fun a b => le_total _ _⟩
    have : IsTrans Transaction (fun a b => a.date.dayNumber ≤ b.date.dayNumber) := ⟨fun a b c => le_trans⟩
    refine (List.pairwise_insertionSort (fun a b : Transaction => a.date.dayNumber ≤ b.date.dayNumber) ts).imp fun {a b} h => ?_
    simpa [Date.before] using h⟩
  dates := wholeFair.dates

/-- A journal of a transaction with a left-out amount and comments, a budget, and a transaction of a later day that comes first: the printed text, and the
commands on both. The budget command, which is about the budget entry, is not covered by the print. -/
example :
    letI := asciiUnicode
    let bytes := utf8 "~ 2020-02\n  F  $2\n\n2020-02-01 x ; note\n  Expenses:F  $1\n  ; c\n  A\n\n2020-01-01 y\n  A  $3\n  Income:J\n"
    let text := str "2020-01-01   y\n    A    $3.00\n    Income:J    $-3.00\n\n2020-02-01   x    ; ote\n    Expenses:F    $1.00\n      ; c\n    A    $-1.00\n\n"
    let e := shelfMachine.env {} []
    let D := delivered shelfMachine.fs shelfMachine.maxOpen bytes (str "f")
    printCmd e shelfMachine.sortTransactions shelfMachine.fs shelfMachine.maxOpen bytes (str "f") = .ok text ∧
    (∀ t ∈ (e.picked D).map Prod.fst, t.Printable ∧ Fits t.written.lines) ∧
    (∀ c ∈ [Command.accounts, .payees, .balance, .statistics, .print], c.Kept e e D) ∧ ¬ Command.budget.Kept e e D ∧
    (∀ c ∈ [Command.accounts, .payees, .balance, .print],
      shelfMachine.runOn e {} [] (encode text) (str "g") c = shelfMachine.runOn e {} [] bytes (str "f") c) := by
  decide +kernel

end Gledger
