/-
C100: what the journal of the balance command keeps.
-/
import Verif.Props.Lists
import Verif.Props.Balances
import Verif.Spec.Records

namespace Gledger

/-! ### C100 The journal keeps what it is given -/

theorem walkLoop_transactions (f : Amount → Amount) : ∀ (n : Nat) (x : Ref) (h : Heap) (y : Ref),
    ((Heap.walkLoop f n x h).node y).transactions = (h.node y).transactions := by
  intro n
  induction n with
  | zero => intro x h y; rfl
  | succ n ih =>
    intro x h y
    have hm : ((h.modify x fun a => { a with amount := f a.amount }).node y).transactions = (h.node y).transactions := by
      rw [Heap.node_modify]
      split <;> simp_all
    rw [Heap.walkLoop]
    split
    · exact hm
    · rw [ih, hm]

theorem wireUp_dealings {h h' : Heap} (hf : h.Full) {t : Transaction} {p : Posting} (hw : wireUpPosting h 0 t p = some h') (cs : List Str) :
    h'.dealings cs = if cs = p.components then h.dealings cs ++ [t] else h.dealings cs := by
  obtain ⟨x, h1, e1, f1, g1, w1, p1, _⟩ := findOrCreate_spec hf (show h.at [] = some 0 from rfl) p.components_ne
  rw [List.nil_append] at w1
  have hd : h1.dealings cs = h.dealings cs := by
    unfold Heap.dealings
    by_cases hc : h.Has cs
    · obtain ⟨y, hy⟩ := has_iff.1 hc
      have hy' := g1.walk hy
      simp only [Heap.at] at hy ⊢
      rw [hy, hy']
      exact (g1.old y (hf.toTree.at_next hy)).2.2.2.2.2.2
    · have : h.at cs = none := by simpa [Heap.Has] using hc
      rw [this]
      cases hy : h1.at cs with
      | none => rfl
      | some y =>
        have hn : h.next ≤ y := by
          by_contra hlt
          obtain ⟨bs, hb⟩ := hf.covers y (by omega)
          rw [f1.toTree.walk_inj hy (g1.walk hb)] at hc
          exact hc (has_iff.2 ⟨y, hb⟩)
        exact (g1.new y hn (f1.toTree.at_next hy)).2.2
  unfold wireUpPosting at hw
  rw [show split ':' p.accountPath = p.components from rfl, e1] at hw
  simp only at hw
  cases ha : p.amount with
  | none => rw [ha] at hw; cases hw
  | some amt =>
    rw [ha] at hw
    simp only [Option.some.injEq] at hw
    subst hw
    have s1 := Heap.Shape.modify h1 x (fun a => { a with postings := a.postings ++ [p] }) fun _ => ⟨rfl, rfl, rfl, rfl, rfl⟩
    have s2 := s1.trans (Heap.Shape.modify _ x (fun a => { a with transactions := a.transactions ++ [t] }) fun _ => ⟨rfl, rfl, rfl, rfl, rfl⟩)
    have w2 := w1
    rw [← s2.at] at w2
    have s3 := fun f => s2.trans (walkAncestors_spec (s2.tree f1.toTree) w2 f).1
    rw [← hd]
    unfold Heap.dealings
    rw [show (Heap.walkAncestors _ x _).at cs = h1.at cs from (s3 _).at cs]
    cases hy : h1.at cs with
    | none =>
      rw [if_neg]
      · rfl
      · rintro rfl
        rw [w1] at hy
        cases hy
    | some y =>
      simp only [Option.map_some, Option.getD_some]
      rw [Heap.walkAncestors, walkLoop_transactions, Heap.node_modify, Heap.node_modify, Heap.node_modify]
      by_cases hc : cs = p.components
      · subst hc
        rw [w1] at hy
        cases hy
        simp
      · have : y ≠ x := by
          rintro rfl
          exact hc (f1.toTree.walk_inj hy w1)
        simp [hc, this]

/-- Every account records these postings made to it, and beside each its transaction. -/
def Heap.Keeps (h : Heap) (es : List (Transaction × Posting)) : Prop :=
  h.Books (es.map Prod.snd) ∧ ∀ cs, h.own cs = (dealt cs es).map Prod.snd ∧ h.dealings cs = (dealt cs es).map Prod.fst

theorem Heap.Keeps.wireUp {h : Heap} {es : List (Transaction × Posting)} (k : h.Keeps es) {t : Transaction} {p : Posting} {h' : Heap}
    (hw : wireUpPosting h 0 t p = some h') : h'.Keeps (es ++ [(t, p)]) := by
  obtain ⟨b, k⟩ := k
  cases ha : p.amount with
  | none => rw [wireUp_panics h b.full t p ha] at hw; cases hw
  | some amt =>
    obtain ⟨h2, e2, b2⟩ := b.wireUp t p ha
    rw [hw] at e2
    cases e2
    have b2 : h'.Books ((es ++ [(t, p)]).map Prod.snd) := by simpa using b2
    refine ⟨b2, fun cs => ⟨?_, ?_⟩⟩
    · rw [b2.own]
      unfold exactly dealt
      rw [List.filter_map]
      rfl
    · rw [wireUp_dealings b.full hw, (k cs).2]
      unfold dealt
      rw [List.filter_append, List.map_append]
      by_cases hc : cs = p.components
      · simp [hc]
      · simp [hc, Ne.symm hc]

theorem addPostings_keeps (t : Transaction) (qs : List Posting) : ∀ (j j' : Journal) (es : List (Transaction × Posting)), j.heap.Keeps es →
    addPostings t qs j = some j' → j'.heap.Keeps (es ++ qs.map (t, ·)) ∧ j'.transactions = j.transactions ∧
      j'.filePaths = j.filePaths ∧ j'.periodicTransactions = j.periodicTransactions := by
  induction qs with
  | nil => intro j j' es k h; cases h; exact ⟨by simpa using k, rfl, rfl, rfl⟩
  | cons q qs ih =>
    intro j j' es k h
    rw [addPostings, Journal.addPosting] at h
    cases hw : wireUpPosting j.heap 0 t q with
    | none => rw [hw] at h; cases h
    | some h2 =>
      rw [hw] at h
      obtain ⟨a, b⟩ := ih { j with heap := h2 } j' _ (k.wireUp hw) h
      exact ⟨by simpa using a, b⟩

theorem C100_addEach {es : List (Transaction × Posting)} {j : Journal} (h : newJournal.addEach es = some j) (cs : List Str) :
    j.heap.own cs = (dealt cs es).map Prod.snd ∧ j.heap.dealings cs = (dealt cs es).map Prod.fst := by
  have key : ∀ (fs es : List (Transaction × Posting)) (j j' : Journal), j.heap.Keeps es → j.addEach fs = some j' → j'.heap.Keeps (es ++ fs) := by
    intro fs
    induction fs with
    | nil => intro es j j' k h; cases h; simpa using k
    | cons f fs ih =>
      intro es j j' k h
      rw [Journal.addEach, Journal.addPosting] at h
      cases hw : wireUpPosting j.heap 0 f.1 f.2 with
      | none => rw [hw] at h; cases h
      | some h2 =>
        rw [hw] at h
        have := ih _ { j with heap := h2 } j' (k.wireUp hw) h
        simpa using this
  have k0 : newJournal.heap.Keeps [] := ⟨newAccount_books _, fun cs => by cases cs <;> exact ⟨rfl, rfl⟩⟩
  exact (key es [] newJournal j k0 h).2 cs

theorem wanted_iff (e : Env) (t : Transaction) : e.Wanted t ↔ WholeSelected e.filters t ∨ selection e.filters t ≠ [] := by
  unfold Env.Wanted selection
  by_cases h : WholeSelected e.filters t
  · simp [h]
  · simp [h]

/-- What a call adds to the record. -/
theorem keeps_replay (e : Env) (ho : ∀ l, (e.mapOrder l).Perm l) (calls : List Call) : ∀ (j j' : Journal) (es : List (Transaction × Posting)),
    j.heap.Keeps es → e.balanceHandlers.replay calls j = (j', none) →
    j'.transactions = j.transactions ++ (e.picked calls).map Prod.fst ∧ j'.filePaths = j.filePaths ++ (e.picked calls).map Prod.snd ∧
    j'.periodicTransactions = j.periodicTransactions ++ budgetEntries calls ∧
    ∃ qss : List (List Posting), List.Forall₂ (fun qs tf => qs.Perm (selection e.filters tf.1)) qss (e.picked calls) ∧
      j'.heap.Keeps (es ++ (List.zipWith (fun tf qs => qs.map (tf.1, ·)) (e.picked calls) qss).flatten) := by
  induction calls with
  | nil =>
    intro j j' es k h
    cases h
    exact ⟨by simp [Env.picked, normals], by simp [Env.picked, normals], by simp [budgetEntries], [], .nil, by simpa [Env.picked, normals] using k⟩
  | cons c calls ih =>
    intro j j' es k h
    rw [Handlers.replay] at h
    cases c with
    | periodic pt f =>
      simp only [Handlers.call, Env.balanceHandlers, Step.andThen] at h
      obtain ⟨h1, h2, h3, h4⟩ := ih (j.addPeriodicTransaction pt f) j' es k h
      have hr : e.picked (.periodic pt f :: calls) = e.picked calls := rfl
      rw [hr]
      refine ⟨h1, h2, ?_, h4⟩
      rw [h3]
      simp [Journal.addPeriodicTransaction, budgetEntries]
    | normal t f =>
      have hb : budgetEntries (.normal t f :: calls) = budgetEntries calls := rfl
      rw [hb]
      simp only [Handlers.call, Env.balanceHandlers] at h
      rw [Env.balanceHandler] at h
      rcases hr : e.withinDateRange t with err | _ | _
      · simp only [Env.checkAgainstFilters, hr, Step.andThen] at h
        cases h
      · rw [C44_out_of_range e t hr] at h
        simp only [List.length_nil, and_self, if_true, Step.andThen] at h
        have hrec : e.picked (.normal t f :: calls) = e.picked calls := by simp [Env.picked, normals, Env.InRange, hr]
        rw [hrec]
        exact ih j j' es k h
      · obtain ⟨qs, h1, h2⟩ := C44_any_of e ho t hr
        rw [h1] at h
        simp only at h
        by_cases hw : e.Wanted t
        · have hrec : e.picked (.normal t f :: calls) = (t, f) :: e.picked calls := by simp [Env.picked, normals, Env.InRange, hr, hw]
          rw [if_neg] at h
          · cases ha : addPostings t qs (j.addTransaction t f) with
            | none => rw [ha] at h; cases h
            | some j2 =>
              rw [ha] at h
              simp only [Step.andThen] at h
              obtain ⟨k2, a1, a2, a3⟩ := addPostings_keeps t qs _ _ _ (show (j.addTransaction t f).heap.Keeps es from k) ha
              obtain ⟨b1, b2, b3, qss, b4, b5⟩ := ih j2 j' _ k2 h
              rw [hrec]
              refine ⟨?_, ?_, ?_, qs :: qss, .cons h2 b4, ?_⟩
              · rw [b1, a1]; simp [Journal.addTransaction]
              · rw [b2, a2]; simp [Journal.addTransaction]
              · rw [b3, a3]; rfl
              · simpa using b5
          · rintro ⟨c1, c2⟩
            rw [wanted_iff] at hw
            rcases hw with hw | hw
            · simp [hw] at c1
            · have h0 : qs = [] := by simpa using c2
              rw [h0] at h2
              exact hw (List.nil_perm.1 h2)
        · have hrec : e.picked (.normal t f :: calls) = e.picked calls := by simp [Env.picked, normals, Env.InRange, hr, hw]
          rw [wanted_iff, not_or, not_not] at hw
          rw [if_pos] at h
          · rw [hrec]
            exact ih j j' es k h
          · refine ⟨by simp [hw.1], ?_⟩
            rw [hw.2] at h2
            simp [List.perm_nil.1 h2]

/-- After the balance command has read a journal, its own journal has recorded, in order, the transactions on the days of the flags that some
filter lets through, the files they are from, and all budget entries; and every account the selected postings made to it, each beside
its transaction. -/
theorem C100_balance [Unicode] (e : Env) (ho : ∀ l, (e.mapOrder l).Perm l) (fs : FileSystem) (maxOpen : Nat) (bytes : List UInt8) (path : Str)
    (j : Journal) (h : runParse fs maxOpen bytes path e.balanceHandlers newJournal = .ok j) :
    let calls := delivered fs maxOpen bytes path
    j.transactions = (e.picked calls).map Prod.fst ∧ j.filePaths = (e.picked calls).map Prod.snd ∧ j.periodicTransactions = budgetEntries calls ∧
    ∀ cs, (j.heap.dealings cs).length = (j.heap.own cs).length ∧
      ((j.heap.dealings cs).zip (j.heap.own cs)).Perm (dealt cs ((e.picked calls).flatMap fun tf => (selection e.filters tf.1).map (tf.1, ·))) := by
  obtain ⟨_, h⟩ := runParse_replay.1 h
  have k0 : newJournal.heap.Keeps [] := ⟨newAccount_books _, fun cs => by cases cs <;> exact ⟨rfl, rfl⟩⟩
  obtain ⟨h1, h2, h3, qss, h4, h5⟩ := keeps_replay e ho _ newJournal j [] k0 h
  refine ⟨by simpa [newJournal] using h1, by simpa [newJournal] using h2, by simpa [newJournal] using h3, fun cs => ?_⟩
  obtain ⟨k1, k2⟩ := h5.2 cs
  rw [k1, k2]
  refine ⟨by simp, ?_⟩
  rw [List.zip_map']
  simp only [Prod.mk.eta, List.map_id']
  unfold dealt
  apply List.Perm.filter
  rw [List.nil_append]
  clear h1 h2 h k1 k2 h5
  generalize e.picked (delivered fs maxOpen bytes path) = rs at h4
  induction h4 with
  | nil => rfl
  | cons a _ ih =>
    simp only [List.zipWith_cons_cons, List.flatten_cons, List.flatMap_cons]
    exact (a.map _).append ih

/-- Two transactions, one of them asked for, and a budget entry. -/
example :
    letI := asciiUnicode
    let text := utf8 "2020-01-01 x\n  A:B  1\n  D\n\n2020-01-02 y\n  E  2\n  D\n\n~ 2020-01\n  F  3\n"
    let e : Env := { filters := [{ regex := fun s => s.take 1 == str "A", ftype := .accountName }] }
    ((runParse noFiles 1 text (str "f") e.balanceHandlers newJournal).toOption.map fun j =>
      (j.transactions.map Transaction.payee, j.filePaths, j.periodicTransactions.map fun pt => pt.transaction.postings.map Posting.accountPath)) =
        some ([str "x"], [str "f"], [[str "F", budgetRootID]]) ∧
    ((runParse noFiles 1 text (str "f") e.balanceHandlers newJournal).toOption.map fun j =>
      ((j.heap.dealings [str "A", str "B"]).map Transaction.payee, (j.heap.own [str "A", str "B"]).map Posting.accountPath, j.heap.dealings [str "D"])) =
        some ([str "x"], [str "A:B"], []) := by
  decide +kernel

end Gledger
