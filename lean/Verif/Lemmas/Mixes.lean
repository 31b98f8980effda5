import Verif.Lemmas.Printing
import Verif.Props.Balances
import Verif.Props.Budgets
import Verif.Spec.Warnings
import Mathlib.Data.List.TakeWhile

/-! What adding postings prints. -/

namespace Gledger

variable {h h' : Heap}

theorem pathsUp_nil : pathsUp [] = [[]] := rfl

theorem pathsUp_concat (cs : List Str) (c : Str) : pathsUp (cs ++ [c]) = (cs ++ [c]) :: pathsUp cs := by
  unfold pathsUp
  rw [List.inits_append]
  simp

theorem pathsUp_cons (cs : List Str) : ∃ l, pathsUp cs = cs :: l := by
  rcases List.eq_nil_or_concat' cs with rfl | ⟨bs, c, rfl⟩
  · exact ⟨[], rfl⟩
  · exact ⟨_, pathsUp_concat bs c⟩

theorem mem_pathsUp {cs ds : List Str} : ds ∈ pathsUp cs ↔ ds <+: cs := by
  unfold pathsUp
  rw [List.mem_reverse, List.mem_inits]

theorem walkOutLoop_spec (ht : h.Tree) (out : Amount → Str) : ∀ (n : Nat) (cs : List Str) (x : Ref), h.at cs = some x → x < n →
    h.walkOutLoop out n x = (pathsUp cs).flatMap fun ds => out (h.amt ds) := by
  intro n
  induction n with
  | zero => intro cs x _ hx; omega
  | succ n ih =>
    intro cs x hcs hx
    rw [Heap.walkOutLoop]
    rcases List.eq_nil_or_concat' cs with rfl | ⟨bs, c, rfl⟩
    · have h0 : x = 0 := by cases hcs; rfl
      rw [h0, ht.root.2, pathsUp_nil]
      simp [Heap.amt_at (show h.at [] = some 0 from rfl)]
    · have hcs' := hcs
      simp only [Heap.at] at hcs
      rw [Heap.walk_snoc, Option.bind_eq_some_iff] at hcs
      obtain ⟨p, h2, h3⟩ := hcs
      obtain ⟨h4, h5, h6, h7⟩ := ht.child_lt h3
      rw [h6, pathsUp_concat, List.flatMap_cons, Heap.amt_at hcs']
      congr 1
      exact ih bs p h2 (by omega)

theorem walkOut_spec (ht : h.Tree) {cs : List Str} {x : Ref} (hx : h.at cs = some x) (out : Amount → Str) :
    h.walkOut x out = (pathsUp cs).flatMap fun ds => out (h.amt ds) :=
  walkOutLoop_spec ht out h.next cs x hx (ht.at_next hx)

theorem addOut_eq (a b : Amount) : a.addOut b = mixLine (str "addition") a.commodity b.commodity := by
  unfold Amount.addOut mixLine
  by_cases hc : a.commodity = b.commodity
  · simp [hc]
  · simp only [ne_eq, hc, not_false_eq_true, if_true, if_false]
    rfl

theorem subtractOut_eq (a b : Amount) : a.subtractOut b = mixLine (str "subtraction") a.commodity b.commodity := by
  unfold Amount.subtractOut mixLine
  by_cases hc : a.commodity = b.commodity
  · simp [hc]
  · simp only [ne_eq, hc, not_false_eq_true, if_true, if_false]
    rfl

theorem wireOut_eq (amt a : Amount) : wireOut amt a = mixLine (str "addition") (addInto amt a).commodity amt.commodity := by
  unfold wireOut addInto
  by_cases hc : a.commodity = [] <;> simp [hc, addOut_eq]

theorem flatMap_congr_mem {α β : Type} {l : List α} {f g : α → List β} (hfg : ∀ a ∈ l, f a = g a) : l.flatMap f = l.flatMap g := by
  induction l with
  | nil => rfl
  | cons a l ih =>
    rw [List.flatMap_cons, List.flatMap_cons, hfg a (by simp), ih fun b hb => hfg b (by simp [hb])]

/-- What adding a posting to a tree prints. -/
theorem Heap.Books.wireOut {ps : List Posting} (b : h.Books ps) (p : Posting) : wireUpOut h 0 p = balanceMix ps p := by
  obtain ⟨x, h1, e1, f1, g1, w1, p1, _⟩ := findOrCreate_spec b.full (show h.at [] = some 0 from rfl) p.components_ne
  rw [List.nil_append] at w1
  unfold wireUpOut balanceMix
  rw [show split ':' p.accountPath = p.components from rfl, e1]
  cases ha : p.amount with
  | none => rfl
  | some amt =>
    simp only
    rw [walkOut_spec f1.toTree w1]
    refine flatMap_congr_mem fun cs hcs => ?_
    rw [mem_pathsUp] at hcs
    rw [wireOut_eq, (g1.data b.full f1.toTree cs).1, b.amt, ← tally_snoc _ p ha]
    have : below cs (ps ++ [p]) = below cs ps ++ [p] := by
      unfold below
      rw [List.filter_append]
      simp [hcs]
    rw [this]
    rfl

/-- What adding postings to a journal prints. -/
theorem addPostingsOut_eq (t : Transaction) (qs : List Posting) : ∀ (j : Journal) (ps : List Posting), j.heap.Books ps →
    (∀ p ∈ qs, p.amount ≠ none) → addPostingsOut t qs j = balanceMixes ps qs := by
  induction qs with
  | nil => intro j ps _ _; rfl
  | cons p qs ih =>
    intro j ps b ha
    obtain ⟨amt, hp⟩ := Option.ne_none_iff_exists'.1 (ha p (by simp))
    obtain ⟨h', e1, b1⟩ := b.wireUp t p hp
    rw [addPostingsOut, Journal.addPosting, e1, balanceMixes, b.wireOut]
    simp only [Option.map_some]
    rw [ih { j with heap := h' } _ b1 fun q hq => ha q (by simp [hq])]

theorem balanceMixes_append (ps qs : List Posting) : ∀ before, balanceMixes before (ps ++ qs) = balanceMixes before ps ++ balanceMixes (before ++ ps) qs := by
  induction ps with
  | nil => intro before; simp [balanceMixes]
  | cons p ps ih => intro before; simp [balanceMixes, ih]

/-- What the calls of the balance command print, if they all succeed. -/
theorem balance_prints (e : Env) (ho : ∀ l, (e.mapOrder l).Perm l) (calls : List Call) : ∀ (j j' : Journal) (ps : List Posting),
    j.heap.Books ps → (∀ c ∈ calls, ∀ pt f, c = .periodic pt f → pt.period.interval = .none) → e.balanceHandlers.replay calls j = (j', none) →
    ∃ qss : List (List Posting), List.Forall₂ e.Gives qss calls ∧
      e.balanceHandlers.prints e.balanceOut (fun _ pt => pt.runOut) calls j = balanceMixes ps qss.flatten ∧
      (∀ q ∈ qss.flatten, q.amount ≠ none) ∧ j'.heap.Books (ps ++ qss.flatten) := by
  induction calls with
  | nil =>
    intro j j' ps b _ h
    cases h
    exact ⟨[], List.Forall₂.nil, rfl, by simp, by simpa using b⟩
  | cons c calls ih =>
    intro j j' ps b hp h
    rw [Handlers.replay] at h
    have hp' := fun c' hc' => hp c' (List.mem_cons_of_mem _ hc')
    rw [Handlers.prints]
    cases c with
    | periodic pt f =>
      simp only [Handlers.call, Env.balanceHandlers, Step.andThen] at h
      obtain ⟨qss, q1, q2, q3, q4⟩ := ih _ j' ps (show (j.addPeriodicTransaction pt f).heap.Books ps from b) hp' h
      refine ⟨[] :: qss, List.Forall₂.cons rfl q1, ?_, by simpa using q3, by simpa using q4⟩
      have hi := hp _ (by simp) pt f rfl
      simp only [Handlers.call, Env.balanceHandlers, Handlers.callOut, Option.isSome_some, if_true, PeriodicTransaction.runOut, hi,
        List.nil_append, List.flatten_cons] at q2 ⊢
      exact q2
    | normal t f =>
      simp only [Handlers.call, Env.balanceHandlers] at h
      simp only [Handlers.call, Handlers.callOut]
      rw [show e.balanceHandlers.th = some e.balanceHandler from rfl]
      simp only [Option.isSome_some, if_true]
      rw [Env.balanceHandler] at h ⊢
      rw [Env.balanceOut]
      rcases hr : e.withinDateRange t with err | _ | _
      · simp only [Env.checkAgainstFilters, hr, Step.andThen] at h
        cases h
      · rw [C44_out_of_range e t hr] at h ⊢
        simp only [List.length_nil, and_self, if_true, Step.andThen] at h ⊢
        obtain ⟨qss, q1, q2, q3, q4⟩ := ih j j' ps b hp' h
        exact ⟨[] :: qss, List.Forall₂.cons (by simp [Env.Gives, Env.selectedOf, hr]) q1, by simpa [addPostingsOut] using q2, by simpa using q3,
          by simpa using q4⟩
      · obtain ⟨qs, h1, h2⟩ := C44_any_of e ho t hr
        rw [h1] at h ⊢
        simp only at h ⊢
        have hso : e.selectedOf (.normal t f) = selection e.filters t := by simp [Env.selectedOf, hr]
        rw [← hso] at h2
        have h2 : e.Gives qs (.normal t f) := by
          refine ⟨h2, fun hw => ?_⟩
          obtain ⟨w1, w2⟩ := C44_whole e t hr hw
          rw [h1] at w1
          rw [hso, w2]
          exact (Prod.mk.inj (Except.ok.inj w1)).2
        split at h
        · rename_i hc
          have h0 : qs = [] := by simpa using hc.2
          rw [if_pos hc]
          simp only [Step.andThen] at h ⊢
          obtain ⟨qss, q1, q2, q3, q4⟩ := ih j j' ps b hp' h
          exact ⟨qs :: qss, List.Forall₂.cons h2 q1, by simpa [h0, addPostingsOut] using q2, by simpa [h0] using q3, by simpa [h0] using q4⟩
        · rename_i hc
          rw [if_neg hc]
          have bj : (j.addTransaction t f).heap.Books ps := b
          by_cases ha : ∀ p ∈ qs, p.amount ≠ none
          · obtain ⟨j2, h3, h4, _⟩ := addPostings_books t qs _ ps bj ha
            rw [h3] at h ⊢
            simp only [Step.andThen] at h ⊢
            obtain ⟨qss, q1, q2, q3, q4⟩ := ih j2 j' _ h4 hp' h
            refine ⟨qs :: qss, List.Forall₂.cons h2 q1, ?_, fun q hq => ?_, by simpa using q4⟩
            swap
            · rw [List.flatten_cons, List.mem_append] at hq
              exact hq.elim (ha q) (q3 q)
            rw [addPostingsOut_eq t qs j ps b ha, List.flatten_cons, balanceMixes_append]
            congr 1
          · push Not at ha
            rw [addPostings_panics t qs _ ps bj ha] at h
            cases h

/-- What adding postings prints, up to the first without an amount. -/
theorem addPostingsOut_upTo (t : Transaction) (qs : List Posting) : ∀ (j : Journal) (ps : List Posting), j.heap.Books ps →
    addPostingsOut t qs j = balanceMixes ps (qs.takeWhile fun p => p.amount ≠ none) := by
  induction qs with
  | nil => intro j ps _; rfl
  | cons p qs ih =>
    intro j ps b
    rw [addPostingsOut, Journal.addPosting, List.takeWhile_cons]
    cases hp : p.amount with
    | none =>
      rw [wireUp_panics _ b.full t p hp]
      simp [balanceMixes]
    | some amt =>
      obtain ⟨h', e1, b1⟩ := b.wireUp t p hp
      rw [e1, b.wireOut]
      simp only [Option.map_some, ne_eq, reduceCtorEq, not_false_eq_true, decide_true, if_true]
      rw [balanceMixes, ih { j with heap := h' } _ b1]

/-- What the calls of the balance command print, however they end. -/
theorem balance_prints_any (e : Env) (ho : ∀ l, (e.mapOrder l).Perm l) (calls : List Call) : ∀ (j : Journal) (ps : List Posting),
    j.heap.Books ps → (∀ c ∈ calls, ∀ pt f, c = .periodic pt f → pt.period.interval = .none) →
    ∃ qs : List Posting, (∀ q ∈ qs, q ∈ e.selected calls) ∧
      e.balanceHandlers.prints e.balanceOut (fun _ pt => pt.runOut) calls j = balanceMixes ps qs := by
  induction calls with
  | nil => intro j ps _ _; exact ⟨[], by simp, rfl⟩
  | cons c calls ih =>
    intro j ps b hp
    have hp' := fun c' hc' => hp c' (List.mem_cons_of_mem _ hc')
    have hsel : e.selected (c :: calls) = e.selectedOf c ++ e.selected calls := by simp [Env.selected]
    rw [Handlers.prints, hsel]
    have later : ∀ j1, j1.heap.Books ps → ∃ qs : List Posting, (∀ q ∈ qs, q ∈ e.selectedOf c ++ e.selected calls) ∧
        e.balanceHandlers.prints e.balanceOut (fun _ pt => pt.runOut) calls j1 = balanceMixes ps qs := by
      intro j1 b1
      obtain ⟨qs, q1, q2⟩ := ih j1 ps b1 hp'
      exact ⟨qs, fun q hq => List.mem_append_right _ (q1 q hq), q2⟩
    cases c with
    | periodic pt f =>
      have hi := hp _ (by simp) pt f rfl
      have := later (j.addPeriodicTransaction pt f) b
      simpa only [Handlers.call, Env.balanceHandlers, Handlers.callOut, Option.isSome_some, if_true, PeriodicTransaction.runOut, hi,
        List.nil_append] using this
    | normal t f =>
      simp only [Handlers.call, Handlers.callOut]
      rw [show e.balanceHandlers.th = some e.balanceHandler from rfl]
      simp only [Option.isSome_some, if_true]
      rw [Env.balanceHandler, Env.balanceOut]
      rcases hr : e.withinDateRange t with err | _ | _
      · simp only [Env.checkAgainstFilters, hr]
        exact ⟨[], by simp, rfl⟩
      · rw [C44_out_of_range e t hr]
        simp only [List.length_nil, and_self, if_true, addPostingsOut, List.nil_append]
        exact later j b
      · obtain ⟨qs, h1, h2⟩ := C44_any_of e ho t hr
        rw [h1]
        simp only
        have hso : e.selectedOf (.normal t f) = selection e.filters t := by simp [Env.selectedOf, hr]
        rw [← hso] at h2
        split
        · rename_i u' hc
          split at hc
          · rename_i hn
            have h0 : qs = [] := by simpa using hn.2
            cases hc
            rw [h0]
            simp only [addPostingsOut, List.nil_append]
            exact later j b
          · have bj : (j.addTransaction t f).heap.Books ps := b
            by_cases ha : ∀ p ∈ qs, p.amount ≠ none
            · obtain ⟨j2, h3, h4, _⟩ := addPostings_books t qs _ ps bj ha
              rw [h3] at hc
              cases hc
              obtain ⟨rs, r1, r2⟩ := ih u' _ h4 hp'
              refine ⟨qs ++ rs, ?_, ?_⟩
              · intro q hq
                rcases List.mem_append.1 hq with hq | hq
                · exact List.mem_append_left _ (h2.mem_iff.1 hq)
                · exact List.mem_append_right _ (r1 q hq)
              · rw [addPostingsOut_eq t qs j ps b ha, balanceMixes_append, r2]
            · push Not at ha
              rw [addPostings_panics t qs _ ps bj ha] at hc
              cases hc
        · rw [addPostingsOut_upTo t qs j ps b, List.append_nil]
          refine ⟨_, fun q hq => List.mem_append_left _ (h2.mem_iff.1 ?_), rfl⟩
          exact (List.takeWhile_prefix _).subset hq

/-- Nothing is said about postings in one commodity. -/
theorem firstCommodity_one {ps : List Posting} {c : Str} (h : ∀ p ∈ ps, ∀ a ∈ p.amount, a.commodity = c) (hne : ∃ p ∈ ps, p.amount ≠ none) :
    firstCommodity ps = c := by
  unfold firstCommodity writtenCommodities
  have hall : ∀ x ∈ (ps.filterMap fun p => p.amount.map Amount.commodity).filter (· ≠ []), x = c := by
    intro x hx
    obtain ⟨p, hp, hx⟩ := List.mem_filterMap.1 (List.mem_of_mem_filter hx)
    obtain ⟨a, ha, rfl⟩ := Option.map_eq_some_iff.1 hx
    exact h p hp a ha
  obtain ⟨p, hp, hn⟩ := hne
  obtain ⟨a, ha⟩ := Option.ne_none_iff_exists'.1 hn
  have hm : c ≠ [] → c ∈ (ps.filterMap fun p => p.amount.map Amount.commodity).filter (· ≠ []) := by
    intro hc
    rw [List.mem_filter]
    refine ⟨List.mem_filterMap.2 ⟨p, hp, by rw [ha]; simp [h p hp a ha]⟩, by simpa using hc⟩
  generalize (ps.filterMap fun p => p.amount.map Amount.commodity).filter (· ≠ []) = l at hall hm
  cases l with
  | nil =>
    by_cases hc : c = []
    · exact hc.symm
    · exact absurd (hm hc) (by simp)
  | cons x l => exact hall x (by simp)

end Gledger
