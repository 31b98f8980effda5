/-
For C101: what `balance` and `budget` print while the journal is read, also if they crash at it.
-/
import Verif.Props.Stops
import Verif.Props.Warnings

namespace Gledger

theorem takeWhile_all {α : Type} {p : α → Bool} {l : List α} (h : ∀ a ∈ l, p a = true) (l' : List α) :
    (l ++ l').takeWhile p = l ++ l'.takeWhile p := by
  induction l with
  | nil => rfl
  | cons a l ih =>
    rw [List.cons_append, List.takeWhile_cons, if_pos (h a (by simp)), ih fun b hb => h b (by simp [hb]), List.cons_append]

theorem takeWhile_some {α : Type} {p : α → Bool} {l : List α} (h : ∃ a ∈ l, p a = false) (l' : List α) :
    (l ++ l').takeWhile p = l.takeWhile p := by
  induction l with
  | nil => obtain ⟨a, ha, _⟩ := h; cases ha
  | cons a l ih =>
    rw [List.cons_append, List.takeWhile_cons, List.takeWhile_cons]
    cases ha : p a with
    | false => rfl
    | true =>
      obtain ⟨b, hb, h2⟩ := h
      rcases List.mem_cons.1 hb with rfl | hb
      · rw [ha] at h2; cases h2
      · rw [ih ⟨b, hb, h2⟩]

theorem gives_selected (e : Env) (calls : List Call) : ∃ qss, List.Forall₂ e.Gives qss calls := by
  induction calls with
  | nil => exact ⟨[], .nil⟩
  | cons c calls ih =>
    obtain ⟨qss, h⟩ := ih
    cases c with
    | normal t f => exact ⟨e.selectedOf (.normal t f) :: qss, .cons ⟨List.Perm.refl _, fun _ => rfl⟩ h⟩
    | periodic pt f => exact ⟨[] :: qss, .cons rfl h⟩

theorem files_filed (e : Env) (calls : List Call) : ∃ xss, List.Forall₂ e.FiledAs xss calls := by
  induction calls with
  | nil => exact ⟨[], .nil⟩
  | cons c calls ih =>
    obtain ⟨xss, h⟩ := ih
    refine ⟨e.filedOf c :: xss, .cons ?_ h⟩
    cases c with
    | normal t f => exact ⟨List.Perm.refl _, fun _ => rfl⟩
    | periodic pt f => exact rfl

/-- What the calls of the balance command print: the warnings about the postings up to the first without an amount. -/
theorem balance_prints_all (e : Env) (ho : ∀ l, (e.mapOrder l).Perm l) (hd : e.dateError = none) (calls : List Call) : ∀ (j : Journal) (ps : List Posting),
    j.heap.Books ps → (∀ c ∈ calls, ∀ pt f, c = .periodic pt f → pt.period.interval = .none) →
    ∃ qss : List (List Posting), List.Forall₂ e.Gives qss calls ∧
      e.balanceHandlers.prints e.balanceOut (fun _ pt => pt.runOut) calls j = balanceMixes ps (qss.flatten.takeWhile fun p => p.amount ≠ none) := by
  induction calls with
  | nil => intro j ps _ _; exact ⟨[], .nil, rfl⟩
  | cons c calls ih =>
    intro j ps b hp
    have hp' := fun c' hc' => hp c' (List.mem_cons_of_mem _ hc')
    rw [Handlers.prints]
    cases c with
    | periodic pt f =>
      have hi := hp _ (by simp) pt f rfl
      obtain ⟨qss, q1, q2⟩ := ih (j.addPeriodicTransaction pt f) ps b hp'
      refine ⟨[] :: qss, .cons rfl q1, ?_⟩
      simpa only [Handlers.call, Env.balanceHandlers, Handlers.callOut, Option.isSome_some, if_true, PeriodicTransaction.runOut, hi,
        List.nil_append, List.flatten_cons] using q2
    | normal t f =>
      simp only [Handlers.call, Handlers.callOut]
      rw [show e.balanceHandlers.th = some e.balanceHandler from rfl]
      simp only [Option.isSome_some, if_true]
      rw [Env.balanceHandler, Env.balanceOut]
      obtain ⟨r, hr⟩ := (withinDateRange_dateError e t).2 hd
      cases r with
      | false =>
        rw [C44_out_of_range e t hr]
        simp only [List.length_nil, and_self, if_true, addPostingsOut, List.nil_append]
        obtain ⟨qss, q1, q2⟩ := ih j ps b hp'
        exact ⟨[] :: qss, .cons (by simp [Env.Gives, Env.selectedOf, hr]) q1, q2⟩
      | true =>
        obtain ⟨qs, h1, h2⟩ := C44_any_of e ho t hr
        rw [h1]
        simp only
        have hso : e.selectedOf (.normal t f) = selection e.filters t := by simp [Env.selectedOf, hr]
        rw [← hso] at h2
        have h2 : e.Gives qs (.normal t f) := by
          refine ⟨h2, fun hw => ?_⟩
          obtain ⟨w1, w2⟩ := C44_whole e t hr hw
          rw [h1] at w1
          rw [hso, w2]
          exact (Prod.mk.inj (Except.ok.inj w1)).2
        rw [addPostingsOut_upTo t qs j ps b]
        by_cases hc : (decide (WholeSelected e.filters t)) = false ∧ qs.length = 0
        · have h0 : qs = [] := by simpa using hc.2
          obtain ⟨qss, q1, q2⟩ := ih j ps b hp'
          rw [if_pos hc]
          subst h0
          exact ⟨[] :: qss, .cons h2 q1, by simpa [balanceMixes] using q2⟩
        · rw [if_neg hc]
          have bj : (j.addTransaction t f).heap.Books ps := b
          by_cases ha : ∀ p ∈ qs, p.amount ≠ none
          · obtain ⟨j2, h3, h4, _⟩ := addPostings_books t qs _ ps bj ha
            rw [h3]
            simp only
            obtain ⟨qss, q1, q2⟩ := ih j2 _ h4 hp'
            refine ⟨qs :: qss, .cons h2 q1, ?_⟩
            have ha' : ∀ p ∈ qs, decide (p.amount ≠ none) = true := fun p hp => by simpa using ha p hp
            rw [q2, List.flatten_cons, takeWhile_all ha', balanceMixes_append]
            congr 2
            exact List.takeWhile_eq_self_iff.2 ha'
          · push Not at ha
            rw [addPostings_panics t qs _ ps bj ha]
            obtain ⟨qss, q1⟩ := gives_selected e calls
            refine ⟨qs :: qss, .cons h2 q1, ?_⟩
            rw [List.flatten_cons, takeWhile_some (by obtain ⟨p, h3, h4⟩ := ha; exact ⟨p, h3, by simp [h4]⟩)]
            simp [panicking]

/-- What the calls of the budget command print: the warnings about the postings up to the first that cannot be filed. -/
theorem budget_prints_all (e : Env) (ho : ∀ l, (e.mapOrder l).Perm l) (hd : e.dateError = none) (calls : List Call) : ∀ (b : Budget) (before : List Filed),
    b.Holds before → b.Roots before → (∀ c ∈ calls, ∀ pt f, c = .periodic pt f → pt.period.interval = .none) →
    (∀ x ∈ e.filed calls, 1 ≤ x.date.day) → ∃ xss : List (List Filed), List.Forall₂ e.FiledAs xss calls ∧
      e.budgetHandlers.prints e.budgetOut budgetPeriodicOut calls b = budgetMixes before (xss.flatten.takeWhile fun x => x.Fileable) := by
  induction calls with
  | nil => intro b before _ _ _ _; exact ⟨[], .nil, rfl⟩
  | cons c calls ih =>
    intro b before H R hp hday
    have hfc : e.filed (c :: calls) = e.filedOf c ++ e.filed calls := by simp [Env.filed]
    rw [hfc] at hday
    have usual := budget_usual e
    rw [Handlers.prints]
    rcases budget_call e ho c (hp c (by simp)) b with ⟨err, c1, c2⟩ | ⟨xs, x1, x2, x3⟩
    · exfalso
      cases c with
      | normal t f =>
        have := usual.1 b t f
        rw [hd, c1] at this
        rcases this with h | h <;> cases h
      | periodic pt f =>
        have := usual.2 b pt f
        rw [c1] at this
        rcases this with h | h <;> cases h
    · obtain ⟨o1, o2⟩ := addEachOut_eq xs H R fun x hx => hday x (List.mem_append_left _ (x1.perm.mem_iff.1 hx))
      rw [x2, o1]
      have hready := budget_ready e ho hd [c] b before H fun x hx => hday x (List.mem_append_left _ (by simpa [Env.filed] using hx))
      have hL : Command.budget.Lacks e [c] ↔ ∃ x ∈ xs, ¬ x.Fileable := by
        have : ∀ x, x ∈ e.filedOf c ↔ x ∈ xs := fun x => x1.perm.mem_iff.symm
        simp only [Command.Lacks, Env.filed, List.flatMap_cons, List.flatMap_nil, List.append_nil, this]
      rw [hL] at hready
      rcases hr : e.budgetHandlers.call b c with ⟨b1, _ | f⟩
      · rw [hr] at x3
        obtain ⟨H1, R1, F1⟩ := o2 b1 (x3 rfl)
        obtain ⟨xss, q1, q2⟩ := ih b1 (before ++ xs) H1 R1 (fun c' hc' => hp c' (by simp [hc'])) fun x hx => hday x (List.mem_append_right _ hx)
        refine ⟨xs :: xss, .cons x1 q1, ?_⟩
        have F1' : ∀ x ∈ xs, decide x.Fileable = true := fun x hx => by simpa using F1 x hx
        simp only
        rw [q2, List.flatten_cons, takeWhile_all F1', budgetMixes_append]
        congr 2
        exact List.takeWhile_eq_self_iff.2 F1'
      · have hn : ∃ x ∈ xs, ¬ x.Fileable := by
          by_contra hn
          have := hready.2 hn
          rw [Handlers.replay, hr] at this
          cases this
        obtain ⟨xss, q1⟩ := files_filed e calls
        refine ⟨xs :: xss, .cons x1 q1, ?_⟩
        rw [List.flatten_cons, takeWhile_some (by obtain ⟨x, h3, h4⟩ := hn; exact ⟨x, h3, by simpa using h4⟩)]
        simp

end Gledger
