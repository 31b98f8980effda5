/-
C101: what the program does, whatever it is given.
-/
import Verif.Lemmas.Runs

namespace Gledger

set_option maxRecDepth 100000

section
variable [Unicode] {m : Machine} {o : Options} {c : Command} {args : List Str} {bytes : List UInt8} {js : List (Meant × Str)} {filters : List Filter}
  {admits : Date → Bool} {path : Str} {out : Except Report Page}

/-- What is printed while the journal is read. -/
theorem Heard.printed (g : Heard m o args bytes js filters admits path) (c : Command) :
    c.Printed filters admits (meanings js) (m.warnings (m.env o filters) bytes path c) := by
  obtain ⟨_, _, _, _, a5, a6⟩ := g.asks
  have hd := days_no_error g.days filters
  cases c with
  | balance =>
    obtain ⟨qss, q1, q2⟩ := balance_prints_all (m.env o filters) g.fair.postings hd _ newJournal [] (newAccount_books _) (delivered_once m.fs m.maxOpen bytes path)
    obtain ⟨qss', q3, q4⟩ := a5 qss q1
    refine ⟨qss', q3, ?_⟩
    rw [q4, ← q2]
    exact printed_replay _ _ _ _ _ _ _ _
  | budget =>
    obtain ⟨xss, x1, x2⟩ := budget_prints_all (m.env o filters) g.fair.postings hd _ [] [] empty_holds (fun _ _ _ hb => by cases hb)
      (delivered_once m.fs m.maxOpen bytes path) (filed_days _ m.fs m.maxOpen bytes path)
    refine ⟨xss, a6 xss x1, ?_⟩
    rw [← x2]
    exact printed_replay _ _ _ _ _ _ _ _
  | _ => rfl

/-- A command that needs an amount that is missing crashes; its warnings about what comes before have been printed. -/
theorem C101_crash (g : Setting m o args bytes filters admits path) (h : Reading m.fs m.lib m.maxOpen path bytes js out)
    (hs : c.Short filters admits (meanings js)) :
    ∃ w, c.Printed filters admits (meanings js) w ∧ m.run o c args = ⟨w, .panic .unusablePosting⟩ := by
  have hc : c ≠ .version := by rintro rfl; exact hs
  have g : Heard m o args bytes js filters admits path := ⟨g, (C99_parsed h).1⟩
  refine ⟨_, g.printed c, ?_⟩
  have hst := C96_stopped (m.env o filters) g.fair.postings (days_no_error g.days filters) m.fs m.maxOpen bytes path c
  rw [if_pos ((g.lacks c).2 hs)] at hst
  obtain ⟨f, f1, f2⟩ := (runOn_error m (m.env o filters) o args bytes path hc).2 _ hst
  rw [g.run hc, f2]
  cases f <;> cases f1
  rfl

/-! ### Date flags that spell no day -/

omit [Unicode] in
theorem periodic_calls {bs : List (Meant × Str)} {calls : List Call} (hb : transactionsOf (meanings bs) = [])
    (h : List.Forall₂ (fun (x : Meant × Str) c => x.1.Call x.2 c) bs calls) : ∀ c ∈ calls, ∃ pt f, c = .periodic pt f ∧ pt.period.interval = .none := by
  induction h with
  | nil => intro c hc; cases hc
  | @cons x c bs calls h1 _ ih =>
    obtain ⟨_ | ⟨d, ps⟩, f⟩ := x
    · simp [meanings, transactionsOf] at hb
    · cases c with
      | normal t f => exact h1.elim
      | periodic pt f' =>
        intro c' hc'
        rcases List.mem_cons.1 hc' with rfl | hc'
        · exact ⟨pt, f', rfl, h1.2.2.1⟩
        · exact ih hb c' hc'

/-- Without transactions, date flags play no role. -/
theorem runOn_undated {calls : List Call} (hd : delivered m.fs m.maxOpen bytes path = calls) (hp : ∀ c ∈ calls, ∃ pt f, c = .periodic pt f ∧ pt.period.interval = .none) :
    m.runOn (m.env o filters) o args bytes path c = m.runOn (m.env o.undated filters) o.undated args bytes path c := by
  have hn : normals calls = [] := by
    apply List.eq_nil_iff_forall_not_mem.2
    intro t ht
    unfold normals at ht
    obtain ⟨x, hx, hx'⟩ := List.mem_filterMap.1 ht
    obtain ⟨pt, f, rfl, _⟩ := hp x hx
    cases hx'
  have panics : ∀ {σ : Type} {H : Handlers σ}, H.Usual (m.env o filters) → ∀ u g, (H.replay (delivered m.fs m.maxOpen bytes path) u).2 = some g → ∃ p, g = .panic p := by
    intro σ H hu u g hg
    rw [hd] at hg
    rcases (hu.replay calls u).1 g hg with h | ⟨_, _, _, h⟩
    · exact ⟨_, h⟩
    · exact absurd hn h
  cases c with
  | version => rfl
  | accounts =>
    have : ∀ c ∈ delivered m.fs m.maxOpen bytes path, ∀ u, (m.env o filters).accountsHandlers.call u c = (m.env o.undated filters).accountsHandlers.call u c := by
      intro c hc u; rw [hd] at hc; obtain ⟨pt, f, rfl, _⟩ := hp c hc; rfl
    simp only [Machine.runOn, accountsCmd]
    rw [runParse_panics (replay_same this []) (panics (accounts_usual _).1 [])]
    rfl
  | payees =>
    have : ∀ c ∈ delivered m.fs m.maxOpen bytes path, ∀ u, (m.env o filters).payeesHandlers.call u c = (m.env o.undated filters).payeesHandlers.call u c := by
      intro c hc u; rw [hd] at hc; obtain ⟨pt, f, rfl, _⟩ := hp c hc; rfl
    simp only [Machine.runOn, payeesCmd]
    rw [runParse_panics (replay_same this []) (panics (payees_usual _).1 [])]
  | print =>
    have : ∀ c ∈ delivered m.fs m.maxOpen bytes path, ∀ u, (m.env o filters).printHandlers.call u c = (m.env o.undated filters).printHandlers.call u c := by
      intro c hc u; rw [hd] at hc; obtain ⟨pt, f, rfl, _⟩ := hp c hc; rfl
    simp only [Machine.runOn, printCmd]
    rw [runParse_panics (replay_same this []) (panics (print_usual _).1 [])]
  | statistics =>
    have : ∀ c ∈ delivered m.fs m.maxOpen bytes path, ∀ u, (m.env o filters).statsHandlers.call u c = (m.env o.undated filters).statsHandlers.call u c := by
      intro c hc u; rw [hd] at hc; obtain ⟨pt, f, rfl, _⟩ := hp c hc; rfl
    simp only [Machine.runOn, statsCmd]
    rw [runParse_panics (replay_same this {}) (panics (stats_usual _) {})]
  | balance =>
    have : ∀ c ∈ delivered m.fs m.maxOpen bytes path, ∀ u, (m.env o filters).balanceHandlers.call u c = (m.env o.undated filters).balanceHandlers.call u c := by
      intro c hc u; rw [hd] at hc; obtain ⟨pt, f, rfl, _⟩ := hp c hc; rfl
    have h2 : printedBy m.fs m.maxOpen bytes path (m.env o filters).balancePrinting newJournal =
        printedBy m.fs m.maxOpen bytes path (m.env o.undated filters).balancePrinting newJournal := by
      unfold Env.balancePrinting
      rw [printed_replay, printed_replay]
      refine prints_same this ?_ _
      intro c hc u; rw [hd] at hc; obtain ⟨pt, f, rfl, _⟩ := hp c hc; rfl
    simp only [Machine.runOn, balanceCmd]
    rw [runParse_panics (replay_same this _) (panics (balance_usual _) _), h2]
    rfl
  | budget =>
    have : ∀ c ∈ delivered m.fs m.maxOpen bytes path, ∀ u, (m.env o filters).budgetHandlers.call u c = (m.env o.undated filters).budgetHandlers.call u c := by
      intro c hc u; rw [hd] at hc; obtain ⟨pt, f, rfl, _⟩ := hp c hc; rfl
    have h2 : printedBy m.fs m.maxOpen bytes path (m.env o filters).budgetPrinting [] =
        printedBy m.fs m.maxOpen bytes path (m.env o.undated filters).budgetPrinting [] := by
      unfold Env.budgetPrinting
      rw [printed_replay, printed_replay]
      refine prints_same this ?_ _
      intro c hc u; rw [hd] at hc; obtain ⟨pt, f, rfl, _⟩ := hp c hc; rfl
    simp only [Machine.runOn, budgetCmd]
    rw [runParse_panics (replay_same this _) (panics (budget_usual _) _), h2]

theorem Asked.run (a : Asked m o c args filters path) (ht : m.fs path = some bytes) : m.run o c args = m.runOn (m.env o filters) o args bytes path c := by
  have hp : m.rootPath o = some path := by
    unfold Machine.rootPath
    rcases a.file with ⟨h1, h2⟩ | ⟨h1, h2⟩
    · rw [if_neg (by rw [h1]; simpa using h2), h1]
    · rw [if_pos (by rw [h1]; rfl), h2]
  exact (C95_filters m o a.command a.filters hp ht).1

/-- If a journal has no transactions, the date flags are not even read. -/
theorem C101_unused (a : Asked m o c args filters path) (ht : m.fs path = some bytes) (h : Reading m.fs m.lib m.maxOpen path bytes js out)
    (hn : transactionsOf (meanings js) = []) : m.run o c args = m.run o.undated c args := by
  rw [a.run ht, Asked.run (o := o.undated) ⟨a.command, a.filters, a.file⟩ ht]
  exact runOn_undated rfl (periodic_calls hn (C99_parsed h).1)

/-- A journal that begins with budget entries only, and what is filed for them. -/
theorem budgets_ready (hfair : m.Fair) (hd : DaysAsked m o.undated admits) {budgets rest : List (Meant × Str)}
    (h : Reading m.fs m.lib m.maxOpen path bytes (budgets ++ rest) out) (hb : transactionsOf (meanings budgets) = []) {before : List Call}
    (hbef : List.Forall₂ (fun (x : Meant × Str) c => x.1.Call x.2 c) budgets before) :
    ((Command.budget.Short filters admits (meanings budgets) → ((m.env o filters).budgetHandlers.replay before []).2 = some (.panic .unusablePosting)) ∧
      (¬ Command.budget.Short filters admits (meanings budgets) → ((m.env o filters).budgetHandlers.replay before []).2 = none)) ∧
    Command.budget.Printed filters admits (meanings budgets) ((m.env o filters).budgetHandlers.prints (m.env o filters).budgetOut budgetPeriodicOut before []) := by
  have hper := periodic_calls hb hbef
  have hne := days_no_error hd filters
  obtain ⟨_, _, _, a4, _, a6⟩ := calls_asked (e := m.env o.undated filters) (fun t => days_range hd filters t) hbef
  have hdays : ∀ x ∈ (m.env o.undated filters).filed before, 1 ≤ x.date.day := by
    intro x hx
    refine filed_days (m.env o.undated filters) m.fs m.maxOpen bytes path x ?_
    rw [(calls_asked (e := m.env o.undated filters) (fun t => days_range hd filters t) (C99_parsed h).1).2.2.2.1]
    rw [a4] at hx
    rw [meanings, List.map_append, List.flatMap_append]
    exact List.mem_append_left _ hx
  have same : ∀ c ∈ before, ∀ u, (m.env o filters).budgetHandlers.call u c = (m.env o.undated filters).budgetHandlers.call u c := by
    intro c hc u; obtain ⟨pt, f, rfl, _⟩ := hper c hc; rfl
  have same' : ∀ c ∈ before, ∀ u, (m.env o filters).budgetHandlers.callOut (m.env o filters).budgetOut budgetPeriodicOut u c =
      (m.env o.undated filters).budgetHandlers.callOut (m.env o.undated filters).budgetOut budgetPeriodicOut u c := by
    intro c hc u; obtain ⟨pt, f, rfl, _⟩ := hper c hc; rfl
  rw [replay_same same, prints_same same same']
  constructor
  · have hr := budget_ready (m.env o.undated filters) hfair.postings hne before [] [] empty_holds hdays
    have hL : Command.budget.Lacks (m.env o.undated filters) before ↔ Command.budget.Short filters admits (meanings budgets) := by
      simp only [Command.Lacks, Command.Short, a4]
      exact Iff.rfl
    rw [hL] at hr
    constructor
    · intro hs
      cases hg : ((m.env o.undated filters).budgetHandlers.replay before []).2 with
      | none => exact absurd hs (hr.1 hg)
      | some g =>
        rcases ((budget_usual _).replay before []).1 g hg with h | ⟨x, hx, _⟩
        · rw [h]
        · rw [hne] at hx; cases hx
    · exact hr.2
  · obtain ⟨xss, x1, x2⟩ := budget_prints_all (m.env o.undated filters) hfair.postings hne before [] [] empty_holds (fun _ _ _ hb => by cases hb)
      (fun c hc pt f e => by
        obtain ⟨pt', f', e', hi⟩ := hper c hc
        rw [e] at e'
        cases e'
        exact hi) hdays
    exact ⟨xss, a6 xss x1, x2⟩

omit [Unicode] in
/-- Without a missing amount, everything is printed. -/
theorem printed_warned {ms : List Meant} {w : Str} (hs : ¬ c.Short filters admits ms) (h : c.Printed filters admits ms w) : c.Warned filters admits ms w := by
  cases c with
  | balance =>
    obtain ⟨qss, q1, q2⟩ := h
    refine ⟨qss, q1, ?_⟩
    rw [q2, List.takeWhile_eq_self_iff.2]
    intro p hp
    have hm : p ∈ askedPostings filters admits ms := (flatten_perm_flatMap (q1.imp fun _ _ h => h.1)).mem_iff.1 hp
    by_contra hn
    exact hs ⟨p, hm, by simpa using hn⟩
  | budget =>
    obtain ⟨xss, q1, q2⟩ := h
    refine ⟨xss, q1, ?_⟩
    rw [q2, List.takeWhile_eq_self_iff.2]
    intro x hx
    have hm : x ∈ ms.flatMap (Meant.filed filters admits) := by
      refine (flatten_perm_flatMap (q1.imp fun xs y h => ?_)).mem_iff.1 hx
      cases y with
      | transaction t => exact h.1
      | budget d ps => rw [show xs = _ from h]
    by_contra hn
    exact hs ⟨x, hm, by simpa using hn⟩
  | _ => exact h

omit [Unicode] in
theorem forall₂_parts {α β : Type} {R : α → β → Prop} {l₁ l₂ : List α} {l' : List β} (h : List.Forall₂ R (l₁ ++ l₂) l') :
    ∃ a b, l' = a ++ b ∧ List.Forall₂ R l₁ a ∧ List.Forall₂ R l₂ b := by
  induction l₁ generalizing l' with
  | nil => exact ⟨[], l', rfl, .nil, h⟩
  | cons x l₁ ih =>
    cases h with
    | cons h1 h2 =>
      obtain ⟨a, b, rfl, h3, h4⟩ := ih h2
      exact ⟨_ :: a, b, rfl, .cons h1 h3, h4⟩

/-- A date flag that spells no day: a complaint where the first transaction is complete, unless the program crashes before that. -/
theorem C101_flag (hm : m.Sane) {flag : Str} (a : Asked m o c args filters path) (ht : m.fs path = some bytes) (hf : FaultyFlag m o flag) (hd : DaysAsked m o.undated admits)
    {budgets rest : List (Meant × Str)} {t : Transaction} {file : Str}
    (h : Reading m.fs m.lib m.maxOpen path bytes (budgets ++ (.transaction t, file) :: rest) out) (hb : transactionsOf (meanings budgets) = []) :
    (c.Short filters admits (meanings budgets) → ∃ w, c.Printed filters admits (meanings budgets) w ∧ m.run o c args = ⟨w, .panic .unusablePosting⟩) ∧
    (¬ c.Short filters admits (meanings budgets) → ∃ w via place msg, c.Warned filters admits (meanings budgets) w ∧
      SpotIn m.fs m.lib m.maxOpen path bytes budgets.length via place ∧ FlagComplaint m.lib flag msg ∧
      (Report.message via place (· = msg)).Shown w (m.run o c args)) := by
  obtain ⟨x, hx, hmsg⟩ := faulty_error hm.year hf filters
  have none_asked : asked admits (meanings budgets) = [] := by rw [asked, hb]; rfl
  constructor
  · intro hs
    have hcb : c = .budget := by
      cases c <;> simp_all [Command.Short, askedPostings]
    subst hcb
    have hdel := (C99_parsed h).1
    obtain ⟨before, after, h3, h1, h2⟩ := forall₂_parts hdel
    obtain ⟨k1, k2⟩ := budgets_ready (filters := filters) hm.fair hd h hb h1
    have k1 := k1.1 hs
    refine ⟨_, k2, ?_⟩
    have hst : Command.budget.stopped (m.env o filters) (delivered m.fs m.maxOpen bytes path) = some (.panic .unusablePosting) := by
      rw [h3]
      exact replay_stops after k1
    obtain ⟨f, f1, f2⟩ := (runOn_error m (m.env o filters) o args bytes path a.command).2 _ hst
    rw [a.run ht, f2]
    have hw : m.warnings (m.env o filters) bytes path .budget = (m.env o filters).budgetHandlers.prints (m.env o filters).budgetOut budgetPeriodicOut before [] := by
      show printedBy _ _ _ _ (m.env o filters).budgetPrinting _ = _
      unfold Env.budgetPrinting
      rw [printed_replay, h3, prints_stops after (by rw [k1]; simp)]
    rw [hw]
    cases f <;> cases f1
    rfl
  · intro hs
    have hi : (budgets ++ (Meant.transaction t, file) :: rest)[budgets.length]? = some (.transaction t, file) := by simp
    obtain ⟨via, place, s1, s2⟩ := reading_breaks h hi
    rw [List.take_left'] at s2
    swap
    · rfl
    have key : ∀ {σ : Type} (H : Handlers σ) (u : σ), H.Usual (m.env o filters) →
        (∀ before, List.Forall₂ (fun (x : Meant × Str) c => x.1.Call x.2 c) budgets before → (H.replay before u).2 = none) →
        runParse m.fs m.maxOpen bytes path H u = .error (.err (.errorAt (nested (placed x place) via))) := by
      intro σ H u hu hr
      obtain ⟨before, c', b1, b2, b3⟩ := s2 σ H u
      have hr := hr before b1
      cases c' with
      | periodic pt f => exact b2.elim
      | normal t' f =>
        have hcall := hu.1 (H.replay before u).1 t' f
        rw [hx] at hcall
        obtain ⟨_, p2⟩ := b3 _ _ x (by rw [← hr]) hcall
        unfold runParse
        generalize parse m.fs H m.maxOpen bytes path (newParser u) = r at p2
        obtain ⟨st, o'⟩ := r
        simp only at p2
        subst p2
        rfl
    have keyOut : ∀ {σ : Type} (H : Handlers σ) (u : σ) (outp : σ → Transaction → Str) (pout : σ → PeriodicTransaction → Str), H.Usual (m.env o filters) →
        (∀ before, List.Forall₂ (fun (x : Meant × Str) c => x.1.Call x.2 c) budgets before → (H.replay before u).2 = none) →
        (∀ u t, outp u t = []) → ∃ before, List.Forall₂ (fun (x : Meant × Str) c => x.1.Call x.2 c) budgets before ∧
          printedBy m.fs m.maxOpen bytes path (H.printing outp pout) u = H.prints outp pout before u := by
      intro σ H u outp pout hu hr ho
      obtain ⟨before, c', b1, b2, b3⟩ := s2 _ (H.printing outp pout) (u, [])
      have hr := hr before b1
      refine ⟨before, b1, ?_⟩
      cases c' with
      | periodic pt f => exact b2.elim
      | normal t' f =>
        have hcall := hu.1 (H.replay before u).1 t' f
        rw [hx] at hcall
        have hrep := printing_replay H outp pout before u []
        rw [hr, List.nil_append] at hrep
        have hcall' : (H.printing outp pout).call ((H.replay before u).1, H.prints outp pout before u) (.normal t' f) =
            (((H.replay before u).1, H.prints outp pout before u), some (.err x)) := by
          simp only [Handlers.call, Handlers.printing] at hcall ⊢
          cases hth : H.th with
          | none => rw [hth] at hcall; simp at hcall
          | some th =>
            rw [hth] at hcall
            simp only at hcall
            simp [hcall, ho]
        obtain ⟨p1, _⟩ := b3 _ _ x hrep hcall'
        unfold printedBy
        rw [p1]
    have quiet : ∀ {σ : Type} (H : Handlers σ) (u : σ), (∀ u pt f, (H.call u (.periodic pt f)).2 = none) →
        ∀ before, List.Forall₂ (fun (x : Meant × Str) c => x.1.Call x.2 c) budgets before → (H.replay before u).2 = none := by
      intro σ H u hq before hbef
      have hper := periodic_calls hb hbef
      clear hbef
      induction before generalizing u with
      | nil => rfl
      | cons c cs ih =>
        obtain ⟨pt, f, rfl, _⟩ := hper c (by simp)
        have := hq u pt f
        rw [Handlers.replay]
        generalize H.call u (.periodic pt f) = r at this
        obtain ⟨v, o'⟩ := r
        simp only at this
        subst this
        exact ih v fun c hc => hper c (by simp [hc])
    suffices hrun : ∃ w, c.Warned filters admits (meanings budgets) w ∧
        m.runOn (m.env o filters) o args bytes path c = m.finish w (.error (.err (.errorAt (nested (placed x place) via)))) by
      obtain ⟨w, w1, w2⟩ := hrun
      refine ⟨w, via, place, x.text m.lib, w1, s1, hmsg, _, rfl, ?_⟩
      rw [a.run ht, w2, ← nested_text]
      rfl
    cases c with
    | version => exact absurd rfl a.command
    | accounts => exact ⟨[], rfl, by simp only [Machine.runOn, accountsCmd, key _ _ (accounts_usual _).1 (quiet _ _ fun _ _ _ => rfl)]; rfl⟩
    | payees => exact ⟨[], rfl, by simp only [Machine.runOn, payeesCmd, key _ _ (payees_usual _).1 (quiet _ _ fun _ _ _ => rfl)]⟩
    | print => exact ⟨[], rfl, by simp only [Machine.runOn, printCmd, key _ _ (print_usual _).1 (quiet _ _ fun _ _ _ => rfl)]; rfl⟩
    | statistics => exact ⟨[], rfl, by simp only [Machine.runOn, statsCmd, key _ _ (stats_usual _) (quiet _ _ fun _ _ _ => rfl)]; rfl⟩
    | balance =>
      obtain ⟨before, b1, b2⟩ := keyOut (m.env o filters).balanceHandlers newJournal (m.env o filters).balanceOut (fun _ pt => pt.runOut) (balance_usual _)
        (quiet _ _ fun _ _ _ => rfl) (by
          intro u t
          simp only [Env.balanceOut, (checkAgainstFilters_dateError (m.env o filters) t).1 x hx])
      refine ⟨[], ⟨[], by rw [none_asked]; exact .nil, rfl⟩, ?_⟩
      have hp : printedBy m.fs m.maxOpen bytes path (m.env o filters).balancePrinting newJournal = [] := by
        refine b2.trans ?_
        have hper := periodic_calls hb b1
        clear b1 b2
        generalize newJournal = j
        induction before generalizing j with
        | nil => rfl
        | cons c cs ih =>
          obtain ⟨pt, f, rfl, hi⟩ := hper c (by simp)
          have := ih (fun c hc => hper c (by simp [hc])) (j.addPeriodicTransaction pt f)
          simpa only [Handlers.prints, Handlers.call, Env.balanceHandlers, Handlers.callOut, Option.isSome_some, if_true, PeriodicTransaction.runOut, hi,
            List.nil_append] using this
      simp only [Machine.runOn, balanceCmd, key _ _ (balance_usual _) (quiet _ _ fun _ _ _ => rfl), hp]
      rfl
    | budget =>
      have hr : ∀ before, List.Forall₂ (fun (x : Meant × Str) c => x.1.Call x.2 c) budgets before → ((m.env o filters).budgetHandlers.replay before []).2 = none := by
        intro before hbef
        exact (budgets_ready (filters := filters) hm.fair hd h hb hbef).1.2 hs
      obtain ⟨before, b1, b2⟩ := keyOut (m.env o filters).budgetHandlers [] (m.env o filters).budgetOut budgetPeriodicOut (budget_usual _) hr (by
          intro u t
          simp only [Env.budgetOut, (checkAgainstFilters_dateError (m.env o filters) t).1 x hx])
      refine ⟨_, printed_warned hs (budgets_ready (filters := filters) hm.fair hd h hb b1).2, ?_⟩
      rw [← b2]
      simp only [Machine.runOn, budgetCmd, key _ _ (budget_usual _) hr]
      rfl

/-- Every run of the program is described. -/
theorem C101_every_run (hm : m.Sane) : Does m c args o (m.run o c args) := by
  rcases C95_complete m.engine args with ⟨filters, hf⟩ | ⟨good, bad, rest, e, h1, h2⟩
  swap
  · have := C95_invalid m o c h1 h2 rest
    rw [← e] at this
    rw [this]
    exact .badFilter e (fun a ha => by have := h1 a ha; unfold NoFilter at this; push Not at this; exact this) h2
  have hmf := (makeFilters_iff _ _ _).2 hf
  by_cases hv : c = .version
  · have : m.run o c args = versionRun := by simp only [Machine.run, hmf, Machine.runFiltered, if_pos hv]
    rw [this]
    unfold versionRun
    exact .version hv hf
  by_cases hp : ∃ path, (o.file = path ∧ path ≠ []) ∨ (o.file = [] ∧ m.ledgerFile = some path)
  swap
  · push Not at hp
    have h1 : o.file = [] := by
      by_contra hn
      exact hn ((hp o.file).1 rfl)
    have h2 : m.ledgerFile = none := by
      cases hl : m.ledgerFile with
      | none => rfl
      | some p => exact absurd hl ((hp p).2 h1)
    rw [C77_no_journal m o c args h1 h2 hv hmf]
    exact .noJournal hv hf h1 h2
  obtain ⟨path, hp⟩ := hp
  have a : Asked m o c args filters path := ⟨hv, hf, hp⟩
  cases ht : m.fs path with
  | none =>
    rw [C77_missing_journal m o c args path hp ht hv hmf]
    exact .notFound a ht
  | some bytes =>
    obtain ⟨js, out, h, hu⟩ := C99_one_reading m.fs m.lib m.maxOpen path bytes
    clear hu
    -- with date flags that can be read
    have fine : ∀ o' : Options, o'.file = o.file → (∀ flag, ¬ FaultyFlag m o' flag) → Does m c args o' (m.run o' c args) := by
      intro o' ho' hn
      obtain ⟨admits, hd⟩ := days_exist hm o' hn
      have a' : Asked m o' c args filters path := ⟨hv, hf, by rw [ho']; exact hp⟩
      have g : Setting m o' args bytes filters admits path := ⟨hm.fair, a'.file, ht, hf, hd⟩
      by_cases hs : c.Short filters admits (meanings js)
      · obtain ⟨w, w1, w2⟩ := C101_crash g h hs
        rw [w2]
        exact .crash a' ht hd h hs w1
      · obtain ⟨k1, k2⟩ := (C99_answers g h hv).2 hs
        rcases out with rep | pg
        · obtain ⟨w, w1, w2⟩ := k2 rep rfl
          exact .mistake a' ht hd h hs w1 w2
        · exact .answer a' ht hd h hs (k1 pg rfl)
    by_cases hfl : ∃ flag, FaultyFlag m o flag
    swap
    · push Not at hfl
      exact fine o rfl hfl
    obtain ⟨flag, hfl⟩ := hfl
    by_cases hn : transactionsOf (meanings js) = []
    · rw [C101_unused a ht h hn]
      exact .unused a ht hfl h hn (fine o.undated rfl (undated_fine m o))
    · obtain ⟨budgets, t, file, rest, rfl, hb⟩ : ∃ budgets t file rest, js = budgets ++ (Meant.transaction t, file) :: rest ∧ transactionsOf (meanings budgets) = [] := by
        clear h fine
        induction js with
        | nil => exact absurd rfl hn
        | cons x js ih =>
          obtain ⟨t | ⟨d, ps⟩, file⟩ := x
          · exact ⟨[], t, file, js, rfl, rfl⟩
          · obtain ⟨bs, t, f, r, rfl, hb⟩ := ih hn
            exact ⟨_ :: bs, t, f, r, rfl, hb⟩
      obtain ⟨admits, hd⟩ := days_exist hm o.undated (undated_fine m o)
      obtain ⟨k1, k2⟩ := C101_flag hm a ht hfl hd h hb
      by_cases hs : c.Short filters admits (meanings budgets)
      · obtain ⟨w, w1, w2⟩ := k1 hs
        rw [w2]
        exact .flagCrash a ht hfl hd h hb hs w1
      · obtain ⟨w, via, place, msg, w1, w2, w3, w4⟩ := k2 hs
        exact .flag a ht hfl hd h hb hs w1 w2 w3 w4

omit [Unicode] in
theorem first_without {α : Type} (P : α → Prop) (l : List α) : (∀ a ∈ l, P a) ∨ ∃ good bad rest, l = good ++ bad :: rest ∧ (∀ a ∈ good, P a) ∧ ¬ P bad := by
  induction l with
  | nil => exact Or.inl (by simp)
  | cons a l ih =>
    by_cases ha : P a
    · rcases ih with h | ⟨g, b, r, rfl, h1, h2⟩
      · exact Or.inl (by simpa using ⟨ha, h⟩)
      · exact Or.inr ⟨a :: g, b, r, rfl, by simpa using ⟨ha, h1⟩, h2⟩
    · exact Or.inr ⟨[], a, l, rfl, by simp, ha⟩

theorem answers_ending {run : Run} (hc : c ≠ .version) (h : c.Answers m o args js filters admits run) : run.ending = .exit 0 := by
  cases c with
  | version => exact absurd rfl hc
  | accounts => obtain ⟨_, rfl, _⟩ := h; rfl
  | print => obtain ⟨_, _, _, rfl⟩ := h; rfl
  | balance => obtain ⟨_, _, _, _, rfl⟩ := h; rfl
  | budget => obtain ⟨_, _, _, _, rfl⟩ := h; rfl
  | statistics => obtain ⟨_, rfl, _⟩ := h; rfl
  | payees =>
    rcases first_without (fun a => ∃ r, m.engine.compile (wholePattern a) = some r) args with h1 | ⟨g, b, r, e, h1, h2⟩
    · obtain ⟨_, rfl, _⟩ := h.1 h1; rfl
    · have hn : m.engine.compile (wholePattern b) = none := by
        cases hb : m.engine.compile (wholePattern b) with
        | none => rfl
        | some r => exact absurd ⟨r, hb⟩ h2
      rw [h.2 g b r e h1 hn]

omit [Unicode] in
theorem shown_ending {rep : Report} {w w' : Str} {run run' : Run} (h : rep.Shown w run) (h' : rep.Shown w' run') : run.ending = run'.ending := by
  cases rep with
  | message via place reason =>
    obtain ⟨_, _, rfl⟩ := h
    obtain ⟨_, _, rfl⟩ := h'
    rfl
  | crashes p =>
    rw [show run = _ from h, show run' = _ from h']
  | quits =>
    rw [show run = _ from h, show run' = _ from h']

/-- The description leaves no choice about how a run ends. -/
theorem C101_ending (hm : m.Sane) {run : Run} (h : Does m c args o run) : run.ending = (m.run o c args).ending := by
  induction h with
  | @badFilter o good bad rest e h1 h2 =>
    rw [e, C95_invalid m o c (fun a ha hn => by obtain ⟨f, hf⟩ := h1 a ha; exact hn f hf) h2 rest]
  | version hv hf => simp only [Machine.run, (makeFilters_iff _ _ _).2 hf, Machine.runFiltered, if_pos hv]; rfl
  | noJournal hv hf h1 h2 => rw [C77_no_journal m _ c args h1 h2 hv ((makeFilters_iff _ _ _).2 hf)]
  | notFound a hn => rw [C77_missing_journal m _ c args _ a.file hn a.command ((makeFilters_iff _ _ _).2 a.filters)]
  | crash a ht hd h hs _ =>
    obtain ⟨_, _, e⟩ := C101_crash ⟨hm.fair, a.file, ht, a.filters, hd⟩ h hs
    rw [e]
  | answer a ht hd h hs ha =>
    rw [answers_ending a.command ha, answers_ending a.command (((C99_answers ⟨hm.fair, a.file, ht, a.filters, hd⟩ h a.command).2 hs).1 _ rfl)]
  | mistake a ht hd h hs _ hw =>
    obtain ⟨_, _, e⟩ := ((C99_answers ⟨hm.fair, a.file, ht, a.filters, hd⟩ h a.command).2 hs).2 _ rfl
    exact shown_ending hw e
  | unused a ht _ h hn _ ih => rw [ih, C101_unused a ht h hn]
  | flagCrash a ht hf hd h hb hs _ =>
    obtain ⟨_, _, e⟩ := (C101_flag hm a ht hf hd h hb).1 hs
    rw [e]
  | flag a ht hf hd h hb hs _ _ _ hw =>
    obtain ⟨_, _, _, _, _, _, _, e⟩ := (C101_flag hm a ht hf hd h hb).2 hs
    obtain ⟨_, _, rfl⟩ := hw
    obtain ⟨_, _, e⟩ := e
    rw [e]

end

/-! An ordinary machine, with two files: the root includes a file with a budget entry in two commodities and a transaction. -/

def runsMachine : Machine :=
  { wholeMachine with
    fs := fun p =>
      if p = str "j" then some (utf8 "; all\ninclude f\n2020-02-01 later\n  a  £1\n  b\n")
      else if p = str "f" then some (utf8 "~ 2020-01\n  Food  £10\n  Food  EUR5\n\n2020-01-02 shop\n  Expenses:Food  £2\n  b\n")
      else none
    lib := fun
      | .timeParse s => str "cannot parse " ++ s
      | _ => str "?" }

theorem runsSane : runsMachine.Sane where
  fair := ⟨wholeFair.postings, wholeFair.strings, wholeFair.byDate, wholeFair.dates⟩
  offsets := by intro d; exact (by decide : -nsPerDay < 0 ∧ (0 : Int) < nsPerDay)
  year := by decide
  tomorrow := ⟨by decide, ⟨1, 1, 2⟩, by decide, by decide, by decide, by decide⟩

/-- There is no thirteenth month. The budget entry is complete, with warnings about the account and the root, before the transaction is: that at the end of the included file. -/
example :
    letI := asciiUnicode
    runsMachine.run { file := str "j", beginDate := str "2020-13" } .budget [] =
      ⟨str "unhandled addition of unmatched commodities: '£' and 'EUR'\nunhandled addition of unmatched commodities: '£' and 'EUR'\nerror at j:2\nerror at cannot parse 2020-13\n", .exit 0⟩ := by
  decide +kernel

/-- Too many parts. -/
example :
    letI := asciiUnicode
    runsMachine.run { file := str "j", endDate := str "1/2/3/4" } .print [] = ⟨str "error at j:2\nerror at unhandled number of smart date components\n", .exit 0⟩ := by
  decide +kernel

/-- The description applies. -/
example :
    letI := asciiUnicode
    Does runsMachine .budget [] { file := str "j", beginDate := str "2020-13" }
      ⟨str "unhandled addition of unmatched commodities: '£' and 'EUR'\nunhandled addition of unmatched commodities: '£' and 'EUR'\nerror at j:2\nerror at cannot parse 2020-13\n", .exit 0⟩ := by
  let := asciiUnicode
  have h := C101_every_run (c := .budget) (args := []) (o := { file := str "j", beginDate := str "2020-13" }) runsSane
  rwa [show runsMachine.run { file := str "j", beginDate := str "2020-13" } .budget [] =
      ⟨str "unhandled addition of unmatched commodities: '£' and 'EUR'\nunhandled addition of unmatched commodities: '£' and 'EUR'\nerror at j:2\nerror at cannot parse 2020-13\n", .exit 0⟩ by decide +kernel] at h

end Gledger
